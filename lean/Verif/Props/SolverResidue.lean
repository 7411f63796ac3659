import Verif.Props.SolverStop
import Verif.Props.SolverScalarMedia
import Verif.Props.SolverBias
import Verif.Props.SolverExamples

/-!
# C91: `relative_residue` compared with the relative error

The documentation of `relative_residue` (solver.py 1027–1042) says that it is the norm of `E - H⁻¹ S`, the error of the field, divided by the norm of `E`.
-/

namespace Verif.Solver

open Verif Verif.Fourier Verif.Backend Complex
open Verif.Spec.Solver (ScalarWaveEquation negLaplacian)

section Bound
variable {d n : ℕ} {N : Fin d → ℕ} {kind : Kind d n} {k : Fin d → Idx N → ℝ} {k0 : ℝ} (hk0 : k0 ≠ 0) {s : State n N} {E : Field n N}
  (h : ConvergesExponentially kind k k0 s E)
include hk0 h

/-- After an iteration, `relative_residue` times the norm of the electric field is the norm of the last change of the electric field. -/
theorem residue_change {i : ℕ} {t t' : State n N} {r : ℝ} (ht : run kind k s i = .ok t) (ht' : run kind k s (i + 1) = .ok t')
    (hr : (relativeResidue t').1 = .ok ((r : ℝ) : WithTop ℝ)) : r * Backend.norm (getE k0 t') = Backend.norm (getE k0 t' - getE k0 t) := by
  obtain ⟨q, h0, h1, hstep, -⟩ := h
  have hp := (hstep i t t' ht ht').2
  rw [residue_electric hk0 (run_residue_none ht') hp] at hr
  split_ifs at hr with h2 h3
  · have : (0 : ℝ) = r := WithTop.coe_injective (Except.ok.inj hr)
    rw [← this, h2, zero_mul]
  · have : Backend.norm (getE k0 t' - getE k0 t) / Backend.norm (getE k0 t') = r := WithTop.coe_injective (Except.ok.inj hr)
    rw [← this, div_mul_cancel₀ _ h3]

/-- **C91 (part).** Full claim: `relative_residue` is the relative error of the electric field.  When the iteration converges exponentially, there is a rate `q < 1` of the problem such that after every iteration the
relative residue, times the norm of the field, is within the factors `1 - q` and `1 + q` of the error before that iteration; so the error after that iteration is at most `q / (1 - q)` times the relative residue.
Missing: the factor is not 1 and depends on the problem, and an error of zero does not imply a residue of zero. -/
theorem C91_bound_partial : ∃ q : ℝ, 0 ≤ q ∧ q < 1 ∧ ∀ (i : ℕ) (t t' : State n N) (r : ℝ), run kind k s i = .ok t → run kind k s (i + 1) = .ok t' →
    (relativeResidue t').1 = .ok ((r : ℝ) : WithTop ℝ) →
    (1 - q) * Backend.norm (getE k0 t - E) ≤ r * Backend.norm (getE k0 t') ∧ r * Backend.norm (getE k0 t') ≤ (1 + q) * Backend.norm (getE k0 t - E) ∧
      Backend.norm (getE k0 t' - E) ≤ q / (1 - q) * (r * Backend.norm (getE k0 t')) := by
  have hc := @residue_change _ _ _ kind k k0 hk0 s E h
  obtain ⟨q, h0, h1, hstep, -⟩ := h
  refine ⟨q, h0, h1, fun i t t' r ht ht' hr => ?_⟩
  rw [hc ht ht' hr]
  have h2 := (hstep i t t' ht ht').1
  have h3 := error_triangle E (getE k0 t) (getE k0 t')
  have h4 : Backend.norm (getE k0 t' - getE k0 t) ≤ Backend.norm (getE k0 t' - E) + Backend.norm (getE k0 t - E) := by
    have := norm_sub_le' (getE k0 t' - E) (getE k0 t - E)
    rwa [sub_sub_sub_cancel_right] at this
  refine ⟨by linarith, by linarith, ?_⟩
  have h5 : 0 < 1 - q := by linarith
  rw [div_mul_eq_mul_div, le_div_iff₀ h5]
  have h6 : (1 - q) * Backend.norm (getE k0 t - E) ≤ Backend.norm (getE k0 t' - getE k0 t) := by linarith
  calc Backend.norm (getE k0 t' - E) * (1 - q) ≤ q * Backend.norm (getE k0 t - E) * (1 - q) := mul_le_mul_of_nonneg_right h2 h5.le
    _ = q * ((1 - q) * Backend.norm (getE k0 t - E)) := by ring
    _ ≤ _ := mul_le_mul_of_nonneg_left h6 h0

end Bound

/-! ### Constant fields -/

section Constant
variable {d : ℕ} {N : Fin d → ℕ}

/-- The field that is 1 everywhere. -/
def unitField : Field 1 N := fun _ _ => 1

theorem ft_constant (v : ℂ) (q : Idx N) : ft (fun _ : Idx N => v) q = if origin q then v * ∏ a, (N a : ℂ) else 0 := by
  have e : (fun _ : Idx N => v) = ift fun q : Idx N => if origin q then v * ∏ a, (N a : ℂ) else 0 := by
    funext x
    have h0 := prod_ne_zero_of_idx x
    unfold ift
    have hN : ∀ a, 0 < N a := fun a => lt_of_le_of_lt (Nat.zero_le _) (x a).isLt
    rw [Finset.sum_eq_single (fun a => (⟨0, hN a⟩ : Fin (N a)))]
    · beta_reduce
      rw [if_pos (show origin (fun a => (⟨0, hN a⟩ : Fin (N a))) from fun _ => rfl)]
      simp [untwiddle, mul_div_assoc, div_self h0]
    · intro b _ hb
      beta_reduce
      rw [if_neg, zero_mul]
      exact fun ho => hb (funext fun a => Fin.ext (ho a))
    · exact fun hn => absurd (Finset.mem_univ _) hn
  rw [e, C23_ft_ift]

theorem unitField_smul (v : ℂ) (c : Fin 1) : (v • (unitField : Field 1 N)) c = fun _ => v := by
  funext x
  simp [unitField]

variable {k : Fin d → Idx N → ℝ} (hk : ∀ x, origin x → ∀ a, k a x = 0)
include hk

theorem k2_origin {x : Idx N} (h : origin x) : k2 k x = 0 := by
  unfold k2
  exact Finset.sum_eq_zero fun a _ => by rw [hk x h a]; ring

theorem green_constant {a : ℝ} (ha : a ≠ 0) (v : ℂ) : green .scalar k (a * I) (v • unitField) = v • unitField := by
  unfold green convolve
  funext c
  have e : greenFt k (a * I) .scalar (fun c' => ft ((v • (unitField : Field 1 N)) c')) c = ft ((v • (unitField : Field 1 N)) c) := by
    funext q
    simp only [greenFt, unitField_smul]
    rw [ft_constant]
    split_ifs with ho
    · have : gScalar k (a * I) q = 1 := by
        have ha' := ofReal_ne ha
        unfold gScalar
        rw [k2_origin hk ho]
        simp only [mul_im, ofReal_re, I_im, ofReal_im, I_re, mul_one, mul_zero, add_zero, ofReal_zero, zero_sub]
        rw [div_eq_one_iff_eq (neg_ne_zero.2 (mul_ne_zero ha' I_ne_zero))]
        ring
      rw [this, mul_one]
    · rw [zero_mul]
  rw [e, C23_ift_ft]

theorem negLaplacian_constant (v : ℂ) (x : Idx N) : negLaplacian k (fun _ => v) x = 0 := by
  unfold negLaplacian
  have : (fun x : Idx N => (∑ a, (k a x : ℂ) ^ 2) * ft (fun _ : Idx N => v) x) = 0 := by
    funext q
    rw [ft_constant]
    split_ifs with ho
    · rw [Finset.sum_eq_zero fun a _ => by rw [hk q ho a]; simp]
      simp
    · simp
  rw [this, ift_isLinear.map_zero]
  rfl

/-- A uniform medium without dispersion that absorbs. -/
def leaky (N : Fin d → ℕ) (x : ℝ) : Medium 1 N where
  epsilon := fun _ => ((x : ℂ) * I) • 1
  xi := fun _ => 0
  zeta := fun _ => 0
  mu := fun _ => 1

omit hk in
theorem leaky_chi {x a : ℝ} (ha : a ≠ 0) (S F G : Field 1 N) :
    chiOp k (prepare (leaky N x) false (a * I) 1 S F) G = ((1 - x / a : ℝ) : ℂ) • G := by
  have ha' := ofReal_ne ha
  rw [prepare_eq _ _ (by simpa using ha), chiOp_nonmagnetic _ _ rfl]
  have e : (prepared (leaky N x) false (a * I) 1 S F).chiEE = fun _ => ((1 - x / a : ℝ) : ℂ) • 1 := by
    funext y
    simp only [prepared, leaky, Medium.epsilonPrime, zero_mul, sub_zero, factor, mul_im, ofReal_re, I_im, ofReal_im, I_re, mul_one, mul_zero, add_zero, ofReal_one, div_one, smul_smul]
    rw [← sub_smul]
    congr 1
    push_cast
    field_simp
    linear_combination ((x : ℂ) - a) * I_sq
  rw [e, mulField_smul_left _ (fun _ => 1), mulField_one]

theorem leaky_update {x a : ℝ} (hx : x ≠ 0) (ha : a ≠ 0) (j : ℕ) (v : ℂ) (p : WithTop ℝ) :
    update .scalar k (at' (prepare (leaky N x) false (a * I) 1 unitField 0) j (v • unitField) p) =
      (((1 - x / a) * (x / a) : ℝ) * (I / x - v)) • unitField := by
  have hx' := ofReal_ne hx
  have ha' := ofReal_ne ha
  have hs : (prepare (leaky N x) false (a * I) 1 unitField 0).source = (I / (a : ℂ)) • unitField := by
    rw [prepare_eq _ _ (by simpa using ha)]
    funext c y
    simp [prepared, factor, unitField]
  have hal : (prepare (leaky N x) false (a * I) 1 (unitField : Field 1 N) 0).alpha = a * I := rfl
  rw [update_at', hs, hal, green_constant hk ha, homogeneous, hal, leaky_chi ha, leaky_chi ha, leaky_chi ha, smul_smul, green_constant hk ha, ← sub_smul, smul_smul, smul_smul,
    ← add_smul, ← sub_smul, ← add_smul]
  congr 1
  push_cast
  field_simp
  ring

/-- The execution for a constant source, from the field 0. -/
theorem leaky_run (x0 : Idx N) {x a : ℝ} (hx : 0 < x) (ha : x < a) (j : ℕ) :
    ∃ p, run .scalar k (prepare (leaky N x) false (a * I) 1 unitField 0) j =
        .ok (at' (prepare (leaky N x) false (a * I) 1 unitField 0) j ((I / x * (1 - (1 - ((1 - x / a) * (x / a) : ℝ) : ℝ) ^ j)) • unitField) p) ∧
      (j = 0 ∧ p = ⊤ ∨ ∃ l, j = l + 1 ∧
        p = ((1 / x * ((1 - x / a) * (x / a)) * (1 - (1 - x / a) * (x / a)) ^ l * Backend.norm (unitField : Field 1 N) : ℝ) : WithTop ℝ)) := by
  have ha0 : 0 < a := hx.trans ha
  have hq0 : 0 < x / a := div_pos hx ha0
  have hq1 : x / a < 1 := (div_lt_one ha0).2 ha
  set w : ℝ := (1 - x / a) * (x / a) with hw
  have hw0 : 0 < w := mul_pos (by linarith) hq0
  have hw1 : w < 1 := by nlinarith
  have hu : 0 < Backend.norm (unitField : Field 1 N) := by
    refine lt_of_le_of_ne (norm_nonneg' _) fun h => ?_
    have := congrFun (congrFun ((norm_eq_zero_iff _).1 h.symm) 0) x0
    exact one_ne_zero this
  have hnorm : ∀ l : ℕ, Backend.norm ((((w : ℝ) : ℂ) * (I / x - I / x * (1 - ((1 - w : ℝ) : ℂ) ^ l))) • (unitField : Field 1 N)) =
      1 / x * w * (1 - w) ^ l * Backend.norm (unitField : Field 1 N) := by
    intro l
    rw [norm_smul']
    congr 1
    rw [show I / (x : ℂ) - I / x * (1 - ((1 - w : ℝ) : ℂ) ^ l) = I * ((1 / x * (1 - w) ^ l : ℝ) : ℂ) by push_cast; ring, norm_mul, norm_mul, norm_I, one_mul, norm_real, norm_real,
      Real.norm_of_nonneg hw0.le, Real.norm_of_nonneg (mul_nonneg (by positivity) (pow_nonneg (by linarith) l))]
    ring
  induction j with
  | zero =>
    refine ⟨⊤, ?_, .inl ⟨rfl, rfl⟩⟩
    simp only [run, pow_zero, sub_self, mul_zero, zero_smul]
    rw [prepare_eq _ _ (by simpa using ha0.ne')]
    simp [at', prepared]
  | succ j ih =>
    obtain ⟨p, hrun, hp⟩ := ih
    have hupd := leaky_update hk hx.ne' ha0.ne' j (I / x * (1 - ((1 - w : ℝ) : ℂ) ^ j)) p
    rw [← hw] at hupd
    refine ⟨((1 / x * w * (1 - w) ^ j * Backend.norm (unitField : Field 1 N) : ℝ) : WithTop ℝ), ?_, .inr ⟨j, rfl, rfl⟩⟩
    have hlt : ((1 / x * w * (1 - w) ^ j * Backend.norm (unitField : Field 1 N) : ℝ) : WithTop ℝ) < p ∧ p ≠ ((0 : ℝ) : WithTop ℝ) ∧ ((0 : ℝ) : WithTop ℝ) ≤ p := by
      rcases hp with ⟨-, rfl⟩ | ⟨l, rfl, rfl⟩
      · exact ⟨WithTop.coe_lt_top _, WithTop.top_ne_coe, le_top⟩
      · have hpos : 0 < 1 / x * w * (1 - w) ^ l * Backend.norm (unitField : Field 1 N) := by
          have : 0 < 1 - w := by linarith
          positivity
        refine ⟨WithTop.coe_lt_coe.2 ?_, fun h => hpos.ne' (WithTop.coe_injective h), WithTop.coe_le_coe.2 hpos.le⟩
        rw [pow_succ]
        nlinarith
    simp only [run, hrun]
    rw [step_eq _ _ _ hlt.2.1 hlt.2.2, hupd, hnorm j]
    simp only [at', hlt.1, if_true, Except.ok.injEq, State.mk.injEq, true_and, Nat.succ_ne_zero, if_false, and_true]
    constructor
    · funext c y
      simp only [Pi.smul_apply, unitField, smul_eq_mul, mul_one]
      push_cast
      ring
    · push_cast
      ring

omit hk in
/-- The constants that the code selects when there is no boundary and `fmin` finds the best centre, 0. -/
theorem leaky_constants (x0 : Idx N) {tol x : ℝ} (htol : 0 ≤ tol) (hx : 0 < x) (k0 : ℝ) :
    (leaky N x).constantsNonMagnetic tol k0 [] 0 x0 0 = ((x + 1 / 20 : ℝ) * I, 1) := by
  have : Nonempty (Idx N) := ⟨x0⟩
  have ht : ¬ (leaky N x).transposed tol := by
    rintro ⟨h | h | h | h, -⟩
    · have := (hasGain_smul_one tol ((x : ℂ) * I)).1 h
      simp at this; linarith
    · have : hasGain tol (fun _ : Idx N => (0 : ℂ) • (1 : Matrix (Fin 1) (Fin 1) ℂ)) := by simpa [leaky] using h
      have := (hasGain_smul_one tol _).1 this
      simp at this; linarith
    · have : hasGain tol (fun _ : Idx N => (0 : ℂ) • (1 : Matrix (Fin 1) (Fin 1) ℂ)) := by simpa [leaky] using h
      have := (hasGain_smul_one tol _).1 this
      simp at this; linarith
    · have : hasGain tol (fun _ : Idx N => (1 : ℂ) • (1 : Matrix (Fin 1) (Fin 1) ℂ)) := by simpa [leaky] using h
      have := (hasGain_smul_one tol _).1 this
      simp at this; linarith
  have hb : (leaky N x).betaNonMagnetic 0 x0 = 1 := by simp [Medium.betaNonMagnetic, Medium.muInv, leaky]
  have hsig : (leaky N x).sigmaEE 0 1 = x := by
    have e : (leaky N x).deltaEEBeta2 0 1 = fun _ => ((x ^ 2 : ℝ) : ℂ) • 1 := by
      funext y
      simp only [Medium.deltaEEBeta2, Medium.epsilonPrime, leaky, zero_mul, sub_zero, abs_zero, ofReal_zero, zero_smul, add_zero]
      rw [Matrix.conjTranspose_smul, Matrix.conjTranspose_one, smul_mul_smul_comm, Matrix.one_mul, ← add_smul]
      congr 1
      rw [RCLike.star_def, map_mul, conj_ofReal, conj_I]
      push_cast
      linear_combination (-(x : ℂ) ^ 2) * I_sq
    unfold Medium.sigmaEE
    rw [e, largestEigenvalue_smul_one, norm_real, Real.norm_of_nonneg (sq_nonneg x), Real.sqrt_sq hx.le]
    simp
  simp only [Medium.constantsNonMagnetic, hb, hsig, if_neg ht, increaseBias]
  simp
  norm_num
  ring

end Constant

/-- **C91 (violation).** Full claim: `relative_residue` is the relative error of the electric field.  On every grid, for every factor `C` there is a uniform absorbing medium and a source, for which the iteration with the constants that the code selects
converges to the unique solution, but the relative error after each iteration is more than `C` times the relative residue. -/
theorem C91_violates {d : ℕ} (g : Grid.Obj d ℝ) (hs : ∀ a, g.step a ≠ 0) (x0 : Idx g.shape) {k0 : ℝ} (hk0 : k0 ≠ 0) {tol : ℝ} (htol : 0 ≤ tol) (C : ℝ) :
    ∃ (x : ℝ) (alpha : ℂ) (beta : ℝ) (S E : Field 1 g.shape), 0 < x ∧ (alpha, beta) = (leaky g.shape x).constantsNonMagnetic tol k0 [] 0 x0 0 ∧
      ScalarWaveEquation (kOf g) k0 (fun _ => x * I) 1 (S 0) (E 0) ∧
      ConvergesExponentially .scalar (backendK g k0) k0 (prepare (leaky g.shape x) false alpha beta S 0) E ∧
      ∀ i, ∃ (t : State 1 g.shape) (r : ℝ), run .scalar (backendK g k0) (prepare (leaky g.shape x) false alpha beta S 0) (i + 1) = .ok t ∧
        (relativeResidue t).1 = .ok ((r : ℝ) : WithTop ℝ) ∧ C * r * Backend.norm (getE k0 t) < Backend.norm (getE k0 t - E) := by
  have hC : 0 < |C| + 2 := by positivity
  set x : ℝ := 1 / (20 * (|C| + 2)) with hxdef
  have hx : 0 < x := by positivity
  set a : ℝ := x + 1 / 20 with hadef
  have ha : x < a := by rw [hadef]; linarith
  have ha0 : 0 < a := hx.trans ha
  have hkb : ∀ y, origin y → ∀ a, backendK g k0 a y = 0 := fun y hy => (backendK_origin g hs hk0 y).1 hy
  have hkk : ∀ y, origin y → ∀ a, kOf g a y = 0 := fun y hy => (kOf_origin g hs y).1 hy
  have hx' := ofReal_ne hx.ne'
  have hk2 : ((k0 : ℂ) ^ 2) ≠ 0 := pow_ne_zero 2 (ofReal_ne hk0)
  have heps : ∀ y, (leaky g.shape x).scalarEpsilon y = x * I := fun y => by simp [Medium.scalarEpsilon, leaky]
  set E : Field 1 g.shape := (((k0 : ℂ) ^ 2)⁻¹ * (I / x)) • unitField with hE
  have hsol : ScalarWaveEquation (kOf g) k0 (fun _ => x * I) 1 ((unitField : Field 1 g.shape) 0) (E 0) := by
    intro y
    rw [hE, unitField_smul, negLaplacian_constant hkk]
    simp only [mul_zero, zero_sub, unitField]
    rw [show (k0 : ℂ) ^ 2 * (x * I * (((k0 : ℂ) ^ 2)⁻¹ * (I / x))) = ((k0 : ℂ) ^ 2 * ((k0 : ℂ) ^ 2)⁻¹) * (x * (x : ℂ)⁻¹) * (I * I) by ring, mul_inv_cancel₀ hk2, mul_inv_cancel₀ hx',
      I_mul_I]
    norm_num
  obtain ⟨E', h1, h2⟩ := C88_absorbing hs hk0 (m := leaky g.shape x) x0 (mag := false) (alpha := a * I) (beta := 1) (σ := x)
    (fun y => by rw [heps]; simpa using hx) (fun y => by rw [heps]; simp [abs_of_pos hx]) (by simpa using ha0) one_pos (by simpa using ha) unitField 0
  have hEE : E' = E := by
    have e1 := (scalar_iff_all hs hk0 (m := leaky g.shape x) x0 (alpha := a * I) (beta := 1) (by simpa using ha0) one_pos unitField E').1 h1
    have e2 := (scalar_iff_all hs hk0 (m := leaky g.shape x) x0 (alpha := a * I) (beta := 1) (by simpa using ha0) one_pos unitField E).1 (by
      rw [ofReal_one, inv_one, funext heps]; exact hsol)
    have e3 := (scalar_iff_all hs hk0 (m := leaky g.shape x) x0 (alpha := a * I) (beta := 1) (by simpa using ha0) one_pos 0 (E' - E)).2 (by
      rw [smul_sub, (waveOp_isLinear _ _ _ _).map_sub, e1, e2, sub_self])
    have e4 := scalar_absorbing g hk0 (leaky g.shape x).scalarEpsilon 1 (fun y => by rw [heps]; simpa using hx) _ e3
    rw [← sub_eq_zero]
    funext c
    rw [Fin.fin_one_eq_zero c]
    exact e4
  subst hEE
  refine ⟨x, a * I, 1, unitField, E, hx, (leaky_constants x0 htol hx k0).symm, hsol, h2, fun i => ?_⟩
  have hq0 : 0 < x / a := div_pos hx ha0
  have hq1 : x / a < 1 := (div_lt_one ha0).2 ha
  have hwx : (1 - x / a) * (x / a) ≤ 1 / (|C| + 2) := by
    have h3 : x / a ≤ 20 * x := by
      rw [div_le_iff₀ ha0, hadef]
      nlinarith
    have h4 : 20 * x = 1 / (|C| + 2) := by rw [hxdef]; field_simp
    nlinarith
  set w : ℝ := (1 - x / a) * (x / a) with hw
  have hw0 : 0 < w := mul_pos (by linarith) hq0
  have hw1 : w < 1 := by nlinarith
  have hw2 : 0 < 1 - w := by linarith
  have hu : 0 < Backend.norm (unitField : Field 1 g.shape) := by
    refine lt_of_le_of_ne (norm_nonneg' _) fun h => ?_
    have := congrFun (congrFun ((norm_eq_zero_iff _).1 h.symm) 0) x0
    exact one_ne_zero this
  obtain ⟨p, hrun, ⟨hne, -⟩ | ⟨l, hl, hp⟩⟩ := leaky_run hkb x0 hx ha (i + 1)
  · exact absurd hne (Nat.succ_ne_zero i)
  obtain rfl : i = l := by omega
  rw [← hw] at hrun hp
  set P : ℝ := 1 / x * w * (1 - w) ^ i * Backend.norm (unitField : Field 1 g.shape) with hP
  have hP0 : 0 < P := by positivity
  set F : Field 1 g.shape := (I / x * (1 - ((1 - w : ℝ) : ℂ) ^ (i + 1))) • unitField with hF
  set t := at' (prepare (leaky g.shape x) false (a * I) 1 unitField 0) (i + 1) F p with ht
  have htf : t.field = F := rfl
  have hF0 : 0 < Backend.norm F := by
    rw [hF, norm_smul']
    refine mul_pos (norm_pos_iff.2 (mul_ne_zero (div_ne_zero I_ne_zero hx') ?_)) hu
    rw [← ofReal_pow, ← ofReal_one, ← ofReal_sub]
    exact ofReal_ne (sub_pos.2 (pow_lt_one₀ hw2.le (by linarith) (Nat.succ_ne_zero i))).ne'
  have hpos : 0 < k0 ^ 2 := by positivity
  have hn := norm_field hk0 t
  rw [htf] at hn
  have he := norm_getE_sub hk0 t E
  have hkE : ((k0 : ℂ) ^ 2) • E = (I / x) • unitField := by
    rw [hE, smul_smul, ← mul_assoc, mul_inv_cancel₀ hk2, one_mul]
  rw [htf, hkE, hF, ← sub_smul, show I / (x : ℂ) * (1 - ((1 - w : ℝ) : ℂ) ^ (i + 1)) - I / x = - I * ((1 / x * (1 - w) ^ (i + 1) : ℝ) : ℂ) by push_cast; ring, norm_smul',
    norm_mul, norm_neg, norm_I, one_mul, norm_real, Real.norm_of_nonneg (by positivity)] at he
  refine ⟨t, P / Backend.norm F, hrun, ?_, ?_⟩
  · have hr : t.residue = none := by rw [ht]; simp [at']
    have hpp : t.prevNorm = some P := hp
    unfold relativeResidue
    rw [hr, hpp]
    simp only [htf]
    rw [if_pos hP0, if_neg hF0.ne']
  · have h5 : C * (P / Backend.norm F) * Backend.norm (getE k0 t) = C * P / k0 ^ 2 := by
      rw [hn] at hF0 ⊢
      have : Backend.norm (getE k0 t) ≠ 0 := fun h => by rw [h, mul_zero] at hF0; exact lt_irrefl _ hF0
      field_simp
    rw [h5, div_lt_iff₀ hpos, mul_comm (Backend.norm _), ← he, hP]
    have h6 : C * w < 1 - w := by
      have h7 : (|C| + 2) * w ≤ 1 := by
        have := mul_le_mul_of_nonneg_left hwx hC.le
        rwa [mul_one_div_cancel hC.ne'] at this
      have h8 : C * w ≤ |C| * w := mul_le_mul_of_nonneg_right (le_abs_self C) hw0.le
      nlinarith
    have h9 : 0 < 1 / x * (1 - w) ^ i * Backend.norm (unitField : Field 1 g.shape) := by positivity
    have := mul_lt_mul_of_pos_left h6 h9
    rw [pow_succ]
    nlinarith

/-- A case: on a grid of two points the relative error after each iteration is more than a thousand times the relative residue. -/
example : ∃ (x : ℝ) (alpha : ℂ) (beta : ℝ) (S E : Field 1 demoGrid.shape), 0 < x ∧ (alpha, beta) = (leaky demoGrid.shape x).constantsNonMagnetic 0 1 [] 0 (fun _ => (0 : Fin 2)) 0 ∧
    ScalarWaveEquation (kOf demoGrid) 1 (fun _ => x * I) 1 (S 0) (E 0) ∧
    ConvergesExponentially .scalar (backendK demoGrid 1) 1 (prepare (leaky demoGrid.shape x) false alpha beta S 0) E ∧
    ∀ i, ∃ (t : State 1 demoGrid.shape) (r : ℝ), run .scalar (backendK demoGrid 1) (prepare (leaky demoGrid.shape x) false alpha beta S 0) (i + 1) = .ok t ∧
      (relativeResidue t).1 = .ok ((r : ℝ) : WithTop ℝ) ∧ 1000 * r * Backend.norm (getE 1 t) < Backend.norm (getE 1 t - E) :=
  C91_violates demoGrid demo_step (fun _ => (0 : Fin 2)) one_ne_zero le_rfl 1000

end Verif.Solver
