import Verif.Props.SolverConj

/-!
# C116: totals of forces and of the divergence of the flux; what is dropped as a rounding error
-/

namespace Verif.Solver

open Verif Verif.Fourier Verif.Backend Complex Matrix

variable {d n : ℕ} {N : Fin d → ℕ}

/-- The sum of a function is its component at frequency zero. -/
theorem sum_eq_ft (f : Idx N → ℂ) {q : Idx N} (hq : ∀ a, (q a : ℕ) = 0) : ∑ x, f x = ft f q := by
  unfold ft
  refine Finset.sum_congr rfl fun x _ => ?_
  rw [Finset.prod_eq_one fun a _ => ?_, mul_one]
  rw [hq a]
  simp [twiddle]

/-- The total of a divergence is 0: the calculation volume is periodic. -/
theorem sum_divergence {k : Fin d → Idx N → ℝ} (hk : ∀ q, (∀ a, (q a : ℕ) = 0) → ∀ a, k a q = 0) (F : Field 3 N) : ∑ x, Spec.Solver.divergence k F x = 0 := by
  rcases isEmpty_or_nonempty (Idx N) with he | ⟨⟨x0⟩⟩
  · simp
  have hN : ∀ a, 0 < N a := fun a => (Nat.zero_le _).trans_lt (x0 a).isLt
  rw [sum_eq_ft _ (q := fun a => ⟨0, hN a⟩) fun a => rfl]
  unfold Spec.Solver.divergence
  rw [C23_ft_ift]
  have : Spec.Backend.kVector k (fun a => ⟨0, hN a⟩) = 0 := by
    funext c
    unfold Spec.Backend.kVector
    split_ifs
    · rw [hk _ fun a => rfl]; simp
    · rfl
  rw [this, zero_dotProduct, mul_zero]

theorem kOf_zero (g : Grid.Obj d ℝ) (hs : ∀ a, g.step a ≠ 0) (q : Idx g.shape) (hq : ∀ a, (q a : ℕ) = 0) (a : Fin d) : kOf g a q = 0 := by
  have := (q a).isLt
  rw [C24_kOf g fun a _ => hs a, hq a]
  simp [show 0 < g.shape a by have := hq a; omega]

/-! ### Totals -/

/-- **C116 (forces).** The forces add up to zero, for all states of the calculation, all materials and all boundaries: the calculation volume is periodic, so that no momentum leaves it. -/
theorem C116_force (g : Grid.Obj d ℝ) (hs : ∀ a, g.step a ≠ 0) {k0 : ℝ} (hk0 : k0 ≠ 0) (hd : d ≤ 3) (co : Const) (i0 : Fin 3) (x0 : Idx g.shape) (s : State 3 g.shape) :
    ∃ f, getForce co k0 (backendK g k0) i0 x0 s = .ok f ∧ ∀ j, ∑ x, f j x = 0 := by
  refine ⟨_, C45_force g hs hk0 hd co i0 x0 s, fun j => ?_⟩
  rw [← re_sum, sum_divergence (kOf_zero g hs), zero_re]

/-- **C116 (flux).** The divergence of the Poynting vector adds up to zero, for all states, materials and boundaries: no energy leaves the calculation volume. -/
theorem C116_flux (g : Grid.Obj d ℝ) (hs : ∀ a, g.step a ≠ 0) {k0 : ℝ} (hk0 : k0 ≠ 0) (hd : d ≤ 3) (co : Const) (i0 : Fin 3) (x0 : Idx g.shape) (s : State 3 g.shape) :
    ∃ D, getDivS co k0 (backendK g k0) i0 x0 s = .ok D ∧ ∑ x, D x = 0 := by
  obtain ⟨D, h1, h2⟩ := C45_divergence_partial g hs hk0 hd co i0 x0 s
  refine ⟨D, h1, ?_⟩
  have h3 := sum_divergence (kOf_zero g hs) fun c x => (getS co k0 (backendK g k0) i0 x0 s c x : ℂ)
  simp only [h2, ← Finset.mul_sum] at h3
  exact (mul_eq_zero.1 h3).resolve_left (ofReal_ne hk0)

/-! ### Real and imaginary parts -/

/-- The divergence of the conjugate of a field, where opposite frequencies have opposite wavenumbers (`r = 1`) or the same (`r = -1`). -/
theorem divergence_conj {k : Fin d → Idx N → ℝ} {r : ℝ} (hk : ∀ a q, k a (opposite q) = -(r * k a q)) (F : Field 3 N) (x : Idx N) :
    (starRingEnd ℂ) (Spec.Solver.divergence k (conjField F) x) = r * Spec.Solver.divergence k F x := by
  have h : (fun x => (starRingEnd ℂ) (Spec.Solver.divergence k (conjField F) x)) = (r : ℂ) • Spec.Solver.divergence k F := by
    apply ft_inj
    funext q
    rw [ft_conj, ft_isLinear.map_smul, Pi.smul_apply, smul_eq_mul]
    unfold Spec.Solver.divergence
    rw [C23_ft_ift, C23_ft_ift]
    have e : ∀ c, ft (conjField F c) (opposite q) = (starRingEnd ℂ) (ft (F c) q) := fun c => by
      conv_rhs => rw [← opposite_opposite q]
      exact ft_conj _ _
    have ev : ∀ c, Spec.Backend.kVector k (opposite q) c = -((r : ℂ) * Spec.Backend.kVector k q c) := fun c => by
      unfold Spec.Backend.kVector
      split_ifs
      · rw [hk]; push_cast; rfl
      · simp
    have er : ∀ c, (starRingEnd ℂ) (Spec.Backend.kVector k q c) = Spec.Backend.kVector k q c := fun c => by
      unfold Spec.Backend.kVector
      split_ifs
      · exact conj_ofReal _
      · simp
    simp only [dotProduct, e, ev, map_mul, conj_I, map_sum, map_neg, conj_conj, er, conj_ofReal, Finset.mul_sum]
    refine Finset.sum_congr rfl fun c _ => ?_
    ring
  exact congrFun h x

theorem conjField_real (A : Fin 3 → Idx N → ℝ) : conjField (fun c x => (A c x : ℂ)) = fun c x => (A c x : ℂ) := by
  funext c x
  exact conj_ofReal _

/-- **C116 (rounding errors).** On grids with an odd number of samples along each axis, the divergences of the stress and of the Poynting vector are real: what the code drops can only be due to rounding errors. -/
theorem C116_real_partial (g : Grid.Obj d ℝ) (hs : ∀ a, g.step a ≠ 0) {k0 : ℝ} (hk0 : k0 ≠ 0) (hd : d ≤ 3) (hodd : ∀ a, g.shape a % 2 = 1) (co : Const) (i0 : Fin 3) (x0 : Idx g.shape) (s : State 3 g.shape) :
    (∃ f, divTensor (backendK g k0) (fun i j x => (getStress co k0 (backendK g k0) i0 x0 s i j x : ℂ)) = .ok f ∧ ∀ j x, (f j x).im = 0) ∧
      ∃ D, getDivS co k0 (backendK g k0) i0 x0 s = .ok D ∧ ∀ x, (D x).im = 0 := by
  have hk : ∀ a q, backendK g k0 a (opposite q) = -(1 * backendK g k0 a q) := fun a q => by
    rw [one_mul]
    exact (reversible_grid (n := 3) g hs hk0 fun _ => hodd).odd (by decide) a q
  have hreal : ∀ (A : Fin 3 → Idx g.shape → ℝ) x, (Spec.Solver.divergence (backendK g k0) (fun c x => (A c x : ℂ)) x).im = 0 := by
    intro A x
    have h := divergence_conj hk (fun c x => (A c x : ℂ)) x
    rw [conjField_real, ofReal_one, one_mul] at h
    exact conj_eq_iff_im.1 h
  constructor
  · refine ⟨_, by rw [divTensor, C24_div_ft _ hd]; rfl, fun j x => ?_⟩
    exact hreal (fun c x => getStress co k0 (backendK g k0) i0 x0 s c j x) x
  · refine ⟨_, by rw [getDivS, div, C24_div_ft _ hd]; rfl, fun x => ?_⟩
    exact hreal (fun c x => getS co k0 (backendK g k0) i0 x0 s c x) x

/-- Both frequencies of the two samples are their own opposites. -/
theorem demo_opposite (a : Fin 1) (q : Idx demoGrid.shape) (k0 : ℝ) : backendK demoGrid k0 a (opposite q) = -((-1 : ℝ) * backendK demoGrid k0 a q) := by
  have : opposite q = q := by
    funext a
    apply Fin.ext
    have h : (q a : ℕ) < 2 := (q a).isLt
    have h2 : demoGrid.shape a = 2 := rfl
    rw [opposite_val]
    split_ifs <;> omega
  rw [this]
  ring

/-- The first of the two samples. -/
def firstSample : Idx demoGrid.shape := fun _ => (0 : Fin 2)

theorem alternating_zero : alternating firstSample = 1 / 2 := (alternating_eq _).trans (if_pos rfl)

theorem alternating_nyquist : alternating nyquist = -1 / 2 := (alternating_eq _).trans (if_neg one_ne_zero)

theorem demo_imaginary (A : Fin 3 → Idx demoGrid.shape → ℝ) (k0 : ℝ) (x : Idx demoGrid.shape) : (Spec.Solver.divergence (backendK demoGrid k0) (fun c x => (A c x : ℂ)) x).re = 0 := by
  have h := divergence_conj (fun a q => demo_opposite a q k0) (fun c x => (A c x : ℂ)) x
  rw [conjField_real] at h
  have := congrArg Complex.re h
  simp only [conj_re, ofReal_neg, ofReal_one, neg_mul, one_mul, neg_re] at this
  linarith

/-- The divergence on two samples is not zero if the first component is not the same at both. -/
theorem demo_divergence (A : Fin 3 → Idx demoGrid.shape → ℝ) (hA : A 0 firstSample ≠ A 0 nyquist) {k0 : ℝ} (hk0 : k0 ≠ 0) :
    ∃ x, Spec.Solver.divergence (backendK demoGrid k0) (fun c x => (A c x : ℂ)) x ≠ 0 := by
  by_contra hn
  push Not at hn
  have h0 : Spec.Solver.divergence (backendK demoGrid k0) (fun c x => (A c x : ℂ)) = 0 := funext hn
  have h1 := congrFun (congrArg ft h0) nyquist
  unfold Spec.Solver.divergence at h1
  rw [C23_ft_ift, ft_isLinear.map_zero] at h1
  simp only [dotProduct, Fin.sum_univ_three, Spec.Backend.kVector] at h1
  have hk : ¬ ∀ a, backendK demoGrid k0 a nyquist = 0 := by
    rw [← backendK_origin demoGrid demo_step hk0]
    intro h
    exact absurd (h 0) one_ne_zero
  have hk' : backendK demoGrid k0 0 nyquist ≠ 0 := fun h => hk fun a => by rw [Fin.fin_one_eq_zero a]; exact h
  obtain ⟨a, ha⟩ : ∃ a : ℝ, a = A 0 firstSample := ⟨_, rfl⟩
  obtain ⟨b, hb⟩ : ∃ b : ℝ, b = A 0 nyquist := ⟨_, rfl⟩
  have hS : (fun x => (A 0 x : ℂ)) = (((a - b : ℝ) : ℂ) • alternating) + fun _ => (((a + b) / 2 : ℝ) : ℂ) := by
    funext x
    have hx : x = firstSample ∨ x = nyquist := by
      have : (x 0).val < 2 := (x 0).isLt
      rcases Nat.lt_or_ge (x 0).val 1 with h | h
      · left; funext i; rw [Fin.fin_one_eq_zero i]; apply Fin.ext; show (x 0).val = 0; omega
      · right; funext i; rw [Fin.fin_one_eq_zero i]; apply Fin.ext; show (x 0).val = 1; omega
    rw [Pi.add_apply, Pi.smul_apply, smul_eq_mul]
    rcases hx with rfl | rfl
    · rw [← ha, alternating_zero]; push_cast; ring
    · rw [← hb, alternating_nyquist]; push_cast; ring
  rw [hS, ft_isLinear.map_add, ft_isLinear.map_smul] at h1
  rw [Pi.add_apply, Pi.smul_apply, ft_uniform _ nyquist fun h => absurd (h 0) one_ne_zero, (ft_alternating nyquist).trans (if_pos rfl)] at h1
  simp only [Fin.val_zero, Nat.zero_lt_one, dif_pos, Fin.val_one, Nat.lt_irrefl, dif_neg, not_false_eq_true, zero_mul, add_zero, smul_eq_mul, mul_one, Fin.val_two, Nat.not_ofNat_lt_one, Pi.zero_apply] at h1
  have h2 := (mul_eq_zero.1 ((mul_eq_zero.1 h1).resolve_left I_ne_zero)).resolve_left (ofReal_ne hk')
  have h3 : a - b = 0 := ofReal_eq_zero.1 h2
  exact hA (by rw [← ha, ← hb]; linarith)

/-- **C116 (refuted for even numbers of samples).** On two samples no state gives any force, because all of it is dropped as if it were a rounding error: also for `standing` in vacuum, of which the divergence of the stress is
not zero.  That of the Poynting vector is imaginary. -/
theorem C116_real_violates {alpha : ℂ} (hα : alpha.im ≠ 0) {co : Const} (hc : co.c ≠ 0) (hmu0 : co.mu0 ≠ 0) (he : co.epsilon0 ≠ 0) (i0 : Fin 3) (x0 : Idx demoGrid.shape) :
    (∀ s, ∃ f, getForce co 2 (backendK demoGrid 2) i0 x0 s = .ok f ∧ ∀ j x, f j x = 0) ∧
    (∃ x, Spec.Solver.divergence (backendK demoGrid 2) (fun c x => (getStress co 2 (backendK demoGrid 2) i0 x0 (standing alpha) c 0 x : ℂ)) x ≠ 0) ∧
    ∃ D, getDivS co 2 (backendK demoGrid 2) i0 x0 (standing alpha) = .ok D ∧ ∃ x, (D x).im ≠ 0 := by
  refine ⟨fun s => ?_, ?_, ?_⟩
  · refine ⟨_, by rw [getForce, divTensor, C24_div_ft _ (by decide)]; rfl, fun j x => ?_⟩
    have := demo_imaginary (fun c x => getStress co 2 (backendK demoGrid 2) i0 x0 s c j x) 2 x
    exact (congrArg (· * (2 : ℝ)) this).trans (zero_mul _)
  · refine demo_divergence (fun c x => getStress co 2 (backendK demoGrid 2) i0 x0 (standing alpha) c 0 x) ?_ two_ne_zero
    have hr := represents_prepare (vacuum demoGrid.shape) false hα (beta := 1) one_ne_zero 0 fun c x => 4 * ((1 + 2 * alternating x) * constantY c x)
    have hk := backendK_origin demoGrid demo_step two_ne_zero
    have hE : getE 2 (standing alpha) = constantY + (2 : ℂ) • fun c x => alternating x * constantY c x := by
      rw [standing, getE_prepare]
      funext c x
      simp only [Pi.add_apply, Pi.smul_apply, smul_eq_mul]
      push_cast
      ring
    have hH := getH_eq hr (vacuum_uniform _ _) co 2 (backendK demoGrid 2) i0 x0
    have hL := curl_isLinear (n := 3) (m := 3) (backendK demoGrid 2)
    have h0 : curl 3 (backendK demoGrid 2) constantY = 0 := curl_uniform hk fun c => if c = 1 then 1 else 0
    have z1 : (vacuum demoGrid.shape).chiHEBeta = fun _ => 0 := by
      funext x
      simp [vacuum, Medium.chiHEBeta]
    have z2 : (vacuum demoGrid.shape).muInv = fun _ => 1 := by
      funext x
      simp [vacuum, Medium.muInv]
    rw [show (prepare (vacuum demoGrid.shape) false alpha 1 0 fun c x => 4 * ((1 + 2 * alternating x) * constantY c x)) = standing alpha from rfl, hE,
      z1, z2, mulField_zero, mulField_one, hL.map_add, hL.map_smul, h0, zero_add, zero_sub] at hH
    have hHn : ∀ c x, getH co 2 (backendK demoGrid 2) i0 x0 (standing alpha) c x = if c = 2 then I / ((co.mu0 : ℂ) * (co.c : ℂ)) * -(2 * (I * (backendK demoGrid 2 0 nyquist : ℂ) * alternating x)) else 0 := by
      intro c x
      rw [hH]
      simp only [Pi.smul_apply, Pi.neg_apply, smul_eq_mul, curl_alternating_eq]
      split_ifs <;> simp
    have hEn : ∀ c x, getE 2 (standing alpha) c x = if c = 1 then 1 + 2 * alternating x else 0 := by
      intro c x
      rw [hE]
      simp only [Pi.add_apply, Pi.smul_apply, smul_eq_mul, constantY]
      split_ifs <;> simp
    rw [C45_stress, C45_stress]
    simp only [Fin.sum_univ_three, hEn, hHn, alternating_zero, alternating_nyquist]
    have hn : ∀ z : ℂ, ‖I / ((co.mu0 : ℂ) * (co.c : ℂ)) * -(2 * (I * z * (-1 / 2)))‖ = ‖I / ((co.mu0 : ℂ) * (co.c : ℂ)) * -(2 * (I * z * (1 / 2)))‖ := fun z => by
      rw [← norm_neg]
      congr 1
      ring
    simp only [hn, if_neg (by decide : ¬ (0 : Fin 3) = 1), if_neg (by decide : ¬ (0 : Fin 3) = 2), if_neg (by decide : ¬ (1 : Fin 3) = 2), if_neg (by decide : ¬ (2 : Fin 3) = 1), if_true]
    norm_num
    intro h
    apply he
    linarith
  · obtain ⟨x, hx⟩ := demo_divergence (fun c x => getS co 2 (backendK demoGrid 2) i0 x0 (standing alpha) c x) (by
      have e1 := standing_S hα co i0 x0 firstSample
      have e2 := standing_S hα co i0 x0 nyquist
      rw [alternating_zero] at e1
      rw [alternating_nyquist] at e2
      intro h
      rw [h, e2] at e1
      have hz : ((backendK demoGrid 2 0 nyquist / (co.mu0 * co.c) : ℝ) : ℂ) = 0 := by linear_combination -e1
      have hk : ¬ ∀ a, backendK demoGrid 2 a nyquist = 0 := by
        rw [← backendK_origin demoGrid demo_step two_ne_zero]
        intro h
        exact absurd (h 0) one_ne_zero
      refine hk fun a => ?_
      rw [Fin.fin_one_eq_zero a]
      exact (div_eq_zero_iff.1 (ofReal_eq_zero.1 hz)).resolve_right (mul_ne_zero hmu0 hc)) two_ne_zero
    refine ⟨_, by rw [getDivS, div, C24_div_ft _ (by decide)]; rfl, x, fun h => hx ?_⟩
    exact Complex.ext (demo_imaginary (fun c x => getS co 2 (backendK demoGrid 2) i0 x0 (standing alpha) c x) 2 x) h

/-! ### Examples -/

/-- Three samples along the first axis and five along the second. -/
noncomputable def oddGrid : Grid.Obj 2 ℝ where
  shape := ![3, 5]
  step := ![1 / 2, 1 / 4]
  center := fun _ => 0
  dt := .float
  flat := fun _ => false
  originAtCenter := fun _ => true
  centerAtIndex := fun _ => true
  multidimensional := true
  stepShort := false

theorem odd_step : ∀ a, oddGrid.step a ≠ 0 := by
  intro a
  fin_cases a <;> simp [oddGrid]

theorem odd_shape : ∀ a, oddGrid.shape a % 2 = 1 := by
  intro a
  fin_cases a <;> rfl

/-- **C115 (executions)** for an absorbing medium that is considered to be magnetic, on that grid. -/
example (S F : Field 3 oddGrid.shape) (co : Const) (x0 : Idx oddGrid.shape) (i : ℕ) :
    BothRuns (ReversedSolution co 2 (backendK oddGrid 2) 0 x0) (run (.vectorial (by decide)) (backendK oddGrid 2) (prepare (lossMedium 3 oddGrid.shape) true (1 + I) 1 S F) i)
      (run (.vectorial (by decide)) (backendK oddGrid 2) (prepare (gainMedium 3 oddGrid.shape) true ((starRingEnd ℂ) (1 + I)) 1 (conjField S) (conjField F)) i) :=
  C115_reversal_partial (.vectorial (by decide)) oddGrid odd_step two_ne_zero (fun _ => odd_shape) co 0 x0 (loss_gain 3 _) (fun c x => rfl) (fun c x => rfl) true (1 + I) 1 i

/-- **C115 (standing waves)** for a real field in vacuum. -/
example (co : Const) (x0 x : Idx oddGrid.shape) (c : Fin 3) (A : Fin 3 → Idx oddGrid.shape → ℝ) :
    getS co 2 (backendK oddGrid 2) 0 x0 (prepare (vacuum oddGrid.shape) false (1 + I) 1 0 fun c x => I * A c x) c x = 0 := by
  have hv : ReversedMedium (vacuum oddGrid.shape) (vacuum oddGrid.shape) := by
    refine ⟨fun x i j => ?_, fun x i j => ?_, fun x i j => ?_, fun x i j => ?_⟩
    · simp only [vacuum, one_apply]; split_ifs <;> simp
    · simp [vacuum]
    · simp [vacuum]
    · simp only [vacuum, one_apply]; split_ifs <;> simp
  exact C115_standing_partial oddGrid odd_step two_ne_zero (by decide) odd_shape co 0 x0 hv (vacuum_uniform _ _)
    (represents_prepare (vacuum oddGrid.shape) false (by norm_num) one_ne_zero 0 _) (p := I / ((2 : ℝ) ^ 2 : ℝ)) (A := A) (fun c x => by
      rw [getE_prepare]
      ring) c x

/-- **C116 (rounding errors)** on that grid. -/
example (co : Const) (x0 : Idx oddGrid.shape) (s : State 3 oddGrid.shape) : ∃ D, getDivS co 2 (backendK oddGrid 2) 0 x0 s = .ok D ∧ ∀ x, (D x).im = 0 :=
  (C116_real_partial oddGrid odd_step two_ne_zero (by decide) odd_shape co 0 x0 s).2

/-- **C116 (forces)** on two samples. -/
example (co : Const) (x0 : Idx demoGrid.shape) (s : State 3 demoGrid.shape) : ∃ f, getForce co 2 (backendK demoGrid 2) 0 x0 s = .ok f ∧ ∀ j, ∑ x, f j x = 0 :=
  C116_force demoGrid demo_step two_ne_zero (by decide) co 0 x0 s

end Verif.Solver
