import Verif.Props.SolverAxes
import Verif.Props.SolverReciprocity

/-!
# C98: torques, and mirror images on grids with an even number of samples
-/

namespace Verif.Solver

open Verif Verif.Fourier Verif.Backend Complex Matrix

variable {d : ℕ} {N N' : Fin d → ℕ}

/-! ### Torque -/

theorem torque_stress (co : Const) (k0 : ℝ) (k : Fin d → Idx N → ℝ) (x0 : Idx N) (s : State 3 N) (c a b : Fin 3) (h : a ≠ b ∧ a ≠ c ∧ b ≠ c) (x : Idx N) :
    getTorque co k0 k x0 s c x = getStress co k0 k 0 x0 s a b x := by
  have h1 := C45_symmetric co k0 k 0 x0 s
  obtain ⟨h2, h3, h4⟩ := h
  fin_cases c <;> fin_cases a <;> fin_cases b <;> first | exact absurd rfl h2 | exact absurd rfl h3 | exact absurd rfl h4 | exact rfl | exact h1 _ _ _

/-- The torque of a problem with other axes: the sign is that of a pseudo-vector for even permutations of the axes only. -/
theorem torque_moved {co : Const} {k0 : ℝ} {k : Fin d → Idx N → ℝ} {k' : Fin d → Idx N' → ℝ} {x0 : Idx N} {x0' : Idx N'} {σ : Equiv.Perm (Fin 3)} {ε : Fin 3 → ℝ}
    (hε : ∀ c, ε c * ε c = 1) {point : Idx N ≃ Idx N'} {z : ℝ} {s : State 3 N} {s' : State 3 N'} (h : MovedSolution co k0 k k' 0 x0 x0' σ ε point z s s') (c : Fin 3) (x : Idx N) :
    getTorque co k0 k' x0' s' (σ c) (point x) = (∏ a, ε a) * ε c * getTorque co k0 k x0 s c x := by
  have hc : ∀ c : Fin 3, c + 1 ≠ c + 2 ∧ c + 1 ≠ c ∧ c + 2 ≠ c := by decide
  obtain ⟨h1, h2, h3⟩ := hc c
  rw [torque_stress co k0 k x0 s c (c + 1) (c + 2) (hc c),
    torque_stress co k0 k' x0' s' (σ c) (σ (c + 1)) (σ (c + 2)) ⟨fun e => h1 (σ.injective e), fun e => h2 (σ.injective e), fun e => h3 (σ.injective e)⟩, h.stress]
  have hp : ∏ a, ε a = ε c * ε (c + 1) * ε (c + 2) := by
    rw [Fin.prod_univ_three]
    fin_cases c
    · rfl
    · show _ = ε 1 * ε 2 * ε 0
      ring
    · show _ = ε 2 * ε 0 * ε 1
      ring
  rw [hp]
  linear_combination (-(ε (c + 1) * ε (c + 2) * getStress co k0 k 0 x0 s (c + 1) (c + 2) x)) * hε c

/-- **C98 (torque, partial).** For even permutations of the axes, the torque that is returned is a pseudo-vector.  What is missing: odd permutations, see `C98_torque_violates`. -/
theorem C98_torque_partial {co : Const} {k0 : ℝ} {k : Fin d → Idx N → ℝ} {k' : Fin d → Idx N' → ℝ} {x0 : Idx N} {x0' : Idx N'} {σ : Equiv.Perm (Fin 3)} (hσ : Equiv.Perm.sign σ = 1)
    {ε : Fin 3 → ℝ} (hε : ∀ c, ε c * ε c = 1) {point : Idx N ≃ Idx N'} {s : State 3 N} {s' : State 3 N'}
    (h : MovedSolution co k0 k k' 0 x0 x0' σ ε point ((((Equiv.Perm.sign σ : ℤˣ) : ℤ) : ℝ) * ∏ a, ε a) s s') (c : Fin 3) (x : Idx N) :
    getTorque co k0 k' x0' s' (σ c) (point x) = (((Equiv.Perm.sign σ : ℤˣ) : ℤ) : ℝ) * (∏ a, ε a) * ε c * getTorque co k0 k x0 s c x := by
  rw [torque_moved hε h, hσ]
  simp

/-- A uniform field. -/
noncomputable def diagonalField : Field 3 N := fun c _ => if c = 0 then 0 else 1

/-- **C98 (torque, violation).** Exchanging two axes of any grid, with any material: there are fields for which the torque that is returned by the permuted problem does not have the
direction of the axial vector with permuted axes, but the opposite one.  The elements of a symmetric tensor do not form an axial vector. -/
theorem C98_torque_violates (hd : d ≤ 3) (g : Grid.Obj d ℝ) (hs : ∀ a, g.step a ≠ 0) {k0 : ℝ} (hk0 : k0 ≠ 0) (τ : Equiv.Perm (Fin d))
    (hτ : Equiv.Perm.sign (permutedComponent (.vectorial hd) τ) = -1) (co : Const) (he : co.epsilon0 ≠ 0) (x0 : Idx g.shape) (x0' : Idx (permutedGrid g τ).shape)
    {m : Medium 3 g.shape} (hp : m.Plain false) (alpha : ℂ) (beta : ℝ) (S : Field 3 g.shape) :
    ∃ (F : Field 3 g.shape) (c : Fin 3), ∀ (m' : Medium 3 (permutedGrid g τ).shape) (S' F' : Field 3 (permutedGrid g τ).shape),
      MovedMedium (permutedComponent (.vectorial hd) τ) (fun _ => 1) (permutedPoint g τ) (-1) m m' →
      MovedField (permutedComponent (.vectorial hd) τ) (fun _ => 1) (permutedPoint g τ) 1 S S' → MovedField (permutedComponent (.vectorial hd) τ) (fun _ => 1) (permutedPoint g τ) 1 F F' →
      ∀ x, getTorque co k0 (backendK (permutedGrid g τ) k0) x0' (prepare m' false alpha beta S' F') (permutedComponent (.vectorial hd) τ c) (permutedPoint g τ x) ≠
        -getTorque co k0 (backendK g k0) x0 (prepare m false alpha beta S F) c x := by
  refine ⟨diagonalField, 0, fun m' S' F' hm hS hF x h => ?_⟩
  have hb := C98_permutation (.vectorial hd) g hs hk0 τ co 0 x0 x0' (by rw [hτ]; simpa using hm) hS hF hp alpha beta 0
  have hb' : MovedSolution co k0 (backendK g k0) (backendK (permutedGrid g τ) k0) 0 x0 x0' (permutedComponent (.vectorial hd) τ) (fun _ => 1) (permutedPoint g τ) _
    (prepare m false alpha beta S diagonalField) (prepare m' false alpha beta S' F') := hb
  rw [torque_moved (fun _ => mul_one 1) hb'] at h
  simp only [Finset.prod_const_one, one_mul] at h
  have h0 : getTorque co k0 (backendK g k0) x0 (prepare m false alpha beta S diagonalField) 0 x = 0 := by linarith
  have hE : getE k0 (prepare m false alpha beta S diagonalField) = fun c (_ : Idx g.shape) => (if c = 0 then 0 else 1 / (k0 ^ 2 : ℝ) : ℂ) := by
    funext c x
    show diagonalField c x / ((k0 ^ 2 : ℝ) : ℂ) = _
    unfold diagonalField
    split_ifs
    · simp
    · rfl
  have hH : getH co k0 (backendK g k0) 0 x0 (prepare m false alpha beta S diagonalField) = 0 := by
    unfold getH
    rw [if_neg (show ¬ (prepare m false alpha beta S diagonalField).magnetic = true from Bool.false_ne_true)]
    dsimp only
    rw [hE, curl_uniform (backendK_origin g hs hk0)]
    funext c x
    simp
  rw [show getTorque co k0 (backendK g k0) x0 (prepare m false alpha beta S diagonalField) 0 x =
    getStress co k0 (backendK g k0) 0 x0 (prepare m false alpha beta S diagonalField) 1 2 x from rfl] at h0
  unfold getStress at h0
  dsimp only at h0
  rw [hE, hH] at h0
  have h12 : (1 : Fin 3) ≠ 2 := by decide
  have h1 : (1 : Fin 3) ≠ 0 := by decide
  have h2 : (2 : Fin 3) ≠ 0 := by decide
  simp only [outer, if_neg h12, if_neg h1, if_neg h2, Pi.zero_apply, zero_mul, mul_zero, sub_zero, add_zero, map_div₀, map_one, conj_ofReal] at h0
  have h3 : (0.5 * ((co.epsilon0 : ℂ) * (1 / ((k0 ^ 2 : ℝ) : ℂ) * (1 / ((k0 ^ 2 : ℝ) : ℂ))))) = ((0.5 * (co.epsilon0 * (1 / k0 ^ 2 * (1 / k0 ^ 2))) : ℝ) : ℂ) := by push_cast; norm_num
  rw [h3, ofReal_re] at h0
  have : co.epsilon0 * (1 / k0 ^ 2 * (1 / k0 ^ 2)) ≠ 0 := mul_ne_zero he (mul_ne_zero (one_div_ne_zero (pow_ne_zero 2 hk0)) (one_div_ne_zero (pow_ne_zero 2 hk0)))
  apply this
  linarith

/-- There are such permutations: the exchange of the axes of a two-dimensional grid. -/
example : Equiv.Perm.sign (permutedComponent (.vectorial (by decide : 2 ≤ 3)) (Equiv.swap 0 1)) = -1 := by decide +kernel

/-! ### Mirror images on grids with an even number of samples -/

theorem first_update (k : Fin d → Idx N → ℝ) (hd : d ≤ 3) (m : Medium 3 N) {e : ℂ} (hm : ∀ x, m.epsilonPrime x = e • 1) {alpha : ℂ} (ha : alpha.im ≠ 0) (beta : ℝ) (S : Field 3 N) :
    ∃ s, run (.vectorial hd) k (prepare m false alpha beta S 0) 1 = .ok s ∧
      s.field = (factor alpha beta * e - alpha * I / (alpha.im : ℂ)) • green (.vectorial hd) k alpha (factor alpha beta • S) := by
  have hi : ((alpha.im : ℂ)) ≠ 0 := ofReal_ne_zero.2 ha
  have hchi : (prepare m false alpha beta S 0).chiEE = fun _ => (factor alpha beta * e - alpha * I / (alpha.im : ℂ)) • (1 : Matrix (Fin 3) (Fin 3) ℂ) := by
    funext x
    show (I / (alpha.im : ℂ)) • ((I / (alpha.im : ℂ))⁻¹ • (factor alpha beta • m.epsilonPrime x - (alpha * I / (alpha.im : ℂ)) • (1 : Matrix (Fin 3) (Fin 3) ℂ)) + (alpha - alpha) • (1 : Matrix (Fin 3) (Fin 3) ℂ)) = _
    rw [hm, sub_self, zero_smul, add_zero, smul_smul, mul_inv_cancel₀ (div_ne_zero I_ne_zero hi), one_smul, smul_smul, ← sub_smul]
  have hsrc : (prepare m false alpha beta S 0).source = factor alpha beta • S := by
    funext c x
    show S c x * factor alpha beta * ((alpha.im : ℂ) / (alpha.im : ℂ)) = factor alpha beta * S c x
    rw [div_self hi, mul_one, mul_comm]
  have hc : ∀ F : Field 3 N, chiOp k (prepare m false alpha beta S 0) F = (factor alpha beta * e - alpha * I / (alpha.im : ℂ)) • F := by
    intro F
    rw [chiOp_nonmagnetic k _ rfl, hchi]
    have := mulField_smul_tensor (factor alpha beta * e - alpha * I / (alpha.im : ℂ)) (fun _ : Idx N => (1 : Matrix (Fin 3) (Fin 3) ℂ)) F
    rw [mulField_one] at this
    exact this
  have hu : update (.vectorial hd) k (prepare m false alpha beta S 0) = (factor alpha beta * e - alpha * I / (alpha.im : ℂ)) • green (.vectorial hd) k alpha (factor alpha beta • S) := by
    unfold update
    dsimp only
    rw [hc, hc, show (prepare m false alpha beta S 0).field = 0 from rfl, hsrc, smul_zero]
    congr 1
    funext c x
    simp only [Pi.zero_apply, sub_zero]
    congr 2
    funext c x
    simp
  have hr : run (.vectorial hd) k (prepare m false alpha beta S 0) 1 = step (.vectorial hd) k (prepare m false alpha beta S 0) := rfl
  rw [hr, step_unfold, hu, show (prepare m false alpha beta S 0).prevNorm = ⊤ from rfl]
  refine ⟨_, if_pos one_pos, ?_⟩
  rw [show (prepare m false alpha beta S 0).field = 0 from rfl, zero_add]

/-- **C98 (mirror images, violation).** On every grid with an even number of samples along a mirrored axis and more than two along another axis, for every constant isotropic permittivity except that
of the reference medium: there are sources such that the field of the mirrored problem is not the mirror image, already in the first iteration. -/
theorem C98_mirror_violates (hd : d ≤ 3) (g : Grid.Obj d ℝ) (hs : ∀ a, g.step a ≠ 0) (hN : ∀ a, 0 < g.shape a) {k0 : ℝ} (hk0 : k0 ≠ 0) {a b : Fin d} (hab : a ≠ b) (hna : g.shape a % 2 = 0)
    (hnb : 2 < g.shape b) {e : ℂ} {alpha : ℂ} (ha : alpha.im ≠ 0) {beta : ℝ} (hb : beta ≠ 0) (he : e ≠ alpha * beta) (co : Const) (i0 : Fin 3) (x0 : Idx g.shape) :
    ∃ S S' : Field 3 g.shape, MovedField 1 (reflectedSign (fun c => decide (c = a)) (.vectorial hd)) (mirroredPoint fun c => decide (c = a)) 1 S S' ∧
      ¬ Both (MovedSolution co k0 (backendK g k0) (backendK g k0) i0 x0 x0 1 (reflectedSign (fun c => decide (c = a)) (.vectorial hd)) (mirroredPoint fun c => decide (c = a))
          (∏ c, reflectedSign (fun c => decide (c = a)) (.vectorial hd) c))
        (run (.vectorial hd) (backendK g k0) (prepare ⟨fun _ => e • 1, 0, 0, fun _ => 1⟩ false alpha beta S 0) 1)
        (run (.vectorial hd) (backendK g k0) (prepare ⟨fun _ => e • 1, 0, 0, fun _ => 1⟩ false alpha beta S' 0) 1) := by
  let mir : Fin d → Bool := fun c => decide (c = a)
  let q : Idx g.shape := fun c => ⟨if c = a then g.shape a / 2 else if c = b then 1 else 0, by
    have h0 := hN c
    split_ifs with h1 h2
    · rw [h1] at h0 ⊢; omega
    · rw [h2]; omega
    · exact h0⟩
  have qa : (q a : ℕ) = g.shape a / 2 := if_pos rfl
  have qb : (q b : ℕ) = 1 := by
    show (if b = a then _ else if b = b then 1 else 0) = 1
    rw [if_neg (Ne.symm hab), if_pos rfl]
  have hNa := hN a
  have hq : mirroredPoint mir q = q := by
    funext c
    rw [mirroredPoint_apply]
    by_cases hc : c = a
    · rw [if_pos (by simp [mir, hc])]
      subst hc
      apply Fin.ext
      rw [opposite_val, qa]
      split_ifs <;> omega
    · rw [if_neg (by simp [mir, hc])]
  have za : backendK g k0 a q ≠ 0 := by
    rw [backendK_formula g hs hk0, qa, if_neg (by omega)]
    have h1 : (g.shape a : ℝ) ≠ 0 := by exact_mod_cast hNa.ne'
    have h2 := hs a
    have h3 : ((g.shape a / 2 : ℕ) : ℝ) - g.shape a ≠ 0 := by
      have : ((g.shape a / 2 : ℕ) : ℝ) < g.shape a := by exact_mod_cast Nat.div_lt_self hNa one_lt_two
      linarith
    have := Real.pi_ne_zero
    positivity
  have zb : backendK g k0 b q ≠ 0 := by
    rw [backendK_formula g hs hk0, qb, if_pos (by omega)]
    have h1 : (g.shape b : ℝ) ≠ 0 := by exact_mod_cast (show g.shape b ≠ 0 by omega)
    have h2 := hs b
    have := Real.pi_ne_zero
    push_cast
    positivity
  let ca : Fin 3 := Fin.castLE hd a
  let cb : Fin 3 := Fin.castLE hd b
  have hcab : cb ≠ ca := fun e => hab (Fin.castLE_injective hd e).symm
  have sa : reflectedSign mir (.vectorial hd) ca = -1 := by
    show mirroredSign mir (a : ℕ) = -1
    unfold mirroredSign
    rw [dif_pos a.2]
    simp [mir]
  have sb : reflectedSign mir (.vectorial hd) cb = 1 := by
    show mirroredSign mir (b : ℕ) = 1
    unfold mirroredSign
    rw [dif_pos b.2]
    simp [mir, Ne.symm hab]
  let S : Field 3 g.shape := Pi.single ca (wave q)
  have hwave : ∀ x, wave q (mirroredPoint mir x) = wave q x := by
    intro x
    unfold wave
    refine Finset.prod_congr rfl fun c _ => ?_
    have h := twiddle_mirrored mir q x c
    have h1 := conj_twiddle (g.shape c) (mirroredPoint mir q c) (mirroredPoint mir x c)
    rw [h, conj_twiddle, hq] at h1
    exact h1.symm
  have hmov : MovedField 1 (reflectedSign mir (.vectorial hd)) (mirroredPoint mir) 1 S (-S) := by
    intro c x
    show -(Pi.single ca (wave q) : Field 3 g.shape) c _ = _ * (Pi.single ca (wave q) : Field 3 g.shape) c x
    by_cases hc : c = ca
    · subst hc
      rw [Pi.single_eq_same, hwave, sa]
      push_cast
      ring
    · rw [Pi.single_eq_of_ne hc]
      simp
  let m : Medium 3 g.shape := ⟨fun _ => e • 1, 0, 0, fun _ => 1⟩
  have hm : ∀ x, m.epsilonPrime x = e • 1 := by
    intro x
    show e • (1 : Matrix (Fin 3) (Fin 3) ℂ) - 0 * _ = _
    rw [zero_mul, sub_zero]
  refine ⟨S, -S, hmov, fun hB => ?_⟩
  obtain ⟨s, hr, hf⟩ := first_update (backendK g k0) hd m hm ha beta S
  obtain ⟨s', hr', hf'⟩ := first_update (backendK g k0) hd m hm ha beta (-S)
  have hsol : MovedSolution co k0 (backendK g k0) (backendK g k0) i0 x0 x0 1 (reflectedSign mir (.vectorial hd)) (mirroredPoint mir) (∏ c, reflectedSign mir (.vectorial hd) c) s s' := by
    rw [hr, hr'] at hB
    exact hB
  have hneg : s'.field = -s.field := by
    rw [hf, hf', smul_neg, ← neg_one_smul ℂ (factor alpha beta • S), (green_isLinear (.vectorial hd) (backendK g k0) alpha).map_smul, smul_comm, neg_one_smul]
  have hk2 : ((k0 ^ 2 : ℝ) : ℂ) ≠ 0 := ofReal_ne_zero.2 (pow_ne_zero 2 hk0)
  have hE : ∀ x, s.field cb (mirroredPoint mir x) = -s.field cb x := by
    intro x
    have h := hsol.E cb x
    rw [sb] at h
    have h' : s'.field cb (mirroredPoint mir x) / ((k0 ^ 2 : ℝ) : ℂ) = ((1 : ℝ) : ℂ) * ((1 : ℝ) : ℂ) * (s.field cb x / ((k0 ^ 2 : ℝ) : ℂ)) := h
    rw [hneg, ofReal_one, one_mul, one_mul, div_left_inj' hk2] at h'
    rw [← h']
    simp
  have hft : ft (s.field cb) q = 0 := by
    have h1 : ft (fun x => s.field cb (mirroredPoint mir x)) (mirroredPoint mir q) = ft (s.field cb) q := by
      unfold ft
      rw [← Equiv.sum_comp (mirroredPoint (N := g.shape) mir)]
      refine Finset.sum_congr rfl fun x _ => ?_
      beta_reduce
      rw [show mirroredPoint mir (mirroredPoint mir x) = x from (mirroredPoint mir).left_inv x]
      congr 1
      exact Finset.prod_congr rfl fun c _ => twiddle_mirrored mir q x c
    have h2 : (fun x => s.field cb (mirroredPoint mir x)) = -s.field cb := by
      funext x
      exact hE x
    have h3 : ft (-s.field cb) = -ft (s.field cb) := ft_isLinear.map_neg _
    rw [hq, h2, h3, Pi.neg_apply] at h1
    linear_combination -(1 / 2 : ℂ) * h1
  have hi : ((alpha.im : ℂ)) ≠ 0 := ofReal_ne_zero.2 ha
  have hbc : (beta : ℂ) ≠ 0 := ofReal_ne_zero.2 hb
  have hα : alpha ≠ 0 := fun h => ha (by rw [h]; rfl)
  have hkα : (k2 (backendK g k0) q : ℂ) - alpha ≠ 0 := by
    intro h
    have := congrArg Complex.im h
    simp at this
    exact ha this
  have hS : ∀ c, ft ((factor alpha beta • S) c) q = if c = ca then factor alpha beta * ∏ a, (g.shape a : ℂ) else 0 := by
    intro c
    show ft (factor alpha beta • (Pi.single ca (wave q) : Field 3 g.shape) c) q = _
    rw [ft_isLinear.map_smul, Pi.smul_apply, smul_eq_mul]
    by_cases hc : c = ca
    · subst hc
      rw [Pi.single_eq_same, ft_wave]
      simp
    · rw [Pi.single_eq_of_ne hc, if_neg hc]
      have : ft (0 : Idx g.shape → ℂ) = 0 := ft_isLinear.map_zero
      rw [this]
      simp
  have ho : ¬ origin q := fun h => by
    have := h b
    omega
  have hpos : (k2 (backendK g k0) q : ℂ) ≠ 0 := by
    have : 0 < k2 (backendK g k0) q := by
      unfold k2
      exact Finset.sum_pos' (fun c _ => sq_nonneg _) ⟨a, Finset.mem_univ _, by positivity⟩
    exact ofReal_ne_zero.2 this.ne'
  have hL : longitudinalFt (backendK g k0) origin hd (fun c => ft ((factor alpha beta • S) c)) cb q =
      (backendK g k0 b q : ℂ) * ((backendK g k0 a q : ℂ) * (factor alpha beta * ∏ a, (g.shape a : ℂ)) / (k2 (backendK g k0) q : ℂ)) := by
    rw [longitudinalFt_wave, if_neg ho]
    simp only [hS, mul_ite, mul_zero, Finset.sum_ite_eq', Finset.mem_univ, if_true]
    have w : ∀ c : Fin d, waveComponent (backendK g k0) ((Fin.castLE hd c : Fin 3) : ℕ) q = backendK g k0 c q := fun c => dif_pos c.2
    rw [w, w]
  rw [hf] at hft
  have hgr : ft (green (.vectorial hd) (backendK g k0) alpha (factor alpha beta • S) cb) q = greenFt (backendK g k0) alpha (.vectorial hd) (fun c => ft ((factor alpha beta • S) c)) cb q := by
    unfold green convolve
    rw [C23_ft_ift]
  rw [Pi.smul_apply, ft_isLinear.map_smul, Pi.smul_apply, smul_eq_mul, hgr] at hft
  simp only [greenFt] at hft
  rw [hL, hS, if_neg hcab] at hft
  have hw : factor alpha beta * e - alpha * I / (alpha.im : ℂ) ≠ 0 := by
    unfold factor
    intro h
    apply he
    have h1 : I / (alpha.im : ℂ) / (beta : ℂ) * (e - alpha * beta) = 0 := by
      rw [← h]
      field_simp
    rcases mul_eq_zero.1 h1 with h2 | h2
    · exact absurd h2 (div_ne_zero (div_ne_zero I_ne_zero hi) hbc)
    · exact sub_eq_zero.1 h2
  have hP := prod_ne_zero_of_idx q
  have hfac : factor alpha beta ≠ 0 := div_ne_zero (div_ne_zero I_ne_zero hi) hbc
  have hka := ofReal_ne_zero.2 za
  have hkb := ofReal_ne_zero.2 zb
  rcases mul_eq_zero.1 hft with h | h
  · exact hw h
  · unfold gScalar at h
    have h1 : ((backendK g k0 b q : ℂ) * ((backendK g k0 a q : ℂ) * (factor alpha beta * ∏ a, (g.shape a : ℂ)) / (k2 (backendK g k0) q : ℂ))) *
        (I * (alpha.im : ℂ) * ((k2 (backendK g k0) q : ℂ) / (((k2 (backendK g k0) q : ℂ) - alpha) * alpha))) = 0 := by
      rw [← h]
      field_simp
      ring
    refine mul_ne_zero (mul_ne_zero hkb (div_ne_zero (mul_ne_zero hka (mul_ne_zero hfac hP)) hpos)) (mul_ne_zero (mul_ne_zero I_ne_zero hi) (div_ne_zero hpos (mul_ne_zero hkα hα))) h1

end Verif.Solver
