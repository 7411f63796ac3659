import Verif.Props.SolverCoupled
import Verif.Props.SolverRounding

/-!
# C117, C120, C121: the number of iterations, rounding errors, and errors in the data, for materials with magneto-electric coupling

The bias of magnetic materials depends on the largest wavenumber of the grid, and with it the rate of the convergence.
-/

namespace Verif.Solver

open Verif Verif.Fourier Verif.Backend Complex Matrix
open Verif.Spec.Solver (Coupled CoupledEquation absorbed Within rateOf electricDifference magneticDifference)

variable {d n : ℕ} {N : Fin d → ℕ}

theorem largestSingularValue_le {A : Tensor n N} {s : ℝ} (h0 : 0 ≤ s) (hs : Within A s) : largestSingularValue A ≤ s := by
  unfold largestSingularValue
  rw [Real.sqrt_le_left h0]
  exact largestEigenvalue_le (fun _ => rfl) hs

theorem Medium.sigmaHH_le (m : Medium n N) {beta : ℝ} (hβ : beta ≠ 0) {s : ℝ} (h0 : 0 ≤ s) (hs : Within (fun x => m.muInv x - (beta : ℂ) • 1) s) : m.sigmaHH beta * |beta| ≤ s := by
  unfold Medium.sigmaHH
  rw [div_mul_cancel₀ _ (abs_ne_zero.2 hβ), Real.sqrt_le_left h0]
  exact largestEigenvalue_le (fun x => by rw [gram_sub, Medium.chiHHBeta2]) hs

/-- The contrast of a magnetic material, for the constants that the code selects when the optimizer returns `vec`. -/
noncomputable def Medium.contrastMagnetic (m : Medium n N) (pitch : Fin d → ℝ) (k0 : ℝ) (vec : ℝ × ℝ) : ℝ := m.singularValueSum pitch k0 vec.1 (vec.2 ^ 2) * vec.2 ^ 2

theorem contrastMagnetic_eq (m : Medium n N) (pitch : Fin d → ℝ) (k0 : ℝ) {vec : ℝ × ℝ} (hv : vec.2 ≠ 0) : m.contrastMagnetic pitch k0 vec =
    m.sigmaEE vec.1 (vec.2 ^ 2) * |vec.2 ^ 2| + sigmaD pitch k0 ^ 2 * (m.sigmaHH (vec.2 ^ 2) * |vec.2 ^ 2|) +
      sigmaD pitch k0 * (largestSingularValue m.chiEHBeta + largestSingularValue m.chiHEBeta) := by
  have hb : 0 < vec.2 ^ 2 := by positivity
  rw [Medium.contrastMagnetic, Medium.singularValueSum, abs_of_pos hb]
  field_simp
  ring

theorem contrastMagnetic_nonneg (m : Medium n N) (pitch : Fin d → ℝ) {k0 : ℝ} (hk0 : 0 < k0) {vec : ℝ × ℝ} (hv : vec.2 ≠ 0) : 0 ≤ m.contrastMagnetic pitch k0 vec := by
  rw [contrastMagnetic_eq m pitch k0 hv]
  have h1 := sigmaEE_nonneg m vec.1 (vec.2 ^ 2)
  have h2 := sigmaHH_nonneg m (vec.2 ^ 2)
  have h3 := sigmaD_nonneg pitch hk0
  have h4 : 0 ≤ largestSingularValue m.chiEHBeta := Real.sqrt_nonneg _
  have h5 : 0 ≤ largestSingularValue m.chiHEBeta := Real.sqrt_nonneg _
  positivity

/-- The contrast is at most that of any bounds on the tensors. -/
theorem contrastMagnetic_le (m : Medium n N) (pitch : Fin d → ℝ) {k0 : ℝ} (hk0 : 0 < k0) {vec : ℝ × ℝ} (hv : vec.2 ≠ 0) {sE sM sEH sHE : ℝ} (h1 : 0 ≤ sE) (h2 : 0 ≤ sM) (h3 : 0 ≤ sEH)
    (h4 : 0 ≤ sHE) (w1 : Within (fun x => m.epsilonPrime x - ((vec.1 * vec.2 ^ 2 : ℝ) : ℂ) • 1) sE) (w2 : Within (fun x => m.muInv x - ((vec.2 ^ 2 : ℝ) : ℂ) • 1) sM)
    (w3 : Within m.chiEHBeta sEH) (w4 : Within m.chiHEBeta sHE) : m.contrastMagnetic pitch k0 vec ≤ sE + sigmaD pitch k0 ^ 2 * sM + sigmaD pitch k0 * (sEH + sHE) := by
  have hb : vec.2 ^ 2 ≠ 0 := by positivity
  have hD := sigmaD_nonneg pitch hk0
  rw [contrastMagnetic_eq m pitch k0 hv]
  exact add_le_add (add_le_add (m.sigmaEE_le vec.1 hb h1 w1) (mul_le_mul_of_nonneg_left (m.sigmaHH_le hb h2 w2) (sq_nonneg _)))
    (mul_le_mul_of_nonneg_left (add_le_add (largestSingularValue_le h3 w3) (largestSingularValue_le h4 w4)) hD)

/-- The bias exceeds the contrast. -/
theorem contrastMagnetic_bias (m : Medium n N) (pitch : Fin d → ℝ) (k0 : ℝ) (thickness : List ℝ) (vec : ℝ × ℝ) :
    m.contrastMagnetic pitch k0 vec + 0.05 * vec.2 ^ 2 ≤ (m.constantsMagnetic pitch k0 thickness vec).1.im * vec.2 ^ 2 := by
  have := C36_increase k0 thickness ((vec.1 : ℂ) + I * (m.singularValueSum pitch k0 vec.1 (vec.2 ^ 2) : ℂ))
  rw [Medium.contrastMagnetic, ← add_mul]
  refine mul_le_mul_of_nonneg_right ?_ (sq_nonneg _)
  unfold Medium.constantsMagnetic
  simpa using this

/-- Without absorbing layers by no more than 0.05. -/
theorem contrastMagnetic_open (m : Medium n N) (pitch : Fin d → ℝ) (k0 : ℝ) (vec : ℝ × ℝ) :
    (m.constantsMagnetic pitch k0 [] vec).1.im * vec.2 ^ 2 = m.contrastMagnetic pitch k0 vec + 0.05 * vec.2 ^ 2 := by
  rw [Medium.contrastMagnetic, ← add_mul]
  congr 1
  unfold Medium.constantsMagnetic increaseBias
  simp

section Runs
variable {g : Grid.Obj d ℝ} (hs : ∀ a, g.step a ≠ 0) {k0 : ℝ} (hk0 : 0 < k0) (hd : d ≤ 3) {m : Medium 3 g.shape} (hinv : ∀ x, IsUnit (m.mu x).det)
  (thickness : List ℝ) {vec : ℝ × ℝ} (hv : vec.2 ≠ 0) {δ : ℝ} (hδ : 0 < δ)
  (habs : ∀ x e h, δ * ∑ i, ‖e i‖ ^ 2 ≤ absorbed (m.exchanged.epsilon x) (m.exchanged.xi x) (m.exchanged.zeta x) (m.exchanged.mu x) e h)

include hs hk0 hv in
theorem contrastMagnetic_norm (F : Field 3 g.shape) :
    Backend.norm (deviation (backendK g k0) (m.constantsMagnetic g.step k0 thickness vec).1.re (m.constantsMagnetic g.step k0 thickness vec).2 (.vectorial hd) m F) ≤
      m.contrastMagnetic g.step k0 vec * Backend.norm F := by
  have hD := sigmaD_nonneg g.step hk0
  have hb : vec.2 ^ 2 ≠ 0 := by positivity
  have e : (m.constantsMagnetic g.step k0 thickness vec).1.re = vec.1 := by
    unfold Medium.constantsMagnetic
    simp only [increaseBias_re]
    simp
  rw [e, contrastMagnetic_eq m g.step k0 hv]
  refine deviation_norm_vectorial hd (backendK g k0) hD (fun x => ?_) m (mul_nonneg (sigmaEE_nonneg m _ _) (abs_nonneg _)) (mul_nonneg (sigmaHH_nonneg m _) (abs_nonneg _))
    (Real.sqrt_nonneg _) (Real.sqrt_nonneg _) (m.within_sigmaEE vec.1 hb) (m.within_sigmaHH hb) (within_largest _) (within_largest _) F
  have := kOf_le g hs hk0 x
  simp only [C31_backend g hs hk0.ne', mul_pow, ← Finset.mul_sum] at this
  exact le_of_mul_le_mul_left this (by positivity)

include hs hk0 hinv hv hδ habs

/-- **C117, C120 (coupled).** For all grids, all materials with an invertible permeability that are found to be magnetic, whatever the optimizer returns, all absorbing layers, sources and initial fields: if the material
with the exchanged coupling absorbs at least `δ` at every point, then an exact iteration brings any two fields together by the factor `rateOf` for the bias that is selected, the contrast, and the absorption. -/
theorem C120_coupled (S F : Field 3 g.shape) :
    ∃ E, CoupledEquation (kOf g) k0 m.exchanged.epsilon m.exchanged.xi m.exchanged.zeta m.exchanged.mu S E ∧
      Contraction (.vectorial hd) (backendK g k0) (prepare m true (m.constantsMagnetic g.step k0 thickness vec).1 (m.constantsMagnetic g.step k0 thickness vec).2 S F) (((k0 : ℂ) ^ 2) • E)
        (rateOf ((m.constantsMagnetic g.step k0 thickness vec).1.im * vec.2 ^ 2) (m.contrastMagnetic g.step k0 vec) δ) ∧
      ConvergesAtRate (.vectorial hd) (backendK g k0) k0 (prepare m true (m.constantsMagnetic g.step k0 thickness vec).1 (m.constantsMagnetic g.step k0 thickness vec).2 S F) E
        (rateOf ((m.constantsMagnetic g.step k0 thickness vec).1.im * vec.2 ^ 2) (m.contrastMagnetic g.step k0 vec) δ) := by
  have hn := contrastMagnetic_norm hs hk0 hd (m := m) thickness hv
  have h0 := contrastMagnetic_nonneg m g.step hk0 hv
  have hσ := contrastMagnetic_bias m g.step k0 thickness vec
  have hb : (m.constantsMagnetic g.step k0 thickness vec).2 = vec.2 ^ 2 := rfl
  set c := m.constantsMagnetic g.step k0 thickness vec with hc
  have hbp : 0 < c.2 := by
    rw [hb]
    positivity
  have hσ' : m.contrastMagnetic g.step k0 vec < c.1.im * c.2 := by
    rw [hb]
    rw [hb] at hbp
    linarith
  have him : 0 < c.1.im := pos_of_mul_pos_left (h0.trans_lt hσ') hbp.le
  have hk2 : ((k0 : ℂ) ^ 2) ≠ 0 := pow_ne_zero 2 (ofReal_ne hk0.ne')
  have hw : ∀ S E, CoupledEquation (kOf g) k0 m.exchanged.epsilon m.exchanged.xi m.exchanged.zeta m.exchanged.mu S E ↔
      waveOp (backendK g k0) c.2 (.vectorial hd) m (((k0 : ℂ) ^ 2) • E) = S := fun S E => by
    rw [coupled_iff hk0.ne' (C31_backend g hs hk0.ne') (m := m.exchanged) hinv, waveOp_eq_coupled _ _ _ hinv]
  have him' : ∀ F, δ * Backend.norm F ^ 2 ≤ (dot F (deviation (backendK g k0) c.1.re c.2 (.vectorial hd) m F)).im := fun F => by
    rw [coupled_im hd _ hinv, norm_sq, Finset.sum_comm, Finset.mul_sum]
    exact Finset.sum_le_sum fun x _ => habs x _ _
  have hu : ∀ E, waveOp (backendK g k0) c.2 (.vectorial hd) m E = 0 → E = 0 := by
    intro E hE
    obtain ⟨P, hP, hq⟩ := contraction_absorbing (mag := true) (backendK_origin g hs hk0.ne') (.vectorial hd) him hbp (.inl rfl) hn hσ' hδ him' 0 0
    have h1 := update_zero_of (backendK_origin g hs hk0.ne') (.vectorial hd) him hbp (.inl rfl : Consistent m true c.2) 0 E hE
    have h2 := update_zero_of (backendK_origin g hs hk0.ne') (.vectorial hd) him hbp (.inl rfl : Consistent m true c.2) 0 0 (waveOp_isLinear _ _ _ m).map_zero
    have h3 := hq.2.2.2 E 0
    have e1 : update (.vectorial hd) (backendK g k0) { prepare m true c.1 c.2 0 0 with field := E } = 0 := h1
    have e2 : update (.vectorial hd) (backendK g k0) { prepare m true c.1 c.2 0 0 with field := 0 } = 0 := h2
    rw [e1, e2, add_zero, add_zero, sub_zero] at h3
    have h4 := hq.2.1
    refine (norm_eq_zero_iff E).1 (le_antisymm ?_ (norm_nonneg' _))
    by_contra hne
    push Not at hne
    nlinarith
  obtain ⟨P, hP, hq⟩ := contraction_absorbing (mag := true) (backendK_origin g hs hk0.ne') (.vectorial hd) him hbp (.inl rfl) hn hσ' hδ him' S F
  obtain ⟨P', hP', hq'⟩ := converges_absorbing (mag := true) (backendK_origin g hs hk0.ne') (.vectorial hd) him hbp (.inl rfl) hn hσ' hδ him' S F
  have hPP : P' = P := by
    rw [← sub_eq_zero]
    exact hu _ (by rw [(waveOp_isLinear _ _ _ m).map_sub, hP, hP', sub_self])
  rw [hPP] at hq'
  have hPE : P = ((k0 : ℂ) ^ 2) • (((k0 : ℂ) ^ 2)⁻¹ • P) := by rw [smul_smul, mul_inv_cancel₀ hk2, one_smul]
  set E := ((k0 : ℂ) ^ 2)⁻¹ • P with hE
  exact ⟨E, (hw S E).2 (by rw [← hPE]; exact hP), hPE ▸ hq, (hPE ▸ hq').electric hk0.ne'⟩

end Runs

/-! ### Errors in the data -/

section Stability
variable {k : Fin d → Idx N → ℝ} {k0 : ℝ}

theorem electricDifference_eq (k0 : ℝ) (epsilon epsilon' xi xi' : Tensor 3 N) (S S' E H : Field 3 N) : electricDifference k0 epsilon epsilon' xi xi' S S' E H =
    mulField (fun x => epsilon' x - epsilon x) E + mulField (fun x => xi' x - xi x) H + ((k0 : ℂ) ^ 2)⁻¹ • (S' - S) := by
  funext c x
  simp only [electricDifference, spec_act, Pi.add_apply, Pi.smul_apply, Pi.sub_apply, smul_eq_mul]
  rw [inv_mul_eq_div]

theorem magneticDifference_eq (zeta zeta' mu mu' : Tensor 3 N) (E H : Field 3 N) : magneticDifference zeta zeta' mu mu' E H =
    mulField (fun x => zeta' x - zeta x) E + mulField (fun x => mu' x - mu x) H := by
  funext c x
  simp only [magneticDifference, spec_act, Pi.add_apply]

/-- **C121 (coupled, balance).** For two solutions of Maxwell's equations, of any two materials and sources: what the first material absorbs of the difference of the fields is the work on it by the differences of the
materials and of the sources. -/
theorem C121_balance (hk0 : k0 ≠ 0) {epsilon epsilon' xi xi' zeta zeta' mu mu' : Tensor 3 N} {S S' E E' H H' : Field 3 N} (h : Coupled k k0 epsilon xi zeta mu S E H)
    (h' : Coupled k k0 epsilon' xi' zeta' mu' S' E' H') :
    ∑ x, absorbed (epsilon x) (xi x) (zeta x) (mu x) (fun c => (E' - E) c x) (fun c => (H' - H) c x) =
      -(dot (E' - E) (electricDifference k0 epsilon epsilon' xi xi' S S' E' H') + dot (H' - H) (magneticDifference zeta zeta' mu mu' E' H')).im := by
  have hk := ofReal_ne hk0
  have hL := curl_isLinear (n := 3) (m := 3) k
  have h1 : curl 3 k (E' - E) = (I * k0) • (mulField zeta (E' - E) + mulField mu (H' - H) + magneticDifference zeta zeta' mu mu' E' H') := by
    rw [hL.map_sub, (mulField_isLinear zeta).map_sub, (mulField_isLinear mu).map_sub, magneticDifference_eq, mulField_sub_left, mulField_sub_left]
    funext c x
    have e := h.1 c x
    have e' := h'.1 c x
    rw [spec_curl, spec_act, spec_act] at e e'
    simp only [Pi.sub_apply, Pi.add_apply, Pi.smul_apply, smul_eq_mul]
    rw [e, e']
    ring
  have h2 : curl 3 k (H' - H) = (-I * k0) • (mulField epsilon (E' - E) + mulField xi (H' - H) + electricDifference k0 epsilon epsilon' xi xi' S S' E' H') := by
    rw [hL.map_sub, (mulField_isLinear epsilon).map_sub, (mulField_isLinear xi).map_sub, electricDifference_eq, mulField_sub_left, mulField_sub_left]
    funext c x
    have e := h.2 c x
    have e' := h'.2 c x
    rw [spec_curl, spec_act, spec_act] at e e'
    simp only [Pi.sub_apply, Pi.add_apply, Pi.smul_apply, smul_eq_mul]
    rw [e, e']
    field_simp
    ring
  set e := E' - E
  set f := H' - H
  set J := electricDifference k0 epsilon epsilon' xi xi' S S' E' H'
  set M := magneticDifference zeta zeta' mu mu' E' H'
  have h3 := curl_adjoint k f e
  rw [← dot_conj e, h1, h2, dot_smul, dot_smul, map_mul, map_mul, map_neg, conj_I, conj_ofReal, neg_neg] at h3
  have h4 := mul_left_cancel₀ (mul_ne_zero I_ne_zero hk) h3
  have h5 := congrArg Complex.im h4
  rw [conj_im, dot_add, dot_add, dot_add, dot_add] at h5
  have h6 : ∑ x, absorbed (epsilon x) (xi x) (zeta x) (mu x) (fun c => e c x) (fun c => f c x) = (dot e (mulField epsilon e) + dot e (mulField xi f) + (dot f (mulField zeta e) + dot f (mulField mu f))).im := by
    simp only [dot_mulField, absorbed, dotProduct_add, ← Finset.sum_add_distrib, im_sum]
  rw [h6]
  simp only [add_im] at h5 ⊢
  linarith

private theorem cancel_square {δ X Y : ℝ} (hX : 0 ≤ X) (hY : 0 ≤ Y) (h : δ * X ^ 2 ≤ X * Y) : δ * X ≤ Y := by
  rcases hX.eq_or_lt with h0 | h0
  · rw [← h0, mul_zero]
    exact hY
  · refine le_of_mul_le_mul_left ?_ h0
    linarith

private theorem cauchy {a b c d : ℝ} : a * c + b * d ≤ Real.sqrt (a ^ 2 + b ^ 2) * Real.sqrt (c ^ 2 + d ^ 2) := by
  rw [← Real.sqrt_mul (by positivity)]
  refine Real.le_sqrt_of_sq_le ?_
  nlinarith [sq_nonneg (a * d - b * c)]

theorem abs_dot_le (F G : Field n N) : |(dot F G).im| ≤ Backend.norm F * Backend.norm G := by
  rw [dot_eq, ← norm_toE, ← norm_toE]
  exact (abs_im_le_norm _).trans (norm_inner_le_norm _ _)

/-- **C121 (coupled).** For all materials with coupling, of which one absorbs at least `δ` of both fields at every point: the difference between the fields is at most that of what the materials and sources add to the
displacement and the flux density, divided by `δ`. -/
theorem C121_coupled (hk0 : k0 ≠ 0) {epsilon epsilon' xi xi' zeta zeta' mu mu' : Tensor 3 N} {δ : ℝ}
    (habs : ∀ x e h, δ * (∑ i, ‖e i‖ ^ 2 + ∑ i, ‖h i‖ ^ 2) ≤ absorbed (epsilon x) (xi x) (zeta x) (mu x) e h) {S S' E E' H H' : Field 3 N}
    (h : Coupled k k0 epsilon xi zeta mu S E H) (h' : Coupled k k0 epsilon' xi' zeta' mu' S' E' H') :
    δ * Real.sqrt (Backend.norm (E' - E) ^ 2 + Backend.norm (H' - H) ^ 2) ≤
      Real.sqrt (Backend.norm (electricDifference k0 epsilon epsilon' xi xi' S S' E' H') ^ 2 + Backend.norm (magneticDifference zeta zeta' mu mu' E' H') ^ 2) := by
  have hb := C121_balance hk0 h h'
  have h1 := abs_dot_le (E' - E) (electricDifference k0 epsilon epsilon' xi xi' S S' E' H')
  have h2 := abs_dot_le (H' - H) (magneticDifference zeta zeta' mu mu' E' H')
  have h3 : δ * (Backend.norm (E' - E) ^ 2 + Backend.norm (H' - H) ^ 2) ≤ ∑ x, absorbed (epsilon x) (xi x) (zeta x) (mu x) (fun c => (E' - E) c x) (fun c => (H' - H) c x) := by
    rw [norm_sq, norm_sq, Finset.sum_comm, Finset.sum_comm (f := fun c x => ‖(H' - H) c x‖ ^ 2), ← Finset.sum_add_distrib, Finset.mul_sum]
    exact Finset.sum_le_sum fun x _ => habs x _ _
  rw [hb, add_im] at h3
  refine cancel_square (Real.sqrt_nonneg _) (Real.sqrt_nonneg _) ?_
  rw [Real.sq_sqrt (by positivity)]
  refine le_trans ?_ cauchy
  linarith [(abs_le.1 h1).1, (abs_le.1 h2).1]

/-- **C121 (coupled, electric field).** If the material only absorbs electric fields, and only the permittivity, the coupling to the displacement, and the source differ, the same holds for the electric field. -/
theorem C121_coupled_electric (hk0 : k0 ≠ 0) {epsilon epsilon' xi xi' zeta mu : Tensor 3 N} {δ : ℝ}
    (habs : ∀ x e h, δ * ∑ i, ‖e i‖ ^ 2 ≤ absorbed (epsilon x) (xi x) (zeta x) (mu x) e h) {S S' E E' H H' : Field 3 N}
    (h : Coupled k k0 epsilon xi zeta mu S E H) (h' : Coupled k k0 epsilon' xi' zeta mu S' E' H') :
    δ * Backend.norm (E' - E) ≤ Backend.norm (electricDifference k0 epsilon epsilon' xi xi' S S' E' H') := by
  have hb := C121_balance hk0 h h'
  have h1 := abs_dot_le (E' - E) (electricDifference k0 epsilon epsilon' xi xi' S S' E' H')
  have h2 : magneticDifference zeta zeta mu mu E' H' = 0 := by
    simp only [magneticDifference_eq, sub_self]
    rw [mulField_zero, mulField_zero, add_zero]
  have h3 : δ * Backend.norm (E' - E) ^ 2 ≤ ∑ x, absorbed (epsilon x) (xi x) (zeta x) (mu x) (fun c => (E' - E) c x) (fun c => (H' - H) c x) := by
    rw [norm_sq, Finset.sum_comm, Finset.mul_sum]
    exact Finset.sum_le_sum fun x _ => habs x _ _
  have h4 : dot (H' - H) (0 : Field 3 N) = 0 := by simp [dot]
  rw [hb, h2, h4, add_zero] at h3
  exact cancel_square (norm_nonneg' _) (norm_nonneg' _) (by linarith [(abs_le.1 h1).1])

/-- What the differences add, if every tensor differs by no more than a given number. -/
theorem C121_coupled_size {epsilon epsilon' xi xi' zeta zeta' mu mu' : Tensor 3 N} {η : ℝ} (hη : 0 ≤ η) (h1 : Within (fun x => epsilon' x - epsilon x) η)
    (h2 : Within (fun x => xi' x - xi x) η) (h3 : Within (fun x => zeta' x - zeta x) η) (h4 : Within (fun x => mu' x - mu x) η) (S S' E H : Field 3 N) :
    Backend.norm (electricDifference k0 epsilon epsilon' xi xi' S S' E H) ≤ η * (Backend.norm E + Backend.norm H) + Backend.norm (S' - S) / k0 ^ 2 ∧
      Backend.norm (magneticDifference zeta zeta' mu mu' E H) ≤ η * (Backend.norm E + Backend.norm H) := by
  have b := fun (A : Tensor 3 N) (hA : Within A η) F => norm_mulField_le A hη hA F
  rw [electricDifference_eq, magneticDifference_eq]
  constructor
  · refine (norm_add_le' _ _).trans (add_le_add ((norm_add_le' _ _).trans ?_) ?_)
    · rw [mul_add]
      exact add_le_add (b _ h1 _) (b _ h2 _)
    · rw [norm_smul', norm_inv, norm_pow, norm_real, Real.norm_eq_abs, sq_abs, inv_mul_eq_div]
  · refine (norm_add_le' _ _).trans ?_
    rw [mul_add]
    exact add_le_add (b _ h3 _) (b _ h4 _)

end Stability

end Verif.Solver
