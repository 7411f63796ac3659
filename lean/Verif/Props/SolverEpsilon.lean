import Verif.Model.SolverEpsilon
import Verif.Props.SolverFields

/-!
# Properties C42 and C46: reading and assigning the permittivity, and the refractive index
-/

namespace Verif.Solver

open Verif Verif.Fourier Verif.Backend Complex

variable {d n : ℕ} {N : Fin d → ℕ} {m : Medium n N} {mag : Bool} {S : Field n N} {s : State n N}

/-- The number that the code should have subtracted from 1 to find the inverse of the permeability. -/
theorem Represents.muInv_eq (h : Represents m mag S s) (x : Idx N) :
    (s.beta : ℂ) • (1 - ((s.alpha.im : ℂ) / I) • s.chiHH x) = m.muInv x := by
  have h1 := ofReal_ne h.alpha_ne
  have h2 := ofReal_ne h.beta_ne
  have hI := I_ne_zero
  have e1 : (s.alpha.im : ℂ) / I * (I / (s.alpha.im : ℂ)) = 1 := by field_simp
  rw [h.chiHH]
  simp only [smul_smul, e1, one_smul, sub_sub_cancel]
  rw [mul_one_div_cancel h2, one_smul]

theorem Represents.coupling (h : Represents m mag S s) (A : Matrix (Fin n) (Fin n) ℂ) :
    ((s.alpha.im : ℂ) * (s.beta : ℂ) / I) • factor s.alpha s.beta • A = A := by
  have h1 := ofReal_ne h.alpha_ne
  have h2 := ofReal_ne h.beta_ne
  have hI := I_ne_zero
  rw [smul_smul, factor]
  have : (s.alpha.im : ℂ) * (s.beta : ℂ) / I * (I / (s.alpha.im : ℂ) / (s.beta : ℂ)) = 1 := by field_simp
  rw [this, one_smul]

/-! ### C42 -/

/-- **C42 (what is read).** For all states of all problems, whatever the boundary: reading `epsilon` gives the permittivity without that of the boundary,
minus the bias times the constant beta.  Full claim: without the latter, see `C42_read_violates`. -/
theorem C42_read_partial (h : Represents m mag S s) (hinv : ∀ x, IsUnit (m.mu x).det) (hxi : mag = false → ∀ x, m.xi x = 0) (boundChi : Idx N → ℂ)
    (epsilon : Tensor n N) (hb : m.epsilon = withBound boundChi epsilon) (x : Idx N) :
    getEpsilon boundChi s x = epsilon x - (s.alpha * s.beta) • (1 : Matrix (Fin n) (Fin n) ℂ) := by
  have h1 := ofReal_ne h.alpha_ne
  have h2 := ofReal_ne h.beta_ne
  have hI := I_ne_zero
  have e1 : ((s.alpha.im : ℂ) * (s.beta : ℂ) / I) • s.chiEE x = m.epsilonPrime x - (s.alpha * s.beta) • 1 := by
    rw [h.chiEE]
    simp only [smul_sub, h.coupling, smul_smul]
    congr 2
    field_simp
  have e2 : m.epsilon x = epsilon x + boundChi x • 1 := by rw [hb]; rfl
  unfold getEpsilon
  rw [h.magnetic]
  cases hm : mag with
  | true =>
    simp only [if_true]
    rw [e1, h.muInv_eq, h.chiEH, h.chiHE]
    simp only [h.coupling]
    have e3 : I • (m.chiEHBeta x * (m.muInv x)⁻¹) = m.xi x := by
      rw [Medium.chiEHBeta, smul_mul_assoc, smul_smul, mul_neg, I_mul_I, neg_neg, one_smul, Medium.muInv, Matrix.nonsing_inv_nonsing_inv _ (hinv x), mul_assoc,
        Matrix.nonsing_inv_mul _ (hinv x), mul_one]
    rw [e3, Medium.epsilonPrime, e2]
    abel
  | false =>
    simp only [Bool.false_eq_true, if_false]
    rw [e1, Medium.epsilonPrime, hxi hm, zero_mul, sub_zero, e2]
    abel

/-- **C42 (reading).** The permittivity that is read is never the one of the constructor: the bias has an imaginary part. -/
theorem C42_read_violates (h : Represents m mag S s) (hinv : ∀ x, IsUnit (m.mu x).det) (hxi : mag = false → ∀ x, m.xi x = 0) (boundChi : Idx N → ℂ)
    (epsilon : Tensor n N) (hb : m.epsilon = withBound boundChi epsilon) (i0 : Fin n) (x : Idx N) : getEpsilon boundChi s x ≠ epsilon x := by
  rw [C42_read_partial h hinv hxi boundChi epsilon hb]
  intro e
  have e2 : (s.alpha * s.beta) • (1 : Matrix (Fin n) (Fin n) ℂ) = 0 := by rwa [sub_eq_self] at e
  have e3 := congrFun (congrFun e2 i0) i0
  simp only [Matrix.smul_apply, Matrix.one_apply_eq, smul_eq_mul, mul_one, Matrix.zero_apply] at e3
  have e4 := congrArg Complex.im e3
  rw [im_mul_ofReal, zero_im] at e4
  exact mul_ne_zero h.alpha_ne h.beta_ne e4

/-- The medium that is used after an assignment: the coupling and permeability are those of before. -/
theorem assignedMedium_eq (h : Represents m mag S s) (hu : Uniform m mag) (hinv : ∀ x, IsUnit (m.mu x).det) (boundChi : Idx N → ℂ) (i0 : Fin n) (x0 : Idx N)
    (epsilon : Tensor n N) :
    assignedMedium boundChi i0 x0 s epsilon = { m with epsilon := fun x => epsilon x - boundChi x • 1 } := by
  have hmu : ∀ x, (m.muInv x)⁻¹ = m.mu x := fun x => Matrix.nonsing_inv_nonsing_inv _ (hinv x)
  unfold assignedMedium
  simp only [Medium.mk.injEq, true_and]
  rw [h.magnetic]
  cases hm : mag with
  | true =>
    simp only [if_true, h.muInv_eq, hmu]
    refine ⟨funext fun x => ?_, funext fun x => ?_, trivial⟩
    · rw [h.chiEH]
      simp only [h.coupling]
      rw [Medium.chiEHBeta, smul_mul_assoc, smul_smul, mul_neg, I_mul_I, neg_neg, one_smul, Medium.muInv, mul_assoc,
        Matrix.nonsing_inv_mul _ (hinv x), mul_one]
    · rw [h.chiHE]
      simp only [h.coupling]
      rw [Medium.chiHEBeta, mul_smul_comm, smul_smul, neg_mul, I_mul_I, neg_neg, one_smul, Medium.muInv, ← mul_assoc,
        Matrix.mul_nonsing_inv _ (hinv x), one_mul]
  | false =>
    obtain ⟨h1, h2, mu, hmu0, h3⟩ := hu hm
    simp only [Bool.false_eq_true, if_false]
    refine ⟨(funext h1).symm, (funext h2).symm, funext fun x => ?_⟩
    have e := congrFun (congrFun (h.muInv_eq x0) i0) i0
    rw [Medium.muInv, h3, smul_one_inv hmu0] at e
    simp only [Matrix.smul_apply, Matrix.sub_apply, Matrix.one_apply_eq, smul_eq_mul, mul_one] at e
    rw [mul_comm _ (s.beta : ℂ), e, smul_one_inv (inv_ne_zero hmu0), inv_inv, h3]

section
variable (h : Represents m mag S s) (hu : Uniform m mag) (hinv : ∀ x, IsUnit (m.mu x).det) (boundChi : Idx N → ℂ) (i0 : Fin n) (x0 : Idx N) (magnetic : Bool)
  {alpha : ℂ} (hα : alpha.im ≠ 0) {beta : ℝ} (hβ : beta ≠ 0) (epsilon : Tensor n N)
include h hu hinv hα hβ

/-- **C42 (what is assigned).** For all states, and all choices of the constants: assigning `epsilon` keeps the source, the field, the permeability and the
coupling, and makes the solution represent the new permittivity *minus* that of the boundary. -/
theorem C42_assign :
    Represents { m with epsilon := fun x => epsilon x - boundChi x • 1 } magnetic S (setEpsilon boundChi i0 x0 magnetic alpha beta s epsilon) ∧
      (setEpsilon boundChi i0 x0 magnetic alpha beta s epsilon).field = s.field := by
  refine ⟨?_, rfl⟩
  unfold setEpsilon
  rw [assignedMedium_eq h hu hinv, h.getSource]
  exact (represents_prepare _ magnetic hα hβ S s.field).with_field _ _ _ _

/-- **C42 (assigning without boundary).** If the boundary has no susceptibility, the solution represents the new permittivity.
Full claim: the new permittivity with that of the boundary, for all boundaries; see `C42_assign_violates`. -/
theorem C42_assign_partial (hb : ∀ x, boundChi x = 0) :
    Represents { m with epsilon := withBound boundChi epsilon } magnetic S (setEpsilon boundChi i0 x0 magnetic alpha beta s epsilon) := by
  have := (C42_assign h hu hinv boundChi i0 x0 magnetic hα hβ epsilon).1
  have e : (fun x => epsilon x - boundChi x • (1 : Matrix (Fin n) (Fin n) ℂ)) = withBound boundChi epsilon := by
    funext x
    simp [withBound, hb]
  rwa [e] at this

/-- The represented medium determines the stored arrays, so that two media with different permittivity cannot both be represented. -/
theorem represents_epsilon_unique {m' m'' : Medium n N} {mag : Bool} {S' S'' : Field n N} {t : State n N} (h1 : Represents m' mag S' t)
    (h2 : Represents m'' mag S'' t) (hx : m'.xi = m''.xi) (hz : m'.zeta = m''.zeta) (hm : m'.mu = m''.mu) : m'.epsilon = m''.epsilon := by
  have e := h1.chiEE.symm.trans h2.chiEE
  funext x
  have e2 := congrFun e x
  simp only [sub_left_inj] at e2
  have e3 : m'.epsilonPrime x = m''.epsilonPrime x := by
    have := congrArg (fun A => ((t.alpha.im : ℂ) * (t.beta : ℂ) / I) • A) e2
    simpa only [h1.coupling] using this
  have e4 : m'.chiHEBeta = m''.chiHEBeta := by unfold Medium.chiHEBeta Medium.muInv; rw [hz, hm]
  unfold Medium.epsilonPrime at e3
  rw [e4, hx] at e3
  simpa using e3

/-- **C42 (assigning with boundary).** Whenever the boundary has a susceptibility, the solution does not represent the new permittivity with that of the boundary. -/
theorem C42_assign_violates {x : Idx N} (hb : boundChi x ≠ 0) :
    ¬ Represents { m with epsilon := withBound boundChi epsilon } magnetic S (setEpsilon boundChi i0 x0 magnetic alpha beta s epsilon) := by
  intro h'
  have e := congrFun (represents_epsilon_unique h hu hinv hα hβ h' (C42_assign h hu hinv boundChi i0 x0 magnetic hα hβ epsilon).1 rfl rfl rfl) x
  simp only [withBound] at e
  have e2 := congrFun (congrFun e i0) i0
  simp only [Matrix.add_apply, Matrix.sub_apply, Matrix.smul_apply, Matrix.one_apply_eq, smul_eq_mul, mul_one] at e2
  apply hb
  have : (2 : ℂ) * boundChi x = 0 := by linear_combination e2
  simpa using this

/-- **C42 (the residue after an assignment).** A residue that has been read before is kept, although field and material no longer match. -/
theorem C42_residue_violates {r : WithTop ℝ} (hr : s.residue = some r) :
    (relativeResidue (setEpsilon boundChi i0 x0 magnetic alpha beta s epsilon)).1 = .ok r :=
  relativeResidue_cached (s := setEpsilon boundChi i0 x0 magnetic alpha beta s epsilon) hr

end

/-! ### C46 -/

/-- **C46 (square).** The permittivity times the permeability is the square of the index times the given permeability, for all indices. -/
theorem C46_product (index : Idx N → ℂ) (mu : Tensor n N) (x : Idx N) :
    (indexMedium index mu).1 x * (indexMedium index mu).2 x = (index x ^ 2) • mu x := by
  simp only [indexMedium, indexSign, smul_mul_smul_comm, one_mul]
  congr 1
  split_ifs <;> ring

/-- **C46 (positive index).** Where the real part of the index is not negative, the permittivity is its square and the permeability the given one. -/
theorem C46_positive (index : Idx N → ℂ) (mu : Tensor n N) (x : Idx N) (h : 0 ≤ (index x).re) :
    (indexMedium index mu).1 x = (index x ^ 2) • 1 ∧ (indexMedium index mu).2 x = mu x := by
  simp only [indexMedium, indexSign, if_neg (not_lt.2 h)]
  constructor
  · congr 1; ring
  · simp

/-- **C46 (negative index).** Where the real part of the index is negative, both are negated. -/
theorem C46_negative (index : Idx N → ℂ) (mu : Tensor n N) (x : Idx N) (h : (index x).re < 0) :
    (indexMedium index mu).1 x = -((index x ^ 2) • 1) ∧ (indexMedium index mu).2 x = -mu x := by
  simp only [indexMedium, indexSign, if_pos h]
  constructor
  · rw [← neg_smul]; congr 1; ring
  · rw [show (1 - 2 * 1 : ℂ) = -1 by norm_num, neg_smul, one_smul]

/-- **C46 (tensors).** The square of a tensor; the sign of its eigenvalues is not considered. -/
theorem C46_tensor (index mu : Tensor n N) (x : Idx N) :
    (indexMediumTensor index mu).1 x * (indexMediumTensor index mu).2 x = index x ^ 2 * mu x := by
  rw [indexMediumTensor, sq]

/-- **C46 (a number or a multiple of the identity).** The index -1 is not the same as the index `diag(-1, -1, -1)`. -/
theorem C46_tensor_violates (mu : Tensor n N) (i0 : Fin n) (x : Idx N) :
    (indexMedium (fun _ => -1) mu).1 x = -1 ∧ (indexMediumTensor (fun _ => (-1 : ℂ) • 1) mu).1 x = 1 ∧
      (1 : Matrix (Fin n) (Fin n) ℂ) ≠ -1 := by
  refine ⟨?_, ?_, ?_⟩
  · rw [(C46_negative (fun _ => -1) mu x (by simp)).1]; simp
  · simp [indexMediumTensor]
  · intro h
    have := congrFun (congrFun h i0) i0
    simp only [Matrix.one_apply_eq, Matrix.neg_apply] at this
    norm_num at this

section
variable (h : Represents m mag S s) (hu : Uniform m mag) (hinv : ∀ x, IsUnit (m.mu x).det) (i0 : Fin n) (x0 : Idx N) (magnetic : Bool)
  {alpha : ℂ} (hα : alpha.im ≠ 0) {beta : ℝ} (hβ : beta ≠ 0)
include h hu hinv hα hβ

/-- **C46 (assigning).** Without boundary, and for indices that are numbers with a real part that is not negative, assigning the index has the effect of constructing with it.
Full claim: for all indices and boundaries, see `C46_assign_negative_violates`, `C46_assign_tensor_violates` and `C42_assign_violates`. -/
theorem C46_assign_partial (index : Idx N → ℂ) (hi : ∀ x, 0 ≤ (index x).re) :
    Represents { m with epsilon := (indexMedium index m.mu).1, mu := (indexMedium index m.mu).2 } magnetic S
      (setIndex (fun _ => 0) i0 x0 magnetic alpha beta s fun x => index x • 1) := by
  have key := (C42_assign h hu hinv (fun _ => 0) i0 x0 magnetic hα hβ (fun x => Matrix.of fun i j => (index x • (1 : Matrix (Fin n) (Fin n) ℂ)) i j ^ 2)).1
  have e1 : (fun x => (Matrix.of fun i j => (index x • (1 : Matrix (Fin n) (Fin n) ℂ)) i j ^ 2) - (0 : ℂ) • (1 : Matrix (Fin n) (Fin n) ℂ)) =
      (indexMedium index m.mu).1 := by
    funext x
    rw [(C46_positive index m.mu x (hi x)).1, zero_smul, sub_zero]
    ext i j
    simp only [Matrix.of_apply, Matrix.smul_apply, smul_eq_mul, Matrix.one_apply]
    split_ifs <;> simp
  have e2 : (indexMedium index m.mu).2 = m.mu := funext fun x => (C46_positive index m.mu x (hi x)).2
  rw [e1] at key
  rw [e2]
  exact key

/-- **C46 (assigning a negative index).** The permeability of before is kept, and the permittivity has the opposite sign of that of the constructor, so that
the two differ wherever the index has a negative real part. -/
theorem C46_assign_negative_violates (index : Idx N → ℂ) {x : Idx N} (hi : (index x).re < 0) :
    Represents { m with epsilon := fun x => (index x ^ 2) • 1 } magnetic S
      (setIndex (fun _ => 0) i0 x0 magnetic alpha beta s fun x => index x • 1) ∧
    (indexMedium index m.mu).1 x ≠ (index x ^ 2) • (1 : Matrix (Fin n) (Fin n) ℂ) ∧ (indexMedium index m.mu).2 x ≠ m.mu x := by
  have key := (C42_assign h hu hinv (fun _ => 0) i0 x0 magnetic hα hβ (fun x => Matrix.of fun i j => (index x • (1 : Matrix (Fin n) (Fin n) ℂ)) i j ^ 2)).1
  have e1 : (fun x => (Matrix.of fun i j => (index x • (1 : Matrix (Fin n) (Fin n) ℂ)) i j ^ 2) - (0 : ℂ) • (1 : Matrix (Fin n) (Fin n) ℂ)) =
      fun x => (index x ^ 2) • 1 := by
    funext x
    rw [zero_smul, sub_zero]
    ext i j
    simp only [Matrix.of_apply, Matrix.smul_apply, smul_eq_mul, Matrix.one_apply]
    split_ifs <;> simp
  rw [e1] at key
  refine ⟨key, ?_, ?_⟩
  · rw [(C46_negative index m.mu x hi).1]
    intro e
    have e2 := congrFun (congrFun e i0) i0
    simp only [Matrix.neg_apply, Matrix.smul_apply, Matrix.one_apply_eq, smul_eq_mul, mul_one] at e2
    have e3 : index x ^ 2 = 0 := by linear_combination (-1 / 2 : ℂ) * e2
    have e4 : index x = 0 := by simpa using e3
    rw [e4] at hi
    simp at hi
  · rw [(C46_negative index m.mu x hi).2]
    intro e
    have e2 : m.mu x = 0 := by
      have h2 : (2 : ℂ) • m.mu x = 0 := by
        rw [two_smul]
        nth_rewrite 1 [← e]
        exact neg_add_cancel _
      exact (smul_eq_zero.1 h2).resolve_left two_ne_zero
    have e3 := hinv x
    haveI : Nonempty (Fin n) := ⟨i0⟩
    rw [e2, Matrix.det_zero] at e3
    exact not_isUnit_zero e3

end

/-- **C46 (assigning a tensor).** Assigning squares the elements of the array, constructing squares the matrix: for the index with rows (1, 1), (1, 1) in two of its components
the results differ. -/
theorem C46_assign_tensor_violates (mu : Tensor 3 N) (x : Idx N) :
    ∃ A : Matrix (Fin 3) (Fin 3) ℂ, (indexMediumTensor (fun _ => A) mu).1 x ≠ Matrix.of fun i j => A i j ^ 2 := by
  refine ⟨!![1, 1, 0; 1, 1, 0; 0, 0, 1], fun e => ?_⟩
  have := congrFun (congrFun e 0) 0
  simp [indexMediumTensor] at this

end Verif.Solver
