import Verif.Lemmas.SolverSymmetry

/-!
# C79: scalar calculations are vectorial calculations of fields that are polarized along an axis along which nothing varies
-/

namespace Verif.Solver

open Verif Verif.Fourier Verif.Backend Complex

variable {d : ℕ} {N : Fin d → ℕ}

/-- A field with the given polarization. -/
def polarized (p : Fin 3) (F : Field 1 N) : Field 3 N := fun c x => if c = p then F 0 x else 0

/-- An isotropic tensor. -/
noncomputable def isotropic (A : Tensor 1 N) : Tensor 3 N := fun x => A x 0 0 • (1 : Matrix (Fin 3) (Fin 3) ℂ)

/-- The state of a vectorial calculation with a polarized field in an isotropic material. -/
noncomputable def polarizedState (p : Fin 3) (s : State 1 N) : State 3 N where
  field := polarized p s.field
  source := polarized p s.source
  alpha := s.alpha
  beta := s.beta
  chiEE := isotropic s.chiEE
  chiEH := isotropic s.chiEH
  chiHE := isotropic s.chiHE
  chiHH := isotropic s.chiHH
  magnetic := false
  prevNorm := s.prevNorm
  iteration := s.iteration
  residue := s.residue

theorem mulField_polarized (p : Fin 3) (A : Tensor 1 N) (F : Field 1 N) : mulField (isotropic A) (polarized p F) = polarized p (mulField A F) := by
  funext c x
  simp only [mulField, isotropic, polarized, Matrix.smul_apply, Matrix.one_apply, smul_eq_mul, mul_ite, mul_one, mul_zero, ite_mul, zero_mul, Finset.univ_unique,
    Finset.sum_singleton, Fin.default_eq_zero]
  rw [Finset.sum_eq_single c]
  · split_ifs <;> simp_all
  · intro b _ hb; split_ifs <;> simp_all
  · simp

/-- Scalar calculations do not have magnetic contrast. -/
theorem chiOp_scalar (k : Fin d → Idx N → ℝ) (s : State 1 N) (F : Field 1 N) : chiOp k s F = mulField s.chiEE F := by
  cases h : s.magnetic with
  | false => exact chiOp_nonmagnetic k s h F
  | true => rw [chiOp_magnetic k s h, curl_one, curl_one, (mulField_isLinear s.chiHE).map_zero]; simp

theorem chiOp_polarized (k : Fin d → Idx N → ℝ) (p : Fin 3) (s : State 1 N) (F : Field 1 N) : chiOp k (polarizedState p s) (polarized p F) = polarized p (chiOp k s F) := by
  rw [chiOp_nonmagnetic k _ rfl, chiOp_scalar, ← mulField_polarized]
  rfl

/-- Nothing varies along the axis `p`: it is not an axis of the grid, or an axis of which all wavenumbers are zero. -/
def ConstantAlong (k : Fin d → Idx N → ℝ) (p : Fin 3) : Prop := ∀ (h : (p : ℕ) < d) x, k ⟨p, h⟩ x = 0

theorem ft_polarized (p : Fin 3) (F : Field 1 N) (c : Fin 3) : ft (polarized p F c) = polarized p (fun c => ft (F c)) c := by
  by_cases h : c = p
  · subst h
    show ft (fun x => if c = c then F 0 x else 0) = fun x => if c = c then ft (F 0) x else 0
    simp
  · show ft (fun x => if c = p then F 0 x else 0) = fun x => if c = p then ft (F 0) x else 0
    simp only [if_neg h]
    exact ft_isLinear.map_zero

theorem ift_polarized (p : Fin 3) (F : Field 1 N) (c : Fin 3) : ift (polarized p F c) = polarized p (fun c => ift (F c)) c := by
  by_cases h : c = p
  · subst h
    show ift (fun x => if c = c then F 0 x else 0) = fun x => if c = c then ift (F 0) x else 0
    simp
  · show ift (fun x => if c = p then F 0 x else 0) = fun x => if c = p then ift (F 0) x else 0
    simp only [if_neg h]
    exact ift_isLinear.map_zero

theorem greenFt_polarized (hd : d ≤ 3) {k : Fin d → Idx N → ℝ} (hk : ∀ x, origin x ↔ ∀ a, k a x = 0) {p : Fin 3} (hp : ConstantAlong k p) {alpha : ℂ} (hα : alpha ≠ 0) (F : Field 1 N) :
    greenFt k alpha (.vectorial hd) (polarized p F) = polarized p (greenFt k alpha .scalar F) := by
  have hsum : ∀ x, ∑ a, (k a x : ℂ) * polarized p F (Fin.castLE hd a) x = 0 := fun x => by
    refine Finset.sum_eq_zero fun a _ => ?_
    unfold polarized
    split_ifs with h
    · have : k a x = 0 := by
        have := hp (by rw [← h]; exact a.isLt) x
        convert this using 2
        exact Fin.ext (show (Fin.castLE hd a : ℕ) = p from congrArg Fin.val h)
      rw [this]; simp
    · simp
  funext c x
  simp only [greenFt]
  unfold longitudinalFt
  simp only [hsum]
  by_cases ho : origin x
  · have hk2 : k2 k x = 0 := by
      unfold k2
      exact Finset.sum_eq_zero fun a _ => by rw [(hk x).1 ho a]; ring
    simp only [if_pos ho, polarized, greenFt, gScalar, hk2]
    by_cases h : c = p
    · simp only [if_pos h]
      split_ifs
      · push_cast
        field_simp
        ring
      · ring
    · simp [if_neg h]
  · simp only [if_neg ho, polarized]
    by_cases h : c = p
    · simp [if_pos h, greenFt]
    · simp [if_neg h]

theorem green_polarized (hd : d ≤ 3) {k : Fin d → Idx N → ℝ} (hk : ∀ x, origin x ↔ ∀ a, k a x = 0) {p : Fin 3} (hp : ConstantAlong k p) {alpha : ℂ} (hα : alpha ≠ 0) (F : Field 1 N) :
    green (.vectorial hd) k alpha (polarized p F) = polarized p (green .scalar k alpha F) := by
  funext c
  unfold green convolve
  simp only [ft_polarized]
  rw [show (fun c => polarized p (fun c => ft (F c)) c) = polarized p (fun c => ft (F c)) from rfl, greenFt_polarized hd hk hp hα, ift_polarized]

theorem norm_polarized (p : Fin 3) (F : Field 1 N) : Backend.norm (polarized p F) = Backend.norm F := by
  unfold Backend.norm
  congr 1
  rw [Finset.sum_eq_single p]
  · simp [polarized]
  · intro c _ hc; simp [polarized, hc]
  · simp

theorem polarized_add (p : Fin 3) (F G : Field 1 N) : polarized p F + polarized p G = polarized p (F + G) := by
  funext c x
  simp only [polarized, Pi.add_apply]
  split_ifs <;> simp

theorem polarized_sub (p : Fin 3) (F G : Field 1 N) : polarized p F - polarized p G = polarized p (F - G) := by
  funext c x
  simp only [polarized, Pi.sub_apply]
  split_ifs <;> simp

theorem update_polarized (hd : d ≤ 3) {k : Fin d → Idx N → ℝ} (hk : ∀ x, origin x ↔ ∀ a, k a x = 0) {p : Fin 3} (hp : ConstantAlong k p) {s : State 1 N} (hα : s.alpha ≠ 0) :
    update (.vectorial hd) k (polarizedState p s) = polarized p (update .scalar k s) := by
  show chiOp k (polarizedState p s) (green (.vectorial hd) k s.alpha (chiOp k (polarizedState p s) (polarized p s.field) + polarized p s.source) - polarized p s.field) =
    polarized p (chiOp k s (green .scalar k s.alpha (chiOp k s s.field + s.source) - s.field))
  rw [chiOp_polarized, polarized_add, green_polarized hd hk hp hα, polarized_sub, chiOp_polarized]

theorem updateOperators_polarized (p : Fin 3) (s : State 1 N) (alpha : ℂ) : updateOperators (polarizedState p s) alpha = polarizedState p (updateOperators s alpha) := by
  have h1 : ∀ (z : ℂ) (A : Tensor 1 N), (fun x => z • isotropic A x) = isotropic fun x => z • A x := fun z A => by
    funext x; simp [isotropic, smul_smul]
  have h2 : ∀ (z : ℂ) (F : Field 1 N), (fun c x => polarized p F c x * z) = polarized p fun c x => F c x * z := fun z F => by
    funext c x; simp only [polarized]; split_ifs <;> simp
  have h3 : ∀ (z w : ℂ) (A : Tensor 1 N), (fun x => z • isotropic A x + w • (1 : Matrix (Fin 3) (Fin 3) ℂ)) = isotropic fun x => z • A x + w • (1 : Matrix (Fin 1) (Fin 1) ℂ) := fun z w A => by
    funext x
    simp [isotropic, smul_smul, add_smul]
  unfold updateOperators polarizedState
  dsimp only
  rw [h2, h1, h1, h1]
  congr 1
  rw [← h1, ← h3]

theorem step_polarized (hd : d ≤ 3) {k : Fin d → Idx N → ℝ} (hk : ∀ x, origin x ↔ ∀ a, k a x = 0) {p : Fin 3} (hp : ConstantAlong k p) {s : State 1 N} (hα : s.alpha ≠ 0) :
    step (.vectorial hd) k (polarizedState p s) = (step .scalar k s).map (polarizedState p) := by
  rw [step_unfold, step_unfold, update_polarized hd hk hp hα, norm_polarized, show (polarizedState p s).prevNorm = s.prevNorm from rfl]
  cases divFloat (Backend.norm (update .scalar k s)) s.prevNorm with
  | error e => rfl
  | ok r =>
    dsimp only
    split_ifs
    · simp only [Except.map, polarizedState, polarized_add]
    · exact congrArg Except.ok (updateOperators_polarized p { s with iteration := s.iteration + 1, residue := none } (increased s.alpha))

theorem run_alpha (kind : Kind d 1) (k : Fin d → Idx N → ℝ) {s : State 1 N} (hα : s.alpha.im ≠ 0) (i : ℕ) : ∀ t, run kind k s i = .ok t → t.alpha.im ≠ 0 := by
  induction i with
  | zero => intro t ht; obtain rfl := Except.ok.inj ht; exact hα
  | succ i ih =>
    intro t' ht'
    simp only [run] at ht'
    cases ht : run kind k s i with
    | error e => rw [ht] at ht'; exact (nomatch ht')
    | ok t =>
      rw [ht] at ht'
      dsimp only at ht'
      rw [step_unfold] at ht'
      cases hd : divFloat (Backend.norm (update kind k t)) t.prevNorm with
      | error e => rw [hd] at ht'; exact (nomatch ht')
      | ok r =>
        rw [hd] at ht'
        dsimp only at ht'
        split_ifs at ht' with hr
        · obtain rfl := Except.ok.inj ht'
          exact ih t ht
        · obtain rfl := Except.ok.inj ht'
          show (increased t.alpha).im ≠ 0
          unfold increased
          have : (1.5 : ℂ) = ((1.5 : ℝ) : ℂ) := by push_cast; rfl
          rw [this]
          simpa [show (1.5 : ℝ) ≠ 0 by norm_num] using ih t ht

theorem run_polarized (hd : d ≤ 3) {k : Fin d → Idx N → ℝ} (hk : ∀ x, origin x ↔ ∀ a, k a x = 0) {p : Fin 3} (hp : ConstantAlong k p) {s : State 1 N} (hα : s.alpha.im ≠ 0) (i : ℕ) :
    run (.vectorial hd) k (polarizedState p s) i = (run .scalar k s i).map (polarizedState p) := by
  induction i with
  | zero => rfl
  | succ i ih =>
    have h := run_alpha .scalar k hα i
    simp only [run, ih]
    cases hr : run .scalar k s i with
    | error e => rfl
    | ok t => exact step_polarized hd hk hp fun e => h t hr (by rw [e]; rfl)

/-- The isotropic material with the properties of that of a scalar calculation. -/
noncomputable def Medium.isotropic (m : Medium 1 N) : Medium 3 N := ⟨Solver.isotropic m.epsilon, Solver.isotropic m.xi, Solver.isotropic m.zeta, Solver.isotropic m.mu⟩

theorem prepare_polarized (p : Fin 3) (m : Medium 1 N) (hxi : ∀ x, m.xi x = 0) (hmu : ∀ x, m.mu x 0 0 ≠ 0) {alpha : ℂ} (hα : alpha.im ≠ 0) (beta : ℝ) (S F : Field 1 N) :
    prepare m.isotropic false alpha beta (polarized p S) (polarized p F) = polarizedState p (prepare m false alpha beta S F) := by
  have hinv : ∀ x, m.isotropic.muInv x = (m.mu x 0 0)⁻¹ • 1 := fun x => smul_one_inv (hmu x)
  have hinv1 : ∀ x, m.muInv x 0 0 = (m.mu x 0 0)⁻¹ := fun x => by
    unfold Medium.muInv
    have : m.mu x = m.mu x 0 0 • (1 : Matrix (Fin 1) (Fin 1) ℂ) := by
      ext i j
      rw [Fin.fin_one_eq_zero i, Fin.fin_one_eq_zero j]
      simp
    rw [this, smul_one_inv (by simpa using hmu x)]
    simp
  have hx3 : ∀ x, m.isotropic.xi x = 0 := fun x => by simp [Medium.isotropic, isotropic, hxi]
  rw [prepare_eq _ _ hα, prepare_eq _ _ hα]
  unfold prepared polarizedState
  congr 1
  · funext c x; simp only [polarized]; split_ifs <;> simp
  · funext x
    have h1 : m.isotropic.epsilonPrime x = m.epsilon x 0 0 • 1 := by unfold Medium.epsilonPrime; rw [hx3]; simp [Medium.isotropic, isotropic]
    have h2 : m.epsilonPrime x = m.epsilon x := by simp [Medium.epsilonPrime, hxi]
    rw [h1]
    simp only [isotropic, h2, Matrix.sub_apply, Matrix.smul_apply, Matrix.one_apply_eq, smul_eq_mul, mul_one, sub_smul, smul_smul]
  · funext x
    simp [Medium.chiEHBeta, hx3, hxi, isotropic]
  · funext x
    have h1 : m.isotropic.zeta x = m.zeta x 0 0 • 1 := rfl
    unfold Medium.chiHEBeta
    rw [hinv, h1]
    simp only [isotropic, Matrix.smul_apply, Matrix.mul_apply, Finset.univ_unique, Finset.sum_singleton, Fin.default_eq_zero, hinv1, smul_eq_mul, smul_mul_smul_comm, mul_one, smul_smul]
  · funext x
    rw [hinv]
    simp only [isotropic, Matrix.smul_apply, Matrix.sub_apply, Matrix.one_apply_eq, hinv1, smul_eq_mul]
    rw [mul_smul, sub_smul, one_smul, smul_smul]

/-- **C79 (executions).** For all grids, all polarizations along an axis that the grid does not have or along which it has one sample, all permittivities and constant or varying permeabilities other than zero of a calculation
without magnetic contrast, and all sources and initial fields: all states of the vectorial calculation have the field of the state of the scalar calculation as their only component; bias, norms and exceptions are the same. -/
theorem C79_run (g : Grid.Obj d ℝ) (hs : ∀ a, g.step a ≠ 0) {k0 : ℝ} (hk0 : k0 ≠ 0) (hd : d ≤ 3) (p : Fin 3) (hp : ∀ h : (p : ℕ) < d, g.shape ⟨p, h⟩ = 1) (m : Medium 1 g.shape)
    (hxi : ∀ x, m.xi x = 0) (hmu : ∀ x, m.mu x 0 0 ≠ 0) {alpha : ℂ} (hα : alpha.im ≠ 0) (beta : ℝ) (S F : Field 1 g.shape) (i : ℕ) :
    run (.vectorial hd) (backendK g k0) (prepare m.isotropic false alpha beta (polarized p S) (polarized p F)) i =
      (run .scalar (backendK g k0) (prepare m false alpha beta S F) i).map (polarizedState p) := by
  rw [prepare_polarized p m hxi hmu hα]
  refine run_polarized hd (backendK_origin g hs hk0) (fun h x => ?_) (by rw [prepare_eq _ _ hα]; exact hα) i
  have h1 := C31_backend g hs hk0 ⟨p, h⟩ x
  rw [C24_kOf g fun a _ => hs a] at h1
  have h2 : (x ⟨p, h⟩ : ℕ) = 0 := by have := (x ⟨p, h⟩).isLt; have := hp h; omega
  rw [h2, if_pos (by have := hp h; omega)] at h1
  simpa [hk0] using h1.symm

/-- **C79 (fields).** The electric field of a vectorial state has the given polarization and the values of the scalar field. -/
theorem C79_field (p : Fin 3) (k0 : ℝ) (s : State 1 N) : getE k0 (polarizedState p s) = polarized p (getE k0 s) ∧ getSource (polarizedState p s) = polarized p (getSource s) ∧
    (relativeResidue (polarizedState p s)).1 = (relativeResidue s).1 := by
  refine ⟨?_, ?_, ?_⟩
  · funext c x
    simp only [getE, polarizedState, polarized]
    split_ifs <;> simp
  · funext c x
    simp only [getSource, polarizedState, polarized]
    split_ifs <;> simp
  · unfold relativeResidue
    rw [show (polarizedState p s).residue = s.residue from rfl, show (polarizedState p s).prevNorm = s.prevNorm from rfl, show (polarizedState p s).field = polarized p s.field from rfl, norm_polarized]
    cases s.residue with
    | some r => rfl
    | none =>
      dsimp only
      split <;> rfl

/-- The hypotheses can be met: a grid with two axes and the polarization along the third, as well as a grid with one axis and both transverse polarizations. -/
example : (∀ h : ((2 : Fin 3) : ℕ) < 2, (![8, 6] : Fin 2 → ℕ) ⟨2, h⟩ = 1) ∧ (∀ h : ((1 : Fin 3) : ℕ) < 1, (![8] : Fin 1 → ℕ) ⟨1, h⟩ = 1) ∧
    ∀ h : ((1 : Fin 3) : ℕ) < 3, (![8, 1, 6] : Fin 3 → ℕ) ⟨1, h⟩ = 1 := ⟨fun h => absurd h (by decide), fun h => absurd h (by decide), fun _ => rfl⟩

end Verif.Solver
