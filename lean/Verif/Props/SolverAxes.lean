import Verif.Lemmas.SolverAxes

/-!
# C98: names and directions of the axes

A calculation with permuted axes, or with the mirror image of a problem, gives the permuted or mirrored fields in each iteration.
-/

namespace Verif.Solver

open Verif Verif.Fourier Verif.Backend Complex Matrix

variable {d n : ℕ} {N N' : Fin d → ℕ}

/-- The second field is the first one with other axes: component `σ c` at the new point is `ε c` times component `c`, up to a common factor. -/
def MovedField (σ : Equiv.Perm (Fin n)) (ε : Fin n → ℝ) (point : Idx N ≃ Idx N') (z : ℝ) (F : Field n N) (F' : Field n N') : Prop := ∀ c x, F' (σ c) (point x) = z * ε c * F c x

/-- The second tensor is the first one with other axes. -/
def MovedTensor (σ : Equiv.Perm (Fin n)) (ε : Fin n → ℝ) (point : Idx N ≃ Idx N') (z : ℝ) (A : Tensor n N) (A' : Tensor n N') : Prop :=
  ∀ i j x, A' (point x) (σ i) (σ j) = z * ε i * ε j * A x i j

/-- The second material is the first one with other axes.  The tensors that couple electric and magnetic fields are pseudo-tensors. -/
structure MovedMedium (σ : Equiv.Perm (Fin n)) (ε : Fin n → ℝ) (point : Idx N ≃ Idx N') (z : ℝ) (m : Medium n N) (m' : Medium n N') : Prop where
  epsilon : MovedTensor σ ε point 1 m.epsilon m'.epsilon
  xi : MovedTensor σ ε point z m.xi m'.xi
  zeta : MovedTensor σ ε point z m.zeta m'.zeta
  mu : MovedTensor σ ε point 1 m.mu m'.mu

/-- All that can be obtained from the second `Solution` is what can be obtained from the first one, with other axes.  The magnetic fields are pseudo-vectors. -/
structure MovedSolution (co : Const) (k0 : ℝ) (k : Fin d → Idx N → ℝ) (k' : Fin d → Idx N' → ℝ) (i0 : Fin n) (x0 : Idx N) (x0' : Idx N') (σ : Equiv.Perm (Fin n)) (ε : Fin n → ℝ)
    (point : Idx N ≃ Idx N') (z : ℝ) (s : State n N) (s' : State n N') : Prop where
  E : MovedField σ ε point 1 (getE k0 s) (getE k0 s')
  B : MovedField σ ε point z (getB co k0 k s) (getB co k0 k' s')
  H : MovedField σ ε point z (getH co k0 k i0 x0 s) (getH co k0 k' i0 x0' s')
  D : MovedField σ ε point 1 (getD co k0 k i0 x0 s) (getD co k0 k' i0 x0' s')
  source : MovedField σ ε point 1 (getSource s) (getSource s')
  S : ∀ c x, getS co k0 k' i0 x0' s' (σ c) (point x) = ε c * getS co k0 k i0 x0 s c x
  energy : ∀ x, getEnergy co k0 k' i0 x0' s' (point x) = getEnergy co k0 k i0 x0 s x
  stress : ∀ i j x, getStress co k0 k' i0 x0' s' (σ i) (σ j) (point x) = ε i * ε j * getStress co k0 k i0 x0 s i j x
  alpha : s'.alpha = s.alpha
  iteration : s'.iteration = s.iteration
  residue : (relativeResidue s').1 = (relativeResidue s).1

/-- Both executions raise the same exception, or end in states that are related. -/
def Both (R : State n N → State n N' → Prop) : Except PyErr (State n N) → Except PyErr (State n N') → Prop
  | .ok s, .ok s' => R s s'
  | .error e, .error e' => e = e'
  | _, _ => False

section
variable {k : Fin d → Idx N → ℝ} {k' : Fin d → Idx N' → ℝ} (t : Turn n k k') {σ : Equiv.Perm (Fin n)} {ε : Fin n → ℝ} (ht : t.matrix = signedPermutation σ ε) (hε : ∀ c, ε c * ε c = 1)
include ht

theorem Turn.sum_signed (c : Fin n) (v : Fin n → ℂ) : ∑ j, t.cmatrix (σ c) j * v j = ε c * v c := by
  rw [Finset.sum_eq_single c]
  · simp [Turn.cmatrix, ht, signedPermutation]
  · intro b _ hb
    have : t.matrix (σ c) b = 0 := by
      rw [ht]
      exact if_neg fun h => hb (σ.injective h).symm
    simp [Turn.cmatrix, this]
  · exact fun h => absurd (Finset.mem_univ _) h

theorem Turn.field_signed (F : Field n N) (c : Fin n) (x : Idx N) : t.field F (σ c) (t.point x) = ε c * F c x := by
  unfold Turn.field
  rw [Equiv.symm_apply_apply]
  exact t.sum_signed ht c fun j => F j x

theorem Turn.tensor_signed (A : Tensor n N) (i j : Fin n) (x : Idx N) : t.tensor A (t.point x) (σ i) (σ j) = ε i * ε j * A x i j := by
  unfold Turn.tensor
  rw [Equiv.symm_apply_apply]
  have h1 : ∀ l, (t.cmatrix * A x) (σ i) l = ε i * A x i l := fun l => t.sum_signed ht i fun b => A x b l
  rw [Matrix.mul_apply]
  simp only [h1, Matrix.transpose_apply]
  rw [Finset.sum_congr rfl fun l _ => mul_comm (↑(ε i) * A x i l) (t.cmatrix (σ j) l), t.sum_signed ht j fun l => ↑(ε i) * A x i l]
  ring

theorem field_of_moved {F : Field n N} {F' : Field n N'} (h : MovedField σ ε t.point 1 F F') : F' = t.field F := by
  funext c x'
  obtain ⟨c, rfl⟩ := σ.surjective c
  obtain ⟨x, rfl⟩ := t.point.surjective x'
  rw [h c x, t.field_signed ht]
  simp

theorem tensor_of_moved {z : ℝ} {A : Tensor n N} {A' : Tensor n N'} (h : MovedTensor σ ε t.point z A A') : A' = (z : ℂ) • t.tensor A := by
  funext x'
  ext i j
  obtain ⟨i, rfl⟩ := σ.surjective i
  obtain ⟨j, rfl⟩ := σ.surjective j
  obtain ⟨x, rfl⟩ := t.point.surjective x'
  rw [h i j x, Pi.smul_apply, Matrix.smul_apply, t.tensor_signed ht, smul_eq_mul]
  ring

theorem medium_of_moved {m : Medium n N} {m' : Medium n N'} (h : MovedMedium σ ε t.point t.matrix.det m m') : m' = m.turn t := by
  cases m' with
  | mk e x z u =>
    obtain ⟨h1, h2, h3, h4⟩ := h
    have e1 := tensor_of_moved t ht h1
    have e2 := tensor_of_moved t ht h2
    have e3 := tensor_of_moved t ht h3
    have e4 := tensor_of_moved t ht h4
    rw [ofReal_one, one_smul] at e1 e4
    rw [t.orientation_re] at e2 e3
    dsimp only at e1 e2 e3 e4
    rw [e1, e2, e3, e4]
    rfl

theorem moved_field (F : Field n N) : MovedField σ ε t.point 1 F (t.field F) := fun c x => by
  rw [t.field_signed ht]
  simp

theorem moved_pseudo (F : Field n N) : MovedField σ ε t.point t.matrix.det F (t.orientation • t.field F) := fun c x => by
  rw [Pi.smul_apply, Pi.smul_apply, t.field_signed ht, smul_eq_mul, t.orientation_re]
  ring

omit ht in
theorem getS_turn (kind : Kind d n) (co : Const) (k0 : ℝ) (i0 : Fin n) (x0 : Idx N) (x0' : Idx N') (s : State n N)
    (hu : s.magnetic = false → ∃ z : ℂ, ∀ x, s.chiHH x = z • (1 : Matrix (Fin n) (Fin n) ℂ)) (c : Fin n) (x' : Idx N') :
    ((getS co k0 k' i0 x0' (t.state s) c x' : ℝ) : ℂ) = ∑ j, t.cmatrix c j * (getS co k0 k i0 x0 s j (t.point.symm x') : ℝ) := by
  cases kind with
  | scalar =>
    have h0 : ∀ {N : Fin d → ℕ} (k : Fin d → Idx N → ℝ) (x0 : Idx N) (s : State 1 N) x, getS co k0 k i0 x0 s 0 x = 0 := by
      intro N k x0 s x
      unfold getS cross otherDims
      simp
    obtain rfl : c = 0 := Subsingleton.elim _ _
    rw [h0, Finset.sum_eq_zero]
    · simp
    · intro j _
      obtain rfl : j = 0 := Subsingleton.elim _ _
      rw [h0]
      simp
  | vectorial hd =>
    have hS : ∀ {N : Fin d → ℕ} (k : Fin d → Idx N → ℝ) (x0 : Idx N) (s : State 3 N) c x, getS co k0 k i0 x0 s c x =
        1 / 2 * (((fun c => getE k0 s c x) ⨯₃ fun c => (starRingEnd ℂ) (getH co k0 k i0 x0 s c x)) c).re := by
      intro N k x0 s c x
      unfold getS
      rw [← congrFun (C24_cross (getE k0 s) (fun c x => (starRingEnd ℂ) (getH co k0 k i0 x0 s c x)) x) c]
    have hH : (fun c => (starRingEnd ℂ) (getH co k0 k' i0 x0' (t.state s) c x')) =
        t.orientation • (t.cmatrix *ᵥ fun c => (starRingEnd ℂ) (getH co k0 k i0 x0 s c (t.point.symm x'))) := by
      funext c
      rw [getH_turn t (.vectorial hd) co k0 i0 x0 x0' s hu]
      simp only [Pi.smul_apply, smul_eq_mul, map_mul, t.orientation_conj, field_conj]
      rfl
    have hE : (fun c => getE k0 (t.state s) c x') = t.cmatrix *ᵥ fun c => getE k0 s c (t.point.symm x') := by
      rw [getE_turn]
      rfl
    have hz : ∀ z : Fin 3 → ℂ, ((t.cmatrix *ᵥ z) c).re = ∑ j, t.matrix c j * (z j).re := by
      intro z
      show (∑ j, t.cmatrix c j * z j).re = _
      rw [Complex.re_sum]
      exact Finset.sum_congr rfl fun j _ => by rw [show t.cmatrix c j = ((t.matrix c j : ℝ) : ℂ) from rfl, Complex.re_ofReal_mul]
    rw [hS, hE, hH, map_smul, cross_orthogonal _ t.corthogonal, smul_smul]
    rw [show t.cmatrix.det = t.orientation from rfl, t.orientation_sq, one_smul, hz]
    simp only [hS]
    rw [Finset.mul_sum]
    push_cast
    refine Finset.sum_congr rfl fun j _ => ?_
    rw [show t.cmatrix c j = ((t.matrix c j : ℝ) : ℂ) from rfl]
    ring

omit ht in
theorem getEnergy_turn (kind : Kind d n) (co : Const) (k0 : ℝ) (i0 : Fin n) (x0 : Idx N) (x0' : Idx N') (s : State n N)
    (hu : s.magnetic = false → ∃ z : ℂ, ∀ x, s.chiHH x = z • (1 : Matrix (Fin n) (Fin n) ℂ)) (x' : Idx N') :
    getEnergy co k0 k' i0 x0' (t.state s) x' = getEnergy co k0 k i0 x0 s (t.point.symm x') := by
  unfold getEnergy
  rw [getE_turn, getB_turn t kind, getH_turn t kind co k0 i0 x0 x0' s hu, getD_turn t kind co k0 i0 x0 x0' s hu]
  simp only [← Complex.re_sum]
  rw [sum_field]
  have h : ∑ c, (t.orientation • t.field (getB co k0 k s)) c x' * (starRingEnd ℂ) ((t.orientation • t.field (getH co k0 k i0 x0 s)) c x') =
      ∑ c, t.field (getB co k0 k s) c x' * (starRingEnd ℂ) (t.field (getH co k0 k i0 x0 s) c x') := by
    refine Finset.sum_congr rfl fun c _ => ?_
    simp only [Pi.smul_apply, smul_eq_mul, map_mul, t.orientation_conj]
    linear_combination (t.field (getB co k0 k s) c x' * (starRingEnd ℂ) (t.field (getH co k0 k i0 x0 s) c x')) * t.orientation_sq
  rw [h, sum_field]

include hε in
theorem getStress_signed (kind : Kind d n) (co : Const) (k0 : ℝ) (i0 : Fin n) (x0 : Idx N) (x0' : Idx N') (s : State n N)
    (hu : s.magnetic = false → ∃ z : ℂ, ∀ x, s.chiHH x = z • (1 : Matrix (Fin n) (Fin n) ℂ)) (i j : Fin n) (x : Idx N) :
    getStress co k0 k' i0 x0' (t.state s) (σ i) (σ j) (t.point x) = ε i * ε j * getStress co k0 k i0 x0 s i j x := by
  unfold getStress
  dsimp only
  rw [getE_turn, getH_turn t kind co k0 i0 x0 x0' s hu]
  have hH : ∑ c, ‖(t.orientation • t.field (getH co k0 k i0 x0 s)) c (t.point x)‖ ^ 2 = ∑ c, ‖t.field (getH co k0 k i0 x0 s) c (t.point x)‖ ^ 2 := by
    refine Finset.sum_congr rfl fun c _ => ?_
    rw [Pi.smul_apply, Pi.smul_apply, norm_smul]
    have h1 : ‖t.orientation‖ ^ 2 = 1 := by
      have := congrArg (fun z : ℂ => ‖z‖) t.orientation_sq
      rw [norm_mul, norm_one] at this
      rw [pow_two, this]
    rw [mul_pow, h1, one_mul]
  have ho : outer (t.orientation • t.field (getH co k0 k i0 x0 s)) (t.orientation • t.field (getH co k0 k i0 x0 s)) (σ i) (σ j) (t.point x) =
      ε i * ε j * outer (getH co k0 k i0 x0 s) (getH co k0 k i0 x0 s) i j x := by
    unfold outer
    simp only [Pi.smul_apply, smul_eq_mul, map_mul, t.orientation_conj, t.field_signed ht, conj_ofReal]
    linear_combination (ε i * getH co k0 k i0 x0 s i x * (ε j * (starRingEnd ℂ) (getH co k0 k i0 x0 s j x))) * t.orientation_sq
  have he : outer (t.field (getE k0 s)) (t.field (getE k0 s)) (σ i) (σ j) (t.point x) = ε i * ε j * outer (getE k0 s) (getE k0 s) i j x := by
    unfold outer
    simp only [map_mul, t.field_signed ht, conj_ofReal]
    ring
  rw [hH, ho, he, sum_norm_field, sum_norm_field, Equiv.symm_apply_apply]
  have hij : (if σ i = σ j then (1 : ℂ) else 0) = ε i * ε j * if i = j then 1 else 0 := by
    by_cases h : i = j
    · rw [h, if_pos rfl, if_pos rfl]
      have := hε j
      rw [mul_one]
      exact_mod_cast this.symm
    · rw [if_neg h, if_neg fun e => h (σ.injective e), mul_zero]
  rw [hij]
  have hr : ∀ (a b : ℝ) (z : ℂ), ((a : ℂ) * b * z).re = a * b * z.re := fun a b z => by rw [← ofReal_mul, Complex.re_ofReal_mul]
  rw [← hr]
  congr 1
  ring

include hε in
theorem moved_solution (kind : Kind d n) (co : Const) (k0 : ℝ) (i0 : Fin n) (x0 : Idx N) (x0' : Idx N') (s : State n N)
    (hu : s.magnetic = false → ∃ z : ℂ, ∀ x, s.chiHH x = z • (1 : Matrix (Fin n) (Fin n) ℂ)) :
    MovedSolution co k0 k k' i0 x0 x0' σ ε t.point t.matrix.det s (t.state s) where
  E := by
    rw [getE_turn]
    exact moved_field t ht _
  B := by
    rw [getB_turn t kind]
    exact moved_pseudo t ht _
  H := by
    rw [getH_turn t kind co k0 i0 x0 x0' s hu]
    exact moved_pseudo t ht _
  D := by
    rw [getD_turn t kind co k0 i0 x0 x0' s hu]
    exact moved_field t ht _
  source := by
    rw [getSource_turn]
    exact moved_field t ht _
  S := by
    intro c x
    have h := getS_turn t kind co k0 i0 x0 x0' s hu (σ c) (t.point x)
    rw [Equiv.symm_apply_apply, t.sum_signed ht c fun j => ((getS co k0 k i0 x0 s j x : ℝ) : ℂ)] at h
    exact_mod_cast h
  energy := by
    intro x
    rw [getEnergy_turn t kind co k0 i0 x0 x0' s hu, Equiv.symm_apply_apply]
  stress := getStress_signed t ht hε kind co k0 i0 x0 x0' s hu
  alpha := rfl
  iteration := rfl
  residue := by
    unfold relativeResidue
    rw [show (t.state s).residue = s.residue from rfl, show (t.state s).prevNorm = s.prevNorm from rfl, show (t.state s).field = t.field s.field from rfl, norm_turn]
    cases s.residue with
    | some r => rfl
    | none =>
      dsimp only
      split <;> rfl

end

/-- The permeability is constant and isotropic if the material is not treated as magnetic. -/
def Medium.Plain (m : Medium n N) (mag : Bool) : Prop := mag = false → ∃ z : ℂ, ∀ x, m.mu x = z • (1 : Matrix (Fin n) (Fin n) ℂ)

theorem plain_run {m : Medium n N} {mag : Bool} (hm : m.Plain mag) {kind : Kind d n} {k : Fin d → Idx N → ℝ} {alpha : ℂ} {beta : ℝ} {S F : Field n N} {i : ℕ} {s : State n N}
    (h : run kind k (prepare m mag alpha beta S F) i = .ok s) : s.magnetic = false → ∃ z : ℂ, ∀ x, s.chiHH x = z • (1 : Matrix (Fin n) (Fin n) ℂ) := by
  have key : ∀ (i : ℕ) (s : State n N), run kind k (prepare m mag alpha beta S F) i = .ok s → s.magnetic = mag ∧ ((∃ z : ℂ, ∀ x, m.mu x = z • (1 : Matrix (Fin n) (Fin n) ℂ)) →
      ∃ z : ℂ, ∀ x, s.chiHH x = z • (1 : Matrix (Fin n) (Fin n) ℂ)) := by
    intro i
    induction i with
    | zero =>
      intro s h
      obtain rfl : prepare m mag alpha beta S F = s := Except.ok.inj h
      refine ⟨rfl, ?_⟩
      rintro ⟨z, hz⟩
      refine ⟨((alpha.im : ℂ) / alpha.im) * ((I / (alpha.im : ℂ)) * (1 - (1 / (beta : ℂ)) * z⁻¹)), fun x => ?_⟩
      show ((alpha.im : ℂ) / alpha.im) • ((I / (alpha.im : ℂ)) • (1 - (1 / (beta : ℂ)) • (m.mu x)⁻¹)) = _
      have hi : (z • (1 : Matrix (Fin n) (Fin n) ℂ))⁻¹ = z⁻¹ • 1 := by
        by_cases hz : z = 0
        · rw [hz]
          simp
        · rw [Matrix.inv_eq_right_inv]
          rw [Matrix.smul_mul, Matrix.mul_smul, Matrix.mul_one, smul_smul, mul_inv_cancel₀ hz, one_smul]
      rw [hz, hi, smul_smul, smul_smul]
      simp only [mul_smul, sub_smul, one_smul, mul_sub, smul_sub]
    | succ i ih =>
      intro s h
      simp only [run] at h
      cases hr : run kind k (prepare m mag alpha beta S F) i with
      | error e => rw [hr] at h; exact nomatch h
      | ok t =>
        rw [hr] at h
        obtain ⟨h1, h2⟩ := ih t hr
        have h' : step kind k t = .ok s := h
        rw [step_unfold] at h'
        cases hd : divFloat (Backend.norm (update kind k t)) t.prevNorm with
        | error e => rw [hd] at h'; exact nomatch h'
        | ok r =>
          rw [hd] at h'
          dsimp only at h'
          split_ifs at h'
          · obtain rfl := Except.ok.inj h'
            exact ⟨h1, h2⟩
          · obtain rfl := Except.ok.inj h'
            refine ⟨h1, fun hz => ?_⟩
            obtain ⟨z, hz⟩ := h2 hz
            refine ⟨((t.alpha.im : ℂ) / ((increased t.alpha).im : ℂ)) * z, fun x => ?_⟩
            show ((t.alpha.im : ℂ) / ((increased t.alpha).im : ℂ)) • t.chiHH x = _
            rw [hz, smul_smul]
  intro hs
  obtain ⟨h1, h2⟩ := key i s h
  exact h2 (hm (h1 ▸ hs))

theorem moved_run {k : Fin d → Idx N → ℝ} {k' : Fin d → Idx N' → ℝ} (t : Turn n k k') {σ : Equiv.Perm (Fin n)} {ε : Fin n → ℝ} (ht : t.matrix = signedPermutation σ ε)
    (hε : ∀ c, ε c * ε c = 1) (kind : Kind d n) (co : Const) (k0 : ℝ) (i0 : Fin n) (x0 : Idx N) (x0' : Idx N') {m : Medium n N} {m' : Medium n N'} {S F : Field n N} {S' F' : Field n N'}
    (hm : MovedMedium σ ε t.point t.matrix.det m m') (hS : MovedField σ ε t.point 1 S S') (hF : MovedField σ ε t.point 1 F F') {mag : Bool} (hp : m.Plain mag) (alpha : ℂ) (beta : ℝ) (i : ℕ) :
    Both (MovedSolution co k0 k k' i0 x0 x0' σ ε t.point t.matrix.det) (run kind k (prepare m mag alpha beta S F) i) (run kind k' (prepare m' mag alpha beta S' F') i) := by
  rw [medium_of_moved t ht hm, field_of_moved t ht hS, field_of_moved t ht hF, prepare_turn, run_map t.state (fun s => step_turn t kind s)]
  cases h : run kind k (prepare m mag alpha beta S F) i with
  | error e => exact rfl
  | ok s => exact moved_solution t ht hε kind co k0 i0 x0 x0' s (plain_run hp h)

theorem det_signedPermutation (σ : Equiv.Perm (Fin n)) (ε : Fin n → ℝ) : (signedPermutation σ ε).det = ((Equiv.Perm.sign σ : ℤˣ) : ℤ) * ∏ c, ε c := by
  have h : signedPermutation σ ε = (Matrix.diagonal ε).submatrix σ.symm id := by
    ext i j
    simp only [signedPermutation, Matrix.submatrix_apply, Matrix.diagonal_apply, id]
    by_cases e : i = σ j
    · rw [if_pos e, if_pos (by rw [e, σ.symm_apply_apply]), e, σ.symm_apply_apply]
    · rw [if_neg e, if_neg fun h => e (by rw [← h, σ.apply_symm_apply])]
  rw [h, Matrix.det_permute, Matrix.det_diagonal, Equiv.Perm.sign_symm]

/-- **C98 (permutations).** For all permutations of the axes: where the material, the source and the initial field have the new axes, so do all fields in all iterations, for scalar and
vectorial calculations with one, two or three axes.  Biases, residues and exceptions are the same. -/
theorem C98_permutation (kind : Kind d n) (g : Grid.Obj d ℝ) (hs : ∀ a, g.step a ≠ 0) {k0 : ℝ} (hk0 : k0 ≠ 0) (τ : Equiv.Perm (Fin d)) (co : Const) (i0 : Fin n) (x0 : Idx g.shape)
    (x0' : Idx (permutedGrid g τ).shape) {m : Medium n g.shape} {m' : Medium n (permutedGrid g τ).shape} {S F : Field n g.shape} {S' F' : Field n (permutedGrid g τ).shape}
    (hm : MovedMedium (permutedComponent kind τ) (fun _ => 1) (permutedPoint g τ) (((Equiv.Perm.sign (permutedComponent kind τ) : ℤˣ) : ℤ) : ℝ) m m')
    (hS : MovedField (permutedComponent kind τ) (fun _ => 1) (permutedPoint g τ) 1 S S') (hF : MovedField (permutedComponent kind τ) (fun _ => 1) (permutedPoint g τ) 1 F F')
    {mag : Bool} (hp : m.Plain mag) (alpha : ℂ) (beta : ℝ) (i : ℕ) :
    Both (MovedSolution co k0 (backendK g k0) (backendK (permutedGrid g τ) k0) i0 x0 x0' (permutedComponent kind τ) (fun _ => 1) (permutedPoint g τ)
        (((Equiv.Perm.sign (permutedComponent kind τ) : ℤˣ) : ℤ) : ℝ))
      (run kind (backendK g k0) (prepare m mag alpha beta S F) i) (run kind (backendK (permutedGrid g τ) k0) (prepare m' mag alpha beta S' F') i) := by
  let t := permutation kind g hs hk0 τ
  have hdet : t.matrix.det = (((Equiv.Perm.sign (permutedComponent kind τ) : ℤˣ) : ℤ) : ℝ) := by
    show (signedPermutation _ _).det = _
    rw [det_signedPermutation]
    simp
  rw [← hdet] at hm ⊢
  exact moved_run t rfl (fun _ => mul_one 1) kind co k0 i0 x0 x0' hm hS hF hp alpha beta i

/-- **C98 (choices).** The code treats a material with other axes as magnetic if and only if it treats the material so, and chooses the same reference permeability if it is constant and isotropic. -/
theorem C98_choice {σ : Equiv.Perm (Fin n)} {ε : Fin n → ℝ} (hε : ∀ c, ε c * ε c = 1) {point : Idx N ≃ Idx N'} {z : ℝ} (hz : z * z = 1) {m : Medium n N} {m' : Medium n N'}
    (h : MovedMedium σ ε point z m m') (muScalar : Bool) (i0 : Fin n) (x0 : Idx N) (x0' : Idx N') :
    m'.isMagnetic muScalar x0' = m.isMagnetic muScalar x0 ∧ (m.Plain false → m'.betaNonMagnetic i0 x0' = m.betaNonMagnetic i0 x0) := by
  have hne : ∀ c, ((ε c : ℝ) : ℂ) ≠ 0 := fun c => ofReal_ne_zero.2 fun h0 => by have := hε c; rw [h0] at this; norm_num at this
  have hzn : ((z : ℝ) : ℂ) ≠ 0 := ofReal_ne_zero.2 fun h0 => by rw [h0] at hz; norm_num at hz
  have h0 : ∀ {A : Tensor n N} {A' : Tensor n N'}, MovedTensor σ ε point z A A' → ((∀ x', A' x' = 0) ↔ ∀ x, A x = 0) := by
    intro A A' hA
    constructor
    · intro hx x
      ext i j
      have h1 := hA i j x
      rw [hx, Matrix.zero_apply] at h1
      exact (mul_eq_zero.1 h1.symm).resolve_left (mul_ne_zero (mul_ne_zero hzn (hne i)) (hne j))
    · intro hx x'
      obtain ⟨x, rfl⟩ := point.surjective x'
      ext i j
      obtain ⟨i, rfl⟩ := σ.surjective i
      obtain ⟨j, rfl⟩ := σ.surjective j
      rw [hA i j x, hx, Matrix.zero_apply, Matrix.zero_apply, mul_zero]
  have hmu : ∀ x y, m'.mu (point x) = m'.mu (point y) ↔ m.mu x = m.mu y := by
    intro x y
    constructor
    · intro hx
      ext i j
      have h1 := h.mu i j x
      rw [hx, h.mu i j y] at h1
      exact (mul_left_cancel₀ (mul_ne_zero (mul_ne_zero (by simp) (hne i)) (hne j)) h1).symm
    · intro hx
      ext i j
      obtain ⟨i, rfl⟩ := σ.surjective i
      obtain ⟨j, rfl⟩ := σ.surjective j
      rw [h.mu i j x, h.mu i j y, hx]
  have hall : (∀ x', m'.mu x' = m'.mu x0') ↔ ∀ x, m.mu x = m.mu x0 := by
    obtain ⟨y0, rfl⟩ := point.surjective x0'
    constructor
    · intro hx x
      rw [(hmu x y0).1 (hx _), (hmu x0 y0).1 (hx _)]
    · intro hx x'
      obtain ⟨x, rfl⟩ := point.surjective x'
      exact (hmu x y0).2 (by rw [hx x, hx y0])
  constructor
  · unfold Medium.isMagnetic
    simp only [h0 h.xi, h0 h.zeta, hall]
  · intro hp
    obtain ⟨w, hw⟩ := hp rfl
    have hw' : m'.mu x0' = w • 1 := by
      obtain ⟨y0, rfl⟩ := point.surjective x0'
      ext i j
      obtain ⟨i, rfl⟩ := σ.surjective i
      obtain ⟨j, rfl⟩ := σ.surjective j
      rw [h.mu i j y0, hw, Matrix.smul_apply, Matrix.smul_apply]
      by_cases e : i = j
      · subst e
        rw [Matrix.one_apply_eq, Matrix.one_apply_eq]
        have : ((ε i : ℝ) : ℂ) * ε i = 1 := by exact_mod_cast hε i
        rw [ofReal_one, one_mul, this, one_mul]
      · rw [Matrix.one_apply_ne e, Matrix.one_apply_ne fun h => e (σ.injective h)]
        simp
    unfold Medium.betaNonMagnetic Medium.muInv
    rw [hw, hw']

/-- For every problem there is one with the new axes, for instance if the first two of three axes are exchanged: the third component stays where it is. -/
example (g : Grid.Obj 3 ℝ) (hs : ∀ a, g.step a ≠ 0) (m : Medium 3 g.shape) (S : Field 3 g.shape) :
    (∃ m', MovedMedium (permutedComponent (.vectorial le_rfl) (Equiv.swap 0 1)) (fun _ => 1) (permutedPoint g (Equiv.swap 0 1)) (-1) m m') ∧
      (∃ S', MovedField (permutedComponent (.vectorial le_rfl) (Equiv.swap 0 1)) (fun _ => 1) (permutedPoint g (Equiv.swap 0 1)) 1 S S') ∧
      permutedComponent (.vectorial (le_refl 3)) (Equiv.swap 0 1) 0 = 1 ∧ permutedComponent (.vectorial (le_refl 3)) (Equiv.swap 0 1) 2 = 2 ∧
      Equiv.Perm.sign (permutedComponent (.vectorial (le_refl 3)) (Equiv.swap 0 1)) = -1 := by
  let t := permutation (.vectorial (le_refl 3)) g hs one_ne_zero (Equiv.swap 0 1)
  have hsign : Equiv.Perm.sign (permutedComponent (.vectorial (le_refl 3)) (Equiv.swap 0 1)) = -1 := by decide +kernel
  have ho : t.orientation = -1 := by
    rw [← t.orientation_re, show t.matrix = signedPermutation (permutedComponent (.vectorial (le_refl 3)) (Equiv.swap 0 1)) fun _ => 1 from rfl, det_signedPermutation, hsign]
    simp
  have h1 := t.tensor_signed (σ := permutedComponent (.vectorial (le_refl 3)) (Equiv.swap 0 1)) (ε := fun _ => 1) rfl
  refine ⟨⟨m.turn t, ?_, ?_, ?_, ?_⟩, ⟨t.field S, moved_field t rfl S⟩, by decide +kernel, by decide +kernel, hsign⟩
  · intro i j x
    exact (h1 m.epsilon i j x).trans (by simp)
  · intro i j x
    show t.orientation * t.tensor m.xi (t.point x) _ _ = _
    rw [h1, ho]
    simp
  · intro i j x
    show t.orientation * t.tensor m.zeta (t.point x) _ _ = _
    rw [h1, ho]
    simp
  · intro i j x
    exact (h1 m.mu i j x).trans (by simp)

/-- The signs of the components of mirror images; scalar fields do not change. -/
def reflectedSign (m : Fin d → Bool) : Kind d n → Fin n → ℝ
  | .scalar, _ => 1
  | .vectorial _, c => mirroredSign m c

/-- **C98 (mirror images, partial).** For all axes: where the material, the source and the initial field are mirror images, so are all fields in all iterations.  What is missing: vectorial
calculations with an even number of samples along a mirrored axis, see `C98_mirror_violates`. -/
theorem C98_mirror_partial (kind : Kind d n) (g : Grid.Obj d ℝ) (hs : ∀ a, g.step a ≠ 0) {k0 : ℝ} (hk0 : k0 ≠ 0) (mir : Fin d → Bool) (hodd : n = 3 → ∀ a, mir a = true → g.shape a % 2 = 1)
    (co : Const) (i0 : Fin n) (x0 x0' : Idx g.shape) {m m' : Medium n g.shape} {S F S' F' : Field n g.shape}
    (hm : MovedMedium 1 (reflectedSign mir kind) (mirroredPoint mir) (∏ c, reflectedSign mir kind c) m m')
    (hS : MovedField 1 (reflectedSign mir kind) (mirroredPoint mir) 1 S S') (hF : MovedField 1 (reflectedSign mir kind) (mirroredPoint mir) 1 F F')
    {mag : Bool} (hp : m.Plain mag) (alpha : ℂ) (beta : ℝ) (i : ℕ) :
    Both (MovedSolution co k0 (backendK g k0) (backendK g k0) i0 x0 x0' 1 (reflectedSign mir kind) (mirroredPoint mir) (∏ c, reflectedSign mir kind c))
      (run kind (backendK g k0) (prepare m mag alpha beta S F) i) (run kind (backendK g k0) (prepare m' mag alpha beta S' F') i) := by
  let t := reflection kind g hs hk0 mir hodd
  have ht : t.matrix = signedPermutation 1 (reflectedSign mir kind) := by
    cases kind with
    | scalar =>
      show (1 : Matrix (Fin 1) (Fin 1) ℝ) = _
      ext i j
      obtain rfl : i = j := Subsingleton.elim _ _
      simp [signedPermutation, reflectedSign]
    | vectorial hd => rfl
  have hε : ∀ c, reflectedSign mir kind c * reflectedSign mir kind c = 1 := by
    intro c
    cases kind with
    | scalar => exact mul_one 1
    | vectorial hd => exact mirroredSign_sq mir c
  have hdet : t.matrix.det = ∏ c, reflectedSign mir kind c := by
    rw [ht, det_signedPermutation]
    simp
  rw [← hdet] at hm ⊢
  exact moved_run t ht hε kind co k0 i0 x0 x0' hm hS hF hp alpha beta i

/-- A case that is not trivial: the mirror image along the first axis of a grid of 3 by 4 samples. -/
example : (∀ x : Idx ![3, 4], (x 0 : ℕ) = 1 → (mirroredPoint ![true, false] x 0 : ℕ) = 2) ∧ reflectedSign ![true, false] (.vectorial (by decide)) (0 : Fin 3) = -1 ∧
    reflectedSign ![true, false] (.vectorial (by decide)) (1 : Fin 3) = 1 ∧ ∀ a : Fin 2, ![true, false] a = true → (![3, 4] : Fin 2 → ℕ) a % 2 = 1 := by
  refine ⟨fun x hx => ?_, ?_, ?_, by decide⟩
  · rw [mirroredPoint_apply, if_pos (show (![true, false] : Fin 2 → Bool) 0 = true from rfl), opposite_val, hx]
    rfl
  all_goals simp [reflectedSign, mirroredSign]

end Verif.Solver
