import Verif.Lemmas.SolverSymmetry
import Mathlib.LinearAlgebra.CrossProduct
import Mathlib.LinearAlgebra.Matrix.Determinant.Basic
import Mathlib.LinearAlgebra.Matrix.NonsingularInverse

/-!
# Problems with other axes: permutations and mirror images
-/

namespace Verif.Solver

open Verif Verif.Fourier Verif.Backend Complex Matrix

variable {d n : ℕ} {N N' : Fin d → ℕ}

/-- The component of the wavevector; grids can have fewer axes than fields have components. -/
def waveComponent (k : Fin d → Idx N → ℝ) (c : ℕ) (q : Idx N) : ℝ := if h : c < d then k ⟨c, h⟩ q else 0

/-- A change of the axes: a matrix for the components of vectors, and the new indices of points and frequencies. -/
structure Turn (n : ℕ) {d : ℕ} {N N' : Fin d → ℕ} (k : Fin d → Idx N → ℝ) (k' : Fin d → Idx N' → ℝ) where
  matrix : Matrix (Fin n) (Fin n) ℝ
  orthogonal : matrix * matrixᵀ = 1
  block : ∀ i j : Fin n, ¬ ((i : ℕ) < d ↔ (j : ℕ) < d) → matrix i j = 0
  point : Idx N ≃ Idx N'
  freq : Idx N ≃ Idx N'
  transform : ∀ (f : Idx N → ℂ) (q : Idx N), ft (fun x' => f (point.symm x')) (freq q) = ft f q
  origin : ∀ q, Backend.origin (freq q) ↔ Backend.origin q
  square : ∀ q, k2 k' (freq q) = k2 k q
  wave : n = 3 → ∀ (c : Fin n) q, waveComponent k' c (freq q) = ∑ j : Fin n, matrix c j * waveComponent k j q

section
variable {k : Fin d → Idx N → ℝ} {k' : Fin d → Idx N' → ℝ} (t : Turn n k k')

/-- The matrix with complex elements. -/
noncomputable def Turn.cmatrix : Matrix (Fin n) (Fin n) ℂ := t.matrix.map fun x => (x : ℂ)

theorem Turn.corthogonal : t.cmatrix * t.cmatrixᵀ = 1 := by
  have h := congrArg (fun M : Matrix (Fin n) (Fin n) ℝ => M.map (algebraMap ℝ ℂ)) t.orthogonal
  simp only [Matrix.map_mul, Matrix.transpose_map] at h
  rw [Matrix.map_one _ (map_zero _) (map_one _)] at h
  exact h

theorem Turn.corthogonal' : t.cmatrixᵀ * t.cmatrix = 1 := mul_eq_one_comm.1 t.corthogonal

theorem Turn.cinv : t.cmatrix⁻¹ = t.cmatrixᵀ := Matrix.inv_eq_right_inv t.corthogonal

/-- A field with the new axes. -/
noncomputable def Turn.field (F : Field n N) : Field n N' := fun c x' => ∑ j, t.cmatrix c j * F j (t.point.symm x')

/-- The same for its Fourier transform. -/
noncomputable def Turn.fieldFt (F : Field n N) : Field n N' := fun c q' => ∑ j, t.cmatrix c j * F j (t.freq.symm q')

/-- A tensor with the new axes. -/
noncomputable def Turn.tensor (A : Tensor n N) : Tensor n N' := fun x' => t.cmatrix * A (t.point.symm x') * t.cmatrixᵀ

theorem Turn.field_mulVec (F : Field n N) (x' : Idx N') : (fun c => t.field F c x') = t.cmatrix *ᵥ fun j => F j (t.point.symm x') := rfl

theorem Turn.field_add (F G : Field n N) : t.field (F + G) = t.field F + t.field G := by
  funext c x'
  simp only [Turn.field, Pi.add_apply, mul_add, Finset.sum_add_distrib]

theorem Turn.field_smul (z : ℂ) (F : Field n N) : t.field (z • F) = z • t.field F := by
  funext c x'
  simp only [Turn.field, Pi.smul_apply, smul_eq_mul, Finset.mul_sum]
  exact Finset.sum_congr rfl fun j _ => by ring

theorem Turn.field_sub (F G : Field n N) : t.field (F - G) = t.field F - t.field G := by
  have := t.field_add (F - G) G
  rw [sub_add_cancel] at this
  rw [this, add_sub_cancel_right]

theorem mulField_point {N : Fin d → ℕ} (A : Tensor n N) (F : Field n N) (x : Idx N) : (fun c => mulField A F c x) = A x *ᵥ fun j => F j x := rfl

theorem Turn.mulField (A : Tensor n N) (F : Field n N) : Solver.mulField (t.tensor A) (t.field F) = t.field (Solver.mulField A F) := by
  funext c x'
  have h : (fun c => Solver.mulField (t.tensor A) (t.field F) c x') = fun c => t.field (Solver.mulField A F) c x' := by
    rw [mulField_point, t.field_mulVec, t.field_mulVec, mulField_point]
    unfold Turn.tensor
    rw [Matrix.mulVec_mulVec, Matrix.mul_assoc, t.corthogonal', Matrix.mul_one, ← Matrix.mulVec_mulVec]
  exact congrFun h c

theorem ft_field (F : Field n N) (c : Fin n) (q' : Idx N') : ft (t.field F c) q' = t.fieldFt (fun j => ft (F j)) c q' := by
  obtain ⟨q, rfl⟩ := t.freq.surjective q'
  unfold Turn.field Turn.fieldFt
  rw [Equiv.symm_apply_apply]
  have h : ft (fun x' => ∑ j, t.cmatrix c j * F j (t.point.symm x')) (t.freq q) = ∑ j, t.cmatrix c j * ft (fun x' => F j (t.point.symm x')) (t.freq q) := by
    unfold ft
    simp only [Finset.mul_sum, Finset.sum_mul]
    rw [Finset.sum_comm]
    exact Finset.sum_congr rfl fun j _ => Finset.sum_congr rfl fun x _ => by ring
  rw [h]
  exact Finset.sum_congr rfl fun j _ => by rw [t.transform]

theorem convolve_turn {op : (Fin n → Idx N → ℂ) → (Fin n → Idx N → ℂ)} {op' : (Fin n → Idx N' → ℂ) → (Fin n → Idx N' → ℂ)} {z : ℂ}
    (hop : ∀ F : Fin n → Idx N → ℂ, op' (t.fieldFt F) = z • t.fieldFt (op F)) (F : Field n N) : convolve op' (t.field F) = z • t.field (convolve op F) := by
  funext c
  apply ft_inj
  have h1 : (fun c => ft (t.field F c)) = t.fieldFt fun j => ft (F j) := by
    funext c q'
    exact ft_field t F c q'
  have h2 : ft ((z • t.field (convolve op F)) c) = (z • t.fieldFt fun j => ft (convolve op F j)) c := by
    funext q'
    have h3 : ft ((z • t.field (convolve op F)) c) q' = z * ft (t.field (convolve op F) c) q' := by
      unfold ft
      rw [Finset.mul_sum]
      exact Finset.sum_congr rfl fun x _ => by simp only [Pi.smul_apply, smul_eq_mul]; ring
    rw [h3, ft_field]
    rfl
  rw [h2]
  unfold convolve
  rw [C23_ft_ift, h1, hop]
  simp only [C23_ft_ift]

end

/-! ### Curl -/

theorem cross_orthogonal (P : Matrix (Fin 3) (Fin 3) ℂ) (h : P * Pᵀ = 1) (u v : Fin 3 → ℂ) : (P *ᵥ u) ⨯₃ (P *ᵥ v) = P.det • (P *ᵥ (u ⨯₃ v)) := by
  have h' : Pᵀ * P = 1 := mul_eq_one_comm.1 h
  have key : ∀ w : Fin 3 → ℂ, (P *ᵥ w) ⬝ᵥ ((P *ᵥ u) ⨯₃ (P *ᵥ v)) = (P *ᵥ w) ⬝ᵥ (P.det • (P *ᵥ (u ⨯₃ v))) := by
    intro w
    rw [triple_product_eq_det, dotProduct_smul]
    have h1 : (P *ᵥ w) ⬝ᵥ (P *ᵥ (u ⨯₃ v)) = w ⬝ᵥ (u ⨯₃ v) := by
      rw [Matrix.dotProduct_mulVec, ← Matrix.mulVec_transpose, Matrix.mulVec_mulVec, h', Matrix.one_mulVec]
    have h2 : (Matrix.of ![P *ᵥ w, P *ᵥ u, P *ᵥ v]) = (Matrix.of ![w, u, v]) * Pᵀ := by
      ext i j
      fin_cases i <;> simp [Matrix.mul_apply, Matrix.mulVec, dotProduct, Fin.sum_univ_three, mul_comm]
    have h3 : ∀ a b c : Fin 3 → ℂ, Matrix.det ![a, b, c] = (Matrix.of ![a, b, c]).det := fun _ _ _ => rfl
    rw [h1, h3, h2, Matrix.det_mul, Matrix.det_transpose, triple_product_eq_det, smul_eq_mul, mul_comm, h3]
  have hs : ∀ y : Fin 3 → ℂ, y ⬝ᵥ ((P *ᵥ u) ⨯₃ (P *ᵥ v)) = y ⬝ᵥ (P.det • (P *ᵥ (u ⨯₃ v))) := by
    intro y
    have := key (Pᵀ *ᵥ y)
    rw [Matrix.mulVec_mulVec, h, Matrix.one_mulVec] at this
    exact this
  funext i
  have := hs (Pi.single i 1)
  simpa using this

theorem curlFt_cross {N : Fin d → ℕ} (k : Fin d → Idx N → ℝ) (F : Fin 3 → Idx N → ℂ) (c : Fin 3) (x : Idx N) :
    curlFt 3 k F c x = I * ((fun j : Fin 3 => (waveComponent k j x : ℂ)) ⨯₃ fun j => F j x) c := by
  unfold curlFt waveComponent otherDims
  rw [cross_apply]
  fin_cases c
  · by_cases h1 : 1 < d <;> by_cases h2 : 2 < d <;> simp [h1, h2]
  · by_cases h1 : 0 < d <;> by_cases h2 : 2 < d <;> simp [h1, h2]
  · by_cases h1 : 0 < d <;> by_cases h2 : 1 < d <;> simp [h1, h2]

/-- The sign with which the curl changes: that of the orientation. -/
noncomputable def Turn.orientation {k : Fin d → Idx N → ℝ} {k' : Fin d → Idx N' → ℝ} (t : Turn n k k') : ℂ := t.cmatrix.det

theorem Turn.orientation_sq {k : Fin d → Idx N → ℝ} {k' : Fin d → Idx N' → ℝ} (t : Turn n k k') : t.orientation * t.orientation = 1 := by
  have := congrArg Matrix.det t.corthogonal
  rw [Matrix.det_mul, Matrix.det_transpose, Matrix.det_one] at this
  exact this

theorem curl_turn (kind : Kind d n) {k : Fin d → Idx N → ℝ} {k' : Fin d → Idx N' → ℝ} (t : Turn n k k') (F : Field n N) :
    curl n k' (t.field F) = t.orientation • t.field (curl n k F) := by
  refine convolve_turn t ?_ F
  cases kind with
  | scalar =>
    intro F
    have h0 : ∀ {N : Fin d → ℕ} (k : Fin d → Idx N → ℝ) (F : Field 1 N), curlFt 1 k F = 0 := by
      intro N k F
      funext c x
      obtain rfl : c = 0 := Subsingleton.elim _ _
      unfold curlFt otherDims
      by_cases hd : 0 < d <;> simp [hd]
    rw [h0, h0]
    funext c x
    simp [Turn.fieldFt]
  | vectorial hd =>
    intro F
    funext c q'
    obtain ⟨q, rfl⟩ := t.freq.surjective q'
    rw [curlFt_cross]
    have h1 : (fun j : Fin 3 => (waveComponent k' j (t.freq q) : ℂ)) = t.cmatrix *ᵥ fun j : Fin 3 => (waveComponent k j q : ℂ) := by
      funext j
      rw [t.wave rfl]
      push_cast
      rfl
    have h2 : (fun j : Fin 3 => t.fieldFt F j (t.freq q)) = t.cmatrix *ᵥ fun j => F j q := by
      funext j
      unfold Turn.fieldFt
      rw [Equiv.symm_apply_apply]
      rfl
    rw [h1, h2, cross_orthogonal _ t.corthogonal]
    simp only [Pi.smul_apply, smul_eq_mul, Turn.fieldFt, Equiv.symm_apply_apply]
    have h3 : (t.cmatrix *ᵥ ((fun j : Fin 3 => (waveComponent k j q : ℂ)) ⨯₃ fun j => F j q)) c =
        ∑ j, t.cmatrix c j * ((fun j : Fin 3 => (waveComponent k j q : ℂ)) ⨯₃ fun j => F j q) j := rfl
    rw [h3]
    simp only [curlFt_cross]
    unfold Turn.orientation
    simp only [Finset.mul_sum]
    exact Finset.sum_congr rfl fun j _ => by ring

/-! ### Projections and Green's function -/

theorem longitudinalFt_wave {N : Fin d → ℕ} (k : Fin d → Idx N → ℝ) (hd : d ≤ n) (F : Fin n → Idx N → ℂ) (c : Fin n) (x : Idx N) :
    longitudinalFt k origin hd F c x = if origin x then (if (c : ℕ) < d then F c x else 0)
      else (waveComponent k c x : ℂ) * ((∑ j : Fin n, (waveComponent k j x : ℂ) * F j x) / (k2 k x : ℂ)) := by
  have hsum : ∑ a : Fin d, (k a x : ℂ) * F (Fin.castLE hd a) x = ∑ j : Fin n, (waveComponent k j x : ℂ) * F j x := by
    have h1 : ∀ j : Fin n, (waveComponent k j x : ℂ) * F j x = ∑ a : Fin d, if Fin.castLE hd a = j then (k a x : ℂ) * F (Fin.castLE hd a) x else 0 := by
      intro j
      unfold waveComponent
      by_cases hj : (j : ℕ) < d
      · rw [dif_pos hj, Finset.sum_eq_single ⟨j, hj⟩]
        · have hj' : Fin.castLE hd ⟨j, hj⟩ = j := Fin.ext rfl
          rw [if_pos hj', hj']
        · intro a _ ha
          rw [if_neg]
          intro h
          have hv : (a : ℕ) = j := congrArg Fin.val h
          exact ha (Fin.ext hv)
        · exact fun h => absurd (Finset.mem_univ _) h
      · rw [dif_neg hj]
        simp only [ofReal_zero, zero_mul]
        symm
        refine Finset.sum_eq_zero fun a _ => if_neg fun h => hj ?_
        rw [← h]
        exact a.2
    simp only [h1]
    rw [Finset.sum_comm]
    exact Finset.sum_congr rfl fun a _ => by simp
  unfold longitudinalFt
  dsimp only
  rw [hsum]
  by_cases ho : origin x
  · simp only [ho, if_true]
    split_ifs <;> rfl
  · simp only [ho, if_false]
    unfold waveComponent
    split_ifs with hc
    · rfl
    · simp

theorem longitudinalFt_turn (hd : d ≤ 3) {k : Fin d → Idx N → ℝ} {k' : Fin d → Idx N' → ℝ} (t : Turn 3 k k') (F : Field 3 N) :
    longitudinalFt k' origin hd (t.fieldFt F) = t.fieldFt (longitudinalFt k origin hd F) := by
  funext c q'
  obtain ⟨q, rfl⟩ := t.freq.surjective q'
  have hf : ∀ (G : Field 3 N) j, t.fieldFt G j (t.freq q) = ∑ i, t.cmatrix j i * G i q := by
    intro G j
    unfold Turn.fieldFt
    rw [Equiv.symm_apply_apply]
  rw [longitudinalFt_wave, hf]
  simp only [longitudinalFt_wave, t.origin, t.square, hf]
  by_cases ho : origin q
  · simp only [ho, if_true]
    by_cases hc : (c : ℕ) < d
    · rw [if_pos hc]
      refine Finset.sum_congr rfl fun j _ => ?_
      by_cases hj : (j : ℕ) < d
      · rw [if_pos hj]
      · rw [if_neg hj]
        have := t.block c j (fun h => hj (h.1 hc))
        simp [Turn.cmatrix, this]
    · rw [if_neg hc]
      symm
      refine Finset.sum_eq_zero fun j _ => ?_
      by_cases hj : (j : ℕ) < d
      · have := t.block c j (fun h => hc (h.2 hj))
        simp [Turn.cmatrix, this]
      · rw [if_neg hj, mul_zero]
  · simp only [ho, if_false]
    have hw : ∀ j : Fin 3, (waveComponent k' j (t.freq q) : ℂ) = ∑ i, t.cmatrix j i * (waveComponent k i q : ℂ) := by
      intro j
      rw [t.wave rfl]
      push_cast
      rfl
    have hdot : ∑ j : Fin 3, (waveComponent k' j (t.freq q) : ℂ) * ∑ i, t.cmatrix j i * F i q = ∑ j : Fin 3, (waveComponent k j q : ℂ) * F j q := by
      have h1 : (t.cmatrix *ᵥ fun j : Fin 3 => (waveComponent k j q : ℂ)) ⬝ᵥ (t.cmatrix *ᵥ fun j => F j q) = (fun j : Fin 3 => (waveComponent k j q : ℂ)) ⬝ᵥ fun j => F j q := by
        rw [Matrix.dotProduct_mulVec, Matrix.vecMul_mulVec]
        rw [t.corthogonal', Matrix.vecMul_one]
      have h2 : ∑ j : Fin 3, (waveComponent k' j (t.freq q) : ℂ) * ∑ i, t.cmatrix j i * F i q =
          (t.cmatrix *ᵥ fun j : Fin 3 => (waveComponent k j q : ℂ)) ⬝ᵥ (t.cmatrix *ᵥ fun j => F j q) := by
        simp only [hw]
        rfl
      rw [h2, h1]
      rfl
    rw [hdot, hw, Finset.sum_mul]
    exact Finset.sum_congr rfl fun j _ => by ring

theorem green_turn (kind : Kind d n) {k : Fin d → Idx N → ℝ} {k' : Fin d → Idx N' → ℝ} (t : Turn n k k') (alpha : ℂ) (F : Field n N) :
    green kind k' alpha (t.field F) = t.field (green kind k alpha F) := by
  have hg : ∀ q, gScalar k' alpha (t.freq q) = gScalar k alpha q := by
    intro q
    unfold gScalar
    rw [t.square]
  have h := convolve_turn t (op := greenFt k alpha kind) (op' := greenFt k' alpha kind) (z := 1) ?_ F
  · rw [one_smul] at h
    exact h
  · intro F
    rw [one_smul]
    cases kind with
    | scalar =>
      funext c q'
      obtain ⟨q, rfl⟩ := t.freq.surjective q'
      simp only [greenFt, Turn.fieldFt, Equiv.symm_apply_apply, hg, Finset.sum_mul]
      exact Finset.sum_congr rfl fun j _ => by ring
    | vectorial hd =>
      funext c q'
      obtain ⟨q, rfl⟩ := t.freq.surjective q'
      simp only [greenFt, longitudinalFt_turn hd t]
      simp only [Turn.fieldFt, Equiv.symm_apply_apply, hg]
      rw [← Finset.sum_sub_distrib, Finset.sum_mul, Finset.sum_mul, ← Finset.sum_add_distrib]
      exact Finset.sum_congr rfl fun j _ => by ring

/-! ### Executions -/

/-- A problem with the new axes.  The coupling tensors change sign with the orientation. -/
noncomputable def Turn.state {k : Fin d → Idx N → ℝ} {k' : Fin d → Idx N' → ℝ} (t : Turn n k k') (s : State n N) : State n N' where
  field := t.field s.field
  source := t.field s.source
  alpha := s.alpha
  beta := s.beta
  chiEE := t.tensor s.chiEE
  chiEH := t.orientation • t.tensor s.chiEH
  chiHE := t.orientation • t.tensor s.chiHE
  chiHH := t.tensor s.chiHH
  magnetic := s.magnetic
  prevNorm := s.prevNorm
  iteration := s.iteration
  residue := s.residue

section
variable {k : Fin d → Idx N → ℝ} {k' : Fin d → Idx N' → ℝ} (t : Turn n k k')

theorem mulField_smul_tensor {N : Fin d → ℕ} (z : ℂ) (A : Tensor n N) (F : Field n N) : mulField (z • A) F = z • mulField A F := by
  funext c x
  simp only [mulField, Pi.smul_apply, Matrix.smul_apply, smul_eq_mul, Finset.mul_sum]
  exact Finset.sum_congr rfl fun j _ => by ring

theorem mulField_smul_field {N : Fin d → ℕ} (z : ℂ) (A : Tensor n N) (F : Field n N) : mulField A (z • F) = z • mulField A F := by
  funext c x
  simp only [mulField, Pi.smul_apply, smul_eq_mul, Finset.mul_sum]
  exact Finset.sum_congr rfl fun j _ => by ring

theorem chiOp_turn (kind : Kind d n) (s : State n N) (F : Field n N) : chiOp k' (t.state s) (t.field F) = t.field (chiOp k s F) := by
  cases h : s.magnetic with
  | true =>
    rw [chiOp_magnetic k s h, chiOp_magnetic k' (t.state s) h, curl_turn kind t]
    show mulField (t.tensor s.chiEE) (t.field F) + mulField (t.orientation • t.tensor s.chiHE) (t.orientation • t.field (curl n k F)) +
      curl n k' (mulField (t.orientation • t.tensor s.chiEH) (t.field F) + mulField (t.tensor s.chiHH) (t.orientation • t.field (curl n k F))) = _
    simp only [mulField_smul_tensor, mulField_smul_field, t.mulField, smul_smul, t.orientation_sq, one_smul]
    rw [← smul_add, ← t.field_add, ← t.field_add, ← t.field_smul, curl_turn kind t, ← t.field_smul, ← t.field_add]
    congr 2
    have hl := (curl_isLinear (n := n) k).map_smul t.orientation (mulField s.chiEH F + mulField s.chiHH (curl n k F))
    rw [hl, smul_smul, t.orientation_sq, one_smul]
  | false =>
    rw [chiOp_nonmagnetic k s h, chiOp_nonmagnetic k' (t.state s) h]
    exact t.mulField _ _

theorem update_turn (kind : Kind d n) (s : State n N) : update kind k' (t.state s) = t.field (update kind k s) := by
  have ha : ∀ {N : Fin d → ℕ} (F G : Field n N), (fun c x => F c x + G c x) = F + G := fun _ _ => rfl
  have hb : ∀ {N : Fin d → ℕ} (F G : Field n N), (fun c x => F c x - G c x) = F - G := fun _ _ => rfl
  unfold update
  dsimp only
  simp only [ha, hb]
  rw [show (t.state s).field = t.field s.field from rfl, show (t.state s).source = t.field s.source from rfl, show (t.state s).alpha = s.alpha from rfl,
    chiOp_turn t kind, ← t.field_add, green_turn kind t, ← t.field_sub, chiOp_turn t kind]

theorem norm_turn (F : Field n N) : Backend.norm (t.field F) = Backend.norm F := by
  unfold Backend.norm
  congr 1
  rw [Finset.sum_comm, Finset.sum_comm (s := Finset.univ (α := Fin n))]
  rw [← Equiv.sum_comp t.point]
  refine Finset.sum_congr rfl fun x _ => ?_
  have h : ∀ v : Fin n → ℂ, ((∑ c, ‖v c‖ ^ 2 : ℝ) : ℂ) = star v ⬝ᵥ v := by
    intro v
    push_cast
    refine Finset.sum_congr rfl fun c _ => ?_
    rw [← Complex.conj_mul']
    rfl
  have h1 : (fun c => t.field F c (t.point x)) = t.cmatrix *ᵥ fun j => F j x := by
    rw [t.field_mulVec, Equiv.symm_apply_apply]
  have hstar : t.cmatrixᴴ = t.cmatrixᵀ := by
    ext i j
    simp [Turn.cmatrix, Matrix.conjTranspose_apply]
  have h2 : ((∑ c, ‖t.field F c (t.point x)‖ ^ 2 : ℝ) : ℂ) = ((∑ c, ‖F c x‖ ^ 2 : ℝ) : ℂ) := by
    rw [h fun c => t.field F c (t.point x), h1, Matrix.star_mulVec, Matrix.dotProduct_mulVec, Matrix.vecMul_vecMul, hstar, t.corthogonal', Matrix.vecMul_one, h]
  exact_mod_cast h2

theorem tensor_smul (z : ℂ) (A : Tensor n N) : t.tensor (fun x => z • A x) = fun x => z • t.tensor A x := by
  funext x'
  simp only [Turn.tensor, Matrix.mul_smul, Matrix.smul_mul]

theorem updateOperators_turn (s : State n N) (alpha : ℂ) : updateOperators (t.state s) alpha = t.state (updateOperators s alpha) := by
  have h1 : ∀ (z : ℂ) (F : Field n N), (fun c x => t.field F c x * z) = t.field fun c x => F c x * z := by
    intro z F
    funext c x'
    simp only [Turn.field, Finset.sum_mul]
    exact Finset.sum_congr rfl fun j _ => by ring
  have h2 : ∀ (z : ℂ) (A : Tensor n N), (fun x => z • (t.orientation • t.tensor A) x) = t.orientation • t.tensor fun x => z • A x := by
    intro z A
    rw [tensor_smul]
    funext x'
    simp only [Pi.smul_apply]
    rw [smul_comm]
  have h3 : ∀ (z w y : ℂ) (A : Tensor n N), (fun x => z • (w • t.tensor A x + y • (1 : Matrix (Fin n) (Fin n) ℂ))) = t.tensor fun x => z • (w • A x + y • (1 : Matrix (Fin n) (Fin n) ℂ)) := by
    intro z w y A
    rw [tensor_smul]
    funext x'
    congr 1
    simp only [Turn.tensor, Matrix.mul_add, Matrix.add_mul, Matrix.mul_smul, Matrix.smul_mul, Matrix.mul_one, t.corthogonal]
  unfold updateOperators Turn.state
  dsimp only
  simp only [h1, h2, h3, tensor_smul]

theorem step_turn (kind : Kind d n) (s : State n N) : step kind k' (t.state s) = (step kind k s).map t.state := by
  rw [step_unfold, step_unfold, update_turn, norm_turn, show (t.state s).prevNorm = s.prevNorm from rfl]
  cases divFloat (Backend.norm (update kind k s)) s.prevNorm with
  | error e => rfl
  | ok r =>
    dsimp only
    split_ifs
    · simp only [Except.map, Turn.state, t.field_add]
    · simp only [Except.map]
      exact congrArg Except.ok (updateOperators_turn t { s with iteration := s.iteration + 1, residue := none } (increased s.alpha))

end

end Verif.Solver
