import Verif.Model.MatProduct
import Verif.Spec.Mat
import Verif.Spec.MatArray
import Verif.Lemmas.MatOp
import Verif.Props.MatNumpy
import Mathlib.Data.Nat.Choose.Basic
import Mathlib.Tactic.Linarith
import Mathlib.Data.Fin.VecNotation

/-!
# C107 and C108: products with matrix objects, adjoints, and assignments
-/

namespace Verif.Mat

open Verif Verif.Spec.Mat

variable {K : Type} [Field K]

/-! ### C107: right-hand sides with several axes -/

/-- **C107 (matrices).** For right-hand sides with two or more axes, with as many elements for each index of the last axis as there are modes, every column of the result is the product with that
column, and the result has the same shape.  The axes before the last one are read in raster order. -/
theorem C107_columns {n : ℕ} (product : (Fin n → K) → Fin n → K) (lead : List ℕ) (hl : lead ≠ []) (hn : lead.prod = n) (p : ℕ) (hp : 0 < p) (x : ℕ → K) :
    ∃ y, ndMatvec product ⟨lead ++ [p], x⟩ = .ok ⟨lead ++ [p], y⟩ ∧ ∀ (i : Fin n) (j : Fin p), y (i * p + j) = product (fun k => x (k * p + j)) i := by
  have hc : numCols (lead ++ [p]) = p := by
    have : 0 < lead.length := List.length_pos_iff.2 hl
    unfold numCols
    rw [if_pos (by simp; omega)]
    simp
  refine ⟨fun e => if h : e / p < n then product (fun k => x (k * p + e % p)) ⟨e / p, h⟩ else 0, ?_, ?_⟩
  · simp only [ndMatvec, hc]
    rw [if_neg hp.ne', if_neg (by rw [List.prod_append, List.prod_singleton, Nat.mul_div_cancel _ hp, hn]; simp)]
  · intro i j
    have h1 : (i.val * p + j.val) / p = i.val := by
      rw [Nat.mul_comm, Nat.mul_add_div hp, Nat.div_eq_of_lt j.2, Nat.add_zero]
    have h2 : (i.val * p + j.val) % p = j.val := by
      rw [Nat.mul_comm, Nat.mul_add_mod, Nat.mod_eq_of_lt j.2]
    dsimp only
    rw [dif_pos (by rw [h1]; exact i.2)]
    congr 1
    · funext k
      rw [h2]
    · exact Fin.ext h1

/-- **C107 (vectors).** -/
theorem C107_vector {n : ℕ} (product : (Fin n → K) → Fin n → K) (x : ℕ → K) :
    ∃ y, ndMatvec product ⟨[n], x⟩ = .ok ⟨[n], y⟩ ∧ ∀ i : Fin n, y i = product (fun k => x k) i := by
  refine ⟨fun e => if h : e / 1 < n then product (fun k => x (k * 1 + e % 1)) ⟨e / 1, h⟩ else 0, ?_, ?_⟩
  · simp only [ndMatvec, numCols, List.length_singleton, lt_irrefl, if_false, one_ne_zero, List.prod_singleton, Nat.div_one, ne_eq, not_true_eq_false]
  · intro i
    simp only [Nat.mod_one, Nat.mul_one, Nat.add_zero, Nat.div_one]
    rw [dif_pos i.2]

/-- The documented shape of a matrix with the side, the mode, the polarization and the column as its axes is accepted. -/
example (product : (Fin 12 → ℚ) → Fin 12 → ℚ) (x : ℕ → ℚ) : ∃ y, ndMatvec product ⟨[2, 3, 2, 5], x⟩ = .ok ⟨[2, 3, 2, 5], y⟩ ∧ ∀ (i : Fin 12) (j : Fin 5), y (i * 5 + j) = product (fun k => x (k * 5 + j)) i :=
  C107_columns product [2, 3, 2] (by simp) rfl 5 (by norm_num) x

/-- **C107 (violation: polarization).** The documented shape of a vector, with the side, the mode and the polarization as its axes, is rejected for more than one polarization: the last axis is taken
for that of the columns. -/
theorem C107_polarization_violates (m P : ℕ) (hm : 0 < m) (hP : 1 < P) (product : (Fin (2 * m * P) → K) → Fin (2 * m * P) → K) (x : ℕ → K) :
    ndMatvec product ⟨[2, m, P], x⟩ = .error .typeError := by
  have hc : numCols [2, m, P] = P := rfl
  have hd : [2, m, P].prod / P = 2 * m := by
    simp only [List.prod_cons, List.prod_nil, mul_one]
    rw [← mul_assoc, Nat.mul_div_cancel _ (by omega)]
  simp only [ndMatvec, hc]
  rw [if_neg (by omega), if_pos]
  rw [hd]
  intro h
  have : 2 * m * 1 < 2 * m * P := Nat.mul_lt_mul_of_pos_left hP (by omega)
  omega

/-- Exactly which shapes are accepted. -/
theorem C107_accepts {n : ℕ} (product : (Fin n → K) → Fin n → K) (right : Raster K) :
    (∃ y, ndMatvec product right = .ok y) ↔ numCols right.shape ≠ 0 ∧ right.shape.prod / numCols right.shape = n := by
  simp only [ndMatvec]
  by_cases h : numCols right.shape = 0
  · simp [h]
  · by_cases h2 : n = right.shape.prod / numCols right.shape
    · rw [if_neg h, if_neg (not_not.2 h2)]
      exact ⟨fun _ => ⟨h, h2.symm⟩, fun _ => ⟨_, rfl⟩⟩
    · rw [if_neg h, if_pos h2]
      constructor
      · rintro ⟨y, hy⟩; exact nomatch hy
      · rintro ⟨_, hy⟩; exact absurd hy.symm h2

/-- **C107 (violation: the operator).** `M @ right` is rejected for all right-hand sides with other numbers of axes than one or two. -/
theorem C107_operator_violates (M : LinOp K) (right : NdArr K) (h : right.shape.length ≠ 1 ∧ right.shape.length ≠ 2) : M.matmul right = .error .valueError := by
  unfold LinOp.matmul
  split
  · rename_i hs; rw [hs] at h; simp at h
  · rename_i hs; rw [hs] at h; simp at h
  · rfl

/-- **C107 (violation: literal matrices).** For a matrix with an array the documented shapes with the side and the mode as their first axes are rejected, unless there are as many vectors as modes. -/
theorem C107_literal_violates (m n p q : ℕ) (hn : 0 < n) : literalNd m n [2, n / 2, q] = .error .valueError ∧ (p ≠ n → literalNd m n [2, n / 2, p, q] = .error .valueError) := by
  constructor
  · simp only [literalNd, List.reverse_cons, List.reverse_nil, List.nil_append, List.cons_append]
    rw [if_neg (by omega)]
  · intro hp
    simp only [literalNd, List.reverse_cons, List.reverse_nil, List.nil_append, List.cons_append]
    rw [if_neg hp]

/-- Vectors and matrices are accepted. -/
theorem C107_literal (m n q : ℕ) : literalNd m n [n] = .ok [m] ∧ literalNd m n [n, q] = .ok [m, q] := by
  constructor <;> simp [literalNd]

/-- **C107 (literal code, more axes).** `array @ right` operates on the last but one axis of `right`, with the axes before it as batches. -/
theorem C107_literal_batch (m n p q : ℕ) (batch : List ℕ) : literalNd m n (batch ++ [p, q]) = if p = n then .ok (batch ++ [m, q]) else .error .valueError := by
  simp [literalNd]

example : literalNd 2 3 [4, 5, 3, 6] = .ok [4, 5, 2, 6] := by decide +kernel

/-! ### C108: adjoints, products from the left, and assignment -/

/-- **C108 (adjoint).** `M.H` is an array, that of the adjoint: it can be moved to the other argument of the inner product, for all matrices that are linear. -/
theorem C108_adjoint (M : LinOp ℂ) (hc : Consistent M) (hlin : ∀ v i, M.matvec v i = ∑ j, M.matvec (single j 1) i * v j) :
    ∃ H : NdArr ℂ, M.H = .array H ∧ H.shape = [M.cols, M.rows] ∧ ∀ (x : Fin M.cols → ℂ) (y : Fin M.rows → ℂ),
      ∑ i, (starRingEnd ℂ) (y i) * M.matvec x i = ∑ j : Fin M.cols, (starRingEnd ℂ) (∑ i : Fin M.rows, H.get [j, i] * y i) * x j := by
  refine ⟨_, rfl, rfl, fun x y => ?_⟩
  have hel : ∀ (i : Fin M.rows) (j : Fin M.cols), M.asarray.get [i, j] = M.matvec (single j 1) i := by
    intro i j
    rw [asarray_apply M hc i j i.2 j.2, LinOp.apply, dif_pos i.2]
    congr 1
    funext k
    simp only [single, Fin.ext_iff]
  calc ∑ i, (starRingEnd ℂ) (y i) * M.matvec x i = ∑ i, ∑ j, (starRingEnd ℂ) (y i) * (M.matvec (single j 1) i * x j) := by
        refine Finset.sum_congr rfl fun i _ => ?_
        rw [hlin x i, Finset.mul_sum]
    _ = ∑ j, ∑ i, (starRingEnd ℂ) (y i) * (M.matvec (single j 1) i * x j) := Finset.sum_comm
    _ = _ := by
        refine Finset.sum_congr rfl fun j _ => ?_
        rw [map_sum, Finset.sum_mul]
        refine Finset.sum_congr rfl fun i _ => ?_
        simp only [map_mul, Complex.conj_conj, hel]
        ring

/-- A matrix with an array is linear. -/
theorem literal_linear {r c : ℕ} (a : Fin r → Fin c → ℂ) (v : Fin c → ℂ) (i : Fin r) :
    (LinOp.literal a).matvec v i = ∑ j : Fin c, (LinOp.literal a).matvec (single j 1) i * v j := by
  show ∑ j, a i j * v j = ∑ j, (∑ k, a i k * single j 1 k) * v j
  refine Finset.sum_congr rfl fun j _ => ?_
  simp [single]

/-- **C108 (violation: rmatvec).** The method `rmatvec` always raises an AttributeError. -/
theorem C108_rmatvec_violates (M : LinOp ℂ) (v : NdArr ℂ) : M.rmatvec v = .error .attributeError := rfl

/-- **C108 (violation: products from the left).** "matrices that can be multiplied from the left or right": products of an array or a list with a matrix always raise an error, whatever the limit of
nested calls. -/
theorem C108_left_violates (matmul : List (Value (NdArr ℂ) (LinOp ℂ) Unit) → Except PyErr (NdArr ℂ)) (limit : ℕ) (a : NdArr ℂ) (M : LinOp ℂ) :
    leftProduct matmul limit (.array a) M = .error .recursion ∧ leftProduct matmul limit (.sequence a) M = .error .attributeError := by
  constructor
  · have := C95_ufunc_violates (R := Except PyErr (NdArr ℂ)) LinOp.asarray leftmost_chooses matmul limit (.array a) [.matrix M] ⟨M, by simp⟩
    simp only [leftProduct, this]
  · rfl

/-- **C108 (operators).** The product of two matrices is an operator, which applies one after the other. -/
theorem C108_operator (matmul : List (Value (NdArr ℂ) (LinOp ℂ) Unit) → Except PyErr (NdArr ℂ)) (limit : ℕ) (L M : LinOp ℂ) :
    (∀ P, leftProduct matmul limit (.operator L) M = .ok P → ∃ N : LinOp ℂ, P = .operator N ∧ N.rows = L.rows ∧ N.cols = M.cols) ∧
    ∀ h : L.cols = M.rows, ∃ N : LinOp ℂ, leftProduct matmul limit (.operator L) M = .ok (.operator N) ∧
      ∀ (v : ℕ → ℂ) (i : ℕ), N.apply v i = L.apply (fun k => M.apply v k) i := by
  constructor
  · intro P hP
    simp only [leftProduct] at hP
    split at hP
    · exact nomatch hP
    · cases hP
      exact ⟨_, rfl, rfl, rfl⟩
  · intro h
    refine ⟨_, by simp only [leftProduct]; rw [if_neg (not_not.2 h)], fun v i => ?_⟩
    by_cases hi : i < L.rows
    · rw [LinOp.apply, dif_pos hi]
      show L.apply _ i = L.apply _ i
      congr 1
      funext k
      unfold LinOp.apply
      split
      · congr 1
        funext j
        exact dif_pos j.2
      · rfl
    · rw [LinOp.apply, dif_neg hi, LinOp.apply, dif_neg hi]

/-- **C108 (assignment).** `M[keys] = value` raises exactly if `np.asarray(M)[keys]` does; then all selected elements have the value, all others are as before, and products use the new elements. -/
theorem C108_assign {r c : ℕ} (a : Fin r → Fin c → K) (keys : List Key) (value : K) :
    (∀ e, (LinOp.literal a).asarray.index keys = .error e → (LinOp.literal a).setItem keys value = .error e) ∧
    ∀ sel, (LinOp.literal a).asarray.index keys = .ok sel → ∃ b : Fin r → Fin c → K, (LinOp.literal a).setItem keys value = .ok (.literal b) ∧
      (∀ shape source, indexAux keys [r, c] = .ok (shape, source) → ∀ (i : Fin r) (j : Fin c),
        ((∃ idx, InRange shape idx ∧ source idx = [(i : ℕ), (j : ℕ)]) → b i j = value) ∧ ((¬ ∃ idx, InRange shape idx ∧ source idx = [(i : ℕ), (j : ℕ)]) → b i j = a i j)) := by
  have hsh : (LinOp.literal a).asarray.shape = [r, c] := asarray_shape _
  constructor
  · intro e he
    unfold NdArr.index at he
    rw [hsh] at he
    unfold LinOp.setItem
    show (match indexAux keys [r, c] with | .error e => _ | .ok (shape, source) => _) = _
    split at he
    · rename_i e' h'
      cases he
      rw [h']
    · exact nomatch he
  · intro sel hsel
    unfold NdArr.index at hsel
    rw [hsh] at hsel
    split at hsel
    · exact nomatch hsel
    · rename_i sh f h'
      refine ⟨open Classical in fun i j => if ∃ idx, List.Forall₂ (· < ·) idx sh ∧ f idx = [(i : ℕ), (j : ℕ)] then value else a i j, ?_, ?_⟩
      · unfold LinOp.setItem
        show (match indexAux keys [r, c] with | .error e => _ | .ok (shape, source) => _) = _
        rw [h']
        rfl
      · intro shape source hs i j
        rw [h'] at hs
        injection hs with hs
        injection hs with h1 h2
        subst h1 h2
        exact ⟨fun h => if_pos h, fun h => if_neg h⟩

/-- Assignment of a single element. -/
theorem C108_element {r c : ℕ} (a : Fin r → Fin c → K) (i : Fin r) (j : Fin c) (value : K) :
    ∃ b : Fin r → Fin c → K, (LinOp.literal a).setItem [.int i, .int j] value = .ok (.literal b) ∧ ∀ i' j', b i' j' = if i' = i ∧ j' = j then value else a i' j' := by
  have h : indexAux [.int (i : ℤ), .int (j : ℤ)] [r, c] = .ok ([], fun idx => (i : ℕ) :: (j : ℕ) :: idx) := by
    have hp : ∀ {n : ℕ} (k : Fin n), position n (k : ℤ) = .ok k := by
      intro n k
      unfold position
      rw [if_pos ⟨by positivity, by exact_mod_cast k.2⟩]
      simp
    simp [indexAux, hp]
  refine ⟨open Classical in fun i' j' => if ∃ idx, List.Forall₂ (· < ·) idx [] ∧ (i : ℕ) :: (j : ℕ) :: idx = [(i' : ℕ), (j' : ℕ)] then value else a i' j', ?_, ?_⟩
  · unfold LinOp.setItem
    show (match indexAux [.int (i : ℤ), .int (j : ℤ)] [r, c] with | .error e => _ | .ok (shape, source) => _) = _
    rw [h]
    rfl
  · intro i' j'
    dsimp only
    congr 1
    apply propext
    constructor
    · rintro ⟨idx, -, h2⟩
      injection h2 with h2 h3
      injection h3 with h3 h4
      exact ⟨Fin.ext h2.symm, Fin.ext h3.symm⟩
    · rintro ⟨rfl, rfl⟩
      exact ⟨[], .nil, rfl⟩

example : ∃ b : Fin 2 → Fin 2 → ℚ, (LinOp.literal ![![1, 2], ![3, 4]]).setItem [.int 1, .int 0] 7 = .ok (.literal b) ∧ b 1 0 = 7 ∧ b 0 0 = 1 := by
  obtain ⟨b, h, hb⟩ := C108_element (r := 2) (c := 2) ![![1, 2], ![3, 4]] 1 0 (7 : ℚ)
  exact ⟨b, h, by simp [hb], by simp [hb]⟩

/-- Matrices without array, and scattering matrices, cannot be changed. -/
theorem C108_fixed {r c : ℕ} (f : (Fin c → K) → Fin r → K) (keys : List Key) (value : K) :
    (LinOp.operator f).setItem keys value = .error .attributeError ∧ setItemScattering (LinOp.operator f) keys value = .error .keyError := ⟨rfl, rfl⟩

end Verif.Mat
