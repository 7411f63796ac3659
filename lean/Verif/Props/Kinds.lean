import Verif.Model.Kinds
import Verif.Spec.Kinds
import Verif.Props.Assign
import Mathlib.Tactic.FinCases

/-!
# C136: the tests for scalars, vectors and matrices
-/

namespace Verif.Kinds

open Verif Verif.Assign Verif.Spec.Kinds

variable {α : Type*} {d : ℕ}

theorem getD_default {l : List ℕ} {i : ℕ} (h : i < l.length) (x y : ℕ) : l.getD i x = l.getD i y := by
  simp [List.getD_eq_getElem?_getD, List.getElem?_eq_getElem h]

/-- **C136 (scalar).** For all arrays in the form of `to_matrix_field`, `is_scalar` tells whether there is one value per point. -/
theorem C136_scalar (f : Field d α) : isScalar (stored f) = true ↔ Scalar f.shape := by
  unfold isScalar stored Scalar
  simp [List.getD_eq_getElem?_getD, List.ofFn_succ]

/-- **C136 (arguments).** `is_scalar` of what `to_matrix_field` makes of an array with at most two axes more than the grid, tells whether all axes in front of those of the grid have length 1. -/
theorem C136_argument (a : Arr α) (h : a.shape.length ≤ d + 2) :
    isScalar (stored (toMatrixField d a)) = true ↔ GivesScalar d a.shape := by
  have key : Scalar (expand d a).shape ↔ GivesScalar d a.shape := by
    unfold Scalar GivesScalar expand
    have e0 : ((0 : Fin (d + 2)) : ℕ) = 0 := rfl
    have e1 : ((1 : Fin (d + 2)) : ℕ) = 1 := rfl
    simp only [e0, e1]
    rcases (by omega : a.shape.length ≤ d ∨ a.shape.length = d + 1 ∨ a.shape.length = d + 2) with hl | hl | hl
    · rw [if_pos (by omega), if_pos (by omega)]
      exact ⟨fun _ i hi => absurd hi (by omega), fun _ => ⟨rfl, rfl⟩⟩
    · rw [if_pos (by omega), if_neg (by omega), show 1 - (d + 2 - a.shape.length) = 0 by omega]
      rw [getD_default (by omega) 1 0]
      exact ⟨fun h i hi => by rw [show i = 0 by omega]; exact h.2, fun h => ⟨rfl, h 0 (by omega)⟩⟩
    · rw [if_neg (by omega), if_neg (by omega), show 0 - (d + 2 - a.shape.length) = 0 by omega, show 1 - (d + 2 - a.shape.length) = 1 by omega]
      rw [getD_default (i := 0) (by omega) 1 0, getD_default (i := 1) (by omega) 1 0]
      refine ⟨fun h i hi => ?_, fun h => ⟨h 0 (by omega), h 1 (by omega)⟩⟩
      rcases (by omega : i = 0 ∨ i = 1) with rfl | rfl
      · exact h.1
      · exact h.2
  rw [C136_scalar, ← key]
  unfold toMatrixField
  dsimp only
  split_ifs with hs
  · unfold Scalar swap01
    simp only [Function.comp_apply, Equiv.swap_apply_left, Equiv.swap_apply_right]
    omega
  · rfl

theorem expand_stored (f : Field d α) : expand d (⟨List.ofFn f.shape, fun i => f.val fun a => i.getD a 0⟩ : Arr α) = f := by
  obtain ⟨s, v⟩ := f
  unfold expand
  simp only [List.length_ofFn, Nat.sub_self, Nat.not_lt_zero, if_false, Nat.sub_zero, List.drop_zero]
  congr 1
  · funext k
    rw [List.getD_eq_getElem?_getD, List.getElem?_ofFn, dif_pos k.isLt]
    rfl
  · funext i
    congr 1
    funext a
    rw [List.getD_eq_getElem?_getD, List.getElem?_ofFn, dif_pos a.isLt]
    rfl

/-- **C136 (values).** For all arrays, the array that `to_matrix_field` makes of it has the values at the points in the same order: `to_matrix_field` leaves it as it is. -/
theorem C136_stored (a : Arr α) : ∃ b, stored (toMatrixField d a) = .array b ∧ toMatrixField d b = toMatrixField d a := by
  refine ⟨_, rfl, ?_⟩
  conv_lhs => rw [toMatrixField, expand_stored]
  rw [if_neg]
  unfold toMatrixField
  dsimp only
  split_ifs with hs
  · unfold swap01
    simp only [Function.comp_apply, Equiv.swap_apply_left]
    omega
  · exact hs

/-- `C136_stored` for a row of three values at five points, which becomes a column. -/
example := C136_stored (d := 1) (⟨[1, 3, 5], fun i => i.getD 1 0 + 10 * i.getD 2 0⟩ : Arr ℕ)

/-- **C136 (numbers).** `is_scalar` is the same for a number and for the array that `to_matrix_field` makes of it: True. -/
theorem C136_number (z : α) : isScalar (.number z) = true ∧ isScalar (stored (toMatrixField d (⟨[], fun _ => z⟩ : Arr α))) = true :=
  ⟨rfl, (C136_argument _ (by simp)).2 fun i hi => absurd hi (by simp)⟩

/-- **C136 (vectors).** For all arrays in the form of `to_matrix_field`, `is_vector` is False and `is_matrix` is True: they count the axes. -/
theorem C136_vector (f : Field d α) : isVector d (stored f) = .ok false ∧ isMatrix d (stored f) = .ok true := by
  unfold isVector isMatrix stored
  simp only [List.length_ofFn, Except.ok.injEq, decide_eq_false_iff_not, decide_eq_true_eq]
  constructor
  · push_cast
    omega
  · omega

/-- **C136 (vectors without the second axis).** For other arrays: exactly those with one axis more than the grid are vectors, and those with two more are matrices, so that none is both. -/
theorem C136_axes (a : Arr α) : (isVector d (.array a) = .ok true ↔ a.shape.length = d + 1) ∧ (isMatrix d (.array a) = .ok true ↔ a.shape.length = d + 2) := by
  unfold isVector isMatrix
  simp only [Except.ok.injEq, decide_eq_true_eq]
  constructor <;> omega

/-- **C136 (axes of the Fourier transform).** The Fourier transforms of all arrays in this form are over the axes of the grid, and no others. -/
theorem C136_ft (f : Field d α) : (ftAxes d).map (fun i => (List.ofFn f.shape).getD i 0) = List.ofFn fun b : Fin d => f.shape b.succ.succ := by
  unfold ftAxes
  refine List.ext_getElem (by simp) fun i h1 h2 => ?_
  rw [List.length_ofFn] at h2
  rw [List.getElem_map, List.getElem_drop, List.getElem_range, List.getElem_ofFn, List.getD_eq_getElem?_getD, List.getElem?_eq_getElem (by rw [List.length_ofFn]; omega), Option.getD_some, List.getElem_ofFn]
  congr 1
  ext
  simp
  omega

/-- **C136 (vectorial).** For the lengths 1 and 3 that `Solution` uses, `vectorial` determines the number of components: `1 + 2 * vectorial` (158, 160). -/
theorem C136_components (n : ℕ) : (1 + 2 * (vectorial n).toNat = n ↔ n = 1 ∨ n = 3) := by
  unfold vectorial
  by_cases h : 1 < n
  · simp [h]
    omega
  · simp [h]
    omega

/-- **C136 (violation).** A vector field is not a vector for `is_vector`, but a matrix for `is_matrix`, as is a number; of a number neither can be asked. -/
theorem C136_vector_violates : VectorField (toMatrixField 1 (⟨[3, 1, 5], fun _ => (0 : ℕ)⟩ : Arr ℕ)).shape ∧
    isVector 1 (stored (toMatrixField 1 (⟨[3, 1, 5], fun _ => (0 : ℕ)⟩ : Arr ℕ))) = .ok false ∧ isMatrix 1 (stored (toMatrixField 1 (⟨[3, 1, 5], fun _ => (0 : ℕ)⟩ : Arr ℕ))) = .ok true ∧
    Scalar (toMatrixField 1 (⟨[], fun _ => (0 : ℕ)⟩ : Arr ℕ)).shape ∧ isMatrix 1 (stored (toMatrixField 1 (⟨[], fun _ => (0 : ℕ)⟩ : Arr ℕ))) = .ok true ∧
    isVector 1 (.number (0 : ℕ)) = .error .attributeError ∧ isMatrix 1 (.number (0 : ℕ)) = .error .attributeError := by
  refine ⟨?_, (C136_vector _).1, (C136_vector _).2, ?_, (C136_vector _).2, rfl, rfl⟩
  · unfold VectorField
    decide
  · unfold Scalar
    decide

/-- **C136 (other arrays).** Of arrays in any other form, those that are a scalar for `is_scalar` have one value per point. -/
theorem C136_sound (a : Arr α) (h : a.shape.length ≤ d + 2) (hs : isScalar (.array a) = true) : GivesScalar d a.shape := by
  unfold isScalar at hs
  simp only [Bool.or_eq_true, Bool.and_eq_true, decide_eq_true_eq] at hs
  intro i hi
  rcases hs with h0 | ⟨h0, h1⟩
  · omega
  · rcases (by omega : i = 0 ∨ i = 1) with rfl | rfl
    · exact h0
    · exact h1.resolve_left (by omega)

/-- **C136 (violation).** The converse does not hold: a field with one value per point that is not yet in that form is not a scalar for `is_scalar`. -/
theorem C136_scalar_violates : GivesScalar 1 [5] ∧ isScalar (.array (⟨[5], fun _ => (0 : ℕ)⟩ : Arr ℕ)) = false ∧
    isScalar (stored (toMatrixField 1 (⟨[5], fun _ => (0 : ℕ)⟩ : Arr ℕ))) = true := by
  refine ⟨fun i hi => absurd hi (by simp), rfl, ?_⟩
  decide

/-- **C136 (any).** `any` tells whether any element is True. -/
theorem C136_any (values : List Bool) : any values = true ↔ true ∈ values := by
  unfold any
  simp

/-- **C136 (violation).** Not, as its documentation says, whether all are. -/
theorem C136_any_violates : any [true, false] = true ∧ ¬ ∀ v ∈ [true, false], v = true := by
  refine ⟨rfl, fun h => absurd (h false (by simp)) (by decide)⟩

/-- `C136_argument` for a vector field, and for values of a two-dimensional grid; `C136_sound`. -/
example := C136_argument (d := 1) (⟨[3, 1, 5], fun _ => (0 : ℕ)⟩ : Arr ℕ) (by decide)
example : isScalar (stored (toMatrixField 2 (⟨[4, 5], fun _ => (0 : ℕ)⟩ : Arr ℕ))) = true := by
  rw [C136_argument (d := 2) (⟨[4, 5], fun _ => (0 : ℕ)⟩ : Arr ℕ) (by decide)]
  exact fun i hi => absurd hi (by simp)
example := C136_sound (d := 1) (⟨[1, 1, 5], fun _ => (0 : ℕ)⟩ : Arr ℕ) (by decide) rfl

end Verif.Kinds
