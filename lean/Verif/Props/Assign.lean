import Verif.Model.Assign
import Mathlib.Tactic.FinCases
import Mathlib.Data.Fin.VecNotation

/-!
# C30: assignment with broadcasting
-/

namespace Verif.Assign

open Verif

variable {α : Type*} {d : ℕ}

/-! ### Specification -/

/-- An array with axes (row, column, space ...) can be broadcast to a given shape. -/
def CanBroadcast (f : Field d α) (out : Fin (d + 2) → ℕ) : Prop := ∀ a, f.shape a = out a ∨ f.shape a = 1

/-- The value at `i` of an array broadcast to another shape. -/
def broadcast (f : Field d α) (i : Fin (d + 2) → ℕ) : α := f.val fun a => if f.shape a = 1 then 0 else i a

/-- `i` is an index of an array with this shape. -/
def InShape (shape i : Fin (d + 2) → ℕ) : Prop := ∀ a, i a < shape a

/-! ### The conversion to a field -/

/-- **C30.** `to_matrix_field` of a scalar is a 1×1 field with this value everywhere. -/
theorem C30_scalar (a : Arr α) (h : a.shape = []) :
    (∀ b, (toMatrixField d a).shape b = 1) ∧ ∀ i, (toMatrixField d a).val i = a.val [] := by
  have hs : ∀ b, (expand d a).shape b = 1 := by
    intro b
    simp only [expand, h, List.length_nil]
    split <;> simp
  have : toMatrixField d a = expand d a := by
    unfold toMatrixField
    exact if_neg (by rw [hs, hs]; omega)
  rw [this]
  refine ⟨hs, fun i => ?_⟩
  simp only [expand, h, List.length_nil]
  rw [List.drop_of_length_le (by simp)]

/-- **C30.** `to_matrix_field` of an array with `d + 2` axes keeps it, except that a row vector is transposed. -/
theorem C30_full_rank (a : Arr α) (s : Fin (d + 2) → ℕ) (h : a.shape = List.ofFn s) :
    (¬ (s 0 = 1 ∧ 1 < s 1) → (toMatrixField d a).shape = s ∧ ∀ i, (toMatrixField d a).val i = a.val (List.ofFn i)) ∧
    (s 0 = 1 ∧ 1 < s 1 → (toMatrixField d a).shape = s ∘ Equiv.swap 0 1 ∧
      ∀ i, (toMatrixField d a).val i = a.val (List.ofFn (i ∘ Equiv.swap 0 1))) := by
  have hs : (expand d a).shape = s := by
    funext b
    simp only [expand, h, List.length_ofFn, Nat.sub_self, Nat.sub_zero, Nat.not_lt_zero, if_false]
    rw [List.getD_eq_getElem?_getD, List.getElem?_ofFn]
    simp
  have hv : ∀ i, (expand d a).val i = a.val (List.ofFn i) := by
    intro i
    simp only [expand, h, List.length_ofFn, Nat.sub_self, List.drop_zero]
  constructor
  · intro hn
    have : toMatrixField d a = expand d a := by
      unfold toMatrixField
      exact if_neg (by rw [hs]; exact hn)
    rw [this]
    exact ⟨hs, hv⟩
  · intro hp
    have : toMatrixField d a = ⟨swap01 (expand d a).shape, fun i => (expand d a).val (swap01 i)⟩ := by
      unfold toMatrixField
      exact if_pos (by rw [hs]; exact hp)
    rw [this]
    exact ⟨by rw [swap01, hs], fun i => hv _⟩

/-- **C30.** `to_matrix_field` of an array with only the axes of the grid is a 1×1 field, also if it is smaller. -/
theorem C30_spatial (a : Arr α) (s : Fin d → ℕ) (h : a.shape = List.ofFn s) :
    (toMatrixField d a).shape = Fin.cons 1 (Fin.cons 1 s) ∧
      ∀ r c (x : Fin d → ℕ), (toMatrixField d a).val (Fin.cons r (Fin.cons c x)) = a.val (List.ofFn x) := by
  have hl : d + 2 - a.shape.length = 2 := by rw [h, List.length_ofFn]; omega
  have hs : (expand d a).shape = Fin.cons 1 (Fin.cons 1 s) := by
    funext b
    simp only [expand, hl]
    refine Fin.cases ?_ (fun b => ?_) b
    · simp
    · refine Fin.cases ?_ (fun b => ?_) b
      · simp
      · simp only [Fin.val_succ, h, Fin.cons_succ]
        rw [if_neg (by omega), show (b : ℕ) + 1 + 1 - 2 = b by omega, List.getD_eq_getElem?_getD, List.getElem?_ofFn]
        simp
  have : toMatrixField d a = expand d a := by
    unfold toMatrixField
    refine if_neg ?_
    rw [hs]
    rintro ⟨-, h1⟩
    exact absurd h1 (Nat.lt_irrefl 1)
  rw [this]
  refine ⟨hs, fun r c x => ?_⟩
  simp only [expand, hl]
  congr 1
  simp [List.ofFn_succ]

/-! ### The assignment -/

/-- **C30 (partial).** What can be broadcast to the shape of a field on the grid is assigned as such.  Missing: see `C30_tile_violates`. -/
theorem C30_broadcast_partial (rows : ℕ) (N : Fin d → ℕ) (a : Arr α) (h : CanBroadcast (toMatrixField d a) (full rows N)) :
    ∃ v, assign rows N a (full rows N) = .ok v ∧ ∀ i, InShape (full rows N) i → v i = broadcast (toMatrixField d a) i := by
  unfold assign
  generalize toMatrixField d a = f at h ⊢
  by_cases hm : (∃ b : Fin d, f.shape b.succ.succ ≠ N b) ∨ f.shape 0 ≠ rows
  · simp only [if_pos hm]
    have hs : ∀ a, (tile f fun b => full rows N b / f.shape b).shape a = full rows N a := by
      intro b
      simp only [tile]
      rcases h b with h | h
      · rw [h]
        rcases Nat.eq_zero_or_pos (full rows N b) with h0 | h0
        · simp [h0]
        · rw [Nat.div_self h0, Nat.mul_one]
      · rw [h]; simp
    refine ⟨_, if_pos fun b => .inl (hs b), fun i hi => ?_⟩
    simp only [hs, broadcast]
    simp only [tile]
    congr 1
    funext b
    rcases h b with h | h
    · by_cases h1 : full rows N b = 1
      · rw [if_pos h1, h, if_pos h1]; simp
      · rw [if_neg h1, h, if_neg h1]
        exact Nat.mod_eq_of_lt (hi b)
    · rw [h]; simp [Nat.mod_one]
  · simp only [if_neg hm]
    exact ⟨_, if_pos h, fun i _ => rfl⟩

/-- **C30 (partial).** If the length of an axis does not divide that of the grid, or that of the vector, then `assign` raises.  Missing: see
`C30_tile_violates`. -/
theorem C30_raises_partial (rows : ℕ) (N : Fin d → ℕ) (a : Arr α) (b : Fin (d + 2))
    (hb : ¬ (toMatrixField d a).shape b ∣ full rows N b) : assign rows N a (full rows N) = .error .valueError := by
  unfold assign
  generalize toMatrixField d a = f at hb ⊢
  by_cases hm : (∃ b : Fin d, f.shape b.succ.succ ≠ N b) ∨ f.shape 0 ≠ rows
  · simp only [if_pos hm]
    refine if_neg fun h => ?_
    have := h b
    simp only [tile] at this
    rcases this with h | h
    · exact hb ⟨_, h.symm⟩
    · exact hb ((Nat.eq_one_of_mul_eq_one_right h) ▸ one_dvd _)
  · simp only [if_neg hm]
    refine if_neg fun h => ?_
    rcases h b with h | h
    · exact hb (h ▸ dvd_rfl)
    · exact hb (h ▸ one_dvd _)

/-- **C30.** Exactly what `assign` does with a field on the grid: it raises unless the length of every axis divides that of the grid; otherwise the
values are repeated periodically. -/
theorem C30_exact (rows : ℕ) (N : Fin d → ℕ) (a : Arr α) :
    (assign rows N a (full rows N) = .error .valueError ∧ ∃ b, ¬ (toMatrixField d a).shape b ∣ full rows N b) ∨
    (∀ b, (toMatrixField d a).shape b ∣ full rows N b) ∧
      ∃ v, assign rows N a (full rows N) = .ok v ∧ ∀ i, InShape (full rows N) i →
        v i = (toMatrixField d a).val fun b => i b % (toMatrixField d a).shape b := by
  by_cases hd : ∀ b, (toMatrixField d a).shape b ∣ full rows N b
  · right
    refine ⟨hd, ?_⟩
    unfold assign
    generalize toMatrixField d a = f at hd ⊢
    by_cases hm : (∃ b : Fin d, f.shape b.succ.succ ≠ N b) ∨ f.shape 0 ≠ rows
    · simp only [if_pos hm]
      have hs : ∀ a, (tile f fun b => full rows N b / f.shape b).shape a = full rows N a := fun b => Nat.mul_div_cancel' (hd b)
      refine ⟨_, if_pos fun b => .inl (hs b), fun i hi => ?_⟩
      simp only [hs]
      simp only [tile]
      congr 1
      funext b
      by_cases h1 : full rows N b = 1
      · have := hi b
        rw [if_pos h1, show i b = 0 by omega]
      · rw [if_neg h1]
    · simp only [if_neg hm]
      push Not at hm
      have hs : ∀ b, f.shape b = full rows N b := by
        intro b
        refine Fin.cases ?_ (fun b => ?_) b
        · exact hm.2
        · refine Fin.cases ?_ (fun b => ?_) b
          · have := hd 1
            exact Nat.dvd_one.1 this
          · exact hm.1 b
      refine ⟨_, if_pos fun b => .inl (hs b), fun i hi => ?_⟩
      simp only [hs]
      congr 1
      funext b
      have := hi b
      by_cases h1 : full rows N b = 1
      · rw [if_pos h1, h1, Nat.mod_one]
      · rw [if_neg h1, Nat.mod_eq_of_lt this]
  · left
    push Not at hd
    refine ⟨?_, hd⟩
    obtain ⟨b, hb⟩ := hd
    exact C30_raises_partial rows N a b hb

/-- **C30 is violated**: two values can not be broadcast to a grid with four points, but are repeated without an error. -/
theorem C30_tile_violates :
    ∃ a : Arr ℕ, ¬ CanBroadcast (toMatrixField 1 a) (full 1 ![4]) ∧
      ∃ v, assign 1 ![4] a (full 1 ![4]) = .ok v ∧ v ![0, 0, 0] = 7 ∧ v ![0, 0, 1] = 8 ∧ v ![0, 0, 2] = 7 ∧ v ![0, 0, 3] = 8 := by
  refine ⟨⟨[2], fun i => 7 + i.getD 0 0⟩, ?_, ?_⟩
  · intro h
    exact absurd (h 2) (by decide +kernel)
  · rcases C30_exact 1 ![4] (⟨[2], fun i => 7 + i.getD 0 0⟩ : Arr ℕ) with ⟨-, hb⟩ | ⟨-, v, hv, h⟩
    · exact absurd hb (by decide +kernel)
    · refine ⟨v, hv, ?_⟩
      rw [h _ (by unfold InShape; decide +kernel), h _ (by unfold InShape; decide +kernel),
        h _ (by unfold InShape; decide +kernel), h _ (by unfold InShape; decide +kernel)]
      decide +kernel

/-- **C30 is violated**: the documentation of `to_matrix_field` says that a one-dimensional vector is repeated for all space, but it is taken as a
function of the last axis of space, so that it is either rejected or, when the grid has three points, assigned to the points instead of
to the components. -/
theorem C30_vector_violates :
    ∃ a : Arr ℕ, a.shape = [3] ∧
      (∃ v, assign 3 ![3] a (full 3 ![3]) = .ok v ∧ v ![0, 0, 1] = a.val [1] ∧ v ![1, 0, 0] = a.val [0] ∧ a.val [0] ≠ a.val [1]) ∧
      assign 3 ![5] a (full 3 ![5]) = .error .valueError := by
  refine ⟨⟨[3], fun i => i.getD 0 0⟩, rfl, ?_, ?_⟩
  · rcases C30_exact 3 ![3] (⟨[3], fun i => i.getD 0 0⟩ : Arr ℕ) with ⟨-, hb⟩ | ⟨-, v, hv, h⟩
    · exact absurd hb (by decide +kernel)
    · refine ⟨v, hv, ?_⟩
      rw [h _ (by unfold InShape; decide +kernel), h _ (by unfold InShape; decide +kernel)]
      decide +kernel
  · exact C30_raises_partial 3 ![5] (⟨[3], fun i => i.getD 0 0⟩ : Arr ℕ) 2 (by decide +kernel)

/-! ### Example -/

/-- A column of three numbers is assigned to all points. -/
example : CanBroadcast (toMatrixField 1 ⟨[3, 1, 1], fun i => i.getD 0 0⟩) (full 3 ![5]) := by unfold CanBroadcast; decide +kernel

end Verif.Assign
