import Verif.Model.Dim
import Verif.Spec.Dim

/-!
# C11 and C12: adding, removing and orienting dimensions
-/

namespace Verif.Dim

open Verif Verif.Spec.Dim

variable {α : Type}

/-! ### Lemmas -/

theorem reshape_ok {a : ND α} {s : List ℕ} (h : s.prod = a.data.length) : reshape a s = .ok ⟨s, a.data⟩ := by
  simp [reshape, h]

theorem reshape_error {a : ND α} {s : List ℕ} (h : s.prod ≠ a.data.length) : reshape a s = .error .valueError := by
  simp [reshape, h]

theorem prod_ones (k : ℕ) : (ones k).prod = 1 := by simp [ones]

theorem prod_ones_append (k : ℕ) (s : List ℕ) : (ones k ++ s).prod = s.prod := by
  rw [List.prod_append, prod_ones, one_mul]

theorem prod_append_ones (k : ℕ) (s : List ℕ) : (s ++ ones k).prod = s.prod := by
  rw [List.prod_append, prod_ones, mul_one]

theorem fillShape_append (axes l₁ l₂ s₁ s₂ : List ℕ)
    (h : (l₁.filter fun x => x ∉ axes).length = s₁.length) :
    fillShape axes (l₁ ++ l₂) (s₁ ++ s₂) = fillShape axes l₁ s₁ ++ fillShape axes l₂ s₂ := by
  induction l₁ generalizing s₁ with
  | nil =>
    have : s₁ = [] := by simpa using h.symm
    simp [this, fillShape]
  | cons x xs ih =>
    by_cases hx : x ∈ axes
    · simp only [List.cons_append, fillShape, hx, if_true]
      rw [ih s₁ (by simpa [hx] using h)]
    · cases s₁ with
      | nil => simp [hx] at h
      | cons d ds =>
        simp only [List.cons_append, fillShape, hx, if_false]
        rw [ih ds (by simpa [hx] using h)]

theorem fillShape_all (axes l : List ℕ) (h : ∀ x ∈ l, x ∈ axes) : fillShape axes l [] = ones l.length := by
  induction l with
  | nil => rfl
  | cons x xs ih =>
    simp only [fillShape, h x (by simp), if_true, List.length_cons, ones, List.replicate_succ]
    rw [ih fun y hy => h y (by simp [hy])]; rfl

theorem fillShape_none (axes l s : List ℕ) (h : ∀ x ∈ l, x ∉ axes) (hl : l.length = s.length) :
    fillShape axes l s = s := by
  induction l generalizing s with
  | nil => simp [fillShape, List.eq_nil_of_length_eq_zero hl.symm]
  | cons x xs ih =>
    cases s with
    | nil => simp at hl
    | cons d ds =>
      simp only [fillShape, h x (by simp), if_false]
      rw [ih ds (fun y hy => h y (by simp [hy])) (by simpa using hl)]

theorem expandDims_left {a : ND α} (ha : a.WF) (k : ℕ) :
    expandDims a (pyRange 0 k) = .ok ⟨ones k ++ a.shape, a.data⟩ := by
  have hax : ((pyRange 0 (k : ℤ)).map fun ax => normAxis ax ((pyRange 0 (k : ℤ)).length + a.ndim)) = List.range k := by
    simp only [pyRange, List.map_map]
    conv_rhs => rw [← List.map_id (List.range k)]
    have : ((k : ℤ) - 0).toNat = k := by omega
    rw [this]
    apply List.map_congr_left
    intro i _
    simp only [Function.comp, normAxis, id]
    split <;> omega
  have hlen : (pyRange 0 (k : ℤ)).length = k := by simp [pyRange]
  unfold expandDims
  simp only [hax]
  rw [hlen, List.range_add, show a.shape = [] ++ a.shape from rfl, fillShape_append]
  · rw [fillShape_all _ _ (by simp), fillShape_none]
    · rw [List.length_range]
      exact reshape_ok (by rw [prod_ones_append]; exact ha.symm)
    · intro x hx; simp at hx ⊢; omega
    · simp [ND.ndim]
  · simp

theorem expandDims_right {a : ND α} (ha : a.WF) (k : ℕ) :
    expandDims a (pyRange (-k) 0) = .ok ⟨a.shape ++ ones k, a.data⟩ := by
  have hlen : (pyRange (-(k : ℤ)) 0).length = k := by simp [pyRange]
  have hax : ((pyRange (-(k : ℤ)) 0).map fun ax => normAxis ax ((pyRange (-(k : ℤ)) 0).length + a.ndim)) =
      (List.range k).map fun i => a.ndim + i := by
    rw [hlen]
    simp only [pyRange, List.map_map]
    have : (0 - -(k : ℤ)).toNat = k := by omega
    rw [this]
    apply List.map_congr_left
    intro i hi
    simp only [List.mem_range] at hi
    simp only [Function.comp, normAxis]
    split <;> omega
  unfold expandDims
  simp only [hax]
  rw [hlen, Nat.add_comm k, List.range_add]
  conv_lhs => arg 2; arg 3; rw [← List.append_nil a.shape]
  rw [fillShape_append]
  · rw [fillShape_all _ _ (by simp), fillShape_none]
    · rw [List.length_map, List.length_range]
      exact reshape_ok (by rw [prod_append_ones]; exact ha.symm)
    · intro x hx; simp at hx ⊢; omega
    · simp [ND.ndim]
  · rw [List.filter_eq_self.2]
    · simp [ND.ndim]
    · intro x hx; simp at hx ⊢; omega

theorem addLeft_nat {a : ND α} (ha : a.WF) (k : ℕ) : addLeft a (some k) = .ok ⟨ones k ++ a.shape, a.data⟩ := by
  unfold addLeft
  rcases Nat.eq_zero_or_pos k with rfl | hk
  · simp [ones]
  · simp only [gt_iff_lt, Int.natCast_pos, hk, if_true]
    exact expandDims_left ha k

theorem addRight_nat {a : ND α} (ha : a.WF) (k : ℕ) : addRight a (some k) = .ok ⟨a.shape ++ ones k, a.data⟩ := by
  unfold addRight
  rcases Nat.eq_zero_or_pos k with rfl | hk
  · simp [ones]
  · simp only [gt_iff_lt, Int.natCast_pos, hk, if_true]
    exact expandDims_right ha k

theorem addLeft_neg {a : ND α} {k : ℕ} (hk : 0 < k) : addLeft a (some (-k)) = reshape a (a.shape.drop k) := by
  have h1 : ¬ (-(k : ℤ) > 0) := by omega
  have h2 : -(k : ℤ) < 0 := by omega
  have h3 : 0 ≤ (k : ℤ) := by omega
  unfold addLeft sliceFrom
  simp only [h1, h2, h3, if_true, if_false, neg_neg, Int.toNat_natCast]

theorem addRight_neg {a : ND α} {k : ℕ} (hk : 0 < k) : addRight a (some (-k)) = reshape a (a.shape.take k) := by
  have h1 : ¬ (-(k : ℤ) > 0) := by omega
  have h2 : -(k : ℤ) < 0 := by omega
  have h3 : 0 ≤ (k : ℤ) := by omega
  unfold addRight sliceTo
  simp only [h1, h2, h3, if_true, if_false, neg_neg, Int.toNat_natCast]

theorem leftTo_eq (a : ND α) (n : ℤ) : leftTo a n = addLeft a (some (n - a.ndim)) := by
  simp only [leftTo, add, padding, sub_zero]
  cases addLeft a (some (n - a.ndim)) <;> simp [addRight, bind, Except.bind]

theorem rightTo_eq (a : ND α) (n : ℤ) : rightTo a n = addRight a (some (n - a.ndim)) := by
  simp [rightTo, add, padding, addLeft, bind, Except.bind]

/-! ### C11 -/

/-- `left_to(arr, n)` with `n` at least the number of dimensions puts singleton axes in front, has exactly `n`
dimensions, and holds the same elements. -/
theorem C11_left_to_add {a : ND α} (ha : a.WF) {n : ℕ} (hn : a.ndim ≤ n) :
    ∃ r, leftTo a n = .ok r ∧ r.shape = ones (n - a.ndim) ++ a.shape ∧ r.ndim = n ∧ r.data = a.data ∧ r.WF := by
  refine ⟨⟨ones (n - a.ndim) ++ a.shape, a.data⟩, ?_, rfl, ?_, rfl, ?_⟩
  · rw [leftTo_eq, show (n : ℤ) - a.ndim = ((n - a.ndim : ℕ) : ℤ) by omega, addLeft_nat ha]
  · simp only [ND.ndim, ones, List.length_append, List.length_replicate] at *; omega
  · simp only [ND.WF, prod_ones_append]; exact ha

/-- `left_to(arr, n)` removes leading singleton axes. -/
theorem C11_left_to_remove {a : ND α} (ha : a.WF) {k : ℕ} {s : List ℕ} (hs : a.shape = ones k ++ s) :
    ∃ r, leftTo a s.length = .ok r ∧ r.shape = s ∧ r.ndim = s.length ∧ r.data = a.data ∧ r.WF := by
  have hp : s.prod = a.data.length := by rw [ha, hs, prod_ones_append]
  refine ⟨⟨s, a.data⟩, ?_, rfl, rfl, rfl, hp.symm⟩
  have hnd : a.ndim = k + s.length := by simp [ND.ndim, hs, ones]
  rw [leftTo_eq, hnd, show (s.length : ℤ) - ((k + s.length : ℕ) : ℤ) = -k by push_cast; ring]
  rcases Nat.eq_zero_or_pos k with rfl | hk
  · cases a; simp_all [addLeft, ones]
  · rw [addLeft_neg hk, hs, List.drop_left' (by simp [ones])]
    exact reshape_ok hp

/-- `left_to(arr, n)` raises `ValueError` when an axis that would have to be removed is not a singleton, if the array
has at least one element. -/
theorem C11_left_to_raises_partial {a : ND α} (ha : a.WF) (hne : a.data ≠ []) {n : ℕ} {i : ℕ} (hi : i < a.ndim - n)
    (h1 : a.shape[i]? ≠ some 1) : leftTo a n = .error .valueError := by
  have hk : 0 < a.ndim - n := by omega
  rw [leftTo_eq, show (n : ℤ) - a.ndim = -((a.ndim - n : ℕ) : ℤ) by omega, addLeft_neg hk]
  apply reshape_error
  rw [ha]
  intro he
  have hpos : 0 < a.shape.prod := by rw [← ha]; exact List.length_pos_of_ne_nil hne
  conv at he => rhs; rw [← List.take_append_drop (a.ndim - n) a.shape, List.prod_append]
  have hd : 0 < (a.shape.drop (a.ndim - n)).prod := by rw [he, ← List.prod_append, List.take_append_drop]; exact hpos
  have ht : (a.shape.take (a.ndim - n)).prod = 1 := by
    refine Nat.eq_of_mul_eq_mul_right hd ?_
    rw [one_mul]; exact he.symm
  have hall : ∀ x ∈ a.shape.take (a.ndim - n), x = 1 := fun x hx => Nat.dvd_one.1 (ht ▸ List.dvd_prod hx)
  have hlt : i < a.shape.length := lt_of_lt_of_le hi (Nat.sub_le _ _)
  refine h1 ?_
  rw [List.getElem?_eq_getElem hlt]
  congr 1
  apply hall
  rw [List.mem_take_iff_getElem]
  exact ⟨i, by simp only [ND.ndim] at *; omega, rfl⟩

/-- Not so for arrays without elements: `left_to(np.zeros((3, 0)), 1)` returns an array of shape `(0,)` although the
removed axis has length 3. -/
theorem C11_left_to_empty_violates :
    ∃ a : ND α, a.WF ∧ a.shape = [3, 0] ∧ leftTo a 1 = .ok ⟨[0], []⟩ :=
  ⟨⟨[3, 0], []⟩, rfl, rfl, rfl⟩

/-- `right_to(arr, n)` with `n` at least the number of dimensions puts singleton axes behind, has exactly `n`
dimensions, and holds the same elements. -/
theorem C11_right_to_add {a : ND α} (ha : a.WF) {n : ℕ} (hn : a.ndim ≤ n) :
    ∃ r, rightTo a n = .ok r ∧ r.shape = a.shape ++ ones (n - a.ndim) ∧ r.ndim = n ∧ r.data = a.data ∧ r.WF := by
  refine ⟨⟨a.shape ++ ones (n - a.ndim), a.data⟩, ?_, rfl, ?_, rfl, ?_⟩
  · rw [rightTo_eq, show (n : ℤ) - a.ndim = ((n - a.ndim : ℕ) : ℤ) by omega, addRight_nat ha]
  · simp only [ND.ndim, ones, List.length_append, List.length_replicate] at *; omega
  · simp only [ND.WF, prod_append_ones]; exact ha

/-- Removal of trailing axes is wrong: the axes that are *kept* are as many as should have been *removed*.  With
`k` trailing singletons behind `s` the result, if any, has `k` dimensions instead of `s.length`. -/
theorem C11_right_to_remove_ndim {a r : ND α} {k : ℕ} (hk : 0 < k) {s : List ℕ} (hs : a.shape = s ++ ones k)
    (h : rightTo a s.length = .ok r) : r.ndim = k := by
  have hnd : a.ndim = s.length + k := by simp [ND.ndim, hs, ones]
  rw [rightTo_eq, hnd, show (s.length : ℤ) - ((s.length + k : ℕ) : ℤ) = -k by push_cast; ring, addRight_neg hk] at h
  unfold reshape at h
  split at h
  · cases h; simp only [ND.ndim, hs, ones, List.length_take, List.length_append, List.length_replicate]; omega
  · cases h

/-- Hence `right_to` only removes trailing singletons correctly when it removes exactly half of the axes. -/
theorem C11_right_to_remove_partial {a : ND α} (ha : a.WF) {s : List ℕ} (hs : a.shape = s ++ ones s.length) :
    ∃ r, rightTo a s.length = .ok r ∧ r.shape = s ∧ r.data = a.data := by
  have hp : s.prod = a.data.length := by rw [ha, hs, prod_append_ones]
  refine ⟨⟨s, a.data⟩, ?_, rfl, rfl⟩
  have hnd : a.ndim = s.length + s.length := by simp [ND.ndim, hs, ones]
  rcases Nat.eq_zero_or_pos s.length with h0 | hk
  · have : s = [] := List.eq_nil_of_length_eq_zero h0
    subst this
    cases a; simp_all [rightTo_eq, addRight, ones]
  · rw [rightTo_eq, hnd, show (s.length : ℤ) - ((s.length + s.length : ℕ) : ℤ) = -s.length by push_cast; ring,
      addRight_neg hk, hs, List.take_left' rfl]
    exact reshape_ok hp

/-- `right_to` of an array of shape `(3, 1, 1)` to two dimensions returns one dimension, and of an array of shape
`(2, 3, 1)` raises although its last axis is a singleton. -/
theorem C11_right_to_violates (x y z : α) :
    rightTo (⟨[3, 1, 1], [x, y, z]⟩ : ND α) 2 = .ok ⟨[3], [x, y, z]⟩ ∧
    rightTo (⟨[2, 3, 1], [x, y, z, x, y, z]⟩ : ND α) 2 = .error .valueError := ⟨rfl, rfl⟩

/-- `add(arr, left, right)` for non-negative numbers adds that many singleton axes at either side; `ndim` is
ignored when both are given. -/
theorem C11_add_both {a : ND α} (ha : a.WF) (l r : ℕ) (ndim : Option ℤ) :
    add a (some l) (some r) ndim = .ok ⟨ones l ++ a.shape ++ ones r, a.data⟩ := by
  have hp : padding a.ndim (some (l : ℤ)) (some (r : ℤ)) ndim = (some (l : ℤ), some (r : ℤ)) := by
    cases ndim <;> rfl
  simp only [add, hp, addLeft_nat ha, bind, Except.bind]
  exact addRight_nat (a := ⟨ones l ++ a.shape, a.data⟩) (by simp only [ND.WF, prod_ones_append]; exact ha) r

/-- `add(arr, left=l, ndim=n)` adds the rest of the axes on the right. -/
theorem C11_add_left_ndim {a : ND α} (ha : a.WF) (l n : ℕ) (hn : a.ndim + l ≤ n) :
    add a (some l) none (some n) = .ok ⟨ones l ++ a.shape ++ ones (n - a.ndim - l), a.data⟩ := by
  have hp : padding a.ndim (some (l : ℤ)) none (some (n : ℤ)) = (some (l : ℤ), some ((n - a.ndim - l : ℕ) : ℤ)) := by
    simp only [padding, Option.getD_some, Prod.mk.injEq, Option.some.injEq, true_and]; omega
  simp only [add, hp, addLeft_nat ha, bind, Except.bind]
  exact addRight_nat (a := ⟨ones l ++ a.shape, a.data⟩) (by simp only [ND.WF, prod_ones_append]; exact ha) _

/-- `add(arr, right=r, ndim=n)` adds the rest of the axes on the left. -/
theorem C11_add_right_ndim {a : ND α} (ha : a.WF) (r n : ℕ) (hn : a.ndim + r ≤ n) :
    add a none (some r) (some n) = .ok ⟨ones (n - a.ndim - r) ++ a.shape ++ ones r, a.data⟩ := by
  have hp : padding a.ndim none (some (r : ℤ)) (some (n : ℤ)) = (some ((n - a.ndim - r : ℕ) : ℤ), some (r : ℤ)) := by
    simp only [padding, Prod.mk.injEq, Option.some.injEq, and_true]; omega
  simp only [add, hp, addLeft_nat ha, bind, Except.bind]
  exact addRight_nat (a := ⟨ones _ ++ a.shape, a.data⟩) (by simp only [ND.WF, prod_ones_append]; exact ha) r

theorem valid_ones (k : ℕ) : Valid (ones k) (List.replicate k 0) := by
  induction k with
  | zero => exact .nil
  | succ k ih => exact .cons (by norm_num) ih

theorem valid_append {s₁ s₂ i₁ i₂ : List ℕ} (h₁ : Valid s₁ i₁) (h₂ : Valid s₂ i₂) : Valid (s₁ ++ s₂) (i₁ ++ i₂) := by
  unfold Valid at *
  induction h₁ with
  | nil => exact h₂
  | cons h _ ih => exact .cons h ih

theorem position_ones_append (k : ℕ) (s i : List ℕ) : position (ones k ++ s) (List.replicate k 0 ++ i) = position s i := by
  induction k with
  | zero => rfl
  | succ k ih => simpa [ones, List.replicate_succ, position] using ih

theorem position_append_ones (k : ℕ) {s i : List ℕ} (h : Valid s i) :
    position (s ++ ones k) (i ++ List.replicate k 0) = position s i := by
  unfold Valid at h
  induction h with
  | nil => simpa [position] using position_ones_append k [] []
  | cons h _ ih => simp only [List.cons_append, position, prod_append_ones, ih]

/-- Element by element: what `left_to` and `right_to` return when axes are added has the element of the original at
the same index with zeros put in front or behind. -/
theorem C11_elements {a : ND α} (ha : a.WF) {n : ℕ} (hn : a.ndim ≤ n) {l r : ND α} (hl : leftTo a n = .ok l)
    (hr : rightTo a n = .ok r) {index : List ℕ} {v : α} (hv : ElementAt a.shape a.data index v) :
    ElementAt l.shape l.data (List.replicate (n - a.ndim) 0 ++ index) v ∧
    ElementAt r.shape r.data (index ++ List.replicate (n - a.ndim) 0) v := by
  obtain ⟨l', hl', hls, -, hld, -⟩ := C11_left_to_add ha hn
  obtain ⟨r', hr', hrs, -, hrd, -⟩ := C11_right_to_add ha hn
  rw [hl] at hl'; rw [hr] at hr'
  cases hl'; cases hr'
  rw [hls, hld, hrs, hrd]
  refine ⟨⟨valid_append (valid_ones _) hv.1, ?_⟩, ⟨valid_append hv.1 (valid_ones _), ?_⟩⟩
  · rw [position_ones_append]; exact hv.2
  · rw [position_append_ones _ hv.1]; exact hv.2

example : leftTo (⟨[2, 3], [1, 2, 3, 4, 5, 6]⟩ : ND ℕ) 4 = .ok ⟨[1, 1, 2, 3], [1, 2, 3, 4, 5, 6]⟩ := by decide
example : leftTo (⟨[1, 2, 3], [1, 2, 3, 4, 5, 6]⟩ : ND ℕ) 2 = .ok ⟨[2, 3], [1, 2, 3, 4, 5, 6]⟩ := by decide
example : leftTo (⟨[2, 3], [1, 2, 3, 4, 5, 6]⟩ : ND ℕ) 1 = .error .valueError := by decide
example : rightTo (⟨[2, 3], [1, 2, 3, 4, 5, 6]⟩ : ND ℕ) 3 = .ok ⟨[2, 3, 1], [1, 2, 3, 4, 5, 6]⟩ := by decide
example : ElementAt [2, 3] [10, 20, 30, 40, 50, 60] [1, 2] 60 := ⟨.cons (by norm_num) (.cons (by norm_num) .nil), rfl⟩

/-! ### C12 -/

/-- Where an axis number points in `ndim` dimensions: negative numbers count from the right. -/
def PointsTo (axis : ℤ) (ndim target : ℕ) : Prop := target < ndim ∧ (axis = target ∨ axis = (target : ℤ) - ndim)

theorem fmod_of_pointsTo {axis : ℤ} {ndim target : ℕ} (h : PointsTo axis ndim target) :
    Int.fmod axis ndim = target := by
  obtain ⟨hlt, rfl | rfl⟩ := h
  · rw [Int.fmod_eq_emod_of_nonneg _ (by omega)]; exact Int.emod_eq_of_lt (by omega) (by omega)
  · rw [Int.fmod_eq_emod_of_nonneg _ (by omega), Int.sub_emod_right]; exact Int.emod_eq_of_lt (by omega) (by omega)

/-- `to_axis(vector, axis, ndim)` has `ndim` dimensions, all of length one except the given, possibly negative, axis,
along which it has the elements of the vector. -/
theorem C12_to_axis (data : List α) {axis : ℤ} {ndim target : ℕ} (h : PointsTo axis ndim target) :
    ∃ r, toAxis ⟨[data.length], data⟩ axis (some ndim) = .ok r ∧
      r.shape = ones target ++ [data.length] ++ ones (ndim - 1 - target) ∧ r.ndim = ndim ∧ r.data = data ∧
      ∀ (i : ℕ) (hi : i < data.length), ElementAt r.shape r.data
        (List.replicate target 0 ++ [i] ++ List.replicate (ndim - 1 - target) 0) data[i] := by
  have hlt := h.1
  have hv : ∀ i : ℕ, i < data.length → Valid [data.length] [i] := fun i hi => .cons hi .nil
  refine ⟨⟨ones target ++ [data.length] ++ ones (ndim - 1 - target), data⟩, ?_, rfl, ?_, rfl, fun i hi => ⟨?_, ?_⟩⟩
  · unfold toAxis
    simp only [Option.getD_some]
    rw [if_neg (by omega), fmod_of_pointsTo h]
    exact C11_add_left_ndim (by simp [ND.WF]) target ndim (by simp only [ND.ndim, List.length_singleton]; omega)
  · simp only [ND.ndim, ones, List.length_append, List.length_replicate, List.length_singleton]; omega
  · exact valid_append (valid_append (valid_ones _) (hv i hi)) (valid_ones _)
  · rw [position_append_ones _ (valid_append (valid_ones _) (hv i hi)), position_ones_append]
    simp [position, hi]

/-- Without `ndim`, a non-negative axis becomes the last, and a negative axis the first, of as few dimensions as
possible. -/
theorem C12_to_axis_default (data : List α) (k : ℕ) :
    toAxis ⟨[data.length], data⟩ k none = .ok ⟨ones k ++ [data.length], data⟩ ∧
    toAxis ⟨[data.length], data⟩ (-(k + 1 : ℕ)) none = .ok ⟨[data.length] ++ ones k, data⟩ := by
  have key : ∀ (axis : ℤ), (k + 1 : ℤ) = 1 + max axis (-axis - 1) →
      toAxis ⟨[data.length], data⟩ axis none = toAxis ⟨[data.length], data⟩ axis (some ((k + 1 : ℕ) : ℤ)) := by
    intro axis h
    simp only [toAxis, Option.getD_none, Option.getD_some, ND.ndim, List.length_singleton, Nat.cast_one, ← h,
      Nat.cast_add]
  constructor
  · rw [key _ (by omega)]
    obtain ⟨r, hr, hs, -, hd, -⟩ := C12_to_axis data (axis := k) (ndim := k + 1) (target := k) ⟨by omega, .inl rfl⟩
    rw [hr]; cases r; simp_all [ones]
  · rw [key _ (by omega)]
    obtain ⟨r, hr, hs, -, hd, -⟩ := C12_to_axis data (axis := -(k + 1 : ℕ)) (ndim := k + 1) (target := 0)
      ⟨by omega, .inr (by simp)⟩
    rw [hr]; cases r; simp_all [ones]

/-- For arrays of more than one dimension a non-negative axis receives the first axis of the array, as documented. -/
theorem C12_to_axis_array {a : ND α} (ha : a.WF) {axis ndim : ℕ} (hn : a.ndim + axis ≤ ndim) (h0 : 0 < a.ndim) :
    toAxis a axis (some ndim) = .ok ⟨ones axis ++ a.shape ++ ones (ndim - a.ndim - axis), a.data⟩ := by
  unfold toAxis
  simp only [Option.getD_some]
  rw [if_neg (by omega), fmod_of_pointsTo (target := axis) ⟨by omega, .inl rfl⟩]
  exact C11_add_left_ndim ha axis ndim hn

/-- The documentation says that a negative axis is counted to the *last* axis of the original array, so that `-1` should
leave a matrix as it is; instead `to_axis(np.zeros((2, 3)), -1)` raises `ValueError`, and so does every matrix with at
least one element, with more than one column or more than one row. -/
theorem C12_to_axis_matrix_negative_violates {a : ND α} {m n : ℕ} (hs : a.shape = [m, n]) (ha : a.WF)
    (h1 : m * n ≠ 1) : toAxis a (-1) none = .error .valueError := by
  have hnd : a.ndim = 2 := by simp [ND.ndim, hs]
  have : toAxis a (-1) none = add a (some ((1 : ℕ) : ℤ)) none (some 2) := by
    simp [toAxis, hnd]
  rw [this]
  have hp : padding a.ndim (some ((1 : ℕ) : ℤ)) none (some (2 : ℤ)) = (some ((1 : ℕ) : ℤ), some (-((1 : ℕ) : ℤ))) := by
    rw [hnd]; rfl
  simp only [add, hp, addLeft_nat ha, bind, Except.bind]
  rw [addRight_neg (by norm_num)]
  apply reshape_error
  have : a.data.length = m * n := by rw [ha, hs]; simp
  simp only [this, ones, List.replicate_one, List.cons_append, List.take_succ_cons, List.take_zero, List.prod_singleton]
  exact fun h => h1 h.symm

/-- A scalar cannot be put on axis 0 without stating `ndim`: the remainder by zero raises. -/
theorem C12_to_axis_scalar_violates (x : α) : toAxis ⟨[], [x]⟩ 0 none = .error .zeroDivision := rfl

example : toAxis (⟨[3], [1, 2, 3]⟩ : ND ℕ) (-2) (some 4) = .ok ⟨[1, 1, 3, 1], [1, 2, 3]⟩ := by decide
example : PointsTo (-2) 4 2 := ⟨by norm_num, .inr (by norm_num)⟩
example : toAxis (⟨[3], [1, 2, 3]⟩ : ND ℕ) 2 none = .ok ⟨[1, 1, 3], [1, 2, 3]⟩ := by decide
example : toAxis (⟨[2, 3], [1, 2, 3, 4, 5, 6]⟩ : ND ℕ) 1 (some 4) = .ok ⟨[1, 2, 3, 1], [1, 2, 3, 4, 5, 6]⟩ := by decide

end Verif.Dim
