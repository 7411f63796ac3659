import Verif.Model.GridSlice
import Verif.Props.GridArg

/-!
# Property C92 for slices
-/

namespace Verif.GridArg

open Verif Verif.Assign Verif.Grid Verif.Spec.Grid

variable {K : Type} [Field K] [LinearOrder K] [IsStrictOrderedRing K] [FloorRing K]

/-! ### Specification -/

/-- The number comes before the end, in the direction of the step. -/
def Before (step x stop : K) : Prop := (0 < step ∧ x < stop) ∨ (step < 0 ∧ stop < x)

/-- The argument number `i` of `n` represents the range `r`.  For a slice, these are all numbers from the start that come before the end, at multiples of the step, which is 1 unless it is given. -/
def Describes (n i : ℕ) (r : List K) : RangeArg K → Prop
  | .item a => Represents n i r a
  | .slice start stop step => ∀ (j : ℕ) (x : K), r[j]? = some x ↔ x = start + j * step.getD 1 ∧ Before (step.getD 1) x stop

/-! ### Lemmas -/

theorem before_iff {start stop step : K} (hs : step ≠ 0) (j : ℕ) :
    Before step (start + j * step) stop ↔ j < (⌈(stop - start) / step⌉).toNat := by
  rw [Int.lt_toNat, Int.lt_ceil]
  rcases lt_or_gt_of_ne hs with h | h
  · rw [lt_div_iff_of_neg h]
    simp only [Before, not_lt_of_gt h, h, false_and, true_and, false_or, Int.cast_natCast]
    constructor <;> intro <;> linarith
  · rw [lt_div_iff₀ h]
    simp only [Before, not_lt_of_gt h, h, false_and, true_and, or_false, Int.cast_natCast]
    constructor <;> intro <;> linarith

theorem describes_toItem {n i : ℕ} {r : List K} (hr : 1 ≤ r.length) {a : RangeArg K} (h : Describes n i r a) :
    ∃ item, a.toItem = .ok item ∧ Represents n i r item := by
  cases a with
  | item a => exact ⟨a, rfl, h⟩
  | slice start stop step =>
    have h0 := (h 0 r[0]).1 (List.getElem?_eq_getElem _)
    have hs : step.getD 1 ≠ 0 := by
      rcases h0.2 with h | h
      · exact h.1.ne'
      · exact h.1.ne
    have hlen : r.length = (⌈(stop - start) / step.getD 1⌉).toNat := by
      refine le_antisymm (Nat.le_of_not_lt fun hlt => ?_) (Nat.le_of_not_lt fun hlt => ?_)
      · have := (h _ _).1 (List.getElem?_eq_getElem hlt)
        rw [this.1] at this
        exact absurd ((before_iff hs _).1 this.2) (lt_irrefl _)
      · have := (h r.length _).2 ⟨rfl, (before_iff hs _).2 hlt⟩
        simp at this
    refine ⟨.array ⟨[(⌈(stop - start) / step.getD 1⌉).toNat], fun j => start + (j.headD 0 : ℕ) * step.getD 1⟩, ?_, .inl ⟨?_, fun j hj => ?_⟩⟩
    · simp [RangeArg.toItem, arange, hs, Except.map]
    · rw [hlen]
    · exact ((h j _).1 (List.getElem?_eq_getElem hj)).1.symm

theorem mapM_toItem : ∀ (args : List (RangeArg K)) (P : ℕ → Item K → Prop),
    (∀ (k : ℕ) (hk : k < args.length), ∃ item, args[k].toItem = .ok item ∧ P k item) →
      ∃ items : List (Item K), args.mapM RangeArg.toItem = .ok items ∧ ∃ hl : items.length = args.length, ∀ (k : ℕ) (hk : k < items.length), P k items[k]
  | [], _, _ => ⟨[], rfl, rfl, fun k hk => by simp at hk⟩
  | a :: args, P, h => by
    obtain ⟨item, e, p⟩ := h 0 (by simp)
    obtain ⟨items, e', hl, hp⟩ := mapM_toItem args (fun k => P (k + 1)) fun k hk => by
      have := h (k + 1) (by simpa using hk)
      simpa using this
    refine ⟨item :: items, ?_, by simp [hl], ?_⟩
    · rw [List.mapM_cons]
      simp only [List.getElem_cons_zero] at e
      rw [e, e']
      rfl
    · intro k hk
      cases k with
      | zero => simpa using p
      | succ k => simpa using hp k (by simpa using hk)

/-! ### C92 -/

/-- **C92 (slices).** `Grid.from_ranges(*ranges)` makes the grid with the given ranges as coordinates, whether they are given as slices, as numbers, or as arrays. -/
theorem C92_slices (dt : DType) (rs : List (List K)) (hu : ∀ r ∈ rs, Uniform r) (args : List (RangeArg K)) (hlen : args.length = rs.length)
    (h : ∀ (k : ℕ) (h1 : k < args.length) (h2 : k < rs.length), Describes rs.length k rs[k] args[k]) :
    ∃ g : Obj rs.length K, fromArgs dt args = .ok ⟨rs.length, g⟩ ∧ ∀ i, g.coords i = rs.get i := by
  obtain ⟨items, e, hl, hp⟩ := mapM_toItem args (fun k item => ∀ h2 : k < rs.length, Represents rs.length k rs[k] item) fun k hk => by
    have hk' : k < rs.length := hlen ▸ hk
    obtain ⟨item, e, p⟩ := describes_toItem (hu _ (List.getElem_mem hk')).ne_nil (h k hk hk')
    exact ⟨item, e, fun _ => p⟩
  obtain ⟨g, h1, h2⟩ := C92_from_ranges dt rs hu items (hl.trans hlen) fun k h1 h2 => hp k h1 h2
  exact ⟨g, by rw [fromArgs, e]; exact h1, h2⟩

/-- **C92 (one slice).** The coordinates are all numbers from the start that come before the end, at multiples of the step, when there is at least one. -/
theorem C92_slice (dt : DType) (start stop : K) (step : Option K) (h : Before (step.getD 1) start stop) :
    ∃ g : Obj 1 K, fromArgs dt [.slice start stop step] = .ok ⟨1, g⟩ ∧
      ∀ (j : ℕ) (x : K), (g.coords 0)[j]? = some x ↔ x = start + j * step.getD 1 ∧ Before (step.getD 1) x stop := by
  have hs : step.getD 1 ≠ 0 := by
    rcases h with h | h
    · exact h.1.ne'
    · exact h.1.ne
  set N := (⌈(stop - start) / step.getD 1⌉).toNat with hN
  have h0 : 0 < N := by
    rw [hN, ← before_iff hs 0]
    simpa using h
  set r : List K := (List.range N).map fun (j : ℕ) => start + j * step.getD 1 with hr
  have hd : ∀ (j : ℕ) (x : K), r[j]? = some x ↔ x = start + j * step.getD 1 ∧ Before (step.getD 1) x stop := by
    intro j x
    rw [hr, List.getElem?_map]
    by_cases hj : j < N
    · rw [List.getElem?_range hj, Option.map_some, Option.some.injEq]
      constructor
      · rintro rfl
        exact ⟨rfl, (before_iff hs j).2 hj⟩
      · exact fun e => e.1.symm
    · rw [List.getElem?_eq_none (by simpa using hj)]
      simp only [Option.map_none, reduceCtorEq, false_iff, not_and]
      rintro rfl hb
      exact hj ((before_iff hs j).1 hb)
  obtain ⟨g, h1, h2⟩ := C92_slices dt [r] (by simpa using ⟨N, start, step.getD 1, false, h0, by simp [hr]⟩) [.slice start stop step] rfl fun k hk _ => by
    have : k = 0 := by simpa using hk
    subst this
    exact hd
  refine ⟨g, h1, fun j x => ?_⟩
  have := h2 0
  simp only [List.get_eq_getElem, Fin.val_zero, List.getElem_cons_zero] at this
  rw [show g.coords 0 = r from this]
  exact hd j x

/-- **C92 (empty slices).** When there are no such numbers for one of the slices, an AttributeError is raised, and for a step of 0 a ZeroDivisionError. -/
theorem C92_slice_empty (dt : DType) (start stop : K) (step : Option K) (h : ¬ Before (step.getD 1) start stop) :
    fromArgs dt [.slice start stop step] = .error (if step.getD 1 = 0 then .zeroDivision else .attributeError) := by
  by_cases hs : step.getD 1 = 0
  · simp [fromArgs, RangeArg.toItem, arange, hs, Except.map, bind, Except.bind]
  · have h0 : (⌈(stop - start) / step.getD 1⌉).toNat = 0 := by
      have := mt (before_iff (start := start) (stop := stop) hs 0).2 (by simpa using h)
      omega
    simp [fromArgs, RangeArg.toItem, arange, hs, Except.map, bind, Except.bind, pure, Except.pure, fromItems, Item.toRange, size, h0]

/-- `C92_slice`: `from_ranges(slice(1, 6, 2))` and `from_ranges(slice(3, 0, -1))`. -/
example := C92_slice (K := ℚ) .int 1 6 (some 2) (by simp [Before])
example := C92_slice (K := ℚ) .int 3 0 (some (-1)) (by simp [Before])

/-- `C92_slice_empty`: `from_ranges(slice(0, 3, -1))`. -/
example := C92_slice_empty (K := ℚ) .int 0 3 (some (-1)) (by norm_num [Before])

/-- `C92_slices`: a slice and a number. -/
example := C92_slices (K := ℚ) .int [[0, 1], [2]] (by
    intro r hr
    simp only [List.mem_cons, List.not_mem_nil, or_false] at hr
    rcases hr with rfl | rfl
    · exact ⟨2, 0, 1, false, by norm_num, by decide +kernel⟩
    · exact ⟨1, 2, 1, false, le_rfl, by decide +kernel⟩)
  [.slice 0 2 none, .item (.number 2)] rfl (by
    intro k h1 h2
    match k, h1 with
    | 0, _ =>
      intro j x
      match j with
      | 0 => simp [Before]; constructor <;> intro h <;> [exact ⟨h.symm, by rw [← h]; norm_num⟩; exact h.1.symm]
      | 1 => simp [Before]; constructor <;> intro h <;> [exact ⟨h.symm, by rw [← h]; norm_num⟩; exact h.1.symm]
      | j + 2 =>
        simp [Before]
        rintro rfl
        have : (0 : ℚ) ≤ j := Nat.cast_nonneg j
        linarith
    | 1, _ => rfl)

end Verif.GridArg
