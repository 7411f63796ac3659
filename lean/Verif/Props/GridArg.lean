import Verif.Model.GridArg
import Verif.Props.Grid02

/-!
# Properties C92 and C93: grids and thicknesses as arguments
-/

namespace Verif.GridArg

open Verif Verif.Assign Verif.Grid Verif.Spec.Grid

section
variable {K : Type} [Field K] [LinearOrder K] [IsStrictOrderedRing K] [FloorRing K]

/-! ### Specification -/

/-- The argument number `i` of `n` represents the range `r`: it is the number, a vector with the elements of the range, or an array with several
axes that has at every point the coordinate of axis `i` of the last `n`. -/
def Represents (n i : ℕ) (r : List K) : Item K → Prop
  | .number x => r = [x]
  | .array a => (a.shape = [r.length] ∧ ∀ (j : ℕ) (h : j < r.length), a.val [j] = r[j]) ∨
      (2 ≤ a.shape.length ∧ n - i ≤ a.shape.length ∧ (∀ l ∈ a.shape, 1 ≤ l) ∧ a.shape[a.shape.length - (n - i)]? = some r.length ∧
        ∀ index : List ℕ, List.Forall₂ (fun j l => j < l) index a.shape →
          ∀ j, index[a.shape.length - (n - i)]? = some j → r[j]? = some (a.val index))

/-- All coordinates are uniformly spaced, each range in increasing order of index or in the order of the Fourier transform. -/
def Uniform (r : List K) : Prop := ∃ (N : ℕ) (x0 s : K) (fft : Bool), 1 ≤ N ∧ r = (if fft then fftOrder N else List.range N).map fun (j : ℕ) => x0 + j * s

/-! ### Lemmas -/

theorem fromLines (dt : DType) (rs : List (List K)) (hu : ∀ r ∈ rs, Uniform r) :
    ∃ g : Obj rs.length K, ofLines dt rs = .ok ⟨rs.length, g⟩ ∧ ∀ i, g.coords i = rs.get i := by
  have hu' : ∀ i : Fin rs.length, Uniform (rs.get i) := fun i => hu _ (List.get_mem _ _)
  choose N x0 s fft hN hr using hu'
  obtain ⟨g, h1, h2⟩ := C03_from_ranges dt N hN x0 s fft (fun i => rs.get i) hr
  exact ⟨g, by rw [ofLines, h1]; rfl, h2⟩

theorem Uniform.ne_nil {r : List K} (h : Uniform r) : 1 ≤ r.length := by
  obtain ⟨N, x0, s, fft, hN, rfl⟩ := h
  cases fft <;> simpa [fftOrder] using hN

theorem forall₂_zero (l : List ℕ) (h : ∀ x ∈ l, 1 ≤ x) : List.Forall₂ (fun j l => j < l) (List.replicate l.length 0) l := by
  induction l with
  | nil => exact .nil
  | cons a l ih =>
    refine .cons (h a (by simp)) (ih fun x hx => h x (by simp [hx]))

theorem forall₂_set (idx l : List ℕ) (h : List.Forall₂ (fun j l => j < l) idx l) (k j m : ℕ) (hm : l[k]? = some m) (hj : j < m) :
    List.Forall₂ (fun j l => j < l) (idx.set k j) l := by
  induction h generalizing k with
  | nil => simp at hm
  | cons hab hrest ih =>
    cases k with
    | zero => simp at hm; subst hm; exact .cons hj hrest
    | succ k => exact .cons hab (ih k (by simpa using hm))

theorem represents_size {n i : ℕ} {r : List K} {item : Item K} (h : Represents n i r item) (hr : 1 ≤ r.length) :
    ¬ size item.toRange < 1 := by
  cases item with
  | number x => simp [size, Item.toRange]
  | array a =>
    rcases h with ⟨h, -⟩ | ⟨-, -, h, -⟩
    · simp only [size, Item.toRange, h, List.prod_cons, List.prod_nil]; omega
    · have := List.prod_pos (fun l hl => (h l hl : 0 < l))
      simp only [size, Item.toRange]; omega

theorem represents_line {n i : ℕ} {r : List K} {item : Item K} (h : Represents n i r item) (hi : i < n) :
    (lineOf n i item.toRange >>= elements) = .ok r := by
  cases item with
  | number x =>
    have h : r = [x] := h
    subst h
    simp [Item.toRange, lineOf, elements, bind, Except.bind]
  | array a =>
    rcases h with ⟨h, hv⟩ | ⟨h2, hn, hpos, hl, hv⟩
    · have h1 : lineOf n i a = .ok a := by simp [lineOf, h]
      simp only [Item.toRange, h1, bind, Except.bind, elements, h]
      congr 1
      apply List.ext_getElem (by simp)
      intro j h1 h2
      simp only [List.getElem_map, List.getElem_range]
      exact hv j h2
    · have h1 : 1 < a.shape.length := h2
      have hd : a.shape.getD (a.shape.length - (n - i)) 0 = r.length := by
        rw [List.getD_eq_getElem?_getD, hl]; rfl
      simp only [Item.toRange, lineOf, if_pos h1, if_pos hn, bind, Except.bind, elements, hd]
      congr 1
      apply List.ext_getElem (by simp)
      intro j h3 h4
      simp only [List.getElem_map, List.getElem_range, List.headD_cons]
      have := hv _ (forall₂_set _ _ (forall₂_zero a.shape hpos) _ j _ hl h4) j (by
        rw [List.getElem?_set_self]; rw [List.length_replicate]; omega)
      rw [List.getElem?_eq_getElem h4] at this
      exact (Option.some.inj this).symm

theorem lines_represents {n : ℕ} (items : List (Item K)) (rs : List (List K)) (i : ℕ) (hn : i + items.length = n)
    (hlen : items.length = rs.length)
    (h : ∀ (k : ℕ) (h1 : k < items.length) (h2 : k < rs.length), Represents n (i + k) rs[k] items[k]) :
    lines n i (items.map Item.toRange) = .ok rs := by
  induction items generalizing rs i with
  | nil =>
    cases rs with
    | nil => rfl
    | cons => simp at hlen
  | cons item items ih =>
    cases rs with
    | nil => simp at hlen
    | cons r rs =>
      have h0 := represents_line (h 0 (by simp) (by simp)) (by simp at hn; omega)
      have ht := ih rs (i + 1) (by simp at hn; omega) (by simpa using hlen) (fun k h1 h2 => by
        have := h (k + 1) (by simpa using h1) (by simpa using h2)
        rwa [← Nat.add_assoc, Nat.add_right_comm] at this)
      simp only [List.map_cons, lines]
      simp only [bind, Except.bind, Nat.add_zero] at h0 ⊢
      split at h0
      · exact nomatch h0
      · rename_i heq
        simp only [List.getElem_cons_zero] at h0 heq
        rw [heq]
        simp only [h0, ht]
        rfl

/-! ### C92 -/

/-- **C92 (from_ranges).** `Grid.from_ranges(*ranges)` makes the grid with the given ranges as coordinates, whether each is given as a number, as a vector, or as an array
with an axis for each axis of the grid. -/
theorem C92_from_ranges (dt : DType) (rs : List (List K)) (hu : ∀ r ∈ rs, Uniform r) (items : List (Item K)) (hlen : items.length = rs.length)
    (h : ∀ (k : ℕ) (h1 : k < items.length) (h2 : k < rs.length), Represents rs.length k rs[k] items[k]) :
    ∃ g : Obj rs.length K, fromItems dt items = .ok ⟨rs.length, g⟩ ∧ ∀ i, g.coords i = rs.get i := by
  obtain ⟨g, h1, h2⟩ := fromLines dt rs hu
  refine ⟨g, ?_, h2⟩
  have hs : ((items.map Item.toRange).any fun a => decide (size a < 1)) = false := by
    rw [List.any_eq_false]
    intro a ha
    obtain ⟨item, hi, rfl⟩ := List.mem_map.mp ha
    obtain ⟨k, hk, rfl⟩ := List.getElem_of_mem hi
    have hk' : k < rs.length := hlen ▸ hk
    simpa using represents_size (h k hk hk') (hu _ (List.getElem_mem hk')).ne_nil
  have hl := lines_represents (n := rs.length) items rs 0 (by simp [hlen]) hlen (fun k h1 h2 => by simpa using h k h1 h2)
  simp only [fromItems, hs, Bool.false_eq_true, if_false, List.length_map, hlen, hl]
  exact h1

/-- `np.array` of a sequence of numbers. -/
theorem stack_numbers (x : K) (xs : List K) :
    ∃ a : Arr K, stack ((x :: xs).map Item.number) = .ok a ∧ Represents 1 0 (x :: xs) (.array a) := by
  refine ⟨⟨[xs.length + 1], fun i => (((x :: xs).map Item.number).getD (i.headD 0) (Item.number x)).val i.tail⟩, ?_, .inl ⟨by simp, ?_⟩⟩
  · simp [stack, Item.shape]
  · intro j hj
    have hj' : j < ((x :: xs).map Item.number).length := by simpa using hj
    simp only [List.headD_cons]
    rw [List.getD_eq_getElem?_getD, List.getElem?_eq_getElem hj', Option.getD_some, List.getElem_map]
    rfl

/-- **C92 (Solution, one axis).** A sequence of numbers is the range of the only axis. -/
theorem C92_solution_numbers (dt : DType) (xs : List K) (hu : Uniform xs) :
    ∃ g : Obj 1 K, solutionGrid (.sequence dt (xs.map Item.number)) = .ok ⟨1, g⟩ ∧ g.coords 0 = xs := by
  cases xs with
  | nil => have := hu.ne_nil; simp at this
  | cons x xs =>
    obtain ⟨a, h1, h2⟩ := stack_numbers x xs
    obtain ⟨g, h3, h4⟩ := C92_from_ranges dt [x :: xs] (by simpa using hu) [.array a] rfl (fun k _ hk => by
      have : k = 0 := by simpa using hk
      subst this; exact h2)
    refine ⟨g, ?_, h4 0⟩
    simp only [List.map_cons] at h1
    simp only [List.map_cons, solutionGrid, h1]
    exact h3

/-- **C92 (Solution, any number of axes).** For a sequence of vectors or arrays the grid has these as coordinates. -/
theorem C92_solution (dt : DType) (rs : List (List K)) (hrs : rs ≠ []) (hu : ∀ r ∈ rs, Uniform r) (arrays : List (Arr K)) (hlen : arrays.length = rs.length)
    (h : ∀ (k : ℕ) (h1 : k < arrays.length) (h2 : k < rs.length), Represents rs.length k rs[k] (.array arrays[k])) :
    ∃ g : Obj rs.length K, solutionGrid (.sequence dt (arrays.map Item.array)) = .ok ⟨rs.length, g⟩ ∧ ∀ i, g.coords i = rs.get i := by
  obtain ⟨g, h1, h2⟩ := C92_from_ranges dt rs hu (arrays.map Item.array) (by simpa using hlen) (fun k h1 h2 => by
    simpa using h k (by simpa using h1) h2)
  refine ⟨g, ?_, h2⟩
  cases arrays with
  | nil => exact absurd (List.eq_nil_of_length_eq_zero hlen.symm) hrs
  | cons a arrays => exact h1

/-- **C92 (arrays without axes).** An array without axes, such as `np.array(3.0)`, is not taken for a number: whatever numbers and vectors are given for the other axes, an `IndexError` is raised. -/
theorem C92_no_axes_violates (dt : DType) (items : List (Item K)) (h : ∀ i ∈ items, size i.toRange ≠ 0 ∧ i.toRange.shape.length ≤ 1) (a : Arr K) (ha : Item.array a ∈ items) (h0 : a.shape = []) :
    fromItems dt items = .error .indexError := by
  have hs : ((items.map Item.toRange).any fun a => decide (size a < 1)) = false := by
    rw [List.any_eq_false]
    intro b hb
    obtain ⟨item, hi, rfl⟩ := List.mem_map.mp hb
    have := (h item hi).1
    simp only [decide_eq_true_eq]
    omega
  have key : ∀ (n : ℕ) (l : List (Item K)) (i : ℕ), (∀ j ∈ l, j.toRange.shape.length ≤ 1) → Item.array a ∈ l → lines n i (l.map Item.toRange) = .error .indexError := by
    intro n l
    induction l with
    | nil => exact fun _ _ hm => absurd hm (by simp)
    | cons b l ih =>
      intro i hl hm
      have hb : lineOf n i b.toRange = .ok b.toRange := if_neg (by have := hl b (by simp); omega)
      simp only [List.map_cons, lines, hb, bind, Except.bind]
      cases hsh : b.toRange.shape with
      | nil => simp only [elements, hsh]
      | cons k t =>
        have hm' : Item.array a ∈ l := by
          rcases List.mem_cons.1 hm with rfl | hm'
          · exact absurd (h0.symm.trans hsh) (by simp)
          · exact hm'
        simp only [elements, hsh, ih (i + 1) (fun j hj => hl j (by simp [hj])) hm']
  unfold fromItems
  simp only [hs, Bool.false_eq_true, if_false, bind, Except.bind, key _ items 0 (fun j hj => (h j hj).2) ha]

example : fromItems .float [.number (2 : ℚ), .array ⟨[3], fun j => (j.headD 0 : ℚ)⟩, .array ⟨[], fun _ => 3⟩] = .error .indexError :=
  C92_no_axes_violates .float _ (by simp [Item.toRange, size]) ⟨[], fun _ => 3⟩ (by simp) rfl

/-- **C92 (boundary, one axis).** A sequence of numbers is the range of the only axis, and a grid is used as it is. -/
theorem C92_bound_partial (dt : DType) (xs : List K) (hu : Uniform xs) (g : AnyGrid K) :
    boundGrid (.grid g) = .ok g ∧ solutionGrid (.grid g) = .ok g ∧
    ∃ g : Obj 1 K, boundGrid (.sequence dt (xs.map Item.number)) = .ok ⟨1, g⟩ ∧ g.coords 0 = xs := by
  refine ⟨rfl, rfl, ?_⟩
  cases xs with
  | nil => have := hu.ne_nil; simp at this
  | cons x xs =>
    obtain ⟨a, h1, h2⟩ := stack_numbers x xs
    obtain ⟨g, h3, h4⟩ := C92_from_ranges dt [x :: xs] (by simpa using hu) [.array a] rfl (fun k _ hk => by
      have : k = 0 := by simpa using hk
      subst this; exact h2)
    refine ⟨g, ?_, h4 0⟩
    simp only [boundGrid, h1]
    exact h3

theorem fromItems_axes {dt : DType} {items : List (Item K)} {g : AnyGrid K} (h : fromItems dt items = .ok g) : g.1 = items.length := by
  have hlines : ∀ (n i : ℕ) (as : List (Arr K)) (rs : List (List K)), lines n i as = .ok rs → rs.length = as.length := by
    intro n i as
    induction as generalizing i with
    | nil => intro rs h; simp only [lines, Except.ok.injEq] at h; subst h; rfl
    | cons a as ih =>
      intro rs h
      simp only [lines, bind, Except.bind] at h
      split at h
      · exact nomatch h
      · split at h
        · exact nomatch h
        · split at h
          · exact nomatch h
          · rename_i heq
            simp only [pure, Except.pure, Except.ok.injEq] at h
            subst h
            simp [ih _ _ heq]
  unfold fromItems at h
  dsimp only at h
  split at h
  · exact nomatch h
  · simp only [bind, Except.bind] at h
    split at h
    · exact nomatch h
    · rename_i rs heq
      unfold ofLines at h
      cases hf : fromRanges dt (fun i : Fin rs.length => rs.get i) with
      | error e => rw [hf] at h; exact nomatch h
      | ok g' =>
        rw [hf] at h
        simp only [Except.map, Except.ok.injEq] at h
        subst h
        simpa using hlines _ _ _ _ heq

/-- **C92 (boundary, violation).** A boundary that is constructed with a sequence never has more than one axis, so a sequence of ranges for two or more axes
does not give the grid of the `Solution` with the same argument. -/
theorem C92_bound_violates (dt : DType) (rs : List (List K)) (h2 : 2 ≤ rs.length) (hu : ∀ r ∈ rs, Uniform r) (arrays : List (Arr K)) (hlen : arrays.length = rs.length)
    (h : ∀ (k : ℕ) (h1 : k < arrays.length) (h2 : k < rs.length), Represents rs.length k rs[k] (.array arrays[k])) :
    (∀ g, boundGrid (.sequence dt (arrays.map Item.array)) = .ok g → g.1 = 1) ∧
    ∃ g, solutionGrid (.sequence dt (arrays.map Item.array)) = .ok g ∧ g.1 = rs.length ∧ boundGrid (.sequence dt (arrays.map Item.array)) ≠ .ok g := by
  have hb : ∀ g, boundGrid (.sequence dt (arrays.map Item.array)) = .ok g → g.1 = 1 := by
    intro g hg
    simp only [boundGrid, bind, Except.bind] at hg
    split at hg
    · exact nomatch hg
    · simpa using fromItems_axes hg
  obtain ⟨g, h3, -⟩ := C92_solution dt rs (by rintro rfl; simp at h2) hu arrays hlen h
  refine ⟨hb, _, h3, rfl, fun hg => ?_⟩
  have := hb _ hg
  simp only at this
  omega

/-- **C92 (boundary, which grid it is).** For two or more vectors of the same length only the first is used; for vectors of different lengths an error is raised. -/
theorem C92_bound_vectors_violates (dt : DType) (r : List K) (rs : List (List K)) (hu : Uniform r) (arrays : List (Arr K)) (hlen : arrays.length = rs.length + 1)
    (hpos : 1 ≤ rs.length)
    (h : ∀ (k : ℕ) (h1 : k < arrays.length) (h2 : k < (r :: rs).length), arrays[k].shape = [(r :: rs)[k].length] ∧
      ∀ (j : ℕ) (h : j < (r :: rs)[k].length), arrays[k].val [j] = (r :: rs)[k][j]) :
    ((∀ r' ∈ rs, r'.length = r.length) → ∃ g : Obj 1 K, boundGrid (.sequence dt (arrays.map Item.array)) = .ok ⟨1, g⟩ ∧ g.coords 0 = r) ∧
    (¬ (∀ r' ∈ rs, r'.length = r.length) → boundGrid (.sequence dt (arrays.map Item.array)) = .error .valueError) := by
  cases arrays with
  | nil => simp at hlen
  | cons a arrays =>
    have hl : arrays.length = rs.length := by simpa using hlen
    have ha := h 0 (by simp) (by simp)
    simp only [List.getElem_cons_zero] at ha
    have hall : ((arrays.map Item.array).all fun b => decide (b.shape = (Item.array a).shape)) = true ↔ ∀ r' ∈ rs, r'.length = r.length := by
      rw [List.all_eq_true]
      constructor
      · intro h1 r' hr'
        obtain ⟨k, hk, rfl⟩ := List.getElem_of_mem hr'
        have hk' : k < arrays.length := by omega
        have := h1 (Item.array arrays[k]) (List.mem_map.mpr ⟨_, List.getElem_mem hk', rfl⟩)
        have h2 := (h (k + 1) (by simpa using hk') (by simpa using hk)).1
        simp only [List.getElem_cons_succ] at h2
        simpa [Item.shape, h2, ha.1] using this
      · intro h1 item hi
        obtain ⟨b, hb, rfl⟩ := List.mem_map.mp hi
        obtain ⟨k, hk, rfl⟩ := List.getElem_of_mem hb
        have hk' : k < rs.length := by omega
        have h2 := (h (k + 1) (by simpa using hk) (by simpa using hk')).1
        simp only [List.getElem_cons_succ] at h2
        simp [Item.shape, h2, ha.1, h1 _ (List.getElem_mem hk')]
    constructor
    · intro hr
      have hs := hall.mpr hr
      let b : Arr K := ⟨(arrays.length + 1) :: a.shape, fun i => (((a :: arrays).map Item.array).getD (i.headD 0) (Item.array a)).val i.tail⟩
      have hb : stack ((a :: arrays).map Item.array) = .ok b := by
        simp only [List.map_cons, stack, hs, if_true]
        simp only [b, Item.shape, List.length_cons, List.length_map, List.map_cons]
      have hrep : (lineOf 1 0 b >>= elements) = .ok r := by
        simp only [lineOf, b, ha.1, List.length_cons, List.length_nil, bind, Except.bind, elements]
        norm_num
        apply List.ext_getElem (by simp)
        intro j h1 h2
        simp only [List.getElem_map, List.getElem_range]
        simpa [Item.val] using ha.2 j h2
      obtain ⟨g, h3, h4⟩ := fromLines dt [r] (by simpa using hu)
      refine ⟨g, ?_, h4 0⟩
      have hsize : ¬ size b < 1 := by
        have := hu.ne_nil
        simp only [size, b, ha.1, List.prod_cons, List.prod_nil, mul_one, not_lt]
        exact Nat.mul_pos (by omega) this
      simp only [boundGrid, hb]
      simp only [bind, Except.bind, fromItems, List.map_cons, List.map_nil, Item.toRange, List.any_cons, List.any_nil, hsize, decide_false, Bool.or_false,
        Bool.false_eq_true, if_false, List.length_cons, List.length_nil, lines]
      simp only [bind, Except.bind] at hrep
      split at hrep
      · exact nomatch hrep
      · rename_i heq
        simp only [Nat.zero_add, heq, hrep, pure, Except.pure]
        exact h3
    · intro hr
      have hs : ¬ _ := mt hall.mp hr
      simp only [boundGrid, List.map_cons, stack, if_neg hs]
      rfl

end

/-! ### C93 -/

section
variable {K : Type} {n : ℕ}

/-- The thickness of every side that an argument specifies: the same number for all sides, the pair `[front, back]` for all axes, or an array
`[axis, side]` of which the axes with one element are repeated. -/
inductive Specifies (n : ℕ) : Arr K → (Fin n → Bool → K) → Prop
  | number (f : List ℕ → K) : Specifies n ⟨[], f⟩ fun _ _ => f []
  | single (f : List ℕ → K) : Specifies n ⟨[1], f⟩ fun _ _ => f [0]
  | pair (f : List ℕ → K) : Specifies n ⟨[2], f⟩ fun _ side => f [if side then 1 else 0]
  | all (f : List ℕ → K) : Specifies n ⟨[1, 1], f⟩ fun _ _ => f [0, 0]
  | side (f : List ℕ → K) : Specifies n ⟨[1, 2], f⟩ fun _ side => f [0, if side then 1 else 0]
  | axis (f : List ℕ → K) : Specifies n ⟨[n, 1], f⟩ fun axis _ => f [axis, 0]
  | both (f : List ℕ → K) : Specifies n ⟨[n, 2], f⟩ fun axis side => f [axis, if side then 1 else 0]

theorem fits_iff (n : ℕ) (s : List ℕ) :
    fitsRev s.reverse [2, n] = true ↔ s = [] ∨ s = [1] ∨ s = [2] ∨ s = [1, 1] ∨ s = [1, 2] ∨ s = [n, 1] ∨ s = [n, 2] := by
  obtain ⟨t, rfl⟩ : ∃ t, s = t.reverse := ⟨s.reverse, by simp⟩
  rw [List.reverse_reverse]
  match t with
  | [] => simp [fitsRev]
  | [a] => simp [fitsRev]
  | [a, b] =>
    simp [fitsRev]
    tauto
  | a :: b :: c :: t =>
    have h : ∀ u : List ℕ, u.length ≤ 2 → (a :: b :: c :: t).reverse ≠ u := by
      rintro u hu rfl
      simp at hu
    simp only [fitsRev, Bool.and_false, Bool.false_eq_true, false_iff]
    simp only [not_or]
    refine ⟨h _ ?_, h _ ?_, h _ ?_, h _ ?_, h _ ?_, h _ ?_, h _ ?_⟩ <;> simp

/-- **C93 (thickness).** The argument determines the thickness of every side exactly when it is a number, a pair or an array `[axis, side]`. -/
theorem C93_thickness (a : Arr K) (t : Fin n → Bool → K) : perSide n a = .ok t ↔ Specifies n a t := by
  have hval : ∀ (f : List ℕ → K) (s : List ℕ), fitsRev s.reverse [2, n] = true →
      perSide n ⟨s, f⟩ = .ok fun (axis : Fin n) side => f (pickRev s.reverse [if side then 1 else 0, axis.val]).reverse := by
    intro f s h
    simp only [perSide, h, if_true]
  have hback : ∀ (a : Arr K) (t : Fin n → Bool → K), Specifies n a t → perSide n a = .ok t := by
    intro a t h
    cases h with
    | number f => rfl
    | single f => rfl
    | pair f => rfl
    | all f => rfl
    | side f => rfl
    | axis f =>
      rw [hval f _ ((fits_iff n _).mpr (by simp))]
      congr 1
      funext axis side
      by_cases h1 : n = 1
      · have : axis.val = 0 := by omega
        simp [pickRev, h1, this]
      · simp [pickRev, h1]
    | both f =>
      rw [hval f _ ((fits_iff n _).mpr (by simp))]
      congr 1
      funext axis side
      by_cases h1 : n = 1
      · have : axis.val = 0 := by omega
        simp [pickRev, h1, this]
      · simp [pickRev, h1]
  refine ⟨fun h => ?_, hback a t⟩
  obtain ⟨s, f⟩ := a
  by_cases hf : fitsRev s.reverse [2, n] = true
  · obtain ⟨t', ht'⟩ : ∃ t', Specifies n ⟨s, f⟩ t' := by
      rcases (fits_iff n s).mp hf with rfl | rfl | rfl | rfl | rfl | rfl | rfl
      · exact ⟨_, .number f⟩
      · exact ⟨_, .single f⟩
      · exact ⟨_, .pair f⟩
      · exact ⟨_, .all f⟩
      · exact ⟨_, .side f⟩
      · exact ⟨_, .axis f⟩
      · exact ⟨_, .both f⟩
    have := (hback _ _ ht').symm.trans h
    rw [← Except.ok.inj this]
    exact ht'
  · simp only [perSide, hf] at h
    exact nomatch h

/-- **C93 (other shapes).** All other arguments raise a `ValueError`. -/
theorem C93_raises (a : Arr K) (h : ∀ t : Fin n → Bool → K, ¬ Specifies n a t) : perSide n a = .error .valueError := by
  unfold perSide
  split
  · rename_i hf
    exact absurd ((C93_thickness a _).mp (by simp only [perSide, hf, if_true]; rfl)) (h _)
  · rfl

/-- **C93 (one thickness per axis).** A vector with one thickness for each axis raises a `ValueError` if there are three or more axes, and is the pair `[front, back]`
for both axes if there are two. -/
theorem C93_vector (f : List ℕ → K) :
    (3 ≤ n → perSide n ⟨[n], f⟩ = .error .valueError) ∧ perSide 2 ⟨[2], f⟩ = .ok fun _ side => f [if side then 1 else 0] := by
  refine ⟨fun hn => C93_raises _ fun t h => ?_, (C93_thickness _ _).mpr (.pair f)⟩
  have hf : fitsRev [n].reverse [2, n] = true := by
    have := (C93_thickness _ _).mpr h
    by_contra hc
    simp only [perSide, hc] at this
    exact nomatch this
  have := (fits_iff n [n]).mp hf
  simp at this
  omega

variable [Field K] [LinearOrder K] [FloorRing K]

/-- **C93 (LinearBound).** The constructor of the linear boundary gives the boundary with the specified thickness and maximum extinction coefficient at every side,
and only that. -/
theorem C93_linear (hn : 1 ≤ n) (grid : Obj n K) (thickness kappaMax : Arr K) (b : Bound.Absorbing n K) :
    linearBound grid thickness kappaMax = .ok b ↔ ∃ t k, Specifies n thickness t ∧ Specifies n kappaMax k ∧ b = Bound.linear grid t k := by
  have hsize : ∀ k : Fin n → Bool → K, Specifies n kappaMax k → size kappaMax ≠ 0 := by
    intro k h
    cases h <;> simp [size] <;> omega
  constructor
  · intro h
    unfold linearBound at h
    split at h
    · exact nomatch h
    · simp only [bind, Except.bind, pure, Except.pure] at h
      split at h
      · exact nomatch h
      · rename_i t ht
        split at h
        · exact nomatch h
        · rename_i k hk
          simp only [Except.ok.injEq] at h
          exact ⟨t, k, (C93_thickness _ _).mp ht, (C93_thickness _ _).mp hk, h.symm⟩
  · rintro ⟨t, k, ht, hk, rfl⟩
    unfold linearBound
    simp only [hsize k hk, if_false, (C93_thickness _ _).mpr ht, (C93_thickness _ _).mpr hk]
    rfl

/-- **C93 (AbsorbingBound).** The constructor of an absorbing boundary gives the boundary with the specified thickness and function at every side, and only that. -/
theorem C93_absorbing (grid : Obj n K) (thickness : Arr K) (kappaFunctions : Arr (K → K)) (b : Bound.Absorbing n K) :
    absorbingBound grid thickness kappaFunctions = .ok b ↔
      ∃ t f, Specifies n thickness t ∧ Specifies n kappaFunctions f ∧ b.grid = grid ∧ b.thickness = t ∧ b.kappaFunction = f := by
  constructor
  · intro h
    simp only [absorbingBound, bind, Except.bind] at h
    split at h
    · exact nomatch h
    · rename_i t ht
      split at h
      · exact nomatch h
      · rename_i f hf
        simp only [pure, Except.pure, Except.ok.injEq] at h
        subst h
        exact ⟨t, f, (C93_thickness _ _).mp ht, (C93_thickness _ _).mp hf, rfl, rfl, rfl⟩
  · rintro ⟨t, f, ht, hf, rfl, rfl, rfl⟩
    simp only [absorbingBound, (C93_thickness _ _).mpr ht, (C93_thickness _ _).mpr hf, bind, Except.bind, pure, Except.pure]

end

/-! ### Examples -/

/-- A vector of coordinates. -/
def vector (l : List ℚ) : Arr ℚ := ⟨[l.length], fun i => l.getD (i.headD 0) 0⟩

theorem vector_val (l : List ℚ) (j : ℕ) (h : j < l.length) : (vector l).val [j] = l[j] := by
  simp [vector, List.getD_eq_getElem?_getD, List.getElem?_eq_getElem h]

/-- Two ranges, as in `C92_solution`: the grid of the solution has both, that of the boundary only the first. -/
example : (solutionGrid (.sequence .int [.array (vector [1, 3, 5]), .array (vector [2, 3, 4])])).toOption.map
      (fun g => (g.1, (List.finRange g.1).map g.2.coords)) = some (2, [[1, 3, 5], [2, 3, 4]]) ∧
    (boundGrid (.sequence .int [.array (vector [1, 3, 5]), .array (vector [2, 3, 4])])).toOption.map
      (fun g => (g.1, (List.finRange g.1).map g.2.coords)) = some (1, [[1, 3, 5]]) := by decide +kernel

/-- The hypotheses of `C92_solution` and `C92_bound_violates` hold for these. -/
example : (∀ r ∈ ([[1, 3, 5], [2, 3, 4]] : List (List ℚ)), Uniform r) ∧
    ∀ (k : ℕ) (h1 : k < [vector [1, 3, 5], vector [2, 3, 4]].length) (h2 : k < ([[1, 3, 5], [2, 3, 4]] : List (List ℚ)).length),
      Represents 2 k ([[1, 3, 5], [2, 3, 4]] : List (List ℚ))[k] (.array [vector [1, 3, 5], vector [2, 3, 4]][k]) := by
  constructor
  · intro r hr
    simp only [List.mem_cons, List.not_mem_nil, or_false] at hr
    rcases hr with rfl | rfl
    · exact ⟨3, 1, 2, false, by norm_num, by decide +kernel⟩
    · exact ⟨3, 2, 1, false, by norm_num, by decide +kernel⟩
  · intro k h1 h2
    left
    match k, h1 with
    | 0, _ => exact ⟨rfl, fun j hj => vector_val _ j hj⟩
    | 1, _ => exact ⟨rfl, fun j hj => vector_val _ j hj⟩

/-- Coordinates as two-dimensional arrays of all points. -/
example : (fromItems .int [.array ⟨[2, 3], fun i => ((i.getD 0 0 : ℕ) : ℚ) * 5⟩, .array ⟨[2, 3], fun i => ((i.getD 1 0 : ℕ) : ℚ) + 7⟩]).toOption.map
    (fun g => (g.1, (List.finRange g.1).map g.2.coords)) = some (2, [[0, 5], [7, 8, 9]]) := by decide +kernel

example : (boundGrid (.sequence .int [.array (vector [1, 3, 5]), .array (vector [2, 3])])).toOption.isNone := by decide +kernel

/-- A column with the thickness per axis. -/
example : Specifies 3 (⟨[3, 1], fun i => ((i.headD 0 : ℕ) : ℚ)⟩) fun axis _ => ((axis.val : ℕ) : ℚ) := .axis _

end Verif.GridArg
