import Verif.Lemmas.GridOps
import Mathlib.Data.Fin.VecNotation

/-!
# C02–C05 and C09: coordinates, ranges, arithmetic and frequency grids
-/

set_option linter.unusedSectionVars false

namespace Verif.Grid

open Verif Verif.Spec.Grid

section
variable {n : ℕ} {K : Type} [Field K] [LinearOrder K] [IsStrictOrderedRing K] [FloorRing K]

/-! ### C02 -/

/-- **C02 (origin at the center).** The coordinates along an axis are the samples in increasing order of their index. -/
theorem C02_ordered (g : Obj n K) (i : Fin n) (h : g.originAtCenter i = true) :
    g.coords i = samples (g.shape i) (g.step i) (g.center i) (g.centerAtIndex i) := by
  rw [coords_eq]; simp [h, samples]

/-- **C02 (origin at index 0).** Otherwise the coordinates are the same samples in the order of the Fourier transform. -/
theorem C02_fftOrder (g : Obj n K) (i : Fin n) (h : g.originAtCenter i = false) :
    g.coords i = (fftOrder (g.shape i)).filterMap
      fun j => (samples (g.shape i) (g.step i) (g.center i) (g.centerAtIndex i))[j]? := by
  rw [coords_eq]
  simp only [h, Bool.false_eq_true, if_false]
  rw [← List.filterMap_eq_map]
  apply List.filterMap_congr
  intro j hj
  have : j < g.shape i := by
    simp only [fftOrder, List.mem_map, List.mem_range] at hj
    obtain ⟨k, hk, rfl⟩ := hj
    exact Nat.mod_lt _ (by omega)
  simp [samples, this]

/-- **C02 (number of coordinates).** -/
theorem C02_length (g : Obj n K) (i : Fin n) : (g.coords i).length = g.shape i := by
  rw [coords_eq]; split <;> simp [fftOrder]

/-- **C02 (centre).** With the centre at an index, the coordinate at index `shape // 2`, or at index 0 when the origin is there, is
the centre. -/
theorem C02_center (g : Obj n K) (i : Fin n) (h : 1 ≤ g.shape i) (hc : g.centerAtIndex i = true) :
    (g.coords i)[if g.originAtCenter i then g.shape i / 2 else 0]? = some (g.center i) := by
  rw [coords_eq]
  have h2 : g.shape i / 2 < g.shape i := by omega
  split
  · simp [h2, firstSample, centerPos, hc]
  · have h0 : 0 < g.shape i := h
    simp [fftOrder, h0, firstSample, centerPos, hc, Nat.mod_eq_of_lt h2]

/-- **C02 (symmetry).** With the centre between indices, the coordinates are symmetric about it. -/
theorem C02_symmetric (g : Obj n K) (i : Fin n) (hc : g.centerAtIndex i = false) (ho : g.originAtCenter i = true)
    {j : ℕ} (hj : j < g.shape i) : ∃ x y, (g.coords i)[j]? = some x ∧ (g.coords i)[g.shape i - 1 - j]? = some y ∧
      x + y = 2 * g.center i := by
  rw [C02_ordered g i ho]
  have h2 : g.shape i - 1 - j < g.shape i := by omega
  refine ⟨_, _, by simp [samples, hj]; rfl, by simp [samples, h2]; rfl, ?_⟩
  have : ((g.shape i - 1 - j : ℕ) : K) = (g.shape i : K) - 1 - j := by
    rw [Nat.cast_sub (by omega), Nat.cast_sub (by omega)]; simp
  simp only [this, firstSample, centerPos, hc, Bool.false_eq_true, if_false]
  ring

/-- **C02 (first).** The property `first` is the first sample, whatever the parity of the shape. -/
theorem C02_first (g : Obj n K) (i : Fin n) :
    g.first i = firstSample (g.shape i) (g.step i) (g.center i) (g.centerAtIndex i) := by
  unfold Obj.first
  by_cases hc : g.centerAtIndex i = true
  · simp [hc, firstSample, centerPos]; ring
  · simp only [Bool.not_eq_true] at hc
    by_cases he : g.shape i % 2 = 0
    · have h2 : ((g.shape i / 2 : ℕ) : K) * 2 = g.shape i := by exact_mod_cast (by omega : g.shape i / 2 * 2 = g.shape i)
      have hh : (if ∀ j, pyMod (g.step j) 2 = 0 then ((⌊g.step i / 2⌋ : ℤ) : K) else g.step i / 2) = g.step i / 2 := by
        split
        · rename_i h
          have := h i
          simp only [pyMod] at this
          linarith
        · rfl
      simp only [hc, he, hh, firstSample, centerPos, Bool.false_eq_true, not_false_eq_true, and_self, if_true, if_false]
      linear_combination (-g.step i / 2) * h2
    · have h2 : ((g.shape i / 2 : ℕ) : K) * 2 + 1 = g.shape i := by
        exact_mod_cast (by omega : g.shape i / 2 * 2 + 1 = g.shape i)
      simp only [hc, he, firstSample, centerPos, Bool.false_eq_true, and_false, if_false]
      linear_combination (-g.step i / 2) * h2

/-- **C02 (indexing).** `grid[k]` gives the coordinates of axis `k`, counted from the end when negative, and raises an
`IndexError` for all other `k`. -/
theorem C02_getAxis (g : Obj n K) (hs : g.stepShort = false) (k : ℤ) :
    (∀ i : Fin n, k = i ∨ k = (i : ℤ) - n → g.getAxis k = .ok (g.coords i)) ∧
    (k < -n ∨ (n : ℤ) ≤ k → g.getAxis k = .error .indexError) := by
  constructor
  · intro i hi
    have : pyIndex n k = .ok i := by
      unfold pyIndex
      have := i.isLt
      rcases hi with rfl | rfl
      · simp
      · rw [dif_neg (by omega), dif_pos (by omega)]
        congr 1
        apply Fin.ext
        simp
    simp [Obj.getAxis, this, hs]
  · intro h
    have : pyIndex n k = .error .indexError := by
      unfold pyIndex
      rw [dif_neg (by omega), dif_neg (by omega)]
    simp [Obj.getAxis, this]

/-- **C02 (indexing a sequence).** `grid[k]` of a grid that was made of scalars gives the coordinate `k`. -/
theorem C02_getElement (g : Obj 1 K) (k : ℕ) (h : k < g.shape 0) :
    ∃ x, (g.coords 0)[k]? = some x ∧ getElement g k = .ok x ∧ getElement g ((k : ℤ) - g.shape 0) = .ok x := by
  have hl : k < (g.coords 0).length := by rw [C02_length]; exact h
  have e1 : pyIndex (g.shape 0) (k : ℤ) = .ok ⟨k, h⟩ := by
    unfold pyIndex; rw [dif_pos (by omega)]; congr 1
  have e2 : pyIndex (g.shape 0) ((k : ℤ) - g.shape 0) = .ok ⟨k, h⟩ := by
    unfold pyIndex; rw [dif_neg (by omega), dif_pos (by omega)]; congr 1; apply Fin.ext; simp
  refine ⟨(g.coords 0)[k], by simp [hl], ?_, ?_⟩
  · simp [getElement, e1, hl]
  · simp [getElement, e2, hl]

/-- **C02 (shape of the returned array).** The array for axis `i` is a vector if that axis is flat, and otherwise it has one
dimension per axis of the grid, of which only dimension `i` has more than one element. -/
theorem C02_axisShape (g : Obj n K) (i : Fin n) :
    (g.flat i = true → g.axisShape i = [g.shape i]) ∧
    (g.flat i = false → (g.axisShape i).length = n ∧
      ∀ j : Fin n, (g.axisShape i)[j.val]? = some (if j = i then g.shape i else 1)) := by
  unfold Obj.axisShape
  constructor
  · intro h; simp [h]
  · intro h; simp [h]

/-! ### C03 -/

/-- **C03.** From ranges that are uniformly spaced, each either in increasing order of index or in the order of the Fourier
transform, `Grid.from_ranges` makes a grid that has these ranges as its coordinates. -/
theorem C03_from_ranges (dt : DType) (N : Fin n → ℕ) (hN : ∀ i, 1 ≤ N i) (x0 s : Fin n → K) (fft : Fin n → Bool)
    (ranges : Fin n → List K)
    (hr : ∀ i, ranges i = (if fft i then fftOrder (N i) else List.range (N i)).map fun (j : ℕ) => x0 i + j * s i) :
    ∃ g, fromRanges dt ranges = .ok g ∧ ∀ i, g.coords i = ranges i := by
  have hlen : ∀ i, (ranges i).length = N i := by
    intro i; rw [hr]; split <;> simp [fftOrder]
  have hne : ∀ i, ranges i ≠ [] := by
    intro i h; have := hlen i; rw [h] at this; have := hN i; simp at *; omega
  have hshape : (fun i => (((ranges i).length : ℕ) : K)) = fun i => (N i : K) := by funext i; rw [hlen]
  refine ⟨{ shape := N, step := fun i => (rangeParams (ranges i) (hne i)).1,
            center := fun i => (rangeParams (ranges i) (hne i)).2.1, dt := .float, flat := fun _ => false,
            originAtCenter := fun i => (rangeParams (ranges i) (hne i)).2.2, centerAtIndex := fun _ => true,
            multidimensional := true, stepShort := false }, ?_, ?_⟩
  · unfold fromRanges
    rw [dif_pos hne, hshape]
    refine (init_eq (s1 := ⟨fun i => (N i : K), some (arrStep _), none, none, some _⟩) rfl (roundShape_nat N hN) (.inl rfl) rfl
      (by simp [failsChecks]) rfl).trans ?_
    simp [arrStep, promote_float_left]
  · intro i
    exact coords_rangeParams _ i (N i) (hN i) (x0 i) (s i) (fft i) (ranges i) (hr i) (hne i) rfl rfl rfl

/-! ### C04 -/

/-- The grids have the same shape and the same ordering of their coordinates. -/
def SameLayout (g g' : Obj n K) : Prop :=
  g'.shape = g.shape ∧ g'.flat = g.flat ∧ g'.originAtCenter = g.originAtCenter ∧ g'.centerAtIndex = g.centerAtIndex ∧
    g'.multidimensional = g.multidimensional

/-- **C04 (addition).** -/
theorem C04_add (g : Obj n K) (hN : ∀ i, 1 ≤ g.shape i) (t : Vec n K) :
    ∃ g', add g t = .ok g' ∧ SameLayout g g' ∧ ∀ i, g'.coords i = (g.coords i).map fun x => x + t.v i := by
  refine ⟨_, rebuild_eq hN _ _ _ _ _, ⟨rfl, rfl, rfl, rfl, rfl⟩, fun i => ?_⟩
  rw [coords_eq, coords_eq, List.map_map]
  congr 1
  funext j
  simp only [Function.comp_apply, firstSample]
  ring

/-- **C04 (subtraction).** -/
theorem C04_sub (g : Obj n K) (hN : ∀ i, 1 ≤ g.shape i) (t : Vec n K) :
    ∃ g', sub g t = .ok g' ∧ SameLayout g g' ∧ ∀ i, g'.coords i = (g.coords i).map fun x => x - t.v i := by
  obtain ⟨g', h1, h2, h3⟩ := C04_add g hN ⟨t.dt, fun i => - t.v i⟩
  exact ⟨g', h1, h2, fun i => by rw [h3]; simp [sub_eq_add_neg]⟩

/-- **C04 (multiplication).** -/
theorem C04_mul (g : Obj n K) (hN : ∀ i, 1 ≤ g.shape i) (f : Vec n K) :
    ∃ g', mul g f = .ok g' ∧ SameLayout g g' ∧ ∀ i, g'.coords i = (g.coords i).map fun x => x * f.v i := by
  refine ⟨_, rebuild_eq hN _ _ _ _ _, ⟨rfl, rfl, rfl, rfl, rfl⟩, fun i => ?_⟩
  rw [coords_eq, coords_eq, List.map_map]
  congr 1
  funext j
  simp only [Function.comp_apply, firstSample]
  ring

/-- **C04 (division).** Division by a vector without zeros. -/
theorem C04_truediv (g : Obj n K) (hN : ∀ i, 1 ≤ g.shape i) (d : Vec n K) (hd : ∀ i, d.v i ≠ 0) :
    ∃ g', truediv g d = .ok g' ∧ SameLayout g g' ∧ ∀ i, g'.coords i = (g.coords i).map fun x => x / d.v i := by
  obtain ⟨g', h1, h2, h3⟩ := C04_mul g hN ⟨.float, fun i => 1 / d.v i⟩
  refine ⟨g', ?_, h2, fun i => by rw [h3]; simp [div_eq_mul_inv]⟩
  rw [← h1]
  simp [truediv, hd]

/-- **C04 (negation).** -/
theorem C04_neg (g : Obj n K) (hN : ∀ i, 1 ≤ g.shape i) :
    ∃ g', neg g = .ok g' ∧ SameLayout g g' ∧ ∀ i, g'.coords i = (g.coords i).map fun x => -x := by
  obtain ⟨g', h1, h2, h3⟩ := C04_mul g hN ⟨.int, fun _ => -1⟩
  exact ⟨g', h1, h2, fun i => by rw [h3]; simp⟩

/-- **C04 (tensor space).** The coordinates of `a @ b` are those of `a` followed by those of `b`, with their flags. -/
theorem C04_matmul {m : ℕ} (g : Obj n K) (h : Obj m K) (hN : ∀ i, 1 ≤ g.shape i) (hM : ∀ i, 1 ≤ h.shape i) :
    ∃ g', matmul g h = .ok g' ∧
      (∀ i, g'.coords (Fin.castAdd m i) = g.coords i ∧ g'.flat (Fin.castAdd m i) = g.flat i) ∧
      (∀ i, g'.coords (Fin.natAdd n i) = h.coords i ∧ g'.flat (Fin.natAdd n i) = h.flat i) ∧
      (0 < n → (g'.dt = .int ↔ g.dt = .int ∧ h.dt = .int)) := by
  refine ⟨_, rebuild_eq ?_ _ _ _ _ _, fun i => ⟨?_, by simp⟩, fun i => ⟨?_, by simp⟩, ?_⟩
  · intro i
    refine Fin.addCases (fun j => ?_) (fun j => ?_) i
    · simpa using hN j
    · simpa using hM j
  · rw [coords_eq, coords_eq]; simp
  · rw [coords_eq, coords_eq]; simp
  · intro hn
    have : ¬ n = 0 := by omega
    cases g.dt <;> cases h.dt <;> simp [DType.promote, this]

/-! ### C05 -/

/-- **C05 (frequencies).** The coordinates of the frequency grid are the frequencies of the discrete Fourier transform. -/
theorem C05_freq (g : Obj n K) (hN : ∀ i, 1 ≤ g.shape i) (hs : ∀ i, 1 < g.shape i → g.step i ≠ 0) :
    ∃ f, freq g = .ok f ∧ f.shape = g.shape ∧ f.flat = g.flat ∧ f.multidimensional = g.multidimensional ∧
      ∀ i, f.coords i = fftFrequencies (g.shape i) ((g.shape i : K) * g.step i) := by
  refine ⟨_, freq_eq g hN hs, rfl, rfl, rfl, fun i => ?_⟩
  rw [coords_eq]
  simp only [Bool.false_eq_true, if_false, fftOrder, List.map_map, fftFrequencies, List.map_inj_left, List.mem_range,
    Function.comp_apply, Obj.extent]
  intro j hj
  have h2 : (((j + g.shape i / 2) % g.shape i : ℕ) : ℤ) =
      (if 2 * j < g.shape i then (j : ℤ) else (j : ℤ) - g.shape i) + (g.shape i / 2 : ℕ) := by
    split
    · rw [Nat.mod_eq_of_lt (by omega)]; push_cast; ring
    · rw [Nat.mod_eq_sub_mod (by omega), Nat.mod_eq_of_lt (by omega)]; omega
  have h3 : (((j + g.shape i / 2) % g.shape i : ℕ) : K) =
      (((if 2 * j < g.shape i then (j : ℤ) else (j : ℤ) - g.shape i) : ℤ) : K) + ((g.shape i / 2 : ℕ) : K) := by
    rw [← Int.cast_natCast, h2, Int.cast_add, Int.cast_natCast]
  rw [h3]
  simp only [firstSample, centerPos, if_true]
  ring

/-- **C05 (angular frequencies).** The coordinates of the k-space grid are those frequencies times 2π. -/
theorem C05_k (twoPi : K) (g : Obj n K) (hN : ∀ i, 1 ≤ g.shape i) (hs : ∀ i, 1 < g.shape i → g.step i ≠ 0) :
    ∃ f, kGrid twoPi g = .ok f ∧ f.shape = g.shape ∧
      ∀ i, f.coords i = (fftFrequencies (g.shape i) ((g.shape i : K) * g.step i)).map fun x => x * twoPi := by
  obtain ⟨f, h1, h2, h3, h4, h5⟩ := C05_freq g hN hs
  obtain ⟨k, q1, q2, q3⟩ := C04_mul f (by rw [h2]; exact hN) ⟨.float, fun _ => twoPi⟩
  refine ⟨k, by simp [kGrid, h1, q1], by rw [q2.1, h2], fun i => by rw [q3, h5]⟩

/-- **C05 (twice).** The frequency grid of the frequency grid has the shape and the step of the grid, also for singleton axes. -/
theorem C05_twice (g : Obj n K) (hN : ∀ i, 1 ≤ g.shape i) (hs : ∀ i, g.step i ≠ 0) :
    ∃ f f', freq g = .ok f ∧ freq f = .ok f' ∧ f'.shape = g.shape ∧ f'.step = g.step := by
  have hN0 : ∀ i, (g.shape i : K) ≠ 0 := fun i => by exact_mod_cast (by have := hN i; omega : g.shape i ≠ 0)
  refine ⟨_, _, freq_eq g hN fun i _ => hs i, freq_eq _ hN fun i _ => ?_, rfl, ?_⟩
  · simp only [Obj.extent]
    have := hs i
    have := hN0 i
    positivity
  · funext i
    simp only [Obj.extent]
    have := hs i
    have := hN0 i
    field_simp

/-- **C05 (undefined frequencies).** A zero step on an axis with more than one sample does not define a frequency grid. -/
theorem C05_zero_step (g : Obj n K) (i : Fin n) (h1 : 1 < g.shape i) (h2 : g.step i = 0) : freq g = .error .nonFinite := by
  unfold freq; rw [if_pos ⟨i, h1, h2⟩]

/-! ### C09 -/

/-- **C09 (flat and open).** `as_flat` and `as_non_flat` set these flags and change nothing else. -/
theorem C09_flat (g : Obj n K) (hN : ∀ i, 1 ≤ g.shape i) :
    ∃ a b, asFlat g = .ok a ∧ asNonFlat g = .ok b ∧ (∀ i, a.flat i = true) ∧ (∀ i, b.flat i = false) ∧
      (∀ i, a.coords i = g.coords i ∧ b.coords i = g.coords i) ∧ a.multidimensional = g.multidimensional ∧
      b.multidimensional = g.multidimensional := by
  refine ⟨_, _, rebuild_eq hN _ _ _ _ _, rebuild_eq hN _ _ _ _ _, fun _ => rfl, fun _ => rfl, fun i => ?_, rfl, rfl⟩
  constructor <;> rw [coords_eq, coords_eq]

/-- **C09 (origin).** `as_origin_at_center` and `as_origin_at_0` only change the order of the coordinates: the latter is the
`ifftshift` of the former, hence a permutation, and the former is the `fftshift` of the latter. -/
theorem C09_origin (g : Obj n K) (hN : ∀ i, 1 ≤ g.shape i) :
    ∃ a b, asOriginAtCenter g = .ok a ∧ asOriginAt0 g = .ok b ∧ a.flat = g.flat ∧ b.flat = g.flat ∧
      (∀ i, a.coords i = samples (g.shape i) (g.step i) (g.center i) (g.centerAtIndex i)) ∧
      (∀ i, b.coords i = ifftshift (a.coords i)) ∧ (∀ i, a.coords i = fftshift (b.coords i)) ∧
      (∀ i, (b.coords i).Perm (a.coords i)) := by
  have hperm : ∀ l : List K, (ifftshift l).Perm l := by
    intro l
    unfold ifftshift
    conv_rhs => rw [← List.take_append_drop (l.length / 2) l]
    exact List.perm_append_comm
  have hinv : ∀ l : List K, fftshift (ifftshift l) = l := by
    intro l
    have hlen : (l.drop (l.length / 2)).length = l.length - l.length / 2 := by simp
    have hl2 : (ifftshift l).length = l.length := by simp [ifftshift]; omega
    unfold fftshift
    rw [hl2]
    unfold ifftshift
    rw [← hlen, List.drop_left, List.take_left, List.take_append_drop]
  refine ⟨_, _, rebuild_eq hN _ _ _ _ _, rebuild_eq hN _ _ _ _ _, rfl, rfl, fun i => ?_, fun i => ?_, fun i => ?_, fun i => ?_⟩
  · simp [coords_eq, samples]
  · simp only [coords_eq, if_true, ifftshift_range, Bool.false_eq_true, if_false]
  · simp only [coords_eq, if_true, Bool.false_eq_true, if_false]
    rw [← ifftshift_range, hinv]
  · simp only [coords_eq, if_true, Bool.false_eq_true, if_false]
    rw [← ifftshift_range]
    exact hperm _

/-- **C09 (copies).** `mutable` and `immutable` return a grid with all attributes of the original. -/
theorem C09_copy (g : Obj n K) (hN : ∀ i, 1 ≤ g.shape i) (h0 : n = 0 → g.dt = .float) (hs : g.stepShort = false) :
    copy g = .ok g := by
  unfold copy
  rw [rebuild_eq hN]
  have : (if n = 0 then DType.float else g.dt.promote g.dt) = g.dt := by
    split
    · rename_i h; exact (h0 h).symm
    · cases g.dt <;> rfl
  simp [this, ← hs]

end

/-! ### Concrete cases -/

/-- A grid with an even axis whose centre lies between indices and an odd axis in the order of the Fourier transform. -/
def exampleGrid : Obj 2 ℚ :=
  { shape := ![4, 5], step := ![1 / 2, -2], center := ![3, 1], dt := .float, flat := fun _ => false,
    originAtCenter := ![true, false], centerAtIndex := ![false, true], multidimensional := true, stepShort := false }

example : exampleGrid.coords 0 = [9 / 4, 11 / 4, 13 / 4, 15 / 4] ∧ exampleGrid.coords 1 = [1, -1, -3, 5, 3] := by
  decide +kernel

example : (∀ i, 1 ≤ exampleGrid.shape i) ∧ (∀ i, exampleGrid.step i ≠ 0) := by decide +kernel

example : (freq exampleGrid).toOption.map (fun f => (f.coords 0, f.coords 1)) =
    some ([0, 1 / 2, -1, -1 / 2], [0, -1 / 10, -1 / 5, 1 / 5, 1 / 10]) := by decide +kernel

/-- `C03_from_ranges` for one range in each order. -/
example : (fromRanges .int (![[1, 3, 5, 7], [0, 1, 2, -2, -1]] : Fin 2 → List ℚ)).toOption.map
    (fun g => (g.coords 0, g.coords 1, g.originAtCenter 0, g.originAtCenter 1)) =
    some ([1, 3, 5, 7], [0, 1, 2, -2, -1], true, false) := by decide +kernel

theorem exampleGrid_shape : ∀ i, 1 ≤ exampleGrid.shape i := by decide +kernel

theorem exampleGrid_step : ∀ i, exampleGrid.step i ≠ 0 := by decide +kernel

/-- C02_fftOrder, C02_center: the second axis has its origin at index 0, and the centre at a sample. -/
example : (exampleGrid.coords 1 = (fftOrder 5).filterMap fun j => (samples 5 (-2 : ℚ) 1 true)[j]?) ∧ (exampleGrid.coords 1)[0]? = some 1 :=
  ⟨C02_fftOrder exampleGrid 1 rfl, C02_center exampleGrid 1 (by decide +kernel) rfl⟩

/-- C02_symmetric: the samples of the first axis are in pairs around 3. -/
example : ∃ x y, (exampleGrid.coords 0)[1]? = some x ∧ (exampleGrid.coords 0)[4 - 1 - 1]? = some y ∧ x + y = 2 * 3 := C02_symmetric exampleGrid 0 rfl rfl (by decide +kernel)

/-- C02_getAxis: the second axis is axis -1, and there is no axis 2. -/
example : exampleGrid.getAxis (-1) = .ok (exampleGrid.coords 1) ∧ exampleGrid.getAxis 2 = .error .indexError :=
  ⟨(C02_getAxis exampleGrid rfl (-1)).1 1 (by decide), (C02_getAxis exampleGrid rfl 2).2 (by decide)⟩

/-- One axis of it. -/
def exampleLine : Obj 1 ℚ :=
  { shape := ![4], step := ![1 / 2], center := ![3], dt := .float, flat := fun _ => false, originAtCenter := ![true], centerAtIndex := ![true], multidimensional := false, stepShort := false }

/-- C02_getElement: an element of a one-dimensional grid, counted from the start and from the end. -/
example : ∃ x, getElement exampleLine 3 = .ok x ∧ getElement exampleLine ((3 : ℕ) - (4 : ℕ)) = .ok x := by
  obtain ⟨x, _, h1, h2⟩ := C02_getElement exampleLine 3 (by decide)
  exact ⟨x, h1, h2⟩

/-- C04_add, C04_sub, C04_mul, C04_truediv and C04_neg for this grid. -/
example : (∃ g', add exampleGrid ⟨.float, ![1, 1 / 3]⟩ = .ok g' ∧ g'.coords 0 = [13 / 4, 15 / 4, 17 / 4, 19 / 4]) ∧
    (∃ g', sub exampleGrid ⟨.float, ![1, 1 / 3]⟩ = .ok g' ∧ g'.coords 0 = [5 / 4, 7 / 4, 9 / 4, 11 / 4]) ∧
    (∃ g', mul exampleGrid ⟨.int, ![-4, 0]⟩ = .ok g' ∧ g'.coords 0 = [-9, -11, -13, -15] ∧ g'.coords 1 = [0, 0, 0, 0, 0]) ∧
    (∃ g', truediv exampleGrid ⟨.int, ![2, -2]⟩ = .ok g' ∧ g'.coords 1 = [-1 / 2, 1 / 2, 3 / 2, -5 / 2, -3 / 2]) ∧
    ∃ g', neg exampleGrid = .ok g' ∧ g'.coords 1 = [-1, 1, 3, -5, -3] := by
  refine ⟨?_, ?_, ?_, ?_, ?_⟩
  · obtain ⟨g', h, _, h2⟩ := C04_add exampleGrid exampleGrid_shape ⟨.float, ![1, 1 / 3]⟩
    exact ⟨g', h, (h2 0).trans (by decide +kernel)⟩
  · obtain ⟨g', h, _, h2⟩ := C04_sub exampleGrid exampleGrid_shape ⟨.float, ![1, 1 / 3]⟩
    exact ⟨g', h, (h2 0).trans (by decide +kernel)⟩
  · obtain ⟨g', h, _, h2⟩ := C04_mul exampleGrid exampleGrid_shape ⟨.int, ![-4, 0]⟩
    exact ⟨g', h, (h2 0).trans (by decide +kernel), (h2 1).trans (by decide +kernel)⟩
  · obtain ⟨g', h, _, h2⟩ := C04_truediv exampleGrid exampleGrid_shape ⟨.int, ![2, -2]⟩ (by decide +kernel)
    exact ⟨g', h, (h2 1).trans (by decide +kernel)⟩
  · obtain ⟨g', h, _, h2⟩ := C04_neg exampleGrid exampleGrid_shape
    exact ⟨g', h, (h2 1).trans (by decide +kernel)⟩

/-- C04_matmul: the four axes of the product of this grid with itself. -/
example : ∃ g' : Obj 4 ℚ, matmul exampleGrid exampleGrid = .ok g' ∧ g'.coords 3 = [1, -1, -3, 5, 3] := by
  obtain ⟨g', h, _, h2, _⟩ := C04_matmul exampleGrid exampleGrid exampleGrid_shape exampleGrid_shape
  exact ⟨g', h, (h2 1).1.trans (by decide +kernel)⟩

/-- C05_freq, C05_k (for 2 * pi rounded to 44 / 7), and C05_twice. -/
example : (∃ f, freq exampleGrid = .ok f ∧ f.coords 0 = [0, 1 / 2, -1, -1 / 2]) ∧ (∃ f, kGrid (44 / 7) exampleGrid = .ok f ∧ f.coords 0 = [0, 22 / 7, -44 / 7, -22 / 7]) ∧
    ∃ f f', freq exampleGrid = .ok f ∧ freq f = .ok f' ∧ f'.step = exampleGrid.step := by
  refine ⟨?_, ?_, ?_⟩
  · obtain ⟨f, h, _, _, _, h2⟩ := C05_freq exampleGrid exampleGrid_shape fun i _ => exampleGrid_step i
    exact ⟨f, h, (h2 0).trans (by decide +kernel)⟩
  · obtain ⟨f, h, _, h2⟩ := C05_k (44 / 7) exampleGrid exampleGrid_shape fun i _ => exampleGrid_step i
    exact ⟨f, h, (h2 0).trans (by decide +kernel)⟩
  · obtain ⟨f, f', h, h2, _, h3⟩ := C05_twice exampleGrid exampleGrid_shape exampleGrid_step
    exact ⟨f, f', h, h2, h3⟩

/-- C05_zero_step: the same grid with all samples of the first axis at the same point. -/
example : freq { exampleGrid with step := ![0, -2] } = .error .nonFinite := C05_zero_step _ 0 (by decide) rfl

/-- C09_flat, C09_origin and C09_copy for this grid. -/
example : (∃ a, asFlat exampleGrid = .ok a ∧ ∀ i, a.flat i = true ∧ a.coords i = exampleGrid.coords i) ∧
    (∃ a b, asOriginAtCenter exampleGrid = .ok a ∧ asOriginAt0 exampleGrid = .ok b ∧ a.coords 1 = [5, 3, 1, -1, -3] ∧ b.coords 1 = [1, -1, -3, 5, 3]) ∧ copy exampleGrid = .ok exampleGrid := by
  refine ⟨?_, ?_, C09_copy _ exampleGrid_shape (by decide) rfl⟩
  · obtain ⟨a, b, h, _, h1, _, h2, _⟩ := C09_flat exampleGrid exampleGrid_shape
    exact ⟨a, h, fun i => ⟨h1 i, (h2 i).1⟩⟩
  · obtain ⟨a, b, h, h', _, _, h1, h2, _⟩ := C09_origin exampleGrid exampleGrid_shape
    have e : a.coords 1 = [5, 3, 1, -1, -3] := (h1 1).trans (by decide +kernel)
    exact ⟨a, b, h, h', e, by rw [h2 1, e]; decide +kernel⟩

end Verif.Grid
