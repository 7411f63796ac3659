import Verif.Props.Grid02

/-!
# C06 and C07: selection of axes, equality and hash
-/

set_option linter.unusedSectionVars false

namespace Verif.Grid

open Verif Verif.Spec.Grid

section
variable {n : ℕ} {K : Type} [Field K] [LinearOrder K] [IsStrictOrderedRing K] [FloorRing K]

/-! ### C06 -/

/-- Axis `j` of the grid `r` is axis `i` of the grid `g`, in all its attributes. -/
def SameAxis {m : ℕ} (r : Obj m K) (j : Fin m) (g : Obj n K) (i : Fin n) : Prop :=
  r.shape j = g.shape i ∧ r.step j = g.step i ∧ r.center j = g.center i ∧ r.flat j = g.flat i ∧
    r.originAtCenter j = g.originAtCenter i ∧ r.centerAtIndex j = g.centerAtIndex i

theorem select_eq (g : Obj n K) (hN : ∀ i, 1 ≤ g.shape i) (axes : List (Fin n)) :
    ∃ r, select g axes = .ok r ∧ ∀ j, SameAxis r j g (axes.get j) :=
  ⟨_, rebuild_eq (fun _ => hN _) _ _ _ _ _, fun _ => ⟨rfl, rfl, rfl, rfl, rfl, rfl⟩⟩

/-- An axis number, which may be negative, refers to an axis. -/
def RefersTo (z : ℤ) (i : Fin n) : Prop := z = i ∨ z = (i : ℤ) - n

theorem modAxes_eq (hn : 0 < n) {zs : List ℤ} {keep : List (Fin n)} (h : List.Forall₂ RefersTo zs keep) :
    modAxes n hn zs = keep := by
  induction h with
  | nil => rfl
  | cons h1 _ ih =>
    rename_i z i zs keep h2
    simp only [modAxes, List.map_cons, List.cons.injEq] at ih ⊢
    refine ⟨?_, ih⟩
    apply Fin.ext
    have hi : (i : ℤ) % (n : ℤ) = i := Int.emod_eq_of_lt (by omega) (by have := i.isLt; omega)
    rcases h1 with rfl | rfl
    · simp [hi]
    · simp [hi]

theorem refersTo_range {z : ℤ} {i : Fin n} (h : RefersTo z i) : ¬ ((n : ℤ) ≤ z ∨ z < -n) := by
  have := i.isLt
  rcases h with rfl | rfl <;> omega

theorem forall₂_range {zs : List ℤ} {keep : List (Fin n)} (h : List.Forall₂ RefersTo zs keep) :
    ¬ ∃ a ∈ zs, (n : ℤ) ≤ a ∨ a < -n := by
  induction h with
  | nil => simp
  | cons h1 _ ih =>
    rintro ⟨a, ha, hb⟩
    rcases List.mem_cons.mp ha with rfl | ha
    · exact refersTo_range h1 hb
    · exact ih ⟨a, ha, hb⟩

/-- **C06 (axes to keep).** The projection has exactly the listed axes, in the listed order. -/
theorem C06_keep (g : Obj n K) (hn : 0 < n) (hN : ∀ i, 1 ≤ g.shape i) {zs : List ℤ} {keep : List (Fin n)}
    (h : List.Forall₂ RefersTo zs keep) :
    ∃ r, project g (some zs) [] = .ok ⟨keep.length, r⟩ ∧ ∀ j, SameAxis r j g (keep.get j) := by
  obtain ⟨r, h1, h2⟩ := select_eq g hN keep
  refine ⟨r, ?_, h2⟩
  have hk : (modAxes n hn zs).filter (fun a => a ∉ modAxes n hn []) = keep := by
    rw [modAxes_eq hn h]; simp [modAxes]
  simp only [project, Option.getD_some, forall₂_range h, if_false, hn, dite_true]
  rw [hk, h1]

/-- **C06 (axes to remove).** The projection has exactly the axes that are not listed, in their order. -/
theorem C06_remove (g : Obj n K) (hn : 0 < n) (hN : ∀ i, 1 ≤ g.shape i) {zs : List ℤ} {rem : List (Fin n)}
    (h : List.Forall₂ RefersTo zs rem) {kept : List (Fin n)} (hk : kept = (List.finRange n).filter (fun i => i ∉ rem)) :
    ∃ r, project g none zs = .ok ⟨kept.length, r⟩ ∧ ∀ j, SameAxis r j g (kept.get j) := by
  obtain ⟨r, h1, h2⟩ := select_eq g hN kept
  refine ⟨r, ?_, h2⟩
  have hall : List.Forall₂ RefersTo ((List.range n).map (fun (i : ℕ) => (i : ℤ))) (List.finRange n) := by
    rw [List.forall₂_iff_get]
    refine ⟨by simp, fun i h1 h2 => .inl (by simp)⟩
  have hk' : (modAxes n hn ((List.range n).map (fun (i : ℕ) => (i : ℤ)))).filter (fun a => a ∉ modAxes n hn zs) = kept := by
    rw [modAxes_eq hn h, modAxes_eq hn hall, hk]
  simp only [project, Option.getD_none, forall₂_range hall, if_false, hn, dite_true]
  rw [hk', h1]

/-- **C06 (errors).** An axis to keep outside of the range raises an `IndexError`. -/
theorem C06_index_error (g : Obj n K) {zs rem : List ℤ} {z : ℤ} (hz : z ∈ zs) (h : z < -n ∨ (n : ℤ) ≤ z) :
    project g (some zs) rem = .error .indexError := by
  have : ∃ a ∈ zs, (n : ℤ) ≤ a ∨ a < -n := ⟨z, hz, h.symm⟩
  simp only [project, Option.getD_some, this, if_true]

/-- **C06 (transpose).** The axes are in reverse order. -/
theorem C06_transpose (g : Obj n K) (hn : 0 < n) (hN : ∀ i, 1 ≤ g.shape i) :
    ∃ r : Obj n K, transpose g none = .ok ⟨n, r⟩ ∧ ∀ j : Fin n, SameAxis r j g j.rev := by
  have h : List.Forall₂ RefersTo ((List.range n).reverse.map (fun (i : ℕ) => (i : ℤ))) (List.finRange n).reverse := by
    rw [List.forall₂_iff_get]
    refine ⟨by simp, fun i h1 h2 => .inl (by simp)⟩
  obtain ⟨r, h1, h2⟩ := C06_keep g hn hN h
  have hl : (List.finRange n).reverse.length = n := by simp
  have key : ∀ (m : ℕ) (r : Obj m K) (hm : m = n), (∀ j : Fin m, SameAxis r j g (j.cast hm).rev) →
      ∃ r' : Obj n K, (⟨m, r⟩ : Σ m, Obj m K) = ⟨n, r'⟩ ∧ ∀ j, SameAxis r' j g j.rev := by
    intro m q hm hq; subst hm; exact ⟨q, rfl, hq⟩
  obtain ⟨r', e1, e2⟩ := key _ r hl fun j => by
    have := h2 j
    have e : (List.finRange n).reverse.get j = (j.cast hl).rev := by
      apply Fin.ext; simp [Fin.rev]; omega
    rwa [e] at this
  exact ⟨r', by rw [← e1, ← h1]; rfl, e2⟩

/-- **C06 (transpose is an involution).** -/
theorem C06_transpose_twice (g : Obj n K) (hn : 0 < n) (hN : ∀ i, 1 ≤ g.shape i) :
    ∃ r r' : Obj n K, transpose g none = .ok ⟨n, r⟩ ∧ transpose r none = .ok ⟨n, r'⟩ ∧ ∀ j, SameAxis r' j g j := by
  obtain ⟨r, h1, h2⟩ := C06_transpose g hn hN
  obtain ⟨r', h3, h4⟩ := C06_transpose r hn (fun i => by rw [(h2 i).1]; exact hN _)
  refine ⟨r, r', h1, h3, fun j => ?_⟩
  obtain ⟨a1, a2, a3, a4, a5, a6⟩ := h4 j
  obtain ⟨b1, b2, b3, b4, b5, b6⟩ := h2 j.rev
  rw [Fin.rev_rev] at b1 b2 b3 b4 b5 b6
  exact ⟨a1.trans b1, a2.trans b2, a3.trans b3, a4.trans b4, a5.trans b5, a6.trans b6⟩

/-- **C06 (swapaxes).** `swapaxes([a, b])` exchanges the two axes and keeps all others. -/
theorem C06_swapaxes (g : Obj n K) (hN : ∀ i, 1 ≤ g.shape i) {a b : ℤ} {i j : Fin n} (ha : RefersTo a i)
    (hb : RefersTo b j) :
    ∃ r : Obj n K, swapaxes g [a, b] = .ok ⟨n, r⟩ ∧ ∀ k : Fin n, SameAxis r k g (Equiv.swap i j k) := by
  have hn : 0 < n := by have := i.isLt; omega
  have hidx : ∀ (l : List ℤ) {z : ℤ} {i : Fin n} (v : ℤ), l.length = n → RefersTo z i → assignAxis l z v = .ok (l.set i.val v) := by
    intro l z i v hl hz
    subst hl
    have hi := i.isLt
    have : pyIndex l.length z = .ok i := by
      unfold pyIndex
      rcases hz with rfl | rfl
      · simp
      · rw [dif_neg (by omega), dif_pos (by omega)]
        congr 1; apply Fin.ext; simp
    simp [assignAxis, this]
  set base := (List.range n).map (fun (i : ℕ) => (i : ℤ)) with hbase
  have hfold : ([a, b].zip [a, b].reverse).foldlM (fun all p => assignAxis all p.1 p.2) base =
      (.ok ((base.set i.val b).set j.val a) : Except PyErr (List ℤ)) := by
    simp only [List.reverse_cons, List.reverse_nil, List.nil_append, List.cons_append, List.zip_cons_cons, List.zip_nil_left,
      List.foldlM_cons, List.foldlM_nil]
    rw [hidx base b (by simp [hbase]) ha]
    change (assignAxis (base.set i.val b) b a >>= pure) = _
    rw [hidx _ a (by simp [hbase]) hb]
    rfl
  have h : List.Forall₂ RefersTo ((base.set i.val b).set j.val a) ((List.finRange n).map (Equiv.swap i j)) := by
    rw [List.forall₂_iff_get]
    refine ⟨by simp [hbase], fun k h1 h2 => ?_⟩
    have hk : k < n := by simpa using h2
    simp only [List.get_eq_getElem, List.getElem_set, hbase, List.getElem_map, List.getElem_range, List.getElem_finRange]
    by_cases e1 : j.val = k
    · have : (⟨k, hk⟩ : Fin n) = j := Fin.ext e1.symm
      simp only [e1, if_true]
      simpa [this] using ha
    · by_cases e2 : i.val = k
      · have : (⟨k, hk⟩ : Fin n) = i := Fin.ext e2.symm
        simp only [e1, e2, if_true, if_false]
        simpa [this] using hb
      · have n1 : (⟨k, hk⟩ : Fin n) ≠ i := fun h => e2 (by rw [← h])
        have n2 : (⟨k, hk⟩ : Fin n) ≠ j := fun h => e1 (by rw [← h])
        simp only [e1, e2, if_false]
        left
        simp [Equiv.swap_apply_of_ne_of_ne n1 n2]
  obtain ⟨r, h1, h2⟩ := C06_keep g hn hN h
  have hl : ((List.finRange n).map (Equiv.swap i j)).length = n := by simp
  have key : ∀ (m : ℕ) (q : Obj m K) (hm : m = n), (∀ k : Fin m, SameAxis q k g (Equiv.swap i j (k.cast hm))) →
      ∃ r' : Obj n K, (⟨m, q⟩ : Σ m, Obj m K) = ⟨n, r'⟩ ∧ ∀ k, SameAxis r' k g (Equiv.swap i j k) := by
    intro m q hm hq; subst hm; exact ⟨q, rfl, hq⟩
  obtain ⟨r', e1, e2⟩ := key _ r hl fun k => by
    have := h2 k
    have e : ((List.finRange n).map (Equiv.swap i j)).get k = Equiv.swap i j (k.cast hl) := by
      simp only [List.get_eq_getElem, List.getElem_map, List.getElem_finRange]
      rfl
    rwa [e] at this
  refine ⟨r', ?_, e2⟩
  unfold swapaxes
  rw [if_neg (by simp), ← hbase, hfold]
  simp only [transpose, Option.getD_some]
  rw [h1, e1]

/-! ### C07 -/

/-- **C07 (equality of grids of the same number of dimensions).** It holds exactly if shape, step, center, all flags, and the data
type agree, and it never raises. -/
theorem C07_eq_iff (g h : Obj n K) :
    (eq g h = .ok true ↔ g.shape = h.shape ∧ g.step = h.step ∧ g.center = h.center ∧ g.flat = h.flat ∧
      g.centerAtIndex = h.centerAtIndex ∧ g.originAtCenter = h.originAtCenter ∧ g.dt = h.dt) ∧
    (eq g h = .ok true ∨ eq g h = .ok false) := by
  have ha : ∀ {α : Type} [DecidableEq α] (a b : Fin n → α), allEq a b = .ok (decide (a = b)) := by
    intro α _ a b
    simp [allEq, funext_iff]
  unfold eq
  simp only [ha]
  by_cases h1 : g.shape = h.shape <;> by_cases h2 : g.step = h.step <;> by_cases h3 : g.center = h.center <;>
    by_cases h4 : g.flat = h.flat <;> by_cases h5 : g.centerAtIndex = h.centerAtIndex <;>
    by_cases h6 : g.originAtCenter = h.originAtCenter <;> by_cases h7 : g.dt = h.dt <;>
    simp [h1, h2, h3, h4, h5, h6, h7, bind, Except.bind, pure, Except.pure]

/-- **C07 (equivalence relation, partial).** On the grids with a given number of dimensions, equality is an equivalence relation.
The full statement is about all grids; that is false (`C07_not_transitive`). -/
theorem C07_equivalence_partial : Equivalence fun g h : Obj n K => eq g h = .ok true := by
  refine ⟨fun g => ?_, fun {g h} e => ?_, fun {g h k} e1 e2 => ?_⟩
  · rw [(C07_eq_iff g g).1]; simp
  · rw [(C07_eq_iff _ _).1] at e ⊢
    obtain ⟨a1, a2, a3, a4, a5, a6, a7⟩ := e
    exact ⟨a1.symm, a2.symm, a3.symm, a4.symm, a5.symm, a6.symm, a7.symm⟩
  · rw [(C07_eq_iff _ _).1] at e1 e2 ⊢
    obtain ⟨a1, a2, a3, a4, a5, a6, a7⟩ := e1
    obtain ⟨b1, b2, b3, b4, b5, b6, b7⟩ := e2
    exact ⟨a1.trans b1, a2.trans b2, a3.trans b3, a4.trans b4, a5.trans b5, a6.trans b6, a7.trans b7⟩

/-- **C07 (no axes)** is violated: every grid with one axis is equal to every grid without axes and with the same data type, as comparisons without elements are true. -/
theorem C07_empty_violates (g : Obj 1 K) (h : Obj 0 K) : (eq g h = .ok true ↔ g.dt = h.dt) ∧ (eq h g = .ok true ↔ g.dt = h.dt) := by
  have h1 : ∀ {α : Type} [DecidableEq α] (a : Fin 1 → α) (b : Fin 0 → α), allEq a b = .ok true := by
    intro α _ a b
    simp [allEq]
  have h2 : ∀ {α : Type} [DecidableEq α] (a : Fin 1 → α) (b : Fin 0 → α), allEq b a = .ok true := by
    intro α _ a b
    simp [allEq]
  unfold eq
  simp only [h1, h2]
  exact ⟨⟨fun e => by simpa [pure, Except.pure, bind, Except.bind] using e, fun e => by simp [pure, Except.pure, bind, Except.bind, e]⟩,
    ⟨fun e => by have : h.dt = g.dt := by simpa [pure, Except.pure, bind, Except.bind] using e
                 exact this.symm, fun e => by simp [pure, Except.pure, bind, Except.bind, e]⟩⟩

/-- **C07 (coordinates).** Equal grids of the same number of dimensions have equal coordinates. -/
theorem C07_coords (g h : Obj n K) (e : eq g h = .ok true) (i : Fin n) : g.coords i = h.coords i := by
  rw [(C07_eq_iff g h).1] at e
  obtain ⟨a1, a2, a3, a4, a5, a6, a7⟩ := e
  rw [coords_eq, coords_eq, a1, a2, a3, a5, a6]

/-- **C07 (hash, partial).** Equal grids have equal hashes if both were made of vectors or both of scalars. The full statement is
about all grids; that is false (`C07_hash_differs`). -/
theorem C07_hash_partial {H : Type} (hash : ReprText K → H) (g h : Obj n K) (hm : g.multidimensional = h.multidimensional)
    (e : eq g h = .ok true) : hashOf hash g = hashOf hash h := by
  rw [(C07_eq_iff g h).1] at e
  obtain ⟨a1, a2, a3, a4, a5, a6, a7⟩ := e
  simp [hashOf, reprOf, hm, a1, a2, a3, a4, a5, a6, a7]

/-- **C07 (representation).** The texts of two grids of the same kind, with vector or with scalar attributes, are the same exactly when the grids are
equal: no attribute is missing in the text. -/
theorem C07_repr_iff (g h : Obj n K) (hm : g.multidimensional = h.multidimensional) (hn : g.multidimensional = true ∨ n = 1) :
    reprOf g = reprOf h ↔ eq g h = .ok true := by
  have inj : ∀ {α : Type} (b : Bool) (x y : Fin n → α), b = true ∨ n = 1 → (reprAttr b x = reprAttr b y ↔ x = y) := by
    intro α b x y hb
    refine ⟨fun e => ?_, fun e => by rw [e]⟩
    rcases hb with rfl | rfl
    · simp only [reprAttr, if_true, ReprAttr.array.injEq] at e
      funext i
      have := List.map_inj_left.1 e i (List.mem_finRange i)
      exact this
    · cases b
      · simp [reprAttr, List.finRange_succ] at e
        funext i
        rw [Fin.fin_one_eq_zero i]
        exact e
      · simp only [reprAttr, if_true, ReprAttr.array.injEq] at e
        funext i
        exact List.map_inj_left.1 e i (List.mem_finRange i)
  rw [(C07_eq_iff g h).1]
  have hn' := hn
  rw [hm] at hn'
  simp only [reprOf, ReprText.mk.injEq, hm, inj _ _ _ hn']

end

/-- `Grid(5)`, `Grid([5])`, `Grid([5, 5])`, ... -/
def cube (n : ℕ) (multidimensional : Bool) : Obj n ℚ :=
  { shape := fun _ => 5, step := fun _ => 1, center := fun _ => 0, dt := .int, flat := fun _ => false,
    originAtCenter := fun _ => true, centerAtIndex := fun _ => true, multidimensional := multidimensional, stepShort := false }

/-- These are indeed what the constructor returns. -/
example : init true ({ shape := some ⟨.int, fun _ => 5⟩ } : Args 2 ℚ) = .ok (cube 2 true) := by
  refine init_eq (s1 := ⟨fun _ => 5, none, none, none, none⟩) (N := fun _ => 5) (step := arrStep (constInt 1)) (center := constInt 0)
    rfl (roundShape_of_eq (by simp) (by simp)) (.inr ⟨rfl, ?_⟩) rfl (by simp [failsChecks]) rfl
  have := truncK_int (K := ℚ) 1
  simp only [deduceStep, Except.map, intIfInteger]
  rw [if_pos (by intro i; simpa [arrStep, constInt] using this.symm)]
  congr 1

/-- **C07 (negation: unequal grids compare equal).** `Grid(5) == Grid([5, 5])`, though they have a different number of axes. -/
theorem C07_broadcast : eq (cube 1 false) (cube 2 true) = .ok true := by decide +kernel

/-- **C07 (negation: not transitive).** `Grid([5, 5]) == Grid(5)` and `Grid(5) == Grid([5, 5, 5])`, but comparing the first to the
last raises a `ValueError`. -/
theorem C07_not_transitive : eq (cube 2 true) (cube 1 false) = .ok true ∧ eq (cube 1 false) (cube 3 true) = .ok true ∧
    eq (cube 2 true) (cube 3 true) = .error .valueError := by decide +kernel

/-- **C07 (negation: equal grids with different hashes).** `Grid(5) == Grid([5])` but their representations differ, so that every
injective hash function of these texts tells them apart. -/
theorem C07_hash_differs : eq (cube 1 false) (cube 1 true) = .ok true ∧ reprOf (cube 1 false) ≠ reprOf (cube 1 true) := by
  decide +kernel

/-- Concrete cases for `C06_keep`, `C06_remove` and `C06_swapaxes`. -/
example : List.Forall₂ RefersTo [-1, 0] [(2 : Fin 3), 0] ∧
    ((swapaxes (cube 3 true) [0, -1]).toOption.map (·.1) = some 3) ∧
    ((project exampleGrid (some [-1]) []).toOption.map fun r => (List.finRange r.1).map r.2.shape) = some [5] ∧
    ((project exampleGrid none [-1]).toOption.map fun r => (List.finRange r.1).map r.2.shape) = some [4] := by
  refine ⟨?_, by decide +kernel, by decide +kernel, by decide +kernel⟩
  simp [RefersTo]

/-- C06_index_error: this grid has no axis 2. -/
example : project exampleGrid (some [0, 2]) [] = .error .indexError := C06_index_error exampleGrid (z := 2) (by simp) (by decide)

/-- C06_transpose, C06_transpose_twice: the axes of this grid differ. -/
example : (∃ r : Obj 2 ℚ, transpose exampleGrid none = .ok ⟨2, r⟩ ∧ SameAxis r 0 exampleGrid 1) ∧
    ∃ r r' : Obj 2 ℚ, transpose exampleGrid none = .ok ⟨2, r⟩ ∧ transpose r none = .ok ⟨2, r'⟩ ∧ SameAxis r' 0 exampleGrid 0 := by
  obtain ⟨r, h, h2⟩ := C06_transpose exampleGrid (by decide) exampleGrid_shape
  obtain ⟨r1, r2, h3, h4, h5⟩ := C06_transpose_twice exampleGrid (by decide) exampleGrid_shape
  exact ⟨⟨r, h, h2 0⟩, r1, r2, h3, h4, h5 0⟩

/-- C07_coords, C07_hash_partial and C07_repr_iff: equal grids have the same coordinates, text and hash. -/
example : eq exampleGrid { exampleGrid with stepShort := true } = .ok true ∧ exampleGrid.coords 1 = ({ exampleGrid with stepShort := true } : Obj 2 ℚ).coords 1 ∧
    hashOf id exampleGrid = hashOf id { exampleGrid with stepShort := true } ∧ reprOf exampleGrid = reprOf { exampleGrid with stepShort := true } := by
  have e : eq exampleGrid { exampleGrid with stepShort := true } = .ok true := (C07_eq_iff _ _).1.2 ⟨rfl, rfl, rfl, rfl, rfl, rfl, rfl⟩
  exact ⟨e, C07_coords _ _ e 1, C07_hash_partial id _ _ rfl e, (C07_repr_iff _ _ rfl (.inl rfl)).2 e⟩

end Verif.Grid
