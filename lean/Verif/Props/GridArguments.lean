import Verif.Props.Grid10
import Mathlib.Algebra.BigOperators.Fin

/-!
# C01: how the arguments of the constructor of a grid are read
-/

namespace Verif.Grid

open Verif

/-! ### Specification -/

/-- The sequence stands for these values, one for each axis: a single element for the same value on all axes, otherwise its elements are the values. -/
def Lists {α : Type} {n : ℕ} (xs : List α) (v : Fin n → α) : Prop := (∃ x, xs = [x] ∧ ∀ i, v i = x) ∨ (xs.length ≠ 1 ∧ xs = List.ofFn v)

/-- What an argument stands for. -/
def Arg.Denotes {K : Type} {n : ℕ} : Arg K → Vec n K → Prop
  | .scalar dt x, v => v.dt = dt ∧ ∀ i, v.v i = x
  | .vector dt xs, v => v.dt = dt ∧ Lists xs v.v

/-- What an optional argument stands for. -/
def Denoted {K : Type} {n : ℕ} : Option (Arg K) → Option (Vec n K) → Prop
  | none, v => v = none
  | some a, v => ∃ w, v = some w ∧ a.Denotes w

/-- What a boolean argument stands for. -/
def BArg.Denotes {n : ℕ} : BArg → (Fin n → Bool) → Prop
  | .scalar x, v => ∀ i, v i = x
  | .vector xs, v => Lists xs v

/-- An argument that has neither one element nor one for each axis. -/
def Arg.Misfits {K : Type} (n : ℕ) : Arg K → Prop
  | .scalar _ _ => False
  | .vector _ xs => xs.length ≠ 1 ∧ xs.length ≠ n

def BArg.Misfits (n : ℕ) : BArg → Prop
  | .scalar _ => False
  | .vector xs => xs.length ≠ 1 ∧ xs.length ≠ n

/-! ### Reading the arguments -/

theorem listToFn_iff {α : Type} {n : ℕ} (xs : List α) (v : Fin n → α) : listToFn n xs = .ok v ↔ Lists xs v := by
  unfold Lists
  rcases xs with _ | ⟨x, _ | ⟨y, t⟩⟩
  · simp only [listToFn]
    constructor
    · intro h
      split at h
      · rename_i h0
        cases h0
        right
        simp
      · exact (nomatch h)
    · rintro (⟨x, h, -⟩ | ⟨-, h⟩)
      · exact (nomatch h)
      · have h0 := congrArg List.length h
        simp only [List.length_nil, List.length_ofFn] at h0
        subst h0
        simp only [List.length_nil, dite_true, Except.ok.injEq]
        funext i
        exact i.elim0
  · simp only [listToFn, Except.ok.injEq, List.length_singleton, ne_eq, not_true, false_and, or_false, List.cons.injEq, and_true]
    constructor
    · rintro rfl
      exact ⟨x, rfl, fun _ => rfl⟩
    · rintro ⟨_, rfl, h⟩
      exact (funext h).symm
  · simp only [listToFn]
    constructor
    · intro h
      split at h
      · rename_i h0
        right
        refine ⟨by simp, ?_⟩
        cases h
        refine List.ext_getElem (by simpa using h0) fun i h1 h2 => ?_
        rw [List.getElem_ofFn]
      · exact (nomatch h)
    · rintro (⟨z, h, -⟩ | ⟨-, h⟩)
      · exact absurd (congrArg List.length h) (by simp)
      · have h0 := congrArg List.length h
        rw [List.length_ofFn] at h0
        rw [dif_pos h0]
        congr 1
        funext i
        have : (x :: y :: t)[(i : ℕ)]? = (List.ofFn v)[(i : ℕ)]? := by rw [h]
        rw [List.getElem?_eq_getElem (by omega), List.getElem?_eq_getElem (by simp), List.getElem_ofFn] at this
        exact Option.some.inj this

theorem listToFn_error {α : Type} {n : ℕ} (xs : List α) (e : PyErr) : listToFn n xs = .error e ↔ e = .valueError ∧ xs.length ≠ 1 ∧ xs.length ≠ n := by
  rcases xs with _ | ⟨x, _ | ⟨y, t⟩⟩
  · simp only [listToFn]
    split <;> simp_all [eq_comm]
  · simp [listToFn]
  · simp only [listToFn]
    split <;> simp_all [eq_comm]

theorem toNdim_iff {K : Type} {n : ℕ} (a : Arg K) (v : Vec n K) : toNdim n a = .ok v ↔ a.Denotes v := by
  obtain ⟨dt', v⟩ := v
  cases a with
  | scalar dt x =>
    simp only [toNdim, Except.ok.injEq, Vec.mk.injEq, Arg.Denotes]
    constructor
    · rintro ⟨rfl, rfl⟩
      exact ⟨rfl, fun _ => rfl⟩
    · rintro ⟨rfl, h⟩
      exact ⟨rfl, (funext h).symm⟩
  | vector dt xs =>
    simp only [toNdim, Arg.Denotes, ← listToFn_iff]
    cases h : listToFn n xs with
    | error e => simp [Except.map]
    | ok f =>
      simp only [Except.map, Except.ok.injEq, Vec.mk.injEq]
      exact ⟨fun ⟨h1, h2⟩ => ⟨h1.symm, h2⟩, fun ⟨h1, h2⟩ => ⟨h1.symm, h2⟩⟩

theorem toNdim_error {K : Type} {n : ℕ} (a : Arg K) (e : PyErr) : toNdim n a = .error e ↔ e = .valueError ∧ a.Misfits n := by
  cases a with
  | scalar dt x => simp [toNdim, Arg.Misfits]
  | vector dt xs =>
    simp only [toNdim, Arg.Misfits, ← listToFn_error xs e]
    cases h : listToFn n xs <;> simp [Except.map]

theorem toNdimB_iff {n : ℕ} (a : BArg) (v : Fin n → Bool) : toNdimB n a = .ok v ↔ a.Denotes v := by
  cases a with
  | scalar x =>
    simp only [toNdimB, Except.ok.injEq, BArg.Denotes]
    exact ⟨fun h i => by rw [← h], fun h => (funext h).symm⟩
  | vector xs => exact listToFn_iff xs v

theorem toNdimB_error {n : ℕ} (a : BArg) (e : PyErr) : toNdimB n a = .error e ↔ e = .valueError ∧ a.Misfits n := by
  cases a with
  | scalar x => simp [toNdimB, BArg.Misfits]
  | vector xs => exact listToFn_error xs e

/-- One of the optional arguments. -/
private def opt {K : Type} (n : ℕ) (o : Option (Arg K)) : Except PyErr (Option (Vec n K)) := match o with
    | none => .ok none
    | some a => (toNdim n a).map some

private theorem opt_iff {K : Type} {n : ℕ} (o : Option (Arg K)) (v : Option (Vec n K)) : opt n o = .ok v ↔ Denoted o v := by
  cases o with
  | none => simp [opt, Denoted, eq_comm]
  | some a =>
    simp only [opt, Denoted, ← toNdim_iff]
    cases h : toNdim n a <;> simp [Except.map, eq_comm]

private theorem opt_error {K : Type} {n : ℕ} (o : Option (Arg K)) (e : PyErr) : opt n o = .error e ↔ e = .valueError ∧ ∃ a ∈ o, a.Misfits n := by
  cases o with
  | none => simp [opt]
  | some a =>
    simp only [opt, Option.mem_some_iff, exists_eq_left', ← toNdim_error a e]
    cases h : toNdim n a <;> simp [Except.map]

private theorem bind_ok {α β : Type} (x : Except PyErr α) (f : α → Except PyErr β) (b : β) : (x >>= f) = .ok b ↔ ∃ a, x = .ok a ∧ f a = .ok b := by
  cases x <;> simp [bind, Except.bind]

private theorem bind_err {α β : Type} (x : Except PyErr α) (f : α → Except PyErr β) (e : PyErr) : (x >>= f) = .error e ↔ x = .error e ∨ ∃ a, x = .ok a ∧ f a = .error e := by
  cases x <;> simp [bind, Except.bind]

private theorem toArgs_eq {K : Type} (r : RawArgs K) : r.toArgs = (do
  let shape ← opt r.dims r.shape
  let step ← opt r.dims r.step
  let extent ← opt r.dims r.extent
  let first ← opt r.dims r.first
  let center ← opt r.dims r.center
  let last ← opt r.dims r.last
  let flat ← toNdimB r.dims r.flat
  let originAtCenter ← toNdimB r.dims r.originAtCenter
  let includeLast ← toNdimB r.dims r.includeLast
  let centerAtIndex ← toNdimB r.dims r.centerAtIndex
  return { shape, step, extent, first, center, last, includeLast, flat, originAtCenter, centerAtIndex }) := rfl

/-- **C01 (arguments).** Each argument of the constructor is read as the values that it stands for, under its own name. -/
theorem C01_arguments {K : Type} (r : RawArgs K) (a : Args r.dims K) : r.toArgs = .ok a ↔
    Denoted r.shape a.shape ∧ Denoted r.step a.step ∧ Denoted r.extent a.extent ∧ Denoted r.first a.first ∧ Denoted r.center a.center ∧ Denoted r.last a.last ∧
    r.flat.Denotes a.flat ∧ r.originAtCenter.Denotes a.originAtCenter ∧ r.includeLast.Denotes a.includeLast ∧ r.centerAtIndex.Denotes a.centerAtIndex := by
  rw [toArgs_eq]
  simp only [bind_ok, opt_iff, toNdimB_iff, pure, Except.pure, Except.ok.injEq]
  constructor
  · rintro ⟨_, h1, _, h2, _, h3, _, h4, _, h5, _, h6, _, h7, _, h8, _, h9, _, h10, rfl⟩
    exact ⟨h1, h2, h3, h4, h5, h6, h7, h8, h9, h10⟩
  · rintro ⟨h1, h2, h3, h4, h5, h6, h7, h8, h9, h10⟩
    exact ⟨_, h1, _, h2, _, h3, _, h4, _, h5, _, h6, _, h7, _, h8, _, h9, _, h10, rfl⟩

private theorem denoted_or {K : Type} (n : ℕ) (o : Option (Arg K)) : (∃ v : Option (Vec n K), Denoted o v) ∨ ∃ a ∈ o, a.Misfits n := by
  cases h : opt n o with
  | ok v => exact .inl ⟨v, (opt_iff o v).1 h⟩
  | error e => exact .inr ((opt_error o e).1 h).2

private theorem denotesB_or (n : ℕ) (b : BArg) : (∃ v : Fin n → Bool, b.Denotes v) ∨ b.Misfits n := by
  cases h : toNdimB n b with
  | ok v => exact .inl ⟨v, (toNdimB_iff b v).1 h⟩
  | error e => exact .inr ((toNdimB_error b e).1 h).2

/-- **C01 (arguments that do not fit).** The constructor raises a `ValueError` while it reads its arguments if and only if one of these has neither one element nor one for each axis. -/
theorem C01_misfits {K : Type} (r : RawArgs K) (e : PyErr) : r.toArgs = .error e ↔ e = .valueError ∧
    ((∃ o ∈ [r.shape, r.step, r.extent, r.first, r.center, r.last], ∃ a ∈ o, a.Misfits r.dims) ∨ ∃ b ∈ [r.flat, r.originAtCenter, r.includeLast, r.centerAtIndex], b.Misfits r.dims) := by
  constructor
  · intro h
    rw [toArgs_eq] at h
    simp only [bind_err, opt_error, toNdimB_error, pure, Except.pure, reduceCtorEq, and_false, exists_false, or_false] at h
    simp only [List.mem_cons, List.not_mem_nil, or_false, exists_eq_or_imp, exists_eq_left]
    rcases h with h | ⟨_, -, h | ⟨_, -, h | ⟨_, -, h | ⟨_, -, h | ⟨_, -, h | ⟨_, -, h | ⟨_, -, h | ⟨_, -, h | ⟨_, -, h⟩⟩⟩⟩⟩⟩⟩⟩⟩ <;> refine ⟨h.1, ?_⟩ <;>
      first | exact .inl (.inl h.2) | exact .inl (.inr (.inl h.2)) | exact .inl (.inr (.inr (.inl h.2))) | exact .inl (.inr (.inr (.inr (.inl h.2)))) |
        exact .inl (.inr (.inr (.inr (.inr (.inl h.2))))) | exact .inl (.inr (.inr (.inr (.inr (.inr h.2))))) | exact .inr (.inl h.2) | exact .inr (.inr (.inl h.2)) |
        exact .inr (.inr (.inr (.inl h.2))) | exact .inr (.inr (.inr (.inr h.2)))
  · rintro ⟨rfl, h⟩
    cases hr : r.toArgs with
    | error e =>
      rw [toArgs_eq] at hr
      simp only [bind_err, opt_error, toNdimB_error, pure, Except.pure, reduceCtorEq, and_false, exists_false, or_false] at hr
      congr 1
      rcases hr with h | ⟨_, -, h | ⟨_, -, h | ⟨_, -, h | ⟨_, -, h | ⟨_, -, h | ⟨_, -, h | ⟨_, -, h | ⟨_, -, h | ⟨_, -, h⟩⟩⟩⟩⟩⟩⟩⟩⟩ <;> exact h.1
    | ok a =>
      exfalso
      obtain ⟨h1, h2, h3, h4, h5, h6, h7, h8, h9, h10⟩ := (C01_arguments r a).1 hr
      have ho : ∀ (o : Option (Arg K)) (v : Option (Vec r.dims K)), Denoted o v → ¬ ∃ a ∈ o, a.Misfits r.dims := fun o v hv hm => by
        have := (opt_iff o v).2 hv
        rw [(opt_error o .valueError).2 ⟨rfl, hm⟩] at this
        exact (nomatch this)
      have hb : ∀ (b : BArg) (v : Fin r.dims → Bool), b.Denotes v → ¬ b.Misfits r.dims := fun b v hv hm => by
        have := (toNdimB_iff b v).2 hv
        rw [(toNdimB_error b .valueError).2 ⟨rfl, hm⟩] at this
        exact (nomatch this)
      simp only [List.mem_cons, List.not_mem_nil, or_false, exists_eq_or_imp, exists_eq_left] at h
      rcases h with (h | h | h | h | h | h) | (h | h | h | h)
      exacts [ho _ _ h1 h, ho _ _ h2 h, ho _ _ h3 h, ho _ _ h4 h, ho _ _ h5 h, ho _ _ h6 h, hb _ _ h7 h, hb _ _ h8 h, hb _ _ h9 h, hb _ _ h10 h]

/-- **C01 (given number of dimensions).** If the number of dimensions is given, it is that, whatever the other arguments. -/
theorem C01_ndim_given {K : Type} (r : RawArgs K) (d : ℕ) (h : r.ndim = some d) : r.dims = d := by
  unfold RawArgs.dims
  rw [h]

/-- **C01 (sequences of numbers and of axes).** The object behaves as a sequence of axes if and only if one of its first arguments is a sequence, of whatever length. -/
theorem C01_multidimensional {K : Type} (r : RawArgs K) : r.isMultidimensional = true ↔
    ∃ o ∈ [r.shape, r.step, r.extent, r.first, r.center, r.last], ∃ dt xs, o = some (.vector dt xs) := by
  unfold RawArgs.isMultidimensional
  rw [List.any_eq_true]
  refine exists_congr fun o => and_congr_right fun _ => ?_
  rcases o with _ | ⟨dt, x⟩ | ⟨dt, xs⟩ <;> simp [Arg.isVector]

section
variable {n : ℕ} {K : Type} [Field K] [LinearOrder K] [FloorRing K]

/-- This is what `multidimensional` tells of the object. -/
theorem init_multidimensional {m : Bool} {a : Args n K} {g : Obj n K} (h : init m a = .ok g) : g.multidimensional = m := by
  unfold init at h
  split at h
  · exact (nomatch h)
  · dsimp only at h
    split at h
    · exact (nomatch h)
    · split at h
      · exact (nomatch h)
      · split at h
        · exact (nomatch h)
        · split at h
          · exact (nomatch h)
          · cases h
            rfl

/-- **C01 (length).** The number of axes of an object that was constructed with a sequence, and the number of its elements for one that was constructed with numbers only. -/
theorem C01_len {r : RawArgs K} {g : Obj r.dims K} (h : mk r = .ok g) :
    ((∃ o ∈ [r.shape, r.step, r.extent, r.first, r.center, r.last], ∃ dt xs, o = some (.vector dt xs)) → len g = r.dims) ∧
      ((¬ ∃ o ∈ [r.shape, r.step, r.extent, r.first, r.center, r.last], ∃ dt xs, o = some (.vector dt xs)) → ∀ h0 : 0 < r.dims, len g = g.shape ⟨0, h0⟩) := by
  unfold mk at h
  split at h
  · exact (nomatch h)
  · have hm := init_multidimensional h
    rw [← C01_multidimensional, ← hm]
    unfold len
    exact ⟨fun h1 => by rw [if_pos h1], fun h1 h0 => by rw [if_neg h1, dif_pos h0]⟩

/-- **C01 (size).** The number of points is the product of the numbers of points along the axes. -/
theorem C01_size (g : Obj n K) : g.size = ∏ i, g.shape i := by
  unfold Obj.size
  rw [Fin.prod_univ_def]

/-- **C01 (axes).** Counting from either end, each key in range selects the coordinates of one axis, except for grids that store a single step, of which only the first axis can be read. -/
theorem C01_axis (g : Obj n K) (i : Fin n) (h : g.stepShort = false ∨ i.val = 0) : g.getAxis i = .ok (g.coords i) ∧ g.getAxis ((i : ℤ) - n) = .ok (g.coords i) := by
  have hi := i.2
  have h1 : pyIndex n (i : ℤ) = .ok i := by
    unfold pyIndex
    rw [dif_pos ⟨by omega, by omega⟩]
    congr 1
  have h2 : pyIndex n ((i : ℤ) - n) = .ok i := by
    unfold pyIndex
    rw [dif_neg (by omega), dif_pos ⟨by omega, by omega⟩]
    congr 1
    ext
    simp
  have h3 : ¬ (g.stepShort = true ∧ 0 < i.val) := by
    rintro ⟨h4, h5⟩
    rcases h with h | h
    · rw [h4] at h
      exact (nomatch h)
    · omega
  unfold Obj.getAxis
  rw [h1, h2]
  exact ⟨if_neg h3, if_neg h3⟩

/-- **C01 (keys out of range).** Other keys raise an `IndexError`, and so do the other axes of grids that store a single step. -/
theorem C01_axis_error (g : Obj n K) (key : ℤ) (h : key < -n ∨ (n : ℤ) ≤ key ∨ (g.stepShort = true ∧ key ≠ 0 ∧ key ≠ -n)) : g.getAxis key = .error .indexError := by
  unfold Obj.getAxis
  unfold pyIndex
  split
  · rename_i e h1
    split at h1
    · exact (nomatch h1)
    · split at h1
      · exact (nomatch h1)
      · cases h1
        rfl
  · rename_i i h1
    rw [if_pos]
    split at h1
    · cases h1
      rcases h with h | h | ⟨h, h2, -⟩
      · omega
      · omega
      · refine ⟨h, ?_⟩
        show 0 < key.toNat
        omega
    · split at h1
      · cases h1
        rcases h with h | h | ⟨h, h2, h3⟩
        · omega
        · omega
        · refine ⟨h, ?_⟩
          show 0 < (key + n).toNat
          omega
      · exact (nomatch h1)

end

section
variable {n : ℕ} {K : Type} [Field K] [LinearOrder K] [IsStrictOrderedRing K] [FloorRing K]

/-- **C01 (negation for the default step).** The documented default step 1 is not used when both ends are given: with integers the constructor always raises an `AttributeError`. -/
theorem C01_default_step_violates {m : Bool} {a : Args n K} (h1 : a.shape = none) (h2 : a.step = none) (h3 : a.extent = none) {f l : Vec n K} (h4 : a.first = some f) (h5 : a.last = some l)
    (h6 : a.center = none) (hdt : f.dt = .int) (hint : ∀ i, ∃ z : ℤ, f.v i = z) (hc : ∀ i, a.centerAtIndex i = true) : init m a = .error .attributeError := by
  have hs : stage1 a = .ok ⟨fun i => (l.v i - f.v i) / 1 + b2k (a.includeLast i), some ⟨true, false, constInt 1⟩, none, some f, none⟩ := by
    unfold stage1
    rw [h1, h3, h2, h5, h4, h6]
    dsimp only
    rw [if_neg (by simp [constInt])]
    rfl
  unfold init
  rw [hs]
  dsimp only
  have hn : ∀ N : Fin n → ℕ, nearInteger (fun i => f.v i + centerOffset (N i) (a.centerAtIndex i) * (constInt (n := n) (1 : K)).v i) := by
    intro N i
    obtain ⟨z, hz⟩ := hint i
    have : f.v i + centerOffset (N i) (a.centerAtIndex i) * (constInt (n := n) (1 : K)).v i = ((z + (N i / 2 : ℕ) : ℤ) : K) := by
      rw [hc, hz, Int.cast_add, Int.cast_natCast]
      simp only [centerOffset, b2k, constInt, if_true, sub_self, mul_zero, add_zero, mul_one]
    show isclose (f.v i + centerOffset (N i) (a.centerAtIndex i) * (constInt (n := n) (1 : K)).v i)
      (roundHalfEven (f.v i + centerOffset (N i) (a.centerAtIndex i) * (constInt (n := n) (1 : K)).v i))
    have hr : roundHalfEven ((z + (N i / 2 : ℕ) : ℤ) : K) = ((z + (N i / 2 : ℕ) : ℤ) : K) := by
      unfold roundHalfEven
      rw [Int.floor_intCast, sub_self, if_pos (by norm_num)]
    rw [this, hr]
    unfold isclose
    rw [sub_self, abs_zero]
    positivity
  unfold deduceCenter
  dsimp only
  unfold centerBackToInt
  rw [if_pos ⟨by rw [hdt]; rfl, hn _⟩, if_pos rfl]

end

/-- Cases that are not trivial: `Grid(shape=[4, 3], step=0.5, flat=[True, False])`, and with a center of three elements. -/
example : ∃ a, ({ shape := some (.vector .int [4, 3]), step := some (.scalar .float (1 / 2)), flat := .vector [true, false] } : RawArgs ℚ).toArgs = .ok a :=
  ⟨{ shape := some ⟨.int, ![4, 3]⟩, step := some ⟨.float, fun _ => 1 / 2⟩, flat := ![true, false] }, (C01_arguments _ _).2
    ⟨⟨_, rfl, rfl, .inr ⟨by simp, by rfl⟩⟩, ⟨_, rfl, rfl, fun _ => rfl⟩, rfl, rfl, rfl, rfl, .inr ⟨by simp, by rfl⟩, fun _ => rfl, fun _ => rfl, fun _ => rfl⟩⟩

example : ({ shape := some (.vector .int [4, 3]), center := some (.vector .int [0, 0, 0]) } : RawArgs ℚ).toArgs = .error .valueError :=
  (C01_misfits _ _).2 ⟨rfl, .inl ⟨_, .head _, _, rfl, by simp [Arg.Misfits, RawArgs.dims, Arg.size]⟩⟩

example : init false ({ first := some ⟨.int, fun _ => 0⟩, last := some ⟨.int, fun _ => 10⟩ } : Args 1 ℚ) = .error .attributeError :=
  C01_default_step_violates rfl rfl rfl rfl rfl rfl rfl (fun _ => ⟨0, by simp⟩) fun _ => rfl

end Verif.Grid
