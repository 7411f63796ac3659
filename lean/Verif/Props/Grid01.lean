import Verif.Lemmas.Grid01

/-!
# C01 and C10: construction of grids
-/

set_option linter.unusedSectionVars false

namespace Verif.Grid

open Verif Verif.Spec.Grid

section
variable {n : ℕ} {K : Type} [Field K] [LinearOrder K] [IsStrictOrderedRing K] [FloorRing K]

/-- **C01 (given arguments are honoured).** Whenever the constructor returns, every axis has at least one sample, and the shape
(rounded up, at least 1), the step, the center and the flags are those that were given. -/
theorem C01_given {m : Bool} {a : Args n K} {g : Obj n K} (h : init m a = .ok g) :
    (∀ i, 1 ≤ g.shape i) ∧
    (∀ sh ∈ a.shape, ∀ i, (g.shape i : ℤ) = max 1 ⌈sh.v i⌉) ∧
    (∀ st ∈ a.step, ∀ i, g.step i = st.v i) ∧
    (∀ c ∈ a.center, ∀ i, g.center i = c.v i) ∧
    g.flat = a.flat ∧ g.originAtCenter = a.originAtCenter ∧ g.centerAtIndex = a.centerAtIndex ∧
    g.multidimensional = m := by
  obtain ⟨s1, step, center, h1, h2, h3, h4, h5, rfl⟩ := init_ok h
  refine ⟨fun i => roundShape_pos _ i, ?_, ?_, ?_, rfl, rfl, rfl, rfl⟩
  · intro sh hsh i
    obtain ⟨hr, -⟩ := stage1_shape h1 sh hsh
    simp only [hr, roundShape]; omega
  · intro st hst i
    have := stage1_step h1 st hst
    rw [this] at h2
    simp only [Except.ok.injEq] at h2
    subst h2; rfl
  · intro c hc i
    have := stage1_center h1 c hc
    simp only [deduceCenter, this, Except.ok.injEq] at h3
    subst h3; rfl

/-- **C01 (first).** Whenever the constructor returns and `first` was given, the documented relation between first and center
holds, whatever else was given. -/
theorem C01_first {m : Bool} {a : Args n K} {g : Obj n K} (h : init m a = .ok g) :
    ∀ f ∈ a.first, ∀ i, CenterRelation (g.shape i) (g.step i) (f.v i) (g.center i) (g.centerAtIndex i) := by
  obtain ⟨s1, step, center, h1, h2, h3, h4, h5, rfl⟩ := init_ok h
  intro f hf i
  have hs := stage1_first h1 f hf
  simp only [failsChecks, not_or] at h4
  have := h4.2.2
  simp only [hs, Option.mem_def, Option.some.injEq, exists_eq_left', firstCenterMismatch, not_exists, not_not] at this
  have := this i
  rw [centerOffset_eq] at this
  exact this

/-- **C01 (first and last).** Whenever the constructor returns and `first` and `last` were given, the documented relation between
first, last, step and shape holds, whatever else was given. -/
theorem C01_first_last {m : Bool} {a : Args n K} {g : Obj n K} (h : init m a = .ok g) :
    ∀ f ∈ a.first, ∀ l ∈ a.last, ∀ i, LastRelation (g.shape i) (g.step i) (f.v i) (l.v i) (a.includeLast i) := by
  obtain ⟨s1, step, center, h1, h2, h3, h4, h5, rfl⟩ := init_ok h
  intro f hf l hl i
  have hs := stage1_first h1 f hf
  rw [Option.mem_def] at hl
  simp only [failsChecks, not_or] at h4
  have := h4.2.1
  simp only [hs, hl, Option.mem_def, Option.some.injEq, exists_eq_left', firstLastMismatch, not_exists, not_not] at this
  have := this i
  unfold LastRelation
  split <;> simp_all [b2k]

/-- **C01 (extent).** If the extent is given but not the step, then shape * step equals that extent. -/
theorem C01_extent {m : Bool} {a : Args n K} {g : Obj n K} (h : init m a = .ok g) (hs : a.step = none) :
    ∀ ext ∈ a.extent, ∀ i, ExtentRelation (g.shape i) (g.step i) (ext.v i) := by
  obtain ⟨s1, step, center, h1, h2, h3, h4, h5, rfl⟩ := init_ok h
  intro ext he i
  rw [Option.mem_def] at he
  have hpos := roundShape_pos s1.rawShape i
  have hne : ((roundShape s1.rawShape i : ℕ) : K) ≠ 0 := by exact_mod_cast (by omega : roundShape s1.rawShape i ≠ 0)
  cases hsh : a.shape with
  | some sh =>
    simp only [stage1, hsh, Except.ok.injEq] at h1
    subst h1
    simp only [hs, Option.map_none, he, deduceStep, Except.map, Except.ok.injEq] at h2
    subst h2
    simp only [ExtentRelation, intIfInteger_v, arrStep]
    field_simp
  | none =>
    simp only [stage1, hsh, he, hs, Option.getD_none, Except.ok.injEq] at h1
    subst h1
    simp only [Except.ok.injEq] at h2
    subst h2
    simp only [failsChecks, not_or, Option.mem_def, Option.some.injEq, exists_eq_left', extentMismatch] at h4
    have h0 : ext.v i ≠ 0 := fun hz => h4.1.1 ⟨i, hz⟩
    have hone : signK (ext.v i) * |ext.v i| = ext.v i := by
      unfold signK
      rcases lt_or_gt_of_ne h0 with hl | hl
      · simp [hl, not_lt.mpr hl.le, abs_of_neg hl]
      · simp [hl, abs_of_pos hl]
    have : roundShape (fun i => signK (ext.v i) * |ext.v i| / ext.v i) i = 1 := by
      simp [roundShape, hone, h0]
    simp [ExtentRelation, this, arrStep]

/-- **C01 (extent and step).** If the extent and the step are given but not the shape, then the number of samples is the smallest
that covers the extent: the ratio of both (in absolute value), rounded up. -/
theorem C01_extent_step {m : Bool} {a : Args n K} {g : Obj n K} (h : init m a = .ok g) (hsh : a.shape = none) :
    ∀ ext ∈ a.extent, ∀ st ∈ a.step, ∀ i, st.v i ≠ 0 ∧ (g.shape i : ℤ) = max 1 ⌈|ext.v i| / |st.v i|⌉ := by
  obtain ⟨s1, step, center, h1, h2, h3, h4, h5, rfl⟩ := init_ok h
  intro ext he st hst i
  rw [Option.mem_def] at he hst
  simp only [stage1, hsh, he, hst, Option.getD_some, Except.ok.injEq] at h1
  subst h1
  simp only [Except.ok.injEq] at h2
  subst h2
  simp only [failsChecks, not_or, Option.mem_def, Option.some.injEq, exists_eq_left', extentMismatch] at h4
  have h0 : st.v i ≠ 0 := fun hz => h4.1.1 ⟨i, hz⟩
  have : signK (st.v i) * |ext.v i| / st.v i = |ext.v i| / |st.v i| := by
    unfold signK
    rcases lt_or_gt_of_ne h0 with hl | hl
    · simp [hl, not_lt.mpr hl.le, abs_of_neg hl, neg_div, div_neg]
    · simp [hl, abs_of_pos hl]
  refine ⟨h0, ?_⟩
  simp only [roundShape, this]
  omega

/-- **C01 (extent, step and shape).** If all three are given, they are accepted only if they agree after rounding up the ratio, or
within the tolerance of `np.allclose`. -/
theorem C01_extent_step_shape {m : Bool} {a : Args n K} {g : Obj n K} (h : init m a = .ok g) (hsh : a.shape.isSome) :
    ∀ ext ∈ a.extent, ∀ st ∈ a.step, (∀ i, st.v i ≠ 0) ∧
      ((∀ i, |ext.v i / st.v i - g.shape i| ≤ 1 / 10 ^ 8 + 1 / 10 ^ 5 * |(g.shape i : K)|) ∨
       (∀ i, (g.shape i : ℤ) = max 1 ⌈ext.v i / st.v i⌉)) := by
  obtain ⟨sh, hsh⟩ := Option.isSome_iff_exists.mp hsh
  obtain ⟨s1, step, center, h1, h2, h3, h4, h5, rfl⟩ := init_ok h
  intro ext he st hst
  rw [Option.mem_def] at he hst
  simp only [stage1, hsh, Except.ok.injEq] at h1
  subst h1
  simp only [hst, Option.map_some, Except.ok.injEq] at h2
  subst h2
  simp only [failsChecks, not_or, he, Option.mem_def, Option.some.injEq, exists_eq_left', extentMismatch, isclose,
    not_exists, not_and] at h4
  refine ⟨h4.1.1, ?_⟩
  by_cases hc : ∀ i, |ext.v i / st.v i - (roundShape sh.v i : K)| ≤ 1 / 10 ^ 8 + 1 / 10 ^ 5 * |(roundShape sh.v i : K)|
  · exact .inl hc
  · exact .inr fun i => (not_not.mp (h4.1.2 hc i)).symm

/-- **C01 (last), partial.** The full statement is that `last` satisfies the documented relation whenever it is given and the
constructor returns. It is proved here for the case that neither first nor center is given, and either `last` is a float or all
axes have their centre at an index. Not covered, because it does not hold: integer `last` with `center_at_index=False`
(`C01_last_truncated`), and `last` given together with `center` (`C01_last_ignored`, `C01_last_center_rounded`). -/
theorem C01_last_partial {m : Bool} {a : Args n K} {g : Obj n K} (h : init m a = .ok g)
    (hf : a.first = none) (hc : a.center = none) (hse : a.shape.isSome ∨ a.extent.isSome)
    (hws : ∀ s ∈ a.step, s.WF) (hwe : ∀ s ∈ a.extent, s.WF) (hwl : ∀ l ∈ a.last, l.WF)
    (hd : ∀ l ∈ a.last, l.dt = .float ∨ ∀ i, a.centerAtIndex i = true) :
    ∀ l ∈ a.last, ∀ i, LastRelation (g.shape i) (g.step i)
      (firstSample (g.shape i) (g.step i) (g.center i) (g.centerAtIndex i)) (l.v i) (a.includeLast i) := by
  obtain ⟨s1, step, center, h1, h2, h3, h4, h5, rfl⟩ := init_ok h
  intro l hl i
  have hwl' := hwl l hl
  have hd' := hd l hl
  rw [Option.mem_def] at hl
  have hs1 : s1.first = none ∧ s1.center = none := by
    cases hsh : a.shape with
    | some sh =>
      obtain ⟨-, -, -, q1, q2⟩ := stage1_shape h1 sh hsh
      exact ⟨q1.trans hf, q2.trans hc⟩
    | none =>
      cases he : a.extent with
      | none => simp [hsh, he] at hse
      | some e =>
        simp only [stage1, hsh, he, Except.ok.injEq] at h1
        subst h1; exact ⟨hf, hc⟩
  have hwstep : step.vec.WF := by
    cases hst : s1.step with
    | some s =>
      rw [hst] at h2; simp only [Except.ok.injEq] at h2; subst h2
      cases hsh : a.shape with
      | some sh =>
        obtain ⟨-, q, -⟩ := stage1_shape h1 sh hsh
        rw [hst] at q
        cases hq : a.step with
        | none => simp [hq] at q
        | some s' => simp only [hq, Option.map_some, Option.some.injEq] at q; subst q; exact hws s' hq
      | none =>
        cases he : a.extent with
        | none => simp [hsh, he] at hse
        | some e =>
          simp only [stage1, hsh, he, Except.ok.injEq] at h1
          subst h1
          simp only [Option.some.injEq] at hst
          subst hst
          cases hq : a.step with
          | none => exact hwe e he
          | some s' => exact hws s' hq
    | none =>
      rw [hst] at h2
      cases hds : deduceStep a (roundShape s1.rawShape) s1.extent s1.first s1.center with
      | error e => simp [hds, Except.map] at h2
      | ok s' =>
        simp only [hds, Except.map, Except.ok.injEq] at h2
        subst h2
        exact intIfInteger_wf (deduceStep_wf hds).1
  have hcv : center.v i = l.v i - step.vec.v i * lastOffset (roundShape s1.rawShape i) (a.includeLast i) (a.centerAtIndex i) := by
    simp only [deduceCenter, hs1, hl, centerBackToInt] at h3
    split at h3
    · rename_i hint
      simp only [h5, Bool.false_eq_true, if_false, Except.ok.injEq] at h3
      subst h3
      have hli : l.dt = .int := by
        cases hq : l.dt with
        | int => rfl
        | float => simp [hq, DType.promote] at hint
      have hsi : step.vec.dt = .int := by
        cases hq : step.vec.dt with
        | int => rfl
        | float => rw [hq, promote_float_right] at hint; simp at hint
      have hcai : a.centerAtIndex i = true := by
        rcases hd' with q | q
        · rw [hli] at q; simp at q
        · exact q i
      obtain ⟨zl, hzl⟩ := hwl' hli i
      obtain ⟨zs, hzs⟩ := hwstep hsi i
      have : l.v i - step.vec.v i * lastOffset (roundShape s1.rawShape i) (a.includeLast i) (a.centerAtIndex i)
          = ((zl - zs * ((roundShape s1.rawShape i : ℤ) - (if a.includeLast i then 1 else 0)
              - ((roundShape s1.rawShape i / 2 : ℕ) : ℤ)) : ℤ) : K) := by
        rw [hzl, hzs, lastOffset_eq, hcai]
        simp only [centerPos, if_true]
        generalize roundShape s1.rawShape i / 2 = q
        cases a.includeLast i <;> simp [b2k]
      simp only [this, truncK_int]
    · simp only [Except.ok.injEq] at h3
      subst h3; rfl
  unfold LastRelation
  simp only [hcv, firstSample, lastOffset_eq]
  cases a.includeLast i <;> simp [b2k] <;> ring

/-- **C01 (vectors and scalars).** A scalar argument and a vector of one element stand for the same value on every axis, a vector
with one element per axis for itself, and a vector of any other length raises a `ValueError`. -/
theorem C01_broadcast {α : Type} (dt : DType) (x : α) (xs : List α) :
    toNdim n (.scalar dt x) = .ok ⟨dt, fun _ => x⟩ ∧ toNdim n (.vector dt [x]) = .ok ⟨dt, fun _ => x⟩ ∧
    ((h : xs.length = n) → xs.length ≠ 1 → toNdim n (.vector dt xs) = .ok ⟨dt, fun i => xs[i.val]'(by omega)⟩) ∧
    (xs.length ≠ n → xs.length ≠ 1 → toNdim n (.vector dt xs) = .error .valueError) := by
  refine ⟨rfl, rfl, fun h h1 => ?_, fun h h1 => ?_⟩
  · rcases xs with _ | ⟨y, _ | ⟨z, t⟩⟩
    · simp only [toNdim, listToFn, h, dite_true, Except.map]
    · simp at h1
    · simp only [toNdim, listToFn, h, dite_true, Except.map]
  · rcases xs with _ | ⟨y, _ | ⟨z, t⟩⟩
    · simp only [toNdim, listToFn, h, dite_false, Except.map]
    · simp at h1
    · simp only [toNdim, listToFn, h, dite_false, Except.map]

/-- **C01 (number of dimensions).** Unless it is given, the number of dimensions is the least that fits all arguments. -/
theorem C01_ndim {α : Type} (r : RawArgs α) (h : r.ndim = none) (d : ℕ) :
    r.dims ≤ d ↔ ∀ o ∈ [r.shape, r.step, r.extent, r.first, r.center, r.last], ∀ x ∈ o, Arg.size x ≤ d := by
  unfold RawArgs.dims
  simp only [h, List.foldl_cons, List.foldl_nil, List.mem_cons, List.not_mem_nil, or_false, forall_eq_or_imp, forall_eq]
  rcases r.shape with _ | _ <;> rcases r.step with _ | _ <;> rcases r.extent with _ | _ <;> rcases r.first with _ | _ <;>
    rcases r.center with _ | _ <;> rcases r.last with _ | _ <;> simp

/-- **C01 (reconstruction).** Take any grid and any sufficient set of its attributes, as floats. The constructor accepts them
and returns that grid. -/
theorem C01_reconstruct {m : Bool} {a : Args n K} {N : Fin n → ℕ} {s c : Fin n → K} (hN : ∀ i, 1 ≤ N i)
    (hs : ∀ i, s i ≠ 0) (ha : Attributes a N s c) (h : Sufficient a N) :
    ∃ g, init m a = .ok g ∧ g.shape = N ∧ g.step = s ∧ g.center = c ∧ g.stepShort = false := by
  have hpos : a.center.isSome ∨ a.first.isSome ∨ a.last.isSome := by
    cases h <;> simp_all
  cases hsh : a.shape with
  | some sh =>
    have h1 : stage1 a = .ok ⟨sh.v, a.step.map arrStep, a.extent, a.first, a.center⟩ := by simp [stage1, hsh]
    have hr : roundShape sh.v = N := by rw [ha.shape sh hsh]; exact roundShape_nat N hN
    cases hst : a.step with
    | some st =>
      rw [hst] at h1
      exact init_finish hN hs ha h1 hr ha.extent rfl rfl hpos (step := arrStep st) (.inl rfl) rfl (ha.step st hst).2
    | none =>
      rw [hst] at h1
      obtain ⟨step, q1, q2, q3, q4⟩ := deduceStep_attributes hN ha (by
        cases h with
        | shapeStep h1 h2 h3 => simp [hst] at h2
        | shapeExtent h1 h2 h3 => exact .inl h2
        | stepExtent h1 h2 h3 => exact .inl h2
        | shapeFirstLast h1 h2 h3 h4 => exact .inr (.inl ⟨h2, h3, h4⟩)
        | shapeFirstCenter h1 h2 h3 h4 h5 => exact .inr (.inr (.inl ⟨h2, h3, h4, h5⟩))
        | shapeCenterLast h1 h2 h3 h4 h5 => exact .inr (.inr (.inr ⟨h2, h3, h4, h5⟩))
        | stepFirstLast h1 h2 h3 => simp [hst] at h1
        | stepFirstCenter h1 h2 h3 => simp [hst] at h1
        | stepCenterLast h1 h2 h3 => simp [hst] at h1)
      have := init_finish (m := m) hN hs ha h1 hr ha.extent rfl rfl hpos (step := intIfInteger step)
        (.inr ⟨rfl, by simp only [q1, Except.map]⟩) (by rw [intIfInteger_isPy, q2]) (by rw [intIfInteger_v, q4])
      rwa [intIfInteger_short, q3] at this
  | none =>
    have hst : ∃ st, a.step = some st := by
      rw [← Option.isSome_iff_exists]
      cases h <;> simp_all
    obtain ⟨st, hst⟩ := hst
    obtain ⟨-, hsv⟩ := ha.step st hst
    cases he : a.extent with
    | some e =>
      obtain ⟨d1, d2⟩ := ha.extent e he
      have hv : ∀ i, signK (st.v i) * |e.v i| = (N i : K) * s i := by
        intro i
        rw [hsv, d2]
        have hNi : (0 : K) ≤ N i := Nat.cast_nonneg _
        unfold signK
        rcases lt_or_gt_of_ne (hs i) with hl | hl
        · simp [hl, not_lt.mpr hl.le, abs_of_neg hl, abs_mul]
        · simp [hl, abs_of_pos hl, abs_mul]
      have h1 : stage1 a = .ok ⟨fun i => (N i : K) * s i / st.v i, some (arrStep st),
          some ⟨st.dt.promote e.dt, fun i => (N i : K) * s i⟩, a.first, a.center⟩ := by
        simp only [stage1, hsh, he, hst, Option.getD_some, hv]
      have hr : roundShape (fun i => (N i : K) * s i / st.v i) = N := by
        refine roundShape_of_eq hN fun i => ?_
        rw [hsv]
        have := hs i
        field_simp
      exact init_finish hN hs ha h1 hr (by rw [Agrees.some_iff]; exact ⟨by rw [d1, promote_float_right], rfl⟩) rfl rfl hpos
        (step := arrStep st) (.inl rfl) rfl hsv
    | none =>
      have hne : ¬ ∃ i, (arrStep st).vec.v i = 0 := by
        simp only [arrStep, hsv, not_exists]; exact hs
      cases hl : a.last with
      | none =>
        obtain ⟨f, hf⟩ : ∃ f, a.first = some f := by rw [← Option.isSome_iff_exists]; cases h <;> simp_all
        obtain ⟨cv, hc⟩ : ∃ f, a.center = some f := by rw [← Option.isSome_iff_exists]; cases h <;> simp_all
        have h5 : ∀ i, a.centerAtIndex i = true ∧ N i % 2 = 0 := by cases h <;> simp_all
        have h1 : stage1 a = .ok ⟨fun i => 2 * (cv.v i - f.v i) / st.v i - (1 - b2k (a.centerAtIndex i)),
            some (arrStep st), none, some f, some cv⟩ := by
          simp only [stage1, hsh, he, hst, hl, hf, hc, hne, if_false]
          rfl
        have hr : roundShape (fun i => 2 * (cv.v i - f.v i) / st.v i - (1 - b2k (a.centerAtIndex i))) = N := by
          refine roundShape_of_eq hN fun i => ?_
          rw [hsv, (ha.first f hf).2, (ha.center cv hc).2, (h5 i).1]
          have h2 : ((N i / 2 : ℕ) : K) * 2 = N i := by exact_mod_cast (by have := (h5 i).2; omega : N i / 2 * 2 = N i)
          simp only [firstSample, centerPos, (h5 i).1, if_true, b2k]
          have := hs i
          field_simp
          linear_combination s i * h2
        exact init_finish hN hs ha h1 hr (by simp [Agrees]) hf.symm hc.symm hpos (step := arrStep st) (.inl rfl) rfl hsv
      | some l =>
        cases hf : a.first with
        | none =>
          obtain ⟨cv, hc⟩ : ∃ f, a.center = some f := by rw [← Option.isSome_iff_exists]; cases h <;> simp_all
          have h5 : ∀ i, if a.centerAtIndex i then (N i % 2 = 1 ↔ a.includeLast i = true) else a.includeLast i = false := by
            cases h <;> simp_all
          have h1 : stage1 a = .ok ⟨fun i => 2 * (l.v i - cv.v i) / st.v i + b2k (a.includeLast i)
              - (1 - b2k (a.centerAtIndex i)), some (arrStep st), none, none, some cv⟩ := by
            simp only [stage1, hsh, he, hst, hl, hf, hc, hne, if_false]
            rfl
          have hr : roundShape (fun i => 2 * (l.v i - cv.v i) / st.v i + b2k (a.includeLast i)
              - (1 - b2k (a.centerAtIndex i))) = N := by
            refine roundShape_of_eq hN fun i => ?_
            rw [hsv, (ha.last l hl).2, (ha.center cv hc).2]
            have := hs i
            have h5 := h5 i
            cases hcai : a.centerAtIndex i with
            | true =>
              rw [hcai] at h5
              simp only [if_true] at h5
              cases hil : a.includeLast i with
              | true =>
                have h2 : ((N i / 2 : ℕ) : K) * 2 + 1 = N i := by
                  exact_mod_cast (by have := h5.mpr hil; omega : N i / 2 * 2 + 1 = N i)
                simp only [firstSample, centerPos, hcai, hil, if_true, b2k]
                field_simp
                linear_combination -s i * h2
              | false =>
                have h2 : ((N i / 2 : ℕ) : K) * 2 = N i := by
                  exact_mod_cast (by have := mt h5.mp (by simp [hil]); omega : N i / 2 * 2 = N i)
                simp only [firstSample, centerPos, hcai, hil, if_true, b2k, Bool.false_eq_true, if_false]
                field_simp
                linear_combination -s i * h2
            | false =>
              rw [hcai] at h5
              simp only [Bool.false_eq_true, if_false] at h5
              simp only [h5, hcai, firstSample, centerPos, b2k, Bool.false_eq_true, if_false]
              field_simp
              ring
          exact init_finish hN hs ha h1 hr (by simp [Agrees]) hf.symm hc.symm hpos (step := arrStep st) (.inl rfl) rfl hsv
        | some f =>
          have h1 : stage1 a = .ok ⟨fun i => (l.v i - f.v i) / st.v i + b2k (a.includeLast i),
              some (arrStep st), none, some f, a.center⟩ := by
            simp only [stage1, hsh, he, hst, hl, hf, hne, if_false]
            rfl
          have hr : roundShape (fun i => (l.v i - f.v i) / st.v i + b2k (a.includeLast i)) = N := by
            refine roundShape_of_eq hN fun i => ?_
            rw [hsv, (ha.last l hl).2, (ha.first f hf).2]
            have := hs i
            simp only [b2k]
            field_simp
            ring
          exact init_finish hN hs ha h1 hr (by simp [Agrees]) hf.symm rfl hpos (step := arrStep st) (.inl rfl) rfl hsv

end

/-! ### Examples (those of the theorems about `init` are in Grid10.lean) -/

/-- C01_broadcast: for three axes, two numbers are too many for one and too few for all. -/
example : toNdim 3 (.vector .int [1, 2, 4]) = .ok ⟨.int, fun i => [1, 2, 4][i.val]⟩ ∧ toNdim 3 (.vector .int [1, 2]) = .error .valueError :=
  ⟨(C01_broadcast (n := 3) .int 0 [1, 2, 4]).2.2.1 rfl (by decide), (C01_broadcast (n := 3) .int 0 [1, 2]).2.2.2 (by decide) (by decide)⟩

/-- C01_ndim: a shape with three elements and a scalar step. -/
example : RawArgs.dims ({ shape := some (.vector .int [4, 5, 6]), step := some (.scalar .float (1 / 2)) } : RawArgs ℚ) ≤ 3 :=
  (C01_ndim _ rfl 3).2 (by simp [Arg.size])

end Verif.Grid
