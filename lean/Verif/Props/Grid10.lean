import Verif.Props.Grid01
import Mathlib.Data.Fin.VecNotation
import Mathlib.NumberTheory.Padics.PadicVal.Basic

/-!
# C01 (negations) and C10: defaults of the grid constructor
-/

set_option linter.unusedSectionVars false

namespace Verif.Grid

open Verif Verif.Spec.Grid

section
variable {n : ℕ} {K : Type} [Field K] [LinearOrder K] [IsStrictOrderedRing K] [FloorRing K]

/-! ### Where `last` is not honoured -/

/-- **C01 (negation for `last`).** When shape, step and center are given but not first, the value of `last` has no influence at
all: no value of it is ever rejected. -/
theorem C01_last_ignored {m : Bool} {a : Args n K} (h1 : a.shape.isSome) (h2 : a.step.isSome) (h3 : a.center.isSome)
    (h4 : a.first = none) (l : Option (Vec n K)) : init m a = init m { a with last := l } := by
  obtain ⟨sh, h1⟩ := Option.isSome_iff_exists.mp h1
  obtain ⟨st, h2⟩ := Option.isSome_iff_exists.mp h2
  obtain ⟨c, h3⟩ := Option.isSome_iff_exists.mp h3
  simp [init, stage1, deduceCenter, failsChecks, h1, h2, h3, h4]

/-- `Grid(shape=4, step=1, center=0, last=17)` returns a grid which does not honour `last`. -/
theorem C01_last_ignored_witness : ∃ (a : Args 1 ℚ) (g : Obj 1 ℚ), init false a = .ok g ∧ ∃ l ∈ a.last,
    ¬ LastRelation (g.shape 0) (g.step 0) (firstSample (g.shape 0) (g.step 0) (g.center 0) (g.centerAtIndex 0)) (l.v 0)
      (a.includeLast 0) :=
  ⟨{ shape := some ⟨.int, fun _ => 4⟩, step := some ⟨.int, fun _ => 1⟩, center := some ⟨.int, fun _ => 0⟩,
     last := some ⟨.int, fun _ => 17⟩ },
   { shape := fun _ => 4, step := fun _ => 1, center := fun _ => 0, dt := .int, flat := fun _ => false,
     originAtCenter := fun _ => true, centerAtIndex := fun _ => true, multidimensional := false, stepShort := false },
   by
    have : roundShape (fun _ : Fin 1 => (4 : ℚ)) = fun _ => 4 := roundShape_nat (fun _ => 4) (by simp)
    simp [init, stage1, deduceCenter, failsChecks, this, arrStep, DType.promote], _, rfl, by
    norm_num [LastRelation, firstSample, centerPos]⟩

/-- **C01 (negation for an integer `last`).** `Grid(shape=4, step=1, last=1000004, center_at_index=False)` rounds the center to an
integer, so that `last` is not honoured. -/
theorem C01_last_truncated : ∃ (a : Args 1 ℚ) (g : Obj 1 ℚ), init false a = .ok g ∧ a.first = none ∧ a.center = none ∧
    a.extent = none ∧ ∃ l ∈ a.last,
    ¬ LastRelation (g.shape 0) (g.step 0) (firstSample (g.shape 0) (g.step 0) (g.center 0) (g.centerAtIndex 0)) (l.v 0)
      (a.includeLast 0) :=
  ⟨{ shape := some ⟨.int, fun _ => 4⟩, step := some ⟨.int, fun _ => 1⟩, last := some ⟨.int, fun _ => 1000004⟩,
     centerAtIndex := fun _ => false },
   { shape := fun _ => 4, step := fun _ => 1, center := fun _ => 1000001, dt := .int, flat := fun _ => false,
     originAtCenter := fun _ => true, centerAtIndex := fun _ => false, multidimensional := false, stepShort := false },
   by
    have h0 : roundShape (fun _ : Fin 1 => (4 : ℚ)) = fun _ => 4 := roundShape_nat (fun _ => 4) (by simp)
    have h1 : (1000004 : ℚ) - lastOffset 4 false false = 2000003 / 2 := by norm_num [lastOffset, b2k]
    have hf : ⌊(2000003 / 2 : ℚ)⌋ = 1000001 := by norm_num [Int.floor_eq_iff]
    have h2 : nearInteger (fun _ : Fin 1 => (2000003 / 2 : ℚ)) := by
      intro i
      simp only [isclose, roundHalfEven, hf]
      norm_num [abs_of_pos, abs_of_neg]
    have h3 : truncK (2000003 / 2 : ℚ) = 1000001 := by
      simp only [truncK, hf]; norm_num
    simp [init, stage1, deduceCenter, failsChecks, h0, h1, h2, h3, arrStep, DType.promote, centerBackToInt], rfl, rfl, rfl, _, rfl, by
    norm_num [LastRelation, firstSample, centerPos]⟩

/-- **C01 (negation for `center` and `last` without shape).** `Grid(center=0, step=1, last=1.5, include_last=True,
center_at_index=False)` has the samples -1, 0, 1 instead of -1.5, -0.5, 0.5, 1.5. -/
theorem C01_last_center_rounded : ∃ (a : Args 1 ℚ) (g : Obj 1 ℚ), init false a = .ok g ∧ a.shape = none ∧ a.first = none ∧
    a.extent = none ∧ ∃ l ∈ a.last,
    ¬ LastRelation (g.shape 0) (g.step 0) (firstSample (g.shape 0) (g.step 0) (g.center 0) (g.centerAtIndex 0)) (l.v 0)
      (a.includeLast 0) :=
  ⟨{ step := some ⟨.int, fun _ => 1⟩, center := some ⟨.int, fun _ => 0⟩, last := some ⟨.float, fun _ => 3 / 2⟩,
     includeLast := fun _ => true, centerAtIndex := fun _ => false },
   { shape := fun _ => 3, step := fun _ => 1, center := fun _ => 0, dt := .int, flat := fun _ => false,
     originAtCenter := fun _ => true, centerAtIndex := fun _ => false, multidimensional := false, stepShort := false },
   by
    have h0 : roundShape (fun _ : Fin 1 => (3 : ℚ)) = fun _ => 3 := roundShape_nat (fun _ => 3) (by simp)
    have h1 : (2 : ℚ) * (3 / 2) = 3 := by norm_num
    simp [init, stage1, deduceCenter, failsChecks, h0, h1, arrStep, DType.promote, b2k], rfl, rfl, rfl, _, rfl, by
    norm_num [LastRelation, firstSample, centerPos]⟩

/-- The arguments of `Grid(shape=[1, 4], first=0, last=[0, 3], include_last=True)`. -/
def shortArgs : Args 2 ℚ :=
  { shape := some ⟨.int, ![1, 4]⟩, first := some ⟨.int, fun _ => 0⟩, last := some ⟨.int, ![0, 3]⟩,
    includeLast := fun _ => true }

/-- **C01 (negation for the stored step).** `Grid(shape=[1, 4], first=0, last=[0, 3], include_last=True)` returns a grid that
stores a single step for its two axes: its second axis cannot be read. -/
theorem C01_step_short : ∃ g, init true shortArgs = .ok g ∧ g.stepShort = true ∧ g.getAxis 1 = .error .indexError := by
  have h : (init true shortArgs).toOption.map (·.stepShort) = some true := by decide +kernel
  cases hg : init true shortArgs with
  | error e => simp [hg, Except.toOption] at h
  | ok g =>
    simp only [hg, Except.toOption, Option.map_some, Option.some.injEq] at h
    refine ⟨g, rfl, h, ?_⟩
    simp [Obj.getAxis, pyIndex, h]

/-! ### C10: defaults -/

/-- **C10 (negation).** If neither shape, nor extent, nor step is given, then the constructor always raises, whatever else is given:
there is no default step of 1 in this case. -/
theorem C10_no_default {m : Bool} {a : Args n K} (h1 : a.shape = none) (h2 : a.extent = none) (h3 : a.step = none) :
    ∃ e, init m a = .error e := by
  cases h : init m a with
  | error e => exact ⟨e, rfl⟩
  | ok g =>
    exfalso
    obtain ⟨s1, step, center, q1, q2, q3, q4, q5, rfl⟩ := init_ok h
    have : ∃ v, s1.step = some ⟨true, false, v⟩ := by
      simp only [stage1, h1, h2, h3] at q1
      (repeat' split at q1) <;> simp only [Except.ok.injEq, reduceCtorEq] at q1 <;> subst q1 <;> exact ⟨_, rfl⟩
    obtain ⟨v, hv⟩ := this
    simp only [hv, Except.ok.injEq] at q2
    subst q2
    simp at q5

/-- **C10 (only the shape).** The step is 1 and the center 0. -/
theorem C10_shape_partial {m : Bool} {a : Args n K} {N : Fin n → ℕ} (hN : ∀ i, 1 ≤ N i) {dt : DType}
    (h1 : a.shape = some ⟨dt, fun i => (N i : K)⟩) (h2 : a.extent = none) (h3 : a.step = none) (h4 : a.first = none)
    (h5 : a.last = none) (h6 : a.center = none) :
    ∃ g, init m a = .ok g ∧ g.shape = N ∧ (∀ i, g.step i = 1) ∧ (∀ i, g.center i = 0) := by
  refine ⟨_, init_eq (by simp only [stage1, h1]; rfl) (roundShape_nat N hN)
    (.inr ⟨by simp [h3], by simp only [deduceStep, h2, h4, h5, Except.map]; rfl⟩)
    (by simp only [deduceCenter, h4, h5, h6]; rfl) (by simp [failsChecks, h2, h4])
    (by simp [intIfInteger_isPy, arrStep]), rfl, ?_, ?_⟩
  · intro i; simp [intIfInteger_v, constInt, arrStep]
  · intro i; simp [constInt]

/-- **C10 (shape and center).** The step is 1. -/
theorem C10_shape_center_partial {m : Bool} {a : Args n K} {N : Fin n → ℕ} (hN : ∀ i, 1 ≤ N i) {dt : DType} {c : Vec n K}
    (h1 : a.shape = some ⟨dt, fun i => (N i : K)⟩) (h2 : a.extent = none) (h3 : a.step = none) (h4 : a.first = none)
    (h5 : a.last = none) (h6 : a.center = some c) :
    ∃ g, init m a = .ok g ∧ g.shape = N ∧ (∀ i, g.step i = 1) ∧ (∀ i, g.center i = c.v i) := by
  refine ⟨_, init_eq (by simp only [stage1, h1]; rfl) (roundShape_nat N hN)
    (.inr ⟨by simp [h3], by simp only [deduceStep, h2, h4, h5, Except.map]; rfl⟩)
    (by simp only [deduceCenter, h6]; rfl) (by simp [failsChecks, h2, h4])
    (by simp [intIfInteger_isPy, arrStep]), rfl, ?_, ?_⟩
  · intro i; simp [intIfInteger_v, constInt, arrStep]
  · intro i; rfl

/-- **C10 (shape and first, as floats).** The step is 1 and the samples start at the given first. -/
theorem C10_shape_first_partial {m : Bool} {a : Args n K} {N : Fin n → ℕ} (hN : ∀ i, 1 ≤ N i) {dt : DType} {f : Vec n K}
    (h1 : a.shape = some ⟨dt, fun i => (N i : K)⟩) (h2 : a.extent = none) (h3 : a.step = none) (h4 : a.first = some f)
    (h5 : a.last = none) (h6 : a.center = none) (hf : f.dt = .float) :
    ∃ g, init m a = .ok g ∧ g.shape = N ∧ (∀ i, g.step i = 1) ∧
      (∀ i, CenterRelation (N i) 1 (f.v i) (g.center i) (a.centerAtIndex i)) := by
  have hv : ∀ i, (intIfInteger (arrStep (constInt (1 : K)) : StepVal n K)).vec.v i = 1 := by
    intro i; simp [intIfInteger_v, constInt, arrStep]
  refine ⟨_, init_eq (by simp only [stage1, h1]; rfl) (roundShape_nat N hN)
    (.inr ⟨by simp [h3], by simp only [deduceStep, h2, h4, h5, h6, Except.map]⟩)
    (by simp only [deduceCenter, h4, h6, centerBackToInt, hf, promote_float_left, reduceCtorEq, false_and, if_false]; rfl)
    (by simp [failsChecks, h2, h4, h5, firstCenterMismatch])
    (by simp [intIfInteger_isPy, arrStep]), rfl, hv, ?_⟩
  intro i
  simp only [hv, CenterRelation, centerOffset_eq]

/-- **C10 (shape and last, as floats).** The step is 1 and the samples end at the given last. -/
theorem C10_shape_last_partial {m : Bool} {a : Args n K} {N : Fin n → ℕ} (hN : ∀ i, 1 ≤ N i) {dt : DType} {l : Vec n K}
    (h1 : a.shape = some ⟨dt, fun i => (N i : K)⟩) (h2 : a.extent = none) (h3 : a.step = none) (h4 : a.first = none)
    (h5 : a.last = some l) (h6 : a.center = none) (hf : l.dt = .float) :
    ∃ g, init m a = .ok g ∧ g.shape = N ∧ (∀ i, g.step i = 1) ∧
      (∀ i, LastRelation (N i) 1 (firstSample (N i) 1 (g.center i) (a.centerAtIndex i)) (l.v i) (a.includeLast i)) := by
  have hv : ∀ i, (intIfInteger (arrStep (constInt (1 : K)) : StepVal n K)).vec.v i = 1 := by
    intro i; simp [intIfInteger_v, constInt, arrStep]
  refine ⟨_, init_eq (by simp only [stage1, h1]; rfl) (roundShape_nat N hN)
    (.inr ⟨by simp [h3], by simp only [deduceStep, h2, h4, h5, h6, Except.map]⟩)
    (by simp only [deduceCenter, h4, h5, h6, centerBackToInt, hf, promote_float_left, reduceCtorEq, false_and, if_false]; rfl)
    (by simp [failsChecks, h2, h4])
    (by simp [intIfInteger_isPy, arrStep]), rfl, hv, ?_⟩
  intro i
  simp only [hv, LastRelation, firstSample, lastOffset_eq]
  cases a.includeLast i <;> simp [b2k] <;> ring

/-- **C10 (only the extent).** There is a single sample, at 0, and the step equals the extent. -/
theorem C10_extent_partial {m : Bool} {a : Args n K} {e : Vec n K}
    (h1 : a.shape = none) (h2 : a.extent = some e) (h3 : a.step = none) (h4 : a.first = none)
    (h5 : a.last = none) (h6 : a.center = none) (he : ∀ i, e.v i ≠ 0) :
    ∃ g, init m a = .ok g ∧ (∀ i, g.shape i = 1) ∧ g.step = e.v ∧ (∀ i, g.center i = 0) := by
  have hone : ∀ i, signK (e.v i) * |e.v i| = e.v i := by
    intro i
    unfold signK
    rcases lt_or_gt_of_ne (he i) with hl | hl
    · simp [hl, not_lt.mpr hl.le, abs_of_neg hl]
    · simp [hl, abs_of_pos hl]
  refine ⟨_, init_eq (N := fun _ => 1) (by simp only [stage1, h1, h2, h3, Option.getD_none]; rfl)
    (roundShape_of_eq (by simp) fun i => by simp [hone, he i])
    (.inl rfl) (by simp only [deduceCenter, h4, h5, h6]; rfl) ?_ rfl, fun _ => rfl, rfl, ?_⟩
  · simp only [failsChecks, h4, Option.mem_def, reduceCtorEq, false_and, exists_false, or_false, Option.some.injEq,
      exists_eq_left', extentMismatch, arrStep, not_or]
    exact ⟨fun ⟨i, h⟩ => he i h, by simp [hone, he]⟩
  · intro i; simp [constInt]

/-- **C10 (only the step, and perhaps the center).** There is a single sample, at the center, which is 0 if it was not given. -/
theorem C10_step_partial {m : Bool} {a : Args n K} {s : Vec n K}
    (h1 : a.shape = none) (h2 : a.extent = none) (h3 : a.step = some s) (h4 : a.first = none)
    (h5 : a.last = none) (hs : ∀ i, s.v i ≠ 0) :
    ∃ g, init m a = .ok g ∧ (∀ i, g.shape i = 1) ∧ g.step = s.v ∧ g.center = (a.center.getD (constInt 0)).v := by
  have hne : ¬ ∃ i, (arrStep s).vec.v i = 0 := by simpa [arrStep] using hs
  refine ⟨_, init_eq (N := fun _ => 1) (by simp only [stage1, h1, h2, h3, h4, h5, hne, if_false]; rfl) ?_
    (.inl rfl) (by simp only [deduceCenter]) ?_ rfl, fun _ => rfl, rfl, rfl⟩
  · funext i
    cases h : a.centerAtIndex i
    · have : ⌈(-1 : K)⌉ = -1 := by simpa using Int.ceil_intCast (R := K) (-1)
      simp [roundShape, b2k, h, this]
    · simp [roundShape, b2k, h]
  · simp only [failsChecks, h5, Option.mem_def, reduceCtorEq, false_and, exists_false, false_or, Option.some.injEq,
      exists_eq_left', firstCenterMismatch, and_false, centerOffset_eq]
    rintro ⟨i, hi⟩
    apply hi
    simp [centerPos]

/-- There is no rational number whose square times an odd integer is 2. -/
theorem odd_mul_sq_ne_two (z : ℤ) (s : ℚ) : (2 * z + 1 : ℚ) * s ^ 2 ≠ 2 := by
  intro h
  have : Fact (Nat.Prime 2) := ⟨Nat.prime_two⟩
  have hs : s ≠ 0 := by rintro rfl; norm_num at h
  have hz : ((2 * z + 1 : ℤ) : ℚ) ≠ 0 := by exact_mod_cast (by omega : 2 * z + 1 ≠ 0)
  have h2 := congrArg (padicValRat 2) h
  have hv : padicValRat 2 ((2 * z + 1 : ℤ) : ℚ) = 0 := by
    rw [padicValRat.of_int]
    have : ¬ (2 : ℤ) ∣ 2 * z + 1 := by omega
    simp [padicValInt.eq_zero_of_not_dvd (p := 2) (by exact_mod_cast this)]
  have e : ((2 : ℚ) * z + 1) = ((2 * z + 1 : ℤ) : ℚ) := by push_cast; ring
  rw [e, padicValRat.mul hz (pow_ne_zero 2 hs), padicValRat.pow, hv] at h2
  have hp : padicValRat 2 (2 : ℚ) = 1 := padicValRat.self (by norm_num)
  rw [hp] at h2
  push_cast at h2
  omega

/-- **C10 (negation for first and step).** `Grid(first=f, step=s)` raises for all rational numbers, hence for all floating point
numbers: the center is not chosen at a multiple of the step from first. -/
theorem C10_first_step {n : ℕ} {m : Bool} {a : Args n ℚ} {f s : Vec n ℚ} (hn : 0 < n)
    (h1 : a.shape = none) (h2 : a.extent = none) (h3 : a.step = some s) (h4 : a.first = some f)
    (h5 : a.last = none) (h6 : a.center = none) :
    ∃ e, init m a = .error e := by
  cases h : init m a with
  | error e => exact ⟨e, rfl⟩
  | ok g =>
    exfalso
    obtain ⟨s1, step, center, q1, q2, q3, q4, q5, rfl⟩ := init_ok h
    simp only [stage1, h1, h2, h3, h4, h5, h6] at q1
    split at q1
    · simp at q1
    rename_i hne
    simp only [Except.ok.injEq] at q1
    subst q1
    simp only [Except.ok.injEq] at q2
    subst q2
    simp only [deduceCenter, Except.ok.injEq] at q3
    subst q3
    simp only [failsChecks, not_or, Option.mem_def, Option.some.injEq, exists_eq_left', firstCenterMismatch, not_exists,
      not_not, centerOffset_eq, defaultCenter, arrStep] at q4
    have hs : s.v ⟨0, hn⟩ ≠ 0 := fun h0 => hne ⟨⟨0, hn⟩, h0⟩
    have hc := q4.2.2 ⟨0, hn⟩
    simp only [pyMod] at hc
    generalize hk : ⌊(f.v ⟨0, hn⟩ + 1 / s.v ⟨0, hn⟩) / s.v ⟨0, hn⟩⌋ = k at hc
    generalize hN : roundShape (K := ℚ) _ _ = N at hc
    have hM : ∃ M : ℕ, (centerPos N (a.centerAtIndex ⟨0, hn⟩) : ℚ) = M := by
      cases hcai : a.centerAtIndex ⟨0, hn⟩ with
      | true => exact ⟨N / 2, by simp [centerPos]⟩
      | false =>
        refine ⟨0, ?_⟩
        rw [hcai] at hc
        have hr : 2 * (f.v ⟨0, hn⟩ + 1 / s.v ⟨0, hn⟩ - k * s.v ⟨0, hn⟩ - s.v ⟨0, hn⟩ / 2 - f.v ⟨0, hn⟩) / s.v ⟨0, hn⟩
            - (1 - b2k (a.centerAtIndex ⟨0, hn⟩)) = ((N - 2 : ℤ) : ℚ) := by
          rw [hc, hcai]
          simp only [centerPos, b2k, Bool.false_eq_true, if_false]
          field_simp
          push_cast
          ring
        simp only [roundShape, hk, hr, Int.ceil_intCast] at hN
        have : N = 1 := by omega
        simp [centerPos, this]
    obtain ⟨M, hM⟩ := hM
    rw [hM] at hc
    refine odd_mul_sq_ne_two (k + M) (s.v ⟨0, hn⟩) ?_
    field_simp at hc
    push_cast
    linear_combination -hc

end

/-! ### Concrete cases -/

/-- The arguments of `Grid(shape=[4, 5], first=[2.0, 4.0], last=[4.0, -6.0])`. -/
def exampleArgs : Args 2 ℚ :=
  { shape := some ⟨.int, ![4, 5]⟩, first := some ⟨.float, ![2, 4]⟩, last := some ⟨.float, ![4, -6]⟩ }

/-- The hypotheses of `C01_reconstruct` hold for these. -/
example : ∃ g, init true exampleArgs = .ok g ∧ g.shape = ![4, 5] ∧ g.step = ![1 / 2, -2] ∧ g.center = ![3, 0] ∧
    g.stepShort = false := by
  refine C01_reconstruct (N := ![4, 5]) (s := ![1 / 2, -2]) (c := ![3, 0]) ?_ ?_ ⟨?_, ?_, ?_, ?_, ?_, ?_⟩
    (.shapeFirstLast rfl rfl rfl (by simp [exampleArgs]))
  all_goals simp [exampleArgs, Agrees, Fin.forall_fin_two, funext_iff, firstSample, centerPos]
  all_goals norm_num

/-- `Grid(shape=4, step=1/2, first=-1)` succeeds, so that the hypotheses of `C01_given` and `C01_first` can be met. -/
example : ((init false ({ shape := some ⟨.int, fun _ => 4⟩, step := some ⟨.float, fun _ => 1 / 2⟩, first := some ⟨.int, fun _ => -1⟩ } : Args 1 ℚ)).toOption.map fun g => (g.shape 0, g.step 0, g.center 0)) =
    some (4, 1 / 2, 0) := by decide +kernel

/-- `Grid(extent=10, step=3)` has 4 samples, so that the hypotheses of `C01_extent_step` can be met, and so that its extent is 12. -/
example : ((init false ({ extent := some ⟨.int, fun _ => 10⟩, step := some ⟨.int, fun _ => 3⟩ } : Args 1 ℚ)).toOption.map
    fun g => (g.shape 0, g.extent 0)) = some (4, 12) := by decide +kernel

/-- `Grid(shape=5, extent=10, step=2)`, for `C01_extent_step_shape`. -/
example : ((init false ({ shape := some ⟨.int, fun _ => 5⟩, extent := some ⟨.int, fun _ => 10⟩, step := some ⟨.int, fun _ => 2⟩ } :
    Args 1 ℚ)).toOption.map fun g => (g.shape 0, g.step 0)) = some (5, 2) := by decide +kernel

/-- `Grid(shape=5, extent=12)`, for `C01_extent`. -/
example : ((init false ({ shape := some ⟨.int, fun _ => 5⟩, extent := some ⟨.int, fun _ => 12⟩ } :
    Args 1 ℚ)).toOption.map fun g => (g.shape 0, g.step 0)) = some (5, 12 / 5) := by decide +kernel

/-- `Grid(shape=5, last=7)` and `Grid(shape=5, first=0, last=10)`, for `C01_last_partial` and `C01_first_last`. -/
example : ((init false ({ shape := some ⟨.int, fun _ => 5⟩, last := some ⟨.int, fun _ => 7⟩ } :
    Args 1 ℚ)).toOption.map fun g => (g.step 0, g.center 0)) = some (1, 4) ∧
    ((init false ({ shape := some ⟨.int, fun _ => 5⟩, first := some ⟨.int, fun _ => 0⟩, last := some ⟨.int, fun _ => 10⟩ } :
    Args 1 ℚ)).toOption.map fun g => (g.step 0, g.center 0)) = some (2, 4) := by decide +kernel

/-- `Grid(first=2, last=5)` raises (`C10_no_default`), and so does `Grid(first=2, step=1)` (`C10_first_step`). -/
example : ((init false ({ first := some ⟨.int, fun _ => 2⟩, last := some ⟨.int, fun _ => 5⟩ } : Args 1 ℚ)).toOption.isNone) ∧
    ((init false ({ first := some ⟨.int, fun _ => 2⟩, step := some ⟨.int, fun _ => 1⟩ } : Args 1 ℚ)).toOption.isNone) := by
  decide +kernel

/-- C01_last_ignored: `last` is not used when shape, step and center are given. -/
example (l : Option (Vec 1 ℚ)) : init false ({ shape := some ⟨.int, fun _ => 4⟩, step := some ⟨.float, fun _ => 1 / 2⟩, center := some ⟨.int, fun _ => 3⟩ } : Args 1 ℚ) =
    init false { shape := some ⟨.int, fun _ => 4⟩, step := some ⟨.float, fun _ => 1 / 2⟩, center := some ⟨.int, fun _ => 3⟩, last := l } := C01_last_ignored rfl rfl rfl rfl l

/-- C10_shape_partial, C10_shape_center_partial, C10_shape_first_partial and C10_shape_last_partial: `Grid([4, 5])`, without and with one of the other arguments. -/
example : (∃ g, init true ({ shape := some ⟨.int, fun i => (![4, 5] i : ℕ)⟩ } : Args 2 ℚ) = .ok g ∧ g.shape = ![4, 5] ∧ ∀ i, g.center i = 0) ∧
    (∃ g, init true ({ shape := some ⟨.int, fun i => (![4, 5] i : ℕ)⟩, center := some ⟨.float, ![1 / 2, 3]⟩ } : Args 2 ℚ) = .ok g ∧ g.shape = ![4, 5] ∧ ∀ i, g.center i = ![1 / 2, 3] i) ∧
    (∃ g, init true ({ shape := some ⟨.int, fun i => (![4, 5] i : ℕ)⟩, first := some ⟨.float, ![1 / 2, 3]⟩ } : Args 2 ℚ) = .ok g ∧ g.shape = ![4, 5] ∧ ∀ i, g.step i = 1) ∧
    ∃ g, init true ({ shape := some ⟨.int, fun i => (![4, 5] i : ℕ)⟩, last := some ⟨.float, ![1 / 2, 3]⟩ } : Args 2 ℚ) = .ok g ∧ g.shape = ![4, 5] ∧ ∀ i, g.step i = 1 := by
  have hN : ∀ i, 1 ≤ (![4, 5] : Fin 2 → ℕ) i := by decide
  refine ⟨?_, ?_, ?_, ?_⟩
  · obtain ⟨g, h, h1, _, h2⟩ := C10_shape_partial (K := ℚ) (m := true) (a := { shape := some ⟨.int, fun i => (![4, 5] i : ℕ)⟩ }) hN rfl rfl rfl rfl rfl rfl
    exact ⟨g, h, h1, h2⟩
  · obtain ⟨g, h, h1, _, h2⟩ := C10_shape_center_partial (K := ℚ) (m := true) (a := { shape := some ⟨.int, fun i => (![4, 5] i : ℕ)⟩, center := some ⟨.float, ![1 / 2, 3]⟩ }) hN rfl rfl rfl rfl rfl rfl
    exact ⟨g, h, h1, h2⟩
  · obtain ⟨g, h, h1, h2, _⟩ := C10_shape_first_partial (K := ℚ) (m := true) (a := { shape := some ⟨.int, fun i => (![4, 5] i : ℕ)⟩, first := some ⟨.float, ![1 / 2, 3]⟩ }) hN rfl rfl rfl rfl rfl rfl
      rfl
    exact ⟨g, h, h1, h2⟩
  · obtain ⟨g, h, h1, h2, _⟩ := C10_shape_last_partial (K := ℚ) (m := true) (a := { shape := some ⟨.int, fun i => (![4, 5] i : ℕ)⟩, last := some ⟨.float, ![1 / 2, 3]⟩ }) hN rfl rfl rfl rfl rfl rfl
      rfl
    exact ⟨g, h, h1, h2⟩

/-- C10_extent_partial and C10_step_partial: a grid of one sample. -/
example : (∃ g, init false ({ extent := some ⟨.int, fun _ => 10⟩ } : Args 1 ℚ) = .ok g ∧ ∀ i, g.shape i = 1) ∧
    ∃ g, init false ({ step := some ⟨.int, fun _ => 10⟩, center := some ⟨.float, fun _ => 1 / 3⟩ } : Args 1 ℚ) = .ok g ∧ ∀ i, g.shape i = 1 := by
  refine ⟨?_, ?_⟩
  · obtain ⟨g, h, h1, _⟩ := C10_extent_partial (K := ℚ) (m := false) (a := { extent := some ⟨.int, fun (_ : Fin 1) => 10⟩ }) rfl rfl rfl rfl rfl rfl (by norm_num)
    exact ⟨g, h, h1⟩
  · obtain ⟨g, h, h1, _⟩ := C10_step_partial (K := ℚ) (m := false) (a := { step := some ⟨.int, fun (_ : Fin 1) => 10⟩, center := some ⟨.float, fun _ => 1 / 3⟩ }) rfl rfl rfl rfl rfl (by norm_num)
    exact ⟨g, h, h1⟩

end Verif.Grid
