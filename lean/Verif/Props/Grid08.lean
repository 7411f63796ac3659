import Verif.Props.Grid06
import Verif.Spec.MutableGrid

/-!
# C08: mutable grids
-/

set_option linter.unusedSectionVars false

namespace Verif.Grid

open Verif Verif.Spec.MutableGrid

section
variable {n : ℕ} {K : Type} [Field K] [LinearOrder K] [IsStrictOrderedRing K] [FloorRing K]

/-- What the user sees of a mutable grid. -/
def MObj.view (g : MObj n K) : State n K :=
  { shape := g.shape, step := g.step.v, center := g.center.v, flat := g.flat, originAtCenter := g.originAtCenter,
    centerAtIndex := g.centerAtIndex }

/-- **C08 (first).** The property `first` is the first sample. -/
theorem C08_first (g : MObj n K) (i : Fin n) : g.first.v i = g.view.first i := by
  have h2 : g.shape i / 2 * 2 = g.shape i - g.shape i % 2 := by omega
  have h2K : ((g.shape i / 2 : ℤ) : K) * 2 = (g.shape i : K) - ((g.shape i % 2 : ℤ) : K) := by exact_mod_cast h2
  have hdir : ∀ b : Bool, b = decide (¬ g.centerAtIndex i ∧ g.shape i % 2 = 0) →
      g.center.v i - g.step.v i * ((g.shape i / 2 : ℤ) : K) + b2k b * (g.step.v i / 2) = g.view.first i := by
    intro b hb
    subst hb
    unfold State.first MObj.view
    by_cases hc : g.centerAtIndex i = true
    · simp [hc, b2k]; ring
    · simp only [Bool.not_eq_true] at hc
      by_cases he : g.shape i % 2 = 0
      · simp only [hc, he, b2k, Bool.false_eq_true, not_false_eq_true, and_self, decide_true, if_true, if_false]
        rw [he] at h2K
        simp only [Int.cast_zero] at h2K
        linear_combination (-g.step.v i / 2) * h2K
      · have ho : g.shape i % 2 = 1 := by omega
        simp only [hc, he, b2k, Bool.false_eq_true, and_false, decide_false, if_false]
        rw [ho] at h2K
        simp only [Int.cast_one] at h2K
        linear_combination (-g.step.v i / 2) * h2K
  simp only [MObj.first]
  split
  · split
    · rename_i h
      have hf : ((⌊g.step.v i / 2⌋ : ℤ) : K) = g.step.v i / 2 := by
        have := h i
        simp only [pyMod] at this
        linarith
      simp only [hf]
      exact hdir _ rfl
    · exact hdir _ rfl
  · rename_i h
    simp only [decide_eq_true_eq, not_exists] at h
    rw [← hdir false (by simpa using h i)]
    simp [b2k]

/-- The translation of an assignment to a statement on a mutable grid, with the data type of the assigned numbers. -/
def toOp (dt : DType) : Assign n K → MOp n K
  | .shape x => .setShape x
  | .step x => .setStep ⟨dt, x⟩
  | .center x => .setCenter ⟨dt, x⟩
  | .first x => .setFirst ⟨dt, x⟩
  | .flat x => .setFlat x
  | .originAtCenter x => .setOrigin x

theorem astype_float (x : Vec n K) : (x.astype .float).v = x.v ∧ (x.astype .float).dt = .float := ⟨rfl, rfl⟩

/-- **C08 (assignments, partial).** Starting from any mutable grid with floating point coordinates, every sequence of assignments,
of integers or floats, has exactly the effect of the specification on all attributes. The full statement is about all grids and also
about the in-place operators; that is false (`C08_center_truncated`, `C08_in_place_none`). -/
theorem C08_assign_partial (ops : List (DType × Assign n K)) (g : MObj n K) (hf : g.center.dt = .float) :
    ∃ g', runOps (some g) (ops.map fun o => toOp o.1 o.2) = .ok (some g') ∧ g'.center.dt = .float ∧
      g'.view = (ops.map Prod.snd).foldl State.assign g.view := by
  induction ops generalizing g with
  | nil => exact ⟨g, rfl, hf, rfl⟩
  | cons o ops ih =>
    obtain ⟨dt, o⟩ := o
    have hstep : ∃ g1, g.apply (toOp dt o) = .ok (g1, some g1) ∧ g1.center.dt = .float ∧ g1.view = g.view.assign o := by
      cases o with
      | shape x => exact ⟨_, rfl, hf, rfl⟩
      | step x =>
        have hd : (g.setStep ⟨dt, x⟩).center = ⟨.float, g.center.v⟩ := by
          simp [MObj.setStep, MObj.dtype, hf, promote_float_right, Vec.astype]
        refine ⟨_, rfl, by rw [hd], ?_⟩
        simp only [MObj.view, hd, State.assign]
        rfl
      | center x =>
        have hd : (g.setCenter ⟨dt, x⟩).center = ⟨.float, x⟩ := by
          simp [MObj.setCenter, MObj.dtype, hf, promote_float_right, Vec.astype]
        refine ⟨_, rfl, by rw [hd], ?_⟩
        simp only [MObj.view, hd, State.assign]
        rfl
      | first x =>
        refine ⟨_, rfl, by simp [MObj.setFirst, hf, promote_float_left], ?_⟩
        simp only [MObj.view, MObj.setFirst, State.assign, State.mk.injEq, true_and, and_true]
        funext i
        rw [C08_first]
        simp only [MObj.view]
        ring
      | flat x => exact ⟨_, rfl, hf, rfl⟩
      | originAtCenter x => exact ⟨_, rfl, hf, rfl⟩
    obtain ⟨g1, h1, h2, h3⟩ := hstep
    obtain ⟨g', q1, q2, q3⟩ := ih g1 h2
    refine ⟨g', ?_, q2, ?_⟩
    · simp only [List.map_cons, runOps, h1]; exact q1
    · rw [q3, h3]; rfl

/-- **C08 (reading back).** An attribute that was just assigned reads back as assigned: `first`, after any assignment to it. -/
theorem C08_first_reads_back (g : MObj n K) (f : Vec n K) (i : Fin n) : (g.setFirst f).first.v i = f.v i := by
  rw [C08_first]
  simp only [MObj.view, MObj.setFirst, State.first]
  rw [C08_first]
  simp only [MObj.view, State.first]
  ring_nf

/-- **C08 (shape, step).** On every grid, assigning the step keeps the values of all other attributes. -/
theorem C08_step (g : MObj n K) (s : Vec n K) :
    (g.setStep s).view = { g.view with step := s.v } := by
  have : (g.setStep s).center.v = g.center.v := by
    simp only [MObj.setStep, MObj.dtype]
    cases hc : g.center.dt <;> cases hs : s.dt <;> simp [DType.promote, Vec.astype, hc]
  simp only [MObj.view, this]
  rfl

/-- **C08 (in-place operators, effect on the object).** When they do not raise, they add to the coordinates or multiply them. -/
theorem C08_in_place (g g' : MObj n K) (v : Option (MObj n K)) (x : Vec n K) (hg : g.center.dt = .float)
    (hs : g.step.dt = .float) :
    (g.apply (.iadd x) = .ok (g', v) → g'.view = { g.view with center := fun i => g.center.v i + x.v i }) ∧
    (g.apply (.isub x) = .ok (g', v) → g'.view = { g.view with center := fun i => g.center.v i - x.v i }) ∧
    (g.apply (.imul x) = .ok (g', v) →
      g'.view = { g.view with step := fun i => g.step.v i * x.v i, center := fun i => g.center.v i * x.v i }) := by
  refine ⟨fun h => ?_, fun h => ?_, fun h => ?_⟩
  · simp only [MObj.apply, inPlace, hg, reduceCtorEq, false_and, if_false, Except.ok.injEq, Prod.mk.injEq] at h
    obtain ⟨rfl, -⟩ := h
    simp [MObj.view, MObj.setCenter, MObj.dtype, hs, hg, DType.promote, Vec.astype]
  · simp only [MObj.apply, inPlace, hg, reduceCtorEq, false_and, if_false, Except.ok.injEq, Prod.mk.injEq] at h
    obtain ⟨rfl, -⟩ := h
    simp [MObj.view, MObj.setCenter, MObj.dtype, hs, hg, DType.promote, Vec.astype]
  · simp only [MObj.apply, inPlace, hs, reduceCtorEq, false_and, if_false, MObj.setStep, MObj.dtype, promote_float_left,
      Vec.astype, Except.ok.injEq, Prod.mk.injEq] at h
    obtain ⟨rfl, -⟩ := h
    simp [MObj.view, MObj.setCenter, MObj.dtype, Vec.astype, promote_float_left]

/-- **C08 (data type).** After an assignment to `dtype`, both the step and the center have that type: the numbers are the same, or truncated to integers, and nothing else changes. -/
theorem C08_dtype (g : MObj n K) (t : DType) : ∃ g', g.apply (.setDtype t) = .ok (g', some g') ∧ g'.dtype = t ∧ g'.step.dt = t ∧ g'.center.dt = t ∧
    g'.shape = g.shape ∧ g'.flat = g.flat ∧ g'.originAtCenter = g.originAtCenter ∧ g'.centerAtIndex = g.centerAtIndex ∧
    (t = .float → g'.step.v = g.step.v ∧ g'.center.v = g.center.v) ∧
    (t = .int → g'.step.v = (if g.step.dt = .int then g.step.v else fun i => truncK (g.step.v i)) ∧ g'.center.v = (if g.center.dt = .int then g.center.v else fun i => truncK (g.center.v i))) := by
  refine ⟨_, rfl, ?_, ?_, ?_, rfl, rfl, rfl, rfl, ?_, ?_⟩ <;> cases t <;> cases hs : g.step.dt <;> cases hc : g.center.dt <;>
    simp [MObj.dtype, Vec.astype, DType.promote, hs, hc]

/-- **C08 (negation: in-place operators).** `g += x` never leaves a grid in the variable: it raises, or the variable holds `None`,
so that any further use raises. The same holds for `-=` and `*=`. -/
theorem C08_in_place_none (g : MObj n K) (x : Vec n K) (op : MOp n K) (h : op = .iadd x ∨ op = .isub x ∨ op = .imul x) :
    (∃ e, runOps (some g) [op] = .error e) ∨
    (runOps (some g) [op] = .ok none ∧ ∀ op' ops, runOps (some g) (op :: op' :: ops) = .error .attributeError) := by
  rcases h with rfl | rfl | rfl <;> simp only [runOps, MObj.apply]
  · cases inPlace (· + ·) g.center x <;> simp [runOps]
  · cases inPlace (· - ·) g.center x <;> simp [runOps]
  · cases inPlace (· * ·) g.step x with
    | error e => simp
    | ok s => cases h2 : inPlace (· * ·) (g.setStep s).center x <;> simp [h2, runOps]

end

/-- `MutableGrid(5)`: integer step and center. -/
def intGrid : MObj 1 ℚ :=
  { shape := fun _ => 5, step := ⟨.int, fun _ => 1⟩, center := ⟨.int, fun _ => 0⟩, flat := fun _ => false,
    originAtCenter := fun _ => true, centerAtIndex := fun _ => true }

/-- **C08 (negation: center).** After `g = MutableGrid(5); g.center = 1/2` the center reads 0. -/
theorem C08_center_truncated : (intGrid.setCenter ⟨.float, fun _ => 1 / 2⟩).center.v 0 = 0 := by decide +kernel

/-- **C08 (negation: in-place operators on integer grids).** `g = MutableGrid(5); g += 0.5` raises a `TypeError`. -/
theorem C08_in_place_type : (intGrid.apply (.iadd ⟨.float, fun _ => 1 / 2⟩)).toOption.isNone = true := by decide +kernel

/-- A mutable grid that meets the hypotheses of `C08_assign_partial` and `C08_in_place`, and a history on it. -/
example : ∃ g' : MObj 1 ℚ, runOps (some (⟨fun _ => 4, ⟨.float, fun _ => 1 / 2⟩, ⟨.float, fun _ => 0⟩, fun _ => false,
      fun _ => true, fun _ => false⟩ : MObj 1 ℚ)) [.setStep ⟨.int, fun _ => 2⟩, .setFirst ⟨.int, fun _ => 3⟩] = .ok (some g') ∧
    g'.center.v 0 = 6 ∧ g'.step.v 0 = 2 := by
  obtain ⟨g', h1, h2, h3⟩ := C08_assign_partial [(.int, .step fun _ => 2), (.int, .first fun _ => 3)]
    (⟨fun _ => 4, ⟨.float, fun _ => 1 / 2⟩, ⟨.float, fun _ => 0⟩, fun _ => false, fun _ => true, fun _ => false⟩ : MObj 1 ℚ) rfl
  refine ⟨g', h1, ?_, ?_⟩
  · have := congrFun (congrArg State.center h3) 0
    simp only [MObj.view, List.map_cons, List.map_nil, List.foldl_cons, List.foldl_nil, State.assign, State.first] at this
    rw [this]; norm_num
  · have := congrFun (congrArg State.step h3) 0
    simpa [MObj.view, State.assign] using this

/-- C08_in_place_none: `g += 1` in Python sets `g` to `None`, after which nothing can be done with it. -/
example : (∃ e, runOps (some ({ shape := ![4], step := ⟨.float, ![1 / 2]⟩, center := ⟨.float, ![3]⟩, flat := ![false], originAtCenter := ![true], centerAtIndex := ![true] } : MObj 1 ℚ))
      [.iadd ⟨.int, ![1]⟩] = .error e) ∨
    (runOps (some ({ shape := ![4], step := ⟨.float, ![1 / 2]⟩, center := ⟨.float, ![3]⟩, flat := ![false], originAtCenter := ![true], centerAtIndex := ![true] } : MObj 1 ℚ))
      [.iadd ⟨.int, ![1]⟩] = .ok none ∧
    ∀ op' ops, runOps (some ({ shape := ![4], step := ⟨.float, ![1 / 2]⟩, center := ⟨.float, ![3]⟩, flat := ![false], originAtCenter := ![true], centerAtIndex := ![true] } : MObj 1 ℚ))
      (.iadd ⟨.int, ![1]⟩ :: op' :: ops) = .error .attributeError) := C08_in_place_none _ ⟨.int, ![1]⟩ _ (.inl rfl)

end Verif.Grid
