import Verif.Model.GridOps
import Verif.Spec.Grid

set_option linter.unusedSectionVars false

namespace Verif.Grid

open Verif Verif.Spec.Grid

section
variable {n : ℕ} {K : Type} [Field K] [LinearOrder K] [FloorRing K]

theorem centerOffset_eq (N : ℕ) (cai : Bool) : centerOffset (K := K) N cai = centerPos N cai := by
  cases cai <;> simp [centerOffset, centerPos, b2k]

theorem lastOffset_eq (N : ℕ) (il cai : Bool) :
    lastOffset (K := K) N il cai = (N : K) - b2k il - centerPos N cai := by
  cases cai <;> simp [lastOffset, centerPos, b2k]

theorem roundShape_pos (raw : Fin n → K) (i : Fin n) : 1 ≤ roundShape raw i := by
  unfold roundShape; omega

theorem roundShape_nat [IsStrictOrderedRing K] (N : Fin n → ℕ) (h : ∀ i, 1 ≤ N i) :
    roundShape (fun i => (N i : K)) = N := by
  funext i; have := h i; simp [roundShape]; omega

/-- What a successful run of the constructor went through. -/
theorem init_ok {m : Bool} {a : Args n K} {g : Obj n K} (h : init m a = .ok g) :
    ∃ s1 step center, stage1 a = .ok s1 ∧
      (match s1.step with
        | some s => (.ok s : Except PyErr (StepVal n K))
        | none => (deduceStep a (roundShape s1.rawShape) s1.extent s1.first s1.center).map intIfInteger) = .ok step ∧
      deduceCenter a (roundShape s1.rawShape) step s1.first s1.center = .ok center ∧
      ¬ failsChecks a s1 (roundShape s1.rawShape) step.vec.v center ∧ step.isPy = false ∧
      g = { shape := roundShape s1.rawShape, step := step.vec.v, center := center.v,
            dt := if n = 0 then .float else step.vec.dt.promote center.dt,
            flat := a.flat, originAtCenter := a.originAtCenter, centerAtIndex := a.centerAtIndex,
            multidimensional := m, stepShort := step.short } := by
  unfold init at h
  split at h
  · simp at h
  · rename_i s1 hs1
    simp only at h
    split at h
    · simp at h
    · rename_i step hstep
      split at h
      · simp at h
      · rename_i center hc
        split at h
        · simp at h
        · rename_i hchk
          split at h
          · simp at h
          · rename_i hpy
            refine ⟨s1, step, center, hs1, hstep, hc, hchk, by simpa using hpy, ?_⟩
            simpa using h.symm

/-- The converse of `init_ok`. -/
theorem init_eq {m : Bool} {a : Args n K} {s1 : Stage1 n K} {N : Fin n → ℕ} {step : StepVal n K} {center : Vec n K}
    (h1 : stage1 a = .ok s1) (hN : roundShape s1.rawShape = N)
    (h2 : s1.step = some step ∨
      (s1.step = none ∧ (deduceStep a N s1.extent s1.first s1.center).map intIfInteger = .ok step))
    (h3 : deduceCenter a N step s1.first s1.center = .ok center)
    (h4 : ¬ failsChecks a s1 N step.vec.v center) (h5 : step.isPy = false) :
    init m a = .ok
      { shape := N, step := step.vec.v, center := center.v,
        dt := if n = 0 then .float else step.vec.dt.promote center.dt,
        flat := a.flat, originAtCenter := a.originAtCenter, centerAtIndex := a.centerAtIndex,
        multidimensional := m, stepShort := step.short } := by
  subst hN
  unfold init
  rcases h2 with q | ⟨q1, q2⟩
  · simp only [h1, q, h3, h4, h5, if_false, Bool.false_eq_true]
  · simp only [h1, q1, q2, h3, h4, h5, if_false, Bool.false_eq_true]

theorem stage1_shape {a : Args n K} {s1 : Stage1 n K} (h : stage1 a = .ok s1) :
    ∀ sh ∈ a.shape, s1.rawShape = sh.v ∧ s1.step = a.step.map arrStep ∧ s1.extent = a.extent ∧ s1.first = a.first ∧
      s1.center = a.center := by
  intro sh hsh
  rw [Option.mem_def] at hsh
  simp only [stage1, hsh, Except.ok.injEq] at h
  subst h; simp

theorem stage1_step {a : Args n K} {s1 : Stage1 n K} (h : stage1 a = .ok s1) :
    ∀ st ∈ a.step, s1.step = some (arrStep st) := by
  intro st hst
  rw [Option.mem_def] at hst
  unfold stage1 at h
  simp only [hst] at h
  (repeat' split at h) <;> simp_all <;> (try subst h) <;> rfl

theorem stage1_center {a : Args n K} {s1 : Stage1 n K} (h : stage1 a = .ok s1) :
    ∀ c ∈ a.center, s1.center = some c := by
  intro c hc
  rw [Option.mem_def] at hc
  unfold stage1 at h
  simp only [hc] at h
  (repeat' split at h) <;> simp_all <;> (try subst h) <;> rfl

theorem stage1_first {a : Args n K} {s1 : Stage1 n K} (h : stage1 a = .ok s1) :
    ∀ f ∈ a.first, s1.first = some f := by
  intro f hf
  rw [Option.mem_def] at hf
  unfold stage1 at h
  simp only [hf] at h
  (repeat' split at h) <;> simp_all <;> (try subst h) <;> rfl


theorem intIfInteger_v (s : StepVal n K) : (intIfInteger s).vec.v = s.vec.v := by
  unfold intIfInteger
  split
  · rename_i h; funext i; exact (h i).symm
  · rfl

theorem intIfInteger_isPy (s : StepVal n K) : (intIfInteger s).isPy = s.isPy := by
  unfold intIfInteger; split <;> rfl

theorem intIfInteger_short (s : StepVal n K) : (intIfInteger s).short = s.short := by
  unfold intIfInteger; split <;> rfl

theorem truncK_int [IsStrictOrderedRing K] (z : ℤ) : truncK (z : K) = z := by
  unfold truncK; split <;> simp

theorem truncK_isInt (x : K) : ∃ z : ℤ, truncK x = z := by
  unfold truncK; split
  · exact ⟨_, rfl⟩
  · exact ⟨_, rfl⟩

/-- A vector of integer type holds integers. -/
def Vec.WF (x : Vec n K) : Prop := x.dt = .int → ∀ i, ∃ z : ℤ, x.v i = z

theorem intIfInteger_wf {s : StepVal n K} (h : s.vec.WF) : (intIfInteger s).vec.WF := by
  unfold intIfInteger; split
  · intro _ i; exact truncK_isInt _
  · exact h

theorem constInt_wf (z : ℤ) : (constInt (z : K) : Vec n K).WF := fun _ _ => ⟨z, rfl⟩

theorem backToInt_wf (d : DType) (x : Fin n → K) : (backToInt d x).WF := by
  unfold backToInt; split
  · intro _ i; exact truncK_isInt _
  · intro h; simp at h

theorem backToInt_float (x : Fin n → K) : (backToInt .float x).v = x := by
  unfold backToInt; simp

theorem promote_float_left (d : DType) : DType.promote .float d = .float := rfl

theorem promote_float_right (d : DType) : DType.promote d .float = .float := by cases d <;> rfl

theorem deduceStep_wf {a : Args n K} {shape : Fin n → ℕ} {e f c : Option (Vec n K)} {s : StepVal n K}
    (h : deduceStep a shape e f c = .ok s) : s.vec.WF ∧ s.isPy = false := by
  have h1 : (constInt (1 : K) : Vec n K).WF := by simpa using constInt_wf (n := n) (K := K) 1
  unfold deduceStep at h
  (repeat' split at h) <;> simp only [Except.ok.injEq, reduceCtorEq] at h <;> subst h <;> refine ⟨?_, rfl⟩
  all_goals first
    | exact backToInt_wf _ _
    | exact h1
    | (intro h; simp [arrStep] at h)

end

end Verif.Grid
