import Verif.Lemmas.Grid
import Verif.Spec.GridArgs

set_option linter.unusedSectionVars false

namespace Verif.Grid

open Verif Verif.Spec.Grid

section
variable {n : ℕ} {K : Type} [Field K] [LinearOrder K] [IsStrictOrderedRing K] [FloorRing K]

theorem Agrees.some_iff {v : Vec n K} {x : Fin n → K} : Agrees (some v) x ↔ v.dt = .float ∧ v.v = x := by
  simp [Agrees]

theorem roundShape_of_eq {raw : Fin n → K} {N : Fin n → ℕ} (hN : ∀ i, 1 ≤ N i) (h : ∀ i, raw i = N i) :
    roundShape raw = N := by
  rw [funext h]; exact roundShape_nat N hN

theorem centerPos_ne_zero {N : ℕ} (h : 1 < N) (cai : Bool) : (centerPos N cai : K) ≠ 0 := by
  unfold centerPos
  split
  · exact_mod_cast (by omega : N / 2 ≠ 0)
  · have : (1 : K) < N := by exact_mod_cast h
    have : (0 : K) < ((N : K) - 1) / 2 := by linarith [half_pos (sub_pos.mpr this)]
    exact this.ne'

theorem centerPos_lt {N : ℕ} (h : 1 ≤ N) (cai : Bool) : (centerPos N cai : K) < N := by
  have h1 : (1 : K) ≤ N := by exact_mod_cast h
  unfold centerPos
  split
  · exact_mod_cast (by omega : N / 2 < N)
  · linarith

theorem lastOffset_ne_zero {N : ℕ} (hN : 1 ≤ N) (il cai : Bool)
    (h : il = true → if cai then 2 < N else 1 < N) : lastOffset (K := K) N il cai ≠ 0 := by
  rw [lastOffset_eq]
  cases il with
  | false =>
    have := centerPos_lt (K := K) hN cai
    simp only [b2k]
    intro h0
    simp at h0
    linarith
  | true =>
    have h := h rfl
    cases cai with
    | true =>
      simp only [if_true] at h
      have : ((N / 2 : ℕ) : K) + 1 < N := by exact_mod_cast (by omega : N / 2 + 1 < N)
      simp only [b2k, centerPos, if_true]
      intro h0
      linarith
    | false =>
      simp only [Bool.false_eq_true, if_false] at h
      have : (1 : K) < N := by exact_mod_cast h
      simp only [b2k, centerPos, if_true, Bool.false_eq_true, if_false]
      intro h0
      linarith

theorem firstSample_add (N : ℕ) (s c : K) (cai : Bool) :
    firstSample N s c cai + centerOffset N cai * s = c := by
  rw [centerOffset_eq]; simp [firstSample]

/-- The last part of the constructor, for attributes of one grid. -/
theorem init_finish {m : Bool} {a : Args n K} {N : Fin n → ℕ} {s c : Fin n → K} (hN : ∀ i, 1 ≤ N i) (hs : ∀ i, s i ≠ 0)
    (ha : Attributes a N s c) {s1 : Stage1 n K} (h1 : stage1 a = .ok s1) (hr : roundShape s1.rawShape = N)
    (he : Agrees s1.extent fun i => (N i : K) * s i) (hf : s1.first = a.first) (hc : s1.center = a.center)
    (hpos : a.center.isSome ∨ a.first.isSome ∨ a.last.isSome) {step : StepVal n K}
    (hstep : s1.step = some step ∨
      (s1.step = none ∧ (deduceStep a N s1.extent s1.first s1.center).map intIfInteger = .ok step))
    (hpy : step.isPy = false) (hsv : step.vec.v = s) :
    ∃ g, init m a = .ok g ∧ g.shape = N ∧ g.step = s ∧ g.center = c ∧ g.stepShort = step.short := by
  have hcen : ∃ cv, deduceCenter a N step s1.first s1.center = .ok cv ∧ cv.v = c := by
    rw [hf, hc]
    unfold deduceCenter
    cases hcc : a.center with
    | some cv => exact ⟨cv, rfl, (ha.center cv hcc).2⟩
    | none =>
      cases hff : a.first with
      | some fv =>
        obtain ⟨q1, q2⟩ := ha.first fv hff
        simp only [centerBackToInt, q1, promote_float_left, reduceCtorEq, false_and, if_false]
        refine ⟨_, rfl, ?_⟩
        funext i
        simp only [q2, hsv, firstSample_add]
      | none =>
        cases hll : a.last with
        | none => simp [hcc, hff, hll] at hpos
        | some lv =>
          obtain ⟨q1, q2⟩ := ha.last lv hll
          simp only [centerBackToInt, q1, promote_float_left, reduceCtorEq, false_and, if_false]
          refine ⟨_, rfl, ?_⟩
          funext i
          simp only [q2, hsv, lastOffset_eq, firstSample, b2k]
          ring
  obtain ⟨cv, hcv, hcvv⟩ := hcen
  have hchk : ¬ failsChecks a s1 N s cv := by
    simp only [failsChecks, not_or, not_exists, not_and]
    refine ⟨?_, ?_, ?_⟩
    · intro ext hext
      obtain ⟨-, q⟩ := he ext hext
      simp only [extentMismatch, not_or, not_exists, not_and, not_not]
      refine ⟨hs, fun hcl => absurd ?_ hcl⟩
      intro i
      rw [q]
      have : (N i : K) * s i / s i = N i := by have := hs i; field_simp
      simp only [this, isclose, sub_self, abs_zero]
      positivity
    · intro f hff l hll
      rw [hf] at hff
      obtain ⟨-, q1⟩ := ha.first f hff
      obtain ⟨-, q2⟩ := ha.last l hll
      simp only [firstLastMismatch, not_exists, not_not, q1, q2, b2k]
      intro i
      ring
    · intro f hff
      rw [hf] at hff
      obtain ⟨-, q1⟩ := ha.first f hff
      simp only [firstCenterMismatch, not_exists, not_not, q1, hcvv, firstSample_add, implies_true]
  refine ⟨{ shape := N, step := s, center := c, dt := if n = 0 then .float else step.vec.dt.promote cv.dt,
            flat := a.flat, originAtCenter := a.originAtCenter, centerAtIndex := a.centerAtIndex,
            multidimensional := m, stepShort := step.short }, ?_, rfl, rfl, rfl, rfl⟩
  subst hr hsv hcvv
  unfold init
  rcases hstep with q | ⟨q1, q2⟩
  · simp only [h1, q, hcv, hchk, hpy, if_false, Bool.false_eq_true]
  · simp only [h1, q1, q2, hcv, hchk, hpy, if_false, Bool.false_eq_true]

/-- The deduced step, for attributes of one grid. -/
theorem deduceStep_attributes {a : Args n K} {N : Fin n → ℕ} {s c : Fin n → K} (hN : ∀ i, 1 ≤ N i)
    (ha : Attributes a N s c)
    (h : a.extent.isSome ∨
      (a.first.isSome ∧ a.last.isSome ∧ ∀ i, a.includeLast i = true → 1 < N i) ∨
      (a.first.isSome ∧ a.center.isSome ∧ a.last = none ∧ ∀ i, 1 < N i) ∨
      (a.first = none ∧ a.center.isSome ∧ a.last.isSome ∧
        ∀ i, a.includeLast i = true → if a.centerAtIndex i then 2 < N i else 1 < N i)) :
    ∃ step, deduceStep a N a.extent a.first a.center = .ok step ∧ step.isPy = false ∧ step.short = false ∧
      step.vec.v = s := by
  have hN0 : ∀ i, (N i : K) ≠ 0 := fun i => by exact_mod_cast (by have := hN i; omega : N i ≠ 0)
  unfold deduceStep
  cases he : a.extent with
  | some e =>
    obtain ⟨q1, q2⟩ := ha.extent e he
    refine ⟨_, rfl, rfl, rfl, ?_⟩
    funext i
    have := hN0 i
    simp only [arrStep, q2]
    field_simp
  | none =>
    rcases h with h | ⟨h1, h2, h3⟩ | ⟨h1, h2, h3, h4⟩ | ⟨h1, h2, h3, h4⟩
    · simp [he] at h
    · obtain ⟨f, hf⟩ := Option.isSome_iff_exists.mp h1
      obtain ⟨l, hl⟩ := Option.isSome_iff_exists.mp h2
      obtain ⟨q1, q2⟩ := ha.first f hf
      obtain ⟨q3, q4⟩ := ha.last l hl
      have hlt : ∀ i, b2k (a.includeLast i) < (N i : K) := by
        intro i
        cases hil : a.includeLast i with
        | false =>
          simp only [b2k]
          exact_mod_cast (by have := hN i; omega : 0 < N i)
        | true => simp only [b2k, if_true]; exact_mod_cast h3 i hil
      simp only [hf, hl, hlt, implies_true, if_true, q1, q3, promote_float_left]
      refine ⟨_, rfl, rfl, rfl, ?_⟩
      simp only [arrStep, backToInt_float]
      funext i
      have := hlt i
      have h0 : (N i : K) - b2k (a.includeLast i) ≠ 0 := by intro h0; linarith
      rw [q2, q4, div_eq_iff h0]
      simp only [b2k]
      ring
    · obtain ⟨f, hf⟩ := Option.isSome_iff_exists.mp h1
      obtain ⟨cv, hc⟩ := Option.isSome_iff_exists.mp h2
      obtain ⟨q1, q2⟩ := ha.first f hf
      obtain ⟨q3, q4⟩ := ha.center cv hc
      have hne : ∀ i, centerOffset (K := K) (N i) (a.centerAtIndex i) ≠ 0 := fun i => by
        rw [centerOffset_eq]; exact centerPos_ne_zero (h4 i) _
      simp only [h3, hf, hc, hne, exists_false, if_false, q1, q3, promote_float_left]
      refine ⟨_, rfl, rfl, rfl, ?_⟩
      simp only [arrStep, backToInt_float]
      funext i
      rw [q2, q4, div_eq_iff (hne i)]
      simp only [firstSample, centerOffset_eq]
      ring
    · obtain ⟨cv, hc⟩ := Option.isSome_iff_exists.mp h2
      obtain ⟨l, hl⟩ := Option.isSome_iff_exists.mp h3
      obtain ⟨q1, q2⟩ := ha.center cv hc
      obtain ⟨q3, q4⟩ := ha.last l hl
      have hne : ∀ i, lastOffset (K := K) (N i) (a.includeLast i) (a.centerAtIndex i) ≠ 0 := fun i =>
        lastOffset_ne_zero (hN i) _ _ (h4 i)
      simp only [h1, hl, hc, hne, exists_false, if_false, q1, q3, promote_float_left]
      refine ⟨_, rfl, rfl, rfl, ?_⟩
      simp only [arrStep, backToInt_float]
      funext i
      rw [q2, q4, div_eq_iff (hne i), lastOffset_eq]
      simp only [firstSample, b2k]
      ring

end
end Verif.Grid
