import Verif.Model.Solve
import Verif.Props.SolverExamples

/-!
# Properties C37–C41: the iteration as a state machine, `solve`, the residue, and the accessors of the field and the source
-/

namespace Verif.Solver

open Verif Verif.Fourier Verif.Backend Complex

variable {d n : ℕ} {N : Fin d → ℕ} (kind : Kind d n) (k : Fin d → Idx N → ℝ)

/-! ### C37 -/

/-- What an iteration does. -/
theorem step_eq (s : State n N) (hp : s.prevNorm ≠ ((0 : ℝ) : WithTop ℝ)) (h0 : ((0 : ℝ) : WithTop ℝ) ≤ s.prevNorm) :
    step kind k s = .ok (if ((Backend.norm (update kind k s) : ℝ) : WithTop ℝ) < s.prevNorm
      then { s with iteration := s.iteration + 1, residue := none, field := fun c x => s.field c x + update kind k s c x,
                    prevNorm := ((Backend.norm (update kind k s) : ℝ) : WithTop ℝ) }
      else updateOperators { s with iteration := s.iteration + 1, residue := none } (increased s.alpha)) := by
  unfold step
  have hu : update kind k { s with iteration := s.iteration + 1, residue := none } = update kind k s := rfl
  simp only [hu]
  obtain ⟨f, so, al, be, c1, c2, c3, c4, mag, p, it, re⟩ := s
  simp only at hp h0 ⊢
  match p, hp, h0 with
  | none, _, _ =>
    have : ((Backend.norm (update kind k ⟨f, so, al, be, c1, c2, c3, c4, mag, none, it, re⟩) : ℝ) : WithTop ℝ) < none := WithTop.coe_lt_top _
    rw [if_pos this]
    simp [divFloat]
  | some p, hp, h0 =>
    have hp' : p ≠ 0 := fun e => hp (by rw [e]; rfl)
    have h0' : 0 ≤ p := WithTop.coe_le_coe.1 h0
    have hpos : 0 < p := lt_of_le_of_ne h0' hp'.symm
    simp only [divFloat, if_neg hp', div_lt_one hpos]
    have : ((Backend.norm (update kind k ⟨f, so, al, be, c1, c2, c3, c4, mag, some p, it, re⟩) : ℝ) : WithTop ℝ) < some p ↔
        Backend.norm (update kind k ⟨f, so, al, be, c1, c2, c3, c4, mag, some p, it, re⟩) < p := WithTop.coe_lt_coe
    by_cases hlt : Backend.norm (update kind k ⟨f, so, al, be, c1, c2, c3, c4, mag, some p, it, re⟩) < p
    · rw [if_pos hlt, if_pos (this.2 hlt)]
    · rw [if_neg hlt, if_neg (fun h => hlt (this.1 h))]

/-- An iteration raises an exception if and only if the norm of the last accepted change is exactly 0. -/
theorem step_error_iff (s : State n N) (h0 : ((0 : ℝ) : WithTop ℝ) ≤ s.prevNorm) (e : PyErr) :
    step kind k s = .error e ↔ s.prevNorm = ((0 : ℝ) : WithTop ℝ) ∧ e = .zeroDivision := by
  by_cases hp : s.prevNorm = ((0 : ℝ) : WithTop ℝ)
  · unfold step
    have : ∀ x, divFloat x s.prevNorm = .error .zeroDivision := by
      intro x; rw [hp]; exact if_pos rfl
    simp only [this, Except.error.injEq]
    exact ⟨fun h => ⟨hp, h.symm⟩, fun h => h.2.symm⟩
  · rw [step_eq kind k s hp h0]
    exact ⟨fun h => absurd h (by simp), fun h => absurd h.1 hp⟩

theorem step_prevNorm (s t : State n N) (h0 : ((0 : ℝ) : WithTop ℝ) ≤ s.prevNorm) (h : step kind k s = .ok t) :
    ((0 : ℝ) : WithTop ℝ) ≤ t.prevNorm ∧ t.prevNorm ≤ s.prevNorm := by
  have hp : s.prevNorm ≠ ((0 : ℝ) : WithTop ℝ) := by
    intro hp
    rw [(step_error_iff kind k s h0 .zeroDivision).2 ⟨hp, rfl⟩] at h
    exact absurd h (by simp)
  rw [step_eq kind k s hp h0, Except.ok.injEq] at h
  split_ifs at h with hlt
  · rw [← h]
    exact ⟨WithTop.coe_le_coe.2 (norm_nonneg' _), hlt.le⟩
  · rw [← h]
    exact ⟨h0, le_rfl⟩

/-- In all executions the norm of the last accepted change is not negative, and it never increases. -/
theorem run_prevNorm {s : State n N} (h0 : ((0 : ℝ) : WithTop ℝ) ≤ s.prevNorm) {i : ℕ} {t : State n N} (h : run kind k s i = .ok t) :
    ((0 : ℝ) : WithTop ℝ) ≤ t.prevNorm := by
  induction i generalizing t with
  | zero => simp only [run, Except.ok.injEq] at h; rw [← h]; exact h0
  | succ i ih =>
    simp only [run] at h
    split at h
    · rename_i t' ht'
      exact (step_prevNorm kind k t' t (ih ht') h).1
    · simp at h

theorem run_add {s t : State n N} {i : ℕ} (h : run kind k s i = .ok t) (j : ℕ) : run kind k s (i + j) = run kind k t j := by
  induction j with
  | zero => exact h
  | succ j ih => rw [← add_assoc]; simp only [run, ih]

theorem run_prevNorm_le {s : State n N} (h0 : ((0 : ℝ) : WithTop ℝ) ≤ s.prevNorm) {i : ℕ} {t : State n N} (h : run kind k s i = .ok t) :
    t.prevNorm ≤ s.prevNorm := by
  induction i generalizing t with
  | zero => simp only [run, Except.ok.injEq] at h; rw [← h]
  | succ i ih =>
    simp only [run] at h
    split at h
    · rename_i t' ht'
      exact (step_prevNorm kind k t' t (run_prevNorm kind k h0 ht') h).2.trans (ih ht')
    · simp at h

section Executions
variable {s : State n N} (h0 : ((0 : ℝ) : WithTop ℝ) ≤ s.prevNorm) {i : ℕ} {t t' : State n N} (ht : run kind k s i = .ok t)
  (ht' : run kind k s (i + 1) = .ok t')
include h0 ht ht'

/-- **C37 (an iteration).** In every execution, each iteration increments the counter by one and either changes the field by a correction that is strictly smaller
than the last accepted one, and nothing else of the problem, or it leaves the field as it is and only multiplies the imaginary part of the bias by 1.5. -/
theorem C37_iteration :
    t'.iteration = t.iteration + 1 ∧
      ((((Backend.norm (t'.field - t.field) : ℝ) : WithTop ℝ) < t.prevNorm ∧ t'.prevNorm = ((Backend.norm (t'.field - t.field) : ℝ) : WithTop ℝ) ∧
          t'.alpha = t.alpha ∧ t'.source = t.source ∧ t'.chiEE = t.chiEE ∧ t'.chiEH = t.chiEH ∧ t'.chiHE = t.chiHE ∧ t'.chiHH = t.chiHH) ∨
        (t'.field = t.field ∧ t'.prevNorm = t.prevNorm ∧ t'.alpha.re = t.alpha.re ∧ t'.alpha.im = 1.5 * t.alpha.im)) ∧
      t'.beta = t.beta ∧ t'.magnetic = t.magnetic := by
  have hs : step kind k t = .ok t' := by simpa only [run, ht] using ht'
  have h0t := run_prevNorm kind k h0 ht
  have hp : t.prevNorm ≠ ((0 : ℝ) : WithTop ℝ) := by
    intro hp
    rw [(step_error_iff kind k t h0t .zeroDivision).2 ⟨hp, rfl⟩] at hs
    exact absurd hs (by simp)
  rw [step_eq kind k t hp h0t, Except.ok.injEq] at hs
  split_ifs at hs with hlt
  · rw [← hs]
    have e : (fun c x => t.field c x + update kind k t c x) - t.field = update kind k t := by
      funext c x; simp
    refine ⟨rfl, .inl ⟨?_, ?_, rfl, rfl, rfl, rfl, rfl, rfl⟩, rfl, rfl⟩
    · rw [e]; exact hlt
    · rw [e]
  · rw [← hs]
    exact ⟨rfl, .inr ⟨rfl, rfl, increased_re _, increased_im _⟩, rfl, rfl⟩

omit ht in
/-- **C37 (decreasing corrections).** Of two iterations of an execution that changed the field, the later change is strictly smaller. -/
theorem C37_decreasing {j : ℕ} (hj : j < i) {u u' t : State n N} (hu : run kind k s j = .ok u) (hu' : run kind k s (j + 1) = .ok u')
    (ht : run kind k s i = .ok t) (hne : u'.field ≠ u.field) (hne' : t'.field ≠ t.field) :
    Backend.norm (t'.field - t.field) < Backend.norm (u'.field - u.field) := by
  obtain ⟨-, h1 | h1, -⟩ := C37_iteration kind k h0 hu hu'
  · obtain ⟨-, h2 | h2, -⟩ := C37_iteration kind k h0 ht ht'
    · obtain ⟨l, rfl⟩ : ∃ l, i = j + 1 + l := ⟨i - (j + 1), by omega⟩
      have h3 := run_add kind k hu' l
      rw [ht] at h3
      have h4 := run_prevNorm_le kind k (run_prevNorm kind k h0 hu') h3.symm
      rw [h1.2.1] at h4
      exact WithTop.coe_lt_coe.1 (h2.1.trans_le h4)
    · exact absurd h2.1 hne'
  · exact absurd h1.1 hne

end Executions

/-- **C37 (progress).** In every execution the next iteration completes unless the last accepted change is exactly zero. -/
theorem C37_progress {s : State n N} (h0 : ((0 : ℝ) : WithTop ℝ) ≤ s.prevNorm) {i : ℕ} {t : State n N} (ht : run kind k s i = .ok t) :
    (∃ t', run kind k s (i + 1) = .ok t') ↔ t.prevNorm ≠ ((0 : ℝ) : WithTop ℝ) := by
  have h0t := run_prevNorm kind k h0 ht
  have e : run kind k s (i + 1) = step kind k t := by simp only [run, ht]
  rw [e]
  constructor
  · rintro ⟨t', h⟩ hp
    rw [(step_error_iff kind k t h0t .zeroDivision).2 ⟨hp, rfl⟩] at h
    exact absurd h (by simp)
  · intro hp
    exact ⟨_, step_eq kind k t hp h0t⟩

/-- A concrete case: the problem of `demoGrid` starts with an infinite norm, so that the first iteration is always accepted. -/
example (S F : Field 3 demoGrid.shape) : ∃ t', run (.vectorial (by norm_num)) (backendK demoGrid 1) (prepare demoMedium true (1 + 19 * I) 1 S F) 1 = .ok t' :=
  (C37_progress _ _ (le_top : _ ≤ (⊤ : WithTop ℝ)) (i := 0) (t := prepare demoMedium true (1 + 19 * I) 1 S F) rfl).2 (by exact WithTop.top_ne_coe)

/-! ### C38 -/

/-- **C38 (first iteration).** The first iteration after the field has become exact does not change it, unless the last accepted change was exactly zero. -/
theorem C38_first_partial {s : State n N} (h0 : ((0 : ℝ) : WithTop ℝ) < s.prevNorm) (hu : update kind k s = 0) :
    step kind k s = .ok { s with iteration := s.iteration + 1, residue := none, prevNorm := ((0 : ℝ) : WithTop ℝ) } := by
  have hn : Backend.norm (update kind k s) = 0 := (norm_eq_zero_iff _).2 hu
  rw [step_eq kind k s h0.ne' h0.le, hn, if_pos h0, hu]
  simp

/-- **C38.** Iterating past convergence raises: whenever the field is exact, the second iteration that follows raises ZeroDivisionError, for all problems.
Full claim: further iterations leave the field unchanged and do not raise. -/
theorem C38_violates {s : State n N} (h0 : ((0 : ℝ) : WithTop ℝ) < s.prevNorm) (hu : update kind k s = 0) (i : ℕ) :
    run kind k s (i + 2) = .error .zeroDivision := by
  induction i with
  | zero =>
    simp only [run, C38_first_partial kind k h0 hu]
    exact (step_error_iff kind k _ le_rfl _).2 ⟨rfl, rfl⟩
  | succ i ih =>
    show (match run kind k s (i + 2) with
      | .ok t => step kind k t
      | .error e => .error e) = _
    rw [ih]

/-- **C38 (zero source).** In particular, without a source and with the default initial field, the second iteration raises ZeroDivisionError whatever the grid and material. -/
theorem C38_zero_source_violates (m : Medium n N) (mag : Bool) (alpha : ℂ) (beta : ℝ) (i : ℕ) :
    run kind k (prepare m mag alpha beta 0 0) (i + 2) = .error .zeroDivision := by
  refine C38_violates kind k (WithTop.coe_lt_top _) ?_ i
  have hs : (prepare m mag alpha beta 0 (0 : Field n N)).source = 0 := by
    funext c x; simp [prepare, prepared, updateOperators]
  have hf : (prepare m mag alpha beta 0 (0 : Field n N)).field = 0 := rfl
  rw [update_eq, hs, hf, (green_isLinear kind k _).map_zero, (chiOp_isLinear k _).map_zero]
  rw [(homogeneous_isLinear kind k _).map_zero]
  simp

/-- A non-trivial case: a field with a source and a solution other than 0. -/
example (F : Field 3 demoGrid.shape) (h : F ≠ 0) : ∃ S, S ≠ 0 ∧
    run (.vectorial (by norm_num)) (backendK demoGrid 1) (prepare demoMedium true (1 + 19 * I) 1 S F) 2 = .error .zeroDivision := by
  have hc := demo_chosen.consistent (fun h => absurd h (by decide))
  refine ⟨waveOp (backendK demoGrid 1) 1 (.vectorial (by norm_num)) demoMedium F, ?_, ?_⟩
  · intro h0
    have h1 := (waveEquation_iff (C31_backend demoGrid demo_step one_ne_zero) (by norm_num) demoMedium (fun _ => rfl) (fun _ => rfl) 1 0 F).2
      (by simpa using h0)
    exact h (absorbing (alpha := 1) (by simpa using demo_passivity) one_ne_zero one_pos demo_absorbing F h1)
  · exact C38_violates _ _ (WithTop.coe_lt_top _)
      (update_zero_of (backendK_origin demoGrid demo_step one_ne_zero) _ (by norm_num : (0 : ℝ) < (1 + 19 * I : ℂ).im) one_pos hc _ F rfl) 0

/-! ### C39 -/

/-- The list are the states after consecutive iterations, starting from `s`. -/
def Follows (s : State n N) : List (State n N) → Prop
  | [] => True
  | t :: ts => step kind k s = .ok t ∧ Follows t ts

theorem follows_append (s : State n N) (w : List (State n N)) (t : State n N) (v : List (State n N)) :
    Follows kind k s (w ++ t :: v) ↔ Follows kind k s (w ++ [t]) ∧ Follows kind k t v := by
  induction w generalizing s with
  | nil => simp [Follows]
  | cons a w ih => simp only [List.cons_append, Follows, ih, and_assoc]

/-- The states are those of the execution. -/
theorem follows_iff_run (s : State n N) (w : List (State n N)) :
    Follows kind k s w ↔ ∀ l (h : l < w.length), run kind k s (l + 1) = .ok w[l] := by
  induction w generalizing s with
  | nil => simp [Follows]
  | cons t w ih =>
    constructor
    · rintro ⟨h1, h2⟩ l hl
      have hr : run kind k s 1 = .ok t := by simp only [run, h1]
      cases l with
      | zero => exact hr
      | succ l =>
        rw [add_comm (l + 1) 1, run_add kind k hr]
        exact (ih t).1 h2 l (by simpa using hl)
    · intro h
      have hr : run kind k s 1 = .ok t := h 0 (by simp)
      refine ⟨by simpa only [run] using hr, (ih t).2 fun l hl => ?_⟩
      have := h (l + 1) (by simpa using hl)
      rw [add_comm (l + 1) 1, run_add kind k hr] at this
      exact this

/-- Callbacks that decide with `g`, that may fill the cache of the residue, and that keep a state with `upd`. -/
def reader {σ : Type} (g : State n N → Except PyErr (Bool × Option (WithTop ℝ))) (upd : σ → State n N → σ) : Callback σ n N := fun u t =>
  match g t with
  | .error e => .error e
  | .ok (b, r) => .ok (b, upd u t, { t with residue := r })

theorem step_residue (s : State n N) (r : Option (WithTop ℝ)) : step kind k { s with residue := r } = step kind k s := rfl

theorem follows_residue (s : State n N) (r : Option (WithTop ℝ)) (w : List (State n N)) : Follows kind k { s with residue := r } w ↔ Follows kind k s w := by
  cases w with
  | nil => exact Iff.rfl
  | cons t w => simp only [Follows, step_residue]

section Loop
variable {σ : Type} (g : State n N → Except PyErr (Bool × Option (WithTop ℝ))) (upd : σ → State n N → σ)

/-- When the loop ends, and with what. -/
theorem loop_done_iff (i : ℕ) (u v : σ) (s t : State n N) :
    solveLoop kind k (reader g upd) i u s = .done v t ↔ ∃ (w : List (State n N)) (t0 : State n N) (r : Option (WithTop ℝ)),
      w.length < i ∧ Follows kind k s (w ++ [t0]) ∧ (∀ a ∈ w, ∃ r, g a = .ok (true, r)) ∧ g t0 = .ok (false, r) ∧
        t = { t0 with residue := r } ∧ v = (w ++ [t0]).foldl upd u := by
  induction i generalizing u s with
  | zero => simp [solveLoop]
  | succ i ih =>
    simp only [solveLoop]
    cases hs : step kind k s with
    | error e =>
      simp only [reduceCtorEq, false_iff]
      rintro ⟨w, t0, r, -, hf, -⟩
      cases w with
      | nil => simp [Follows, hs] at hf
      | cons a w => simp [Follows, hs] at hf
    | ok t1 =>
      simp only [reader]
      cases hg : g t1 with
      | error e =>
        simp only [reduceCtorEq, false_iff]
        rintro ⟨w, t0, r, -, hf, hw, h0, -⟩
        cases w with
        | nil =>
          simp only [List.nil_append, Follows, hs, Except.ok.injEq, and_true] at hf
          rw [← hf, hg] at h0; simp at h0
        | cons a w =>
          simp only [List.cons_append, Follows, hs, Except.ok.injEq] at hf
          obtain ⟨r, hr⟩ := hw a (by simp)
          rw [← hf.1, hg] at hr; simp at hr
      | ok br =>
        obtain ⟨b, r1⟩ := br
        cases b with
        | false =>
          simp only [Bool.not_false, if_true, Outcome.done.injEq]
          constructor
          · rintro ⟨rfl, rfl⟩
            exact ⟨[], t1, r1, by simp, by simp [Follows, hs], by simp, hg, rfl, rfl⟩
          · rintro ⟨w, t0, r, -, hf, hw, h0, rfl, rfl⟩
            cases w with
            | nil =>
              simp only [List.nil_append, Follows, hs, Except.ok.injEq, and_true] at hf
              subst hf
              rw [hg] at h0
              simp only [Except.ok.injEq, Prod.mk.injEq, true_and] at h0
              rw [h0]
              exact ⟨rfl, rfl⟩
            | cons a w =>
              simp only [List.cons_append, Follows, hs, Except.ok.injEq] at hf
              obtain ⟨r, hr⟩ := hw a (by simp)
              rw [← hf.1, hg] at hr; simp at hr
        | true =>
          have e : (!true) = false := rfl
          simp only [e, Bool.false_eq_true, if_false]
          rw [ih]
          constructor
          · rintro ⟨w, t0, r, hl, hf, hw, h0, rfl, rfl⟩
            refine ⟨t1 :: w, t0, r, by simpa using hl, ?_, ?_, h0, rfl, rfl⟩
            · exact ⟨hs, (follows_residue kind k t1 r1 _).1 hf⟩
            · intro a ha
              rcases List.mem_cons.1 ha with rfl | ha
              · exact ⟨r1, hg⟩
              · exact hw a ha
          · rintro ⟨w, t0, r, hl, hf, hw, h0, rfl, rfl⟩
            cases w with
            | nil =>
              simp only [List.nil_append, Follows, hs, Except.ok.injEq, and_true] at hf
              rw [← hf, hg] at h0; simp at h0
            | cons a w =>
              simp only [List.cons_append, Follows, hs, Except.ok.injEq] at hf
              obtain ⟨rfl, hf⟩ := hf
              exact ⟨w, t0, r, by simpa using hl, (follows_residue kind k t1 r1 _).2 hf, fun a ha => hw a (by simp [ha]), h0, rfl, rfl⟩

end Loop

/-- A callback function that decides with `f` and that keeps a list of the states for which it has been called. -/
def recording (f : State n N → Bool) : Callback (List (State n N)) n N := fun u t => .ok (f t, u ++ [t], t)

theorem foldl_record (w u : List (State n N)) : w.foldl (fun u t => u ++ [t]) u = u ++ w := by
  induction w generalizing u with
  | nil => simp
  | cons a w ih => rw [List.foldl_cons, ih, List.append_assoc]; rfl

/-- **C39 (callbacks).** For all callback functions: `solve` returns if and only if the function returns `False` after an iteration, at the first such iteration, and
it has been called exactly once after each iteration, in order. -/
theorem C39_callback (f : State n N → Bool) (s t : State n N) (i : ℕ) (calls : List (State n N)) :
    solveLoop kind k (recording f) i [] (start s) = .done calls t ↔
      calls.length ≤ i ∧ (∀ l (h : l < calls.length), run kind k (start s) (l + 1) = .ok calls[l]) ∧
        calls.getLast? = some t ∧ f t = false ∧ ∀ l (h : l + 1 < calls.length), f calls[l] = true := by
  have e : (recording f : Callback (List (State n N)) n N) = reader (fun t => .ok (f t, t.residue)) fun u t => u ++ [t] := rfl
  rw [e, loop_done_iff]
  simp only [foldl_record, List.nil_append, ← follows_iff_run, Except.ok.injEq, Prod.mk.injEq]
  constructor
  · rintro ⟨w, t0, r, hl, hf, hw, ⟨h0, rfl⟩, rfl, rfl⟩
    refine ⟨by simpa using hl, hf, by simp, h0, fun l h => ?_⟩
    have hl' : l < w.length := by simpa using h
    rw [List.getElem_append_left hl']
    obtain ⟨r, hr, -⟩ := hw w[l] (List.getElem_mem _)
    exact hr
  · rintro ⟨hl, hf, hlast, h0, hw⟩
    obtain ⟨w, rfl⟩ : ∃ w, calls = w ++ [t] := List.getLast?_eq_some_iff.1 hlast
    refine ⟨w, t, t.residue, by simpa using hl, hf, fun a ha => ⟨_, ?_, rfl⟩, ⟨h0, rfl⟩, rfl, rfl⟩
    obtain ⟨l, hl', rfl⟩ := List.getElem_of_mem ha
    have := hw l (by simpa using hl')
    rwa [List.getElem_append_left hl'] at this

/-- The counter counts the iterations since the iterator was made. -/
theorem run_start_iteration (s : State n N) {i : ℕ} {t : State n N} (h0 : ((0 : ℝ) : WithTop ℝ) ≤ s.prevNorm) (h : run kind k (start s) i = .ok t) :
    t.iteration = i := by
  induction i generalizing t with
  | zero => simp only [run, Except.ok.injEq] at h; rw [← h]; rfl
  | succ i ih =>
    have h' := h
    simp only [run] at h
    split at h
    · rename_i t' ht'
      rw [(C37_iteration kind k (s := start s) h0 ht' h').1, ih ht']
      push_cast; rfl
    · simp at h

/-- The test in `criterion`. -/
noncomputable def criterionTest (limit : WithTop ℝ) (rtol : ℝ) (s : State n N) : Except PyErr (Bool × Option (WithTop ℝ)) :=
  if ((s.iteration : ℝ) : WithTop ℝ) < limit then
    match relativeResidue s with
    | (.error e, _) => .error e
    | (.ok r, s') => .ok (decide (((rtol : ℝ) : WithTop ℝ) < r), s'.residue)
  else .ok (false, s.residue)

theorem relativeResidue_state (s : State n N) : (relativeResidue s).2 = { s with residue := (relativeResidue s).2.residue } := by
  unfold relativeResidue
  split
  · rfl
  · simp only
    split <;> rfl

theorem criterion_eq (limit : WithTop ℝ) (rtol : ℝ) :
    (criterion limit rtol : Callback Unit n N) = reader (criterionTest limit rtol) fun _ _ => () := by
  funext u s
  unfold criterion reader criterionTest
  split_ifs with h
  · have := relativeResidue_state s
    split
    · rename_i e s' he
      simp only [he]
    · rename_i r s' he
      simp only [he]
      rw [he] at this
      simp only at this
      rw [← this]
  · rfl

/-- **C39 (tolerance and limit).** With `callback=None`, for all executions: `solve` ends at the first iteration for which the number of iterations
has reached `maxiter`, or the relative residue has become at most `rtol`, if it ends. -/
theorem C39_tolerance (rtol : ℝ) (maxiter : WithTop ℝ) (s : State n N) (h0 : ((0 : ℝ) : WithTop ℝ) ≤ s.prevNorm) (i : ℕ) :
    (∃ t, solve kind k .none rtol maxiter s i = .done () t) ↔
      ∃ j < i, (∃ t, run kind k (start s) (j + 1) = .ok t ∧
          (maxiter ≤ ((j + 1 : ℝ) : WithTop ℝ) ∨ ∃ r ≤ ((rtol : ℝ) : WithTop ℝ), (relativeResidue t).1 = .ok r)) ∧
        ∀ l < j, ∃ t, run kind k (start s) (l + 1) = .ok t ∧
          ((l + 1 : ℝ) : WithTop ℝ) < maxiter ∧ ∃ r > ((rtol : ℝ) : WithTop ℝ), (relativeResidue t).1 = .ok r := by
  have hgo : ∀ (l : ℕ) (t : State n N), run kind k (start s) (l + 1) = .ok t → ((∃ r, criterionTest maxiter rtol t = .ok (true, r)) ↔
      ((l + 1 : ℝ) : WithTop ℝ) < maxiter ∧ ∃ r > ((rtol : ℝ) : WithTop ℝ), (relativeResidue t).1 = .ok r) := by
    intro l t ht
    have hi := run_start_iteration kind k s h0 ht
    unfold criterionTest
    rw [hi]
    have hc : ((((l + 1 : ℕ) : ℤ) : ℝ) : WithTop ℝ) = ((l + 1 : ℝ) : WithTop ℝ) := by push_cast; rfl
    rw [hc]
    split_ifs with hlt
    · simp only [hlt, true_and]
      rcases hr : relativeResidue t with ⟨_ | r, s'⟩
      · simp
      · simp
    · exact ⟨fun ⟨r, hr⟩ => absurd hr (by simp), fun h => absurd h.1 hlt⟩
  have hstop : ∀ (l : ℕ) (t : State n N), run kind k (start s) (l + 1) = .ok t → ((∃ r, criterionTest maxiter rtol t = .ok (false, r)) ↔
      (maxiter ≤ ((l + 1 : ℝ) : WithTop ℝ) ∨ ∃ r ≤ ((rtol : ℝ) : WithTop ℝ), (relativeResidue t).1 = .ok r)) := by
    intro l t ht
    have hi := run_start_iteration kind k s h0 ht
    unfold criterionTest
    rw [hi]
    have hc : ((((l + 1 : ℕ) : ℤ) : ℝ) : WithTop ℝ) = ((l + 1 : ℝ) : WithTop ℝ) := by push_cast; rfl
    rw [hc]
    split_ifs with hlt
    · have : ¬ maxiter ≤ ((l + 1 : ℝ) : WithTop ℝ) := not_le.2 hlt
      simp only [this, false_or]
      rcases hr : relativeResidue t with ⟨_ | r, s'⟩
      · simp
      · simp
    · exact ⟨fun _ => .inl (not_lt.1 hlt), fun _ => ⟨_, rfl⟩⟩
  unfold solve
  simp only [criterion_eq, loop_done_iff]
  constructor
  · rintro ⟨t, w, t0, r, hl, hf, hw, ht0, -⟩
    rw [follows_iff_run] at hf
    refine ⟨w.length, hl, ⟨t0, ?_, ?_⟩, fun l hlt => ?_⟩
    · have := hf w.length (by simp)
      rwa [List.getElem_concat_length rfl] at this
    · have := hf w.length (by simp)
      rw [List.getElem_concat_length rfl] at this
      exact (hstop _ _ this).1 ⟨r, ht0⟩
    · have := hf l (by simp; omega)
      rw [List.getElem_append_left hlt] at this
      exact ⟨_, this, (hgo _ _ this).1 (hw _ (List.getElem_mem _))⟩
  · rintro ⟨j, hj, ⟨t0, ht0, hst⟩, hc⟩
    obtain ⟨r, hr⟩ := (hstop _ _ ht0).2 hst
    choose u hu hu' using hc
    refine ⟨{ t0 with residue := r }, List.ofFn (fun l : Fin j => u l l.isLt), t0, r, by simpa using hj, ?_, ?_, hr, rfl, trivial⟩
    · rw [follows_iff_run]
      intro l hl
      simp only [List.length_append, List.length_ofFn, List.length_singleton] at hl
      by_cases hlj : l < j
      · rw [List.getElem_append_left (by simpa using hlj)]
        simp only [List.getElem_ofFn]
        exact hu l hlj
      · have : l = j := by omega
        subst this
        rw [List.getElem_append_right (by simp)]
        simpa using ht0
    · intro a ha
      obtain ⟨l, rfl⟩ := (List.mem_ofFn' _ _).1 ha
      exact (hgo _ _ (hu l l.isLt)).2 (hu' l l.isLt)

/-- **C39 (the function `solve`).** It passes the callback, or the tolerance and limit, on to the method. -/
theorem C39_function (callback : CallbackArg n N) (rtol : ℝ) (maxiter : WithTop ℝ) (s : State n N) (i : ℕ) :
    solveFunction kind k callback rtol maxiter s i = solve kind k callback rtol maxiter s i := by
  cases callback <;> rfl

/-- The residue after the first iteration from a zero field is 1. -/
theorem first_residue {s t : State n N} (hf : s.field = 0) (hp : s.prevNorm = ⊤) (hu : update kind k s ≠ 0) (h : step kind k s = .ok t) :
    (relativeResidue t).1 = .ok ((1 : ℝ) : WithTop ℝ) := by
  have hn : Backend.norm (update kind k s) ≠ 0 := fun h => hu ((norm_eq_zero_iff _).1 h)
  have hpos : 0 < Backend.norm (update kind k s) := lt_of_le_of_ne (norm_nonneg' _) hn.symm
  rw [step_eq kind k s (by rw [hp]; exact WithTop.top_ne_coe) (by rw [hp]; exact le_top), Except.ok.injEq, hp, if_pos (WithTop.coe_lt_top _)] at h
  rw [← h]
  have e : (fun c x => s.field c x + update kind k s c x) = update kind k s := by
    funext c x; rw [hf]; simp
  simp only [relativeResidue, e]
  have : (((Backend.norm (update kind k s) : ℝ) : WithTop ℝ)) = some (Backend.norm (update kind k s)) := rfl
  simp only [this, if_pos hpos, if_neg hn, div_self hn]

/-- **C39 (arguments that are ignored).** `rtol` and `maxiter` have no effect unless the callback is explicitly given as `None`: for every problem with the default
initial field, `solve(maxiter=1)` does not stop after one iteration, whatever `rtol`.  (The documentation says that they are ignored only if a callback is provided.) -/
theorem C39_arguments_violates {s : State n N} (hf : s.field = 0) (hp : s.prevNorm = ⊤) (hu : update kind k s ≠ 0) (rtol : ℝ) :
    (∃ t, solve kind k .default rtol ((1 : ℝ) : WithTop ℝ) s 1 = .running () t) ∧
      ∃ t, solve kind k .none rtol ((1 : ℝ) : WithTop ℝ) s 1 = .done () t := by
  obtain ⟨t, ht⟩ := (C37_progress kind k (s := start s) (by show _ ≤ s.prevNorm; rw [hp]; exact le_top) (i := 0) rfl).2
    (by show s.prevNorm ≠ _; rw [hp]; exact WithTop.top_ne_coe)
  have hs : step kind k (start s) = .ok t := by simpa only [run] using ht
  have hr := first_residue kind k (s := start s) hf hp hu hs
  constructor
  · have hi := run_start_iteration kind k s (by rw [hp]; exact le_top) ht
    refine ⟨(relativeResidue t).2, ?_⟩
    unfold solve
    simp only [solveLoop, hs, defaultCallback, criterion, hi]
    rw [if_pos (by norm_cast; norm_num)]
    rcases h' : relativeResidue t with ⟨a, b⟩
    rw [h'] at hr
    simp only at hr
    rw [hr]
    have : ((1e-4 : ℝ) : WithTop ℝ) < ((1 : ℝ) : WithTop ℝ) := by norm_cast; norm_num
    simp only [this, decide_true, Bool.not_true, Bool.false_eq_true, if_false]
  · rw [C39_tolerance kind k rtol _ s (by rw [hp]; exact le_top)]
    refine ⟨0, one_pos, ⟨t, ht, .inl (by norm_num)⟩, fun l hl => absurd hl (Nat.not_lt_zero _)⟩

/-- **C39 (no iterations).** `maxiter=0` makes one iteration: the limit is tested only afterwards.  (The documentation allows any non-negative integer.) -/
theorem C39_zero_violates {s : State n N} (hp : s.prevNorm = ⊤) (rtol : ℝ) :
    ∃ t, solve kind k .none rtol ((0 : ℝ) : WithTop ℝ) s 1 = .done () t ∧ t.iteration = 1 := by
  obtain ⟨t, ht⟩ := (C37_progress kind k (s := start s) (by show _ ≤ s.prevNorm; rw [hp]; exact le_top) (i := 0) rfl).2
    (by show s.prevNorm ≠ _; rw [hp]; exact WithTop.top_ne_coe)
  have hs : step kind k (start s) = .ok t := by simpa only [run] using ht
  have hi := run_start_iteration kind k s (by rw [hp]; exact le_top) ht
  refine ⟨t, ?_, hi⟩
  unfold solve
  simp only [solveLoop, hs, criterion, hi]
  rw [if_neg (by norm_cast)]
  simp

/-! ### C40 -/

/-- **C40 (value).** A residue that is not cached is the norm of the last change divided by that of the field. -/
theorem C40_value {s : State n N} (hr : s.residue = none) {p : ℝ} (hp : s.prevNorm = (p : WithTop ℝ)) (h0 : 0 ≤ p) (hf : s.field ≠ 0) :
    (relativeResidue s).1 = .ok ((p / Backend.norm s.field : ℝ) : WithTop ℝ) := by
  have hn : Backend.norm s.field ≠ 0 := fun h => hf ((norm_eq_zero_iff _).1 h)
  unfold relativeResidue
  rw [hr, hp]
  simp only
  have : ((p : ℝ) : WithTop ℝ) = some p := rfl
  simp only [this]
  rcases h0.lt_or_eq with h | h
  · rw [if_pos h, if_neg hn]
  · rw [← h]; simp only [lt_self_iff_false, if_false, zero_div]

/-- The cached residue, if any, is the one that would be calculated. -/
def Fresh (s : State n N) : Prop := ∀ r, s.residue = some r → (relativeResidue { s with residue := none }).1 = .ok r

/-- Uses of a Solution object other than assignments. -/
def Op.reads : Op n N → Prop
  | .setE _ => False
  | .setSource _ => False
  | _ => True

theorem relativeResidue_cached {s : State n N} {r : WithTop ℝ} (h : s.residue = some r) : (relativeResidue s).1 = .ok r := by
  unfold relativeResidue
  rw [h]

theorem relativeResidue_restart (s : State n N) :
    (relativeResidue { start s with residue := none }).1 = (relativeResidue { s with residue := none }).1 := by
  unfold relativeResidue start
  simp only
  split <;> simp only [*]

theorem fresh_apply (k0 : ℝ) {s : State n N} (h : Fresh s) (h0 : ((0 : ℝ) : WithTop ℝ) ≤ s.prevNorm) (op : Op n N) (hop : op.reads) :
    Fresh (op.apply kind k k0 s) ∧ ((0 : ℝ) : WithTop ℝ) ≤ (op.apply kind k k0 s).prevNorm := by
  cases op with
  | setE E => exact hop.elim
  | setSource S => exact hop.elim
  | restart => exact ⟨fun r hr => (relativeResidue_restart s).trans (h r hr), h0⟩
  | iterate =>
    simp only [Op.apply]
    split
    · rename_i t ht
      refine ⟨?_, (step_prevNorm kind k s t h0 ht).1⟩
      have hp : s.prevNorm ≠ ((0 : ℝ) : WithTop ℝ) := by
        intro hp
        rw [(step_error_iff kind k s h0 .zeroDivision).2 ⟨hp, rfl⟩] at ht
        exact absurd ht (by simp)
      rw [step_eq kind k s hp h0, Except.ok.injEq] at ht
      intro r hr
      split_ifs at ht <;> rw [← ht] at hr <;> simp [updateOperators] at hr
    · exact ⟨fun r hr => absurd hr (by simp), h0⟩
  | residue =>
    simp only [Op.apply]
    have hst := relativeResidue_state s
    refine ⟨?_, by rw [hst]; exact h0⟩
    intro r hr
    have e : ({ (relativeResidue s).2 with residue := none } : State n N) = { s with residue := none } := by rw [hst]
    rw [e]
    cases hc : s.residue with
    | some r' =>
      have : (relativeResidue s).2 = s := by unfold relativeResidue; rw [hc]
      rw [this] at hr
      exact h r hr
    | none =>
      have e2 : ({ s with residue := none } : State n N) = s := by rw [← hc]
      rw [e2]
      unfold relativeResidue at hr ⊢
      simp only [hc] at hr ⊢
      split at hr
      · rename_i r' h'
        simp only [Option.some.injEq] at hr
        simp only [h', hr]
      · rw [hc] at hr; simp at hr

/-- **C40 (histories without assignments).** In all histories of iterations, new iterators and queries, from any newly constructed problem, the residue that is reported
is the one of the current field and last change.  Full claim: also after assignments, see `C40_assign_violates`. -/
theorem C40_history_partial (k0 : ℝ) (m : Medium n N) (mag : Bool) (alpha : ℂ) (beta : ℝ) (S F : Field n N) (ops : List (Op n N)) (hops : ∀ op ∈ ops, op.reads) :
    let t := ops.foldl (fun s op => op.apply kind k k0 s) (prepare m mag alpha beta S F)
    (relativeResidue t).1 = (relativeResidue { t with residue := none }).1 := by
  have key : ∀ (ops : List (Op n N)) (s : State n N), (∀ op ∈ ops, op.reads) → Fresh s → ((0 : ℝ) : WithTop ℝ) ≤ s.prevNorm →
      Fresh (ops.foldl (fun s op => op.apply kind k k0 s) s) := by
    intro ops
    induction ops with
    | nil => intro s _ h _; exact h
    | cons op ops ih =>
      intro s hops h h0
      obtain ⟨h1, h2⟩ := fresh_apply kind k k0 h h0 op (hops op (by simp))
      exact ih _ (fun o ho => hops o (by simp [ho])) h1 h2
  intro t
  have hF : Fresh t := key ops _ hops (fun r hr => absurd hr (by simp [prepare, updateOperators, prepared])) le_top
  cases hc : t.residue with
  | none =>
    have : ({ t with residue := none } : State n N) = t := by rw [← hc]
    rw [this]
  | some r =>
    rw [hF r hc]
    unfold relativeResidue
    rw [hc]

/-- **C40 (assignments).** Assigning the field or the source does not invalidate a residue that has been read: the residue of the previous field is reported, whatever
the new field or source, for all states. -/
theorem C40_assign_violates (k0 : ℝ) (s : State n N) {r : WithTop ℝ} (h : (relativeResidue s).1 = .ok r) (E S : Field n N) :
    (relativeResidue (setE k0 (relativeResidue s).2 E)).1 = .ok r ∧ (relativeResidue (setSource (relativeResidue s).2 S)).1 = .ok r := by
  have hc : (relativeResidue s).2.residue = some r := by
    cases hc : s.residue with
    | some r' =>
      have e : relativeResidue s = (.ok r', s) := by unfold relativeResidue; rw [hc]
      rw [e] at h ⊢
      simp only [Except.ok.injEq] at h
      rw [hc, h]
    | none =>
      unfold relativeResidue at h ⊢
      simp only [hc] at h ⊢
      split at h
      · rename_i r' h'
        simp only [Except.ok.injEq] at h
        simp only [h', h]
      · simp at h
  exact ⟨relativeResidue_cached (s := setE k0 (relativeResidue s).2 E) hc, relativeResidue_cached (s := setSource (relativeResidue s).2 S) hc⟩

/-- **C40 (zero field).** The residue of a newly constructed problem with the default initial field raises ZeroDivisionError. -/
theorem C40_initial_violates (m : Medium n N) (mag : Bool) (alpha : ℂ) (beta : ℝ) (S : Field n N) :
    (relativeResidue (prepare m mag alpha beta S 0)).1 = .error .zeroDivision := by
  have hn : Backend.norm (0 : Field n N) = 0 := (norm_eq_zero_iff _).2 rfl
  have hf : (prepare m mag alpha beta S (0 : Field n N)).field = 0 := rfl
  have hr : (prepare m mag alpha beta S (0 : Field n N)).residue = none := rfl
  have hp : (prepare m mag alpha beta S (0 : Field n N)).prevNorm = none := rfl
  unfold relativeResidue
  simp only [hr, hp, hf, hn, if_true]

/-! ### C41 -/

/-- **C41 (field).** -/
theorem C41_field {k0 : ℝ} (hk0 : k0 ≠ 0) (s : State n N) (E : Field n N) : getE k0 (setE k0 s E) = E := by
  have := ofReal_ne hk0
  funext c x
  simp only [getE, setE]
  push_cast
  field_simp

/-- **C41 (source).** For all states whose bias and permeability constants are not zero, and whatever bias changes follow. -/
theorem C41_source (s : State n N) (hα : s.alpha.im ≠ 0) (hβ : s.beta ≠ 0) (S : Field n N) : getSource (setSource s S) = S := by
  have h1 := ofReal_ne hα
  have h2 := ofReal_ne hβ
  funext c x
  simp only [getSource, setSource, factor]
  field_simp

/-- **C41 (source of the constructor).** -/
theorem C41_source_constructed (m : Medium n N) (mag : Bool) {alpha : ℂ} (hα : alpha.im ≠ 0) {beta : ℝ} (hβ : beta ≠ 0) (S F : Field n N) :
    getSource (prepare m mag alpha beta S F) = S := by
  rw [prepare_eq m mag hα]
  have h1 := ofReal_ne hα
  have h2 := ofReal_ne hβ
  funext c x
  simp only [getSource, prepared, factor]
  field_simp

theorem omega_mu_ne {co : Const} (hc : co.c ≠ 0) (hmu : co.mu0 ≠ 0) {k0 : ℝ} (hk0 : k0 ≠ 0) : (-I * (co.omega k0 : ℂ) * (co.mu0 : ℂ)) ≠ 0 :=
  mul_ne_zero (mul_ne_zero (neg_ne_zero.2 I_ne_zero) (ofReal_ne (mul_ne_zero hk0 hc))) (ofReal_ne hmu)

/-- **C41 (current density).** -/
theorem C41_current {co : Const} (hc : co.c ≠ 0) (hmu : co.mu0 ≠ 0) {k0 : ℝ} (hk0 : k0 ≠ 0) (s : State n N) (hα : s.alpha.im ≠ 0) (hβ : s.beta ≠ 0) (J : Field n N) :
    getJ co k0 (setJ co k0 s J) = J ∧ ∀ c x, getSource (setJ co k0 s J) c x = -I * (co.omega k0 : ℂ) * (co.mu0 : ℂ) * J c x := by
  have h := omega_mu_ne hc hmu hk0
  have e := C41_source s hα hβ fun c x => J c x * (-I * (co.omega k0 : ℂ) * (co.mu0 : ℂ))
  constructor
  · funext c x
    simp only [getJ, setJ, e]
    rw [mul_div_assoc, div_self h, mul_one]
  · intro c x
    simp only [setJ, e]
    ring

/-- **C41 (relation).** The current density and the source that are reported are related by the factor `-1j ω μ₀` in all states. -/
theorem C41_relation {co : Const} (hc : co.c ≠ 0) (hmu : co.mu0 ≠ 0) {k0 : ℝ} (hk0 : k0 ≠ 0) (s : State n N) (c : Fin n) (x : Idx N) :
    getSource s c x = -I * (co.omega k0 : ℂ) * (co.mu0 : ℂ) * getJ co k0 s c x := by
  have h := omega_mu_ne hc hmu hk0
  simp only [getJ]
  rw [mul_div_assoc', mul_comm, mul_div_assoc, div_self h, mul_one]

/-- **C41 (argument of the constructor).** Constructing with `current_density=J` gives a solution that reports the current density `J`. -/
theorem C41_current_constructed {co : Const} (hc : co.c ≠ 0) (hmu : co.mu0 ≠ 0) {k0 : ℝ} (hk0 : k0 ≠ 0) (m : Medium n N) (mag : Bool) {alpha : ℂ}
    (hα : alpha.im ≠ 0) {beta : ℝ} (hβ : beta ≠ 0) (J F : Field n N) : getJ co k0 (prepare m mag alpha beta (sourceOfCurrent co k0 J) F) = J := by
  have h := omega_mu_ne hc hmu hk0
  funext c x
  simp only [getJ, C41_source_constructed m mag hα hβ, sourceOfCurrent]
  rw [mul_div_assoc, div_self h, mul_one]

/-- **C41 (documented source).** The documentation of `source_distribution` relates it to the current density by `1j ω μ₀`, solver.py 51–52.  For every current density
other than zero this is not the source that is used for `current_density=J`: it has the opposite sign. -/
theorem C41_documented_violates {co : Const} (hc : co.c ≠ 0) (hmu : co.mu0 ≠ 0) {k0 : ℝ} (hk0 : k0 ≠ 0) (J : Field n N) (hJ : J ≠ 0) :
    sourceOfCurrent co k0 J ≠ fun c x => I * (co.omega k0 : ℂ) * (co.mu0 : ℂ) * J c x := by
  have h := omega_mu_ne hc hmu hk0
  intro e
  apply hJ
  funext c x
  have e1 := congrFun (congrFun e c) x
  simp only [sourceOfCurrent] at e1
  have e2 : 2 * (-I * (co.omega k0 : ℂ) * (co.mu0 : ℂ)) * J c x = 0 := by linear_combination e1
  have h2 : 2 * (-I * (co.omega k0 : ℂ) * (co.mu0 : ℂ)) ≠ 0 := mul_ne_zero two_ne_zero h
  exact (mul_eq_zero.1 e2).resolve_left h2

/-- A concrete case for C41. -/
example (J F : Field 3 demoGrid.shape) : getJ ⟨2, 3, 1 / 12⟩ 1 (prepare demoMedium true (1 + 19 * I) 1 (sourceOfCurrent ⟨2, 3, 1 / 12⟩ 1 J) F) = J :=
  C41_current_constructed (by norm_num) (by norm_num) one_ne_zero _ _ (by norm_num) one_ne_zero J F

end Verif.Solver
