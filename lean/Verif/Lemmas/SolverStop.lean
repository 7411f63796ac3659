import Verif.Props.SolverState

/-!
# When the loop of `solve` goes on, and when it raises
-/

namespace Verif.Solver

open Verif Verif.Fourier Verif.Backend Complex

variable {d n : ℕ} {N : Fin d → ℕ} (kind : Kind d n) (k : Fin d → Idx N → ℝ)

theorem run_residue (s : State n N) (r : Option (WithTop ℝ)) (i : ℕ) : run kind k { s with residue := r } (i + 1) = run kind k s (i + 1) := by
  induction i with
  | zero => rfl
  | succ i ih =>
    show (match run kind k { s with residue := r } (i + 1) with
      | .ok t => step kind k t
      | .error e => .error e) = _
    rw [ih]
    rfl

theorem run_cons {s t : State n N} (h : step kind k s = .ok t) (i : ℕ) : run kind k s (i + 1) = run kind k t i := by
  have hr : run kind k s 1 = .ok t := by simp only [run, h]
  rw [add_comm i 1, run_add kind k hr]

section Loop
variable {σ : Type} (g : State n N → Except PyErr (Bool × Option (WithTop ℝ))) (upd : σ → State n N → σ)

/-- When the loop has not ended. -/
theorem loop_running_iff (i : ℕ) (u : σ) (s : State n N) :
    (∃ v t, solveLoop kind k (reader g upd) i u s = .running v t) ↔ ∀ l < i, ∃ t, run kind k s (l + 1) = .ok t ∧ ∃ r, g t = .ok (true, r) := by
  induction i generalizing u s with
  | zero => simp [solveLoop]
  | succ i ih =>
    simp only [solveLoop]
    cases hs : step kind k s with
    | error e =>
      constructor
      · rintro ⟨v, t, h⟩
        exact (nomatch h)
      · intro h
        obtain ⟨t, ht, -⟩ := h 0 (Nat.succ_pos i)
        simp only [run, hs] at ht
        exact (nomatch ht)
    | ok t1 =>
      have hc := run_cons kind k hs
      simp only [reader]
      cases hg : g t1 with
      | error e =>
        constructor
        · rintro ⟨v, t, h⟩
          exact (nomatch h)
        · intro h
          obtain ⟨t, ht, r, hr⟩ := h 0 (Nat.succ_pos i)
          rw [hc] at ht
          cases ht
          rw [hg] at hr
          exact (nomatch hr)
      | ok br =>
        obtain ⟨b, r1⟩ := br
        cases b with
        | false =>
          constructor
          · rintro ⟨v, t, h⟩
            exact (nomatch h)
          · intro h
            obtain ⟨t, ht, r, hr⟩ := h 0 (Nat.succ_pos i)
            rw [hc] at ht
            cases ht
            rw [hg] at hr
            simp at hr
        | true =>
          have e : (!true) = false := rfl
          simp only [e, Bool.false_eq_true, if_false]
          rw [ih]
          simp only [run_residue]
          constructor
          · intro h l hl
            rw [hc]
            cases l with
            | zero => exact ⟨t1, rfl, r1, hg⟩
            | succ l => exact h l (by omega)
          · intro h l hl
            have := h (l + 1) (by omega)
            rw [hc] at this
            exact this

/-- When the loop raises an exception. -/
theorem loop_raised_iff (i : ℕ) (u : σ) (s : State n N) (e : PyErr) :
    solveLoop kind k (reader g upd) i u s = .raised e ↔ ∃ j < i, (∀ l < j, ∃ t, run kind k s (l + 1) = .ok t ∧ ∃ r, g t = .ok (true, r)) ∧
      (run kind k s (j + 1) = .error e ∨ ∃ t, run kind k s (j + 1) = .ok t ∧ g t = .error e) := by
  induction i generalizing u s with
  | zero => simp [solveLoop]
  | succ i ih =>
    simp only [solveLoop]
    cases hs : step kind k s with
    | error e' =>
      have h1 : run kind k s 1 = .error e' := by simp only [run, hs]
      simp only [Outcome.raised.injEq]
      constructor
      · rintro rfl
        exact ⟨0, Nat.succ_pos i, fun l hl => absurd hl (Nat.not_lt_zero l), .inl h1⟩
      · rintro ⟨j, -, hl, hr⟩
        cases j with
        | zero =>
          rcases hr with hr | ⟨t, hr, -⟩
          · rw [h1] at hr
            exact Except.error.inj hr
          · rw [h1] at hr
            exact (nomatch hr)
        | succ j =>
          obtain ⟨t, ht, -⟩ := hl 0 (Nat.succ_pos j)
          rw [h1] at ht
          exact (nomatch ht)
    | ok t1 =>
      have hc := run_cons kind k hs
      simp only [reader]
      cases hg : g t1 with
      | error e' =>
        simp only [Outcome.raised.injEq]
        constructor
        · rintro rfl
          exact ⟨0, Nat.succ_pos i, fun l hl => absurd hl (Nat.not_lt_zero l), .inr ⟨t1, hc 0, hg⟩⟩
        · rintro ⟨j, -, hl, hr⟩
          cases j with
          | zero =>
            rcases hr with hr | ⟨t, hr, hr'⟩
            · rw [hc] at hr
              exact (nomatch hr)
            · rw [hc] at hr
              cases hr
              rw [hg] at hr'
              exact Except.error.inj hr'
          | succ j =>
            obtain ⟨t, ht, r, hr⟩ := hl 0 (Nat.succ_pos j)
            rw [hc] at ht
            cases ht
            rw [hg] at hr
            exact (nomatch hr)
      | ok br =>
        obtain ⟨b, r1⟩ := br
        cases b with
        | false =>
          simp only [Bool.not_false, if_true, reduceCtorEq, false_iff]
          rintro ⟨j, -, hl, hr⟩
          cases j with
          | zero =>
            rcases hr with hr | ⟨t, hr, hr'⟩
            · rw [hc] at hr
              exact (nomatch hr)
            · rw [hc] at hr
              cases hr
              rw [hg] at hr'
              exact (nomatch hr')
          | succ j =>
            obtain ⟨t, ht, r, hr⟩ := hl 0 (Nat.succ_pos j)
            rw [hc] at ht
            cases ht
            rw [hg] at hr
            simp at hr
        | true =>
          have ef : (!true) = false := rfl
          simp only [ef, Bool.false_eq_true, if_false]
          rw [ih]
          simp only [run_residue]
          constructor
          · rintro ⟨j, hj, hl, hr⟩
            refine ⟨j + 1, by omega, fun l hl' => ?_, by rw [hc]; exact hr⟩
            rw [hc]
            cases l with
            | zero => exact ⟨t1, rfl, r1, hg⟩
            | succ l => exact hl l (by omega)
          · rintro ⟨j, hj, hl, hr⟩
            cases j with
            | zero =>
              rcases hr with hr | ⟨t, hr, hr'⟩
              · rw [hc] at hr
                exact (nomatch hr)
              · rw [hc] at hr
                cases hr
                rw [hg] at hr'
                exact (nomatch hr')
            | succ j =>
              refine ⟨j, by omega, fun l hl' => ?_, by rw [hc] at hr; exact hr⟩
              have := hl (l + 1) (by omega)
              rw [hc] at this
              exact this

end Loop

end Verif.Solver
