import Verif.Lemmas.SolverStop

/-!
# C39, C90: when `solve` ends, when it raises, and how accurate its result is
-/

namespace Verif.Solver

open Verif Verif.Fourier Verif.Backend Complex

variable {d n : ℕ} {N : Fin d → ℕ} {kind : Kind d n} {k : Fin d → Idx N → ℝ}

/-! ### The criterion -/

theorem criterionTest_true (limit : WithTop ℝ) (rtol : ℝ) (t : State n N) : (∃ r, criterionTest limit rtol t = .ok (true, r)) ↔
    ((t.iteration : ℝ) : WithTop ℝ) < limit ∧ ∃ r > ((rtol : ℝ) : WithTop ℝ), (relativeResidue t).1 = .ok r := by
  unfold criterionTest
  split_ifs with hlt
  · simp only [hlt, true_and]
    rcases hr : relativeResidue t with ⟨_ | r, s'⟩
    · simp
    · simp
  · exact ⟨fun ⟨r, hr⟩ => absurd hr (by simp), fun h => absurd h.1 hlt⟩

theorem criterionTest_false (limit : WithTop ℝ) (rtol : ℝ) (t : State n N) : (∃ r, criterionTest limit rtol t = .ok (false, r)) ↔
    limit ≤ ((t.iteration : ℝ) : WithTop ℝ) ∨ ∃ r ≤ ((rtol : ℝ) : WithTop ℝ), (relativeResidue t).1 = .ok r := by
  unfold criterionTest
  split_ifs with hlt
  · have : ¬ limit ≤ ((t.iteration : ℝ) : WithTop ℝ) := not_le.2 hlt
    simp only [this, false_or]
    rcases hr : relativeResidue t with ⟨_ | r, s'⟩
    · simp
    · simp
  · exact ⟨fun _ => .inl (not_lt.1 hlt), fun _ => ⟨_, rfl⟩⟩

theorem criterionTest_error (limit : WithTop ℝ) (rtol : ℝ) (t : State n N) (e : PyErr) : criterionTest limit rtol t = .error e ↔
    ((t.iteration : ℝ) : WithTop ℝ) < limit ∧ (relativeResidue t).1 = .error e := by
  unfold criterionTest
  split_ifs with hlt
  · simp only [hlt, true_and]
    rcases hr : relativeResidue t with ⟨_ | r, s'⟩
    · simp
    · simp
  · exact ⟨fun h => absurd h (by simp), fun h => absurd h.1 hlt⟩

/-- **C39 (continues).** With `callback=None`, `solve` has not ended after `i` iterations if and only if all of these have completed without reaching the limit, with a residue larger than the tolerance. -/
theorem C39_running (rtol : ℝ) (maxiter : WithTop ℝ) (s : State n N) (h0 : ((0 : ℝ) : WithTop ℝ) ≤ s.prevNorm) (i : ℕ) :
    (∃ t, solve kind k .none rtol maxiter s i = .running () t) ↔ ∀ l < i, ∃ t, run kind k (start s) (l + 1) = .ok t ∧
      ((l + 1 : ℝ) : WithTop ℝ) < maxiter ∧ ∃ r > ((rtol : ℝ) : WithTop ℝ), (relativeResidue t).1 = .ok r := by
  have h := loop_running_iff kind k (criterionTest maxiter rtol) (fun (_ : Unit) _ => ()) i () (start s)
  rw [← criterion_eq] at h
  unfold solve
  simp only
  constructor
  · rintro ⟨t, ht⟩ l hl
    obtain ⟨t, ht, hr⟩ := h.1 ⟨(), t, ht⟩ l hl
    have h1 := (criterionTest_true _ _ _).1 hr
    rw [run_start_iteration kind k s h0 ht] at h1
    push_cast at h1
    exact ⟨t, ht, h1⟩
  · intro h2
    obtain ⟨v, t, ht⟩ := h.2 fun l hl => by
      obtain ⟨t, ht, h3⟩ := h2 l hl
      refine ⟨t, ht, (criterionTest_true _ _ _).2 ?_⟩
      rw [run_start_iteration kind k s h0 ht]
      push_cast
      exact h3
    exact ⟨t, ht⟩

/-- **C39 (exceptions).** With `callback=None`, `solve` raises an exception if and only if an iteration raises it, or if the residue cannot be calculated, and it has not ended before. -/
theorem C39_raises (rtol : ℝ) (maxiter : WithTop ℝ) (s : State n N) (h0 : ((0 : ℝ) : WithTop ℝ) ≤ s.prevNorm) (i : ℕ) (e : PyErr) :
    solve kind k .none rtol maxiter s i = .raised e ↔ ∃ j < i, (∀ l < j, ∃ t, run kind k (start s) (l + 1) = .ok t ∧
        ((l + 1 : ℝ) : WithTop ℝ) < maxiter ∧ ∃ r > ((rtol : ℝ) : WithTop ℝ), (relativeResidue t).1 = .ok r) ∧
      (run kind k (start s) (j + 1) = .error e ∨
        ∃ t, run kind k (start s) (j + 1) = .ok t ∧ ((j + 1 : ℝ) : WithTop ℝ) < maxiter ∧ (relativeResidue t).1 = .error e) := by
  have h := loop_raised_iff kind k (criterionTest maxiter rtol) (fun (_ : Unit) _ => ()) i () (start s) e
  rw [← criterion_eq] at h
  unfold solve
  simp only
  rw [h]
  have e1 : ∀ l, (∃ t, run kind k (start s) (l + 1) = .ok t ∧ ∃ r, criterionTest maxiter rtol t = .ok (true, r)) ↔
      ∃ t, run kind k (start s) (l + 1) = .ok t ∧ ((l + 1 : ℝ) : WithTop ℝ) < maxiter ∧ ∃ r > ((rtol : ℝ) : WithTop ℝ), (relativeResidue t).1 = .ok r := fun l =>
    exists_congr fun t => and_congr_right fun ht => by
      rw [criterionTest_true, run_start_iteration kind k s h0 ht]
      push_cast
      rfl
  have e2 : ∀ l, (∃ t, run kind k (start s) (l + 1) = .ok t ∧ criterionTest maxiter rtol t = .error e) ↔
      ∃ t, run kind k (start s) (l + 1) = .ok t ∧ ((l + 1 : ℝ) : WithTop ℝ) < maxiter ∧ (relativeResidue t).1 = .error e := fun l =>
    exists_congr fun t => and_congr_right fun ht => by
      rw [criterionTest_error, run_start_iteration kind k s h0 ht]
      push_cast
      rfl
  simp only [e1, e2]

/-- **C39 (limit).** For all problems, convergent or not: `solve` does not make more than `maxiter` iterations, but at least one. -/
theorem C39_limit (rtol : ℝ) (M : ℕ) (s : State n N) (h0 : ((0 : ℝ) : WithTop ℝ) ≤ s.prevNorm) (i : ℕ) (hi : M ≤ i) (h1 : 1 ≤ i) (t : State n N) :
    solve kind k .none rtol ((M : ℝ) : WithTop ℝ) s i ≠ .running () t := by
  intro h
  obtain ⟨t, -, h2, -⟩ := (C39_running rtol _ s h0 i).1 ⟨t, h⟩ (i - 1) (by omega)
  have h3 : ((i - 1 : ℕ) : ℝ) + 1 < (M : ℝ) := WithTop.coe_lt_coe.1 h2
  have h4 : i - 1 + 1 < M := by exact_mod_cast h3
  omega

/-- The default callback is the criterion with a limit of 10⁴ iterations and a tolerance of 10⁻⁴. -/
theorem solve_default (rtol : ℝ) (maxiter : WithTop ℝ) (s : State n N) (i : ℕ) :
    solve kind k .default rtol maxiter s i = solve kind k .none 1e-4 ((1e4 : ℝ) : WithTop ℝ) s i := rfl

/-! ### C90 -/

theorem step_residue_none {s t : State n N} (h : step kind k s = .ok t) : t.residue = none := by
  unfold step at h
  simp only at h
  split at h
  · exact (nomatch h)
  · split_ifs at h
    · simp only [Except.ok.injEq] at h
      rw [← h]
    · simp only [Except.ok.injEq] at h
      rw [← h]
      rfl

theorem run_residue_none {s t : State n N} {i : ℕ} (h : run kind k s (i + 1) = .ok t) : t.residue = none := by
  obtain ⟨t', ht'⟩ := run_of_succ h
  simp only [run, ht'] at h
  exact step_residue_none h

theorem norm_field {k0 : ℝ} (hk0 : k0 ≠ 0) (t : State n N) : Backend.norm t.field = k0 ^ 2 * Backend.norm (getE k0 t) := by
  have := norm_getE_sub hk0 t 0
  rwa [smul_zero, sub_zero, sub_zero] at this

theorem norm_change {k0 : ℝ} (hk0 : k0 ≠ 0) (t t' : State n N) : Backend.norm (t'.field - t.field) = k0 ^ 2 * Backend.norm (getE k0 t' - getE k0 t) := by
  rw [← norm_getE_sub hk0, ← field_getE hk0]

/-- The residue is the relative change of the electric field in the last iteration. -/
theorem residue_electric {k0 : ℝ} (hk0 : k0 ≠ 0) {t t' : State n N} (hr : t'.residue = none)
    (hp : t'.prevNorm = ((Backend.norm (t'.field - t.field) : ℝ) : WithTop ℝ)) :
    (relativeResidue t').1 = if Backend.norm (getE k0 t' - getE k0 t) = 0 then .ok ((0 : ℝ) : WithTop ℝ)
      else if Backend.norm (getE k0 t') = 0 then .error .zeroDivision
      else .ok ((Backend.norm (getE k0 t' - getE k0 t) / Backend.norm (getE k0 t') : ℝ) : WithTop ℝ) := by
  have hpos : 0 < k0 ^ 2 := by positivity
  rw [norm_change hk0] at hp
  unfold relativeResidue
  rw [hr, hp]
  simp only
  have e : (((k0 ^ 2 * Backend.norm (getE k0 t' - getE k0 t) : ℝ)) : WithTop ℝ) = some (k0 ^ 2 * Backend.norm (getE k0 t' - getE k0 t)) := rfl
  simp only [e, norm_field hk0 t', mul_eq_zero, hpos.ne', false_or, mul_div_mul_left _ _ hpos.ne']
  by_cases h0 : Backend.norm (getE k0 t' - getE k0 t) = 0
  · rw [h0, mul_zero, if_pos rfl, if_neg (lt_irrefl _)]
  · have h1 : 0 < Backend.norm (getE k0 t' - getE k0 t) := lt_of_le_of_ne (norm_nonneg' _) (Ne.symm h0)
    rw [if_neg h0, if_pos (mul_pos hpos h1)]
    split_ifs <;> rfl

theorem residue_le {k0 : ℝ} (hk0 : k0 ≠ 0) {t t' : State n N} (hr : t'.residue = none)
    (hp : t'.prevNorm = ((Backend.norm (t'.field - t.field) : ℝ) : WithTop ℝ)) {rtol : ℝ} {r : WithTop ℝ} (hle : r ≤ ((rtol : ℝ) : WithTop ℝ))
    (h : (relativeResidue t').1 = .ok r) : 0 ≤ rtol ∧ Backend.norm (getE k0 t' - getE k0 t) ≤ rtol * Backend.norm (getE k0 t') := by
  rw [residue_electric hk0 hr hp] at h
  split_ifs at h with h0 h1
  · rw [← Except.ok.inj h] at hle
    have h2 : (0 : ℝ) ≤ rtol := WithTop.coe_le_coe.1 hle
    rw [h0]
    exact ⟨h2, mul_nonneg h2 (norm_nonneg' _)⟩
  · rw [← Except.ok.inj h] at hle
    have h2 : Backend.norm (getE k0 t' - getE k0 t) / Backend.norm (getE k0 t') ≤ rtol := WithTop.coe_le_coe.1 hle
    have h3 : 0 < Backend.norm (getE k0 t') := lt_of_le_of_ne (norm_nonneg' _) (Ne.symm h1)
    exact ⟨(div_nonneg (norm_nonneg' _) h3.le).trans h2, by rwa [div_le_iff₀ h3] at h2⟩

theorem residue_gt {k0 : ℝ} (hk0 : k0 ≠ 0) {t t' : State n N} (hr : t'.residue = none)
    (hp : t'.prevNorm = ((Backend.norm (t'.field - t.field) : ℝ) : WithTop ℝ)) {rtol : ℝ} (h0 : 0 ≤ rtol) {r : WithTop ℝ} (hlt : r > ((rtol : ℝ) : WithTop ℝ))
    (h : (relativeResidue t').1 = .ok r) : getE k0 t' ≠ 0 ∧ rtol * Backend.norm (getE k0 t') < Backend.norm (getE k0 t' - getE k0 t) := by
  rw [residue_electric hk0 hr hp] at h
  split_ifs at h with h1 h2
  · rw [← Except.ok.inj h] at hlt
    exact absurd (WithTop.coe_lt_coe.1 hlt) (not_lt.2 h0)
  · rw [← Except.ok.inj h] at hlt
    have h3 : 0 < Backend.norm (getE k0 t') := lt_of_le_of_ne (norm_nonneg' _) (Ne.symm h2)
    have h4 := WithTop.coe_lt_coe.1 hlt
    rw [lt_div_iff₀ h3] at h4
    exact ⟨fun h5 => h2 ((norm_eq_zero_iff _).2 h5), h4⟩

theorem residue_error {k0 : ℝ} (hk0 : k0 ≠ 0) {t t' : State n N} (hr : t'.residue = none)
    (hp : t'.prevNorm = ((Backend.norm (t'.field - t.field) : ℝ) : WithTop ℝ)) {e : PyErr} (h : (relativeResidue t').1 = .error e) :
    e = .zeroDivision ∧ getE k0 t' = 0 := by
  rw [residue_electric hk0 hr hp] at h
  split_ifs at h with h1 h2
  exact ⟨(Except.error.inj h).symm, (norm_eq_zero_iff _).1 h2⟩

/-- The numbering of the iterations does not matter for the convergence. -/
theorem run_iteration (s : State n N) (j : ℤ) (i : ℕ) :
    run kind k { s with iteration := j } i = (run kind k s i).map fun t => { t with iteration := t.iteration - s.iteration + j } := by
  induction i with
  | zero =>
    simp only [run, Except.map, sub_self, zero_add]
  | succ i ih =>
    simp only [run, ih]
    cases hr : run kind k s i with
    | error e => rfl
    | ok t =>
      simp only [Except.map]
      unfold step
      have hu : ∀ x y, update kind k { t with iteration := x, residue := y } = update kind k t := fun _ _ => rfl
      simp only [hu]
      cases divFloat (Backend.norm (update kind k t)) t.prevNorm with
      | error e => rfl
      | ok r =>
        simp only
        split_ifs
        · simp only [Except.ok.injEq, State.mk.injEq, true_and, and_true]
          ring
        · simp only [updateOperators, Except.ok.injEq, State.mk.injEq, true_and, and_true]
          ring

theorem ConvergesAtRate.start {k0 : ℝ} {s : State n N} {E : Field n N} {q : ℝ} (h : ConvergesAtRate kind k k0 s E q) : ConvergesAtRate kind k k0 (start s) E q := by
  obtain ⟨h0, h1, hstep, hrun⟩ := h
  have e : ∀ i, run kind k (Solver.start s) i = (run kind k s i).map fun t => { t with iteration := t.iteration - s.iteration + 0 } := run_iteration s 0
  have back : ∀ i t, run kind k (Solver.start s) i = .ok t → ∃ u, run kind k s i = .ok u ∧ u.field = t.field ∧ u.prevNorm = t.prevNorm ∧ getE k0 u = getE k0 t := by
    intro i t ht
    rw [e] at ht
    cases hu : run kind k s i with
    | error e =>
      rw [hu] at ht
      exact (nomatch ht)
    | ok u =>
      rw [hu] at ht
      cases ht
      exact ⟨u, rfl, rfl, rfl, rfl⟩
  have forth : ∀ i u, run kind k s i = .ok u → ∃ t, run kind k (Solver.start s) i = .ok t ∧ getE k0 t = getE k0 u := by
    intro i u hu
    rw [e, hu]
    exact ⟨_, rfl, rfl⟩
  refine ⟨h0, h1, fun i t t' ht ht' => ?_, fun i => ?_⟩
  · obtain ⟨u, hu, f1, -, f3⟩ := back i t ht
    obtain ⟨u', hu', g1, g2, g3⟩ := back (i + 1) t' ht'
    have := hstep i u u' hu hu'
    rw [f1, f3, g1, g2, g3] at this
    exact this
  · rcases hrun i with ⟨u, hu⟩ | ⟨he, j, hj, u, hu, hE⟩
    · obtain ⟨t, ht, -⟩ := forth i u hu
      exact .inl ⟨t, ht⟩
    · obtain ⟨t, ht, h3⟩ := forth j u hu
      exact .inr ⟨by rw [e, he]; rfl, j, hj, t, ht, by rw [h3]; exact hE⟩

theorem ConvergesExponentially.start {k0 : ℝ} {s : State n N} {E : Field n N} (h : ConvergesExponentially kind k k0 s E) :
    ConvergesExponentially kind k k0 (start s) E := by
  obtain ⟨q, hq⟩ := h
  exact ⟨q, hq.start⟩

/-- The error before the last iteration, from the change in that iteration. -/
theorem error_change {q e e' D : ℝ} (h1 : q < 1) (h : e' ≤ q * e) (hD : e ≤ e' + D) : e ≤ D / (1 - q) := by
  rw [le_div_iff₀ (by linarith)]
  linarith

theorem error_triangle (E F G : Field n N) : Backend.norm (F - E) ≤ Backend.norm (G - E) + Backend.norm (G - F) := by
  have := norm_sub_le' (G - E) (G - F)
  rwa [show G - E - (G - F) = F - E by abel] at this

/-- **C90 (rate).** When every iteration reduces the error by a factor `q`, whatever the tolerance and the limit: when `solve` returns before the limit on the number of
iterations, the error of the electric field is at most `q / (1 - q)` times the tolerance, relative to the norm of the field. -/
theorem C90_rate {k0 : ℝ} (hk0 : k0 ≠ 0) {s : State n N} {E : Field n N} {q : ℝ} (h : ConvergesAtRate kind k k0 s E q) (rtol : ℝ) (maxiter : WithTop ℝ) (i : ℕ) (t : State n N)
    (ht : solve kind k .none rtol maxiter s i = .done () t) :
    maxiter ≤ ((t.iteration : ℝ) : WithTop ℝ) ∨ Backend.norm (getE k0 t - E) ≤ q / (1 - q) * rtol * Backend.norm (getE k0 t) := by
  obtain ⟨h0, h1, hstep, -⟩ := h.start
  unfold solve at ht
  simp only [criterion_eq, loop_done_iff] at ht
  obtain ⟨w, t0, r, -, hf, -, hg, rfl, -⟩ := ht
  rw [follows_iff_run] at hf
  have hlast := hf w.length (by simp)
  rw [List.getElem_concat_length rfl] at hlast
  obtain ⟨t', ht'⟩ := run_of_succ hlast
  rcases (criterionTest_false _ _ _).1 ⟨r, hg⟩ with h2 | ⟨r, hr, h2⟩
  · exact .inl h2
  · right
    obtain ⟨h3, h4⟩ := hstep _ _ _ ht' hlast
    obtain ⟨-, h5⟩ := residue_le hk0 (run_residue_none hlast) h4 hr h2
    have h6 := error_change h1 h3 (error_triangle E (getE k0 t') (getE k0 t0))
    change Backend.norm (getE k0 t0 - E) ≤ q / (1 - q) * rtol * Backend.norm (getE k0 t0)
    have h7 : 0 < 1 - q := by linarith
    calc _ ≤ q * Backend.norm (getE k0 t' - E) := h3
      _ ≤ q * (Backend.norm (getE k0 t0 - getE k0 t') / (1 - q)) := mul_le_mul_of_nonneg_left h6 h0
      _ = q / (1 - q) * Backend.norm (getE k0 t0 - getE k0 t') := by ring
      _ ≤ q / (1 - q) * (rtol * Backend.norm (getE k0 t0)) := mul_le_mul_of_nonneg_left h5 (div_nonneg h0 h7.le)
      _ = _ := by ring

section Stop
variable {k0 : ℝ} (hk0 : k0 ≠ 0) {s : State n N} {E : Field n N} (h : ConvergesExponentially kind k k0 s E)
include hk0 h

/-- **C90 (accuracy).** When the iteration converges exponentially, there is a constant for the problem, whatever the tolerance and the limit, such that: when `solve` returns before the limit on the number of
iterations, the error of the electric field is at most that constant times the tolerance, relative to the norm of the field. -/
theorem C90_accuracy : ∃ C : ℝ, 0 ≤ C ∧ ∀ (rtol : ℝ) (maxiter : WithTop ℝ) (i : ℕ) (t : State n N), solve kind k .none rtol maxiter s i = .done () t →
    maxiter ≤ ((t.iteration : ℝ) : WithTop ℝ) ∨ Backend.norm (getE k0 t - E) ≤ C * rtol * Backend.norm (getE k0 t) := by
  obtain ⟨q, hq⟩ := h
  exact ⟨q / (1 - q), div_nonneg hq.1 (by linarith [hq.2.1]), C90_rate hk0 hq⟩

/-- **C90 (default callback).** The same for calls without a callback: within 10⁴ iterations `solve` returns or raises, and if it returns earlier, the relative error is at most `C` times 10⁻⁴. -/
theorem C90_default (hp : ((0 : ℝ) : WithTop ℝ) ≤ s.prevNorm) : ∃ C : ℝ, 0 ≤ C ∧ ∀ (rtol : ℝ) (maxiter : WithTop ℝ),
    (∀ t, solve kind k .default rtol maxiter s 10000 ≠ .running () t) ∧
    ∀ (i : ℕ) (t : State n N), solve kind k .default rtol maxiter s i = .done () t →
      10000 ≤ t.iteration ∨ Backend.norm (getE k0 t - E) ≤ C * 1e-4 * Backend.norm (getE k0 t) := by
  obtain ⟨C, hC, hacc⟩ := C90_accuracy hk0 h
  refine ⟨C, hC, fun rtol maxiter => ⟨fun t => ?_, fun i t ht => ?_⟩⟩
  · rw [solve_default]
    have e : ((1e4 : ℝ) : WithTop ℝ) = ((10000 : ℕ) : ℝ) := by norm_num
    rw [e]
    exact C39_limit _ _ s hp _ le_rfl (by norm_num) t
  · rw [solve_default] at ht
    rcases hacc _ _ i t ht with h1 | h1
    · left
      have h2 : (1e4 : ℝ) ≤ (t.iteration : ℝ) := WithTop.coe_le_coe.1 h1
      have h3 : ((10000 : ℤ) : ℝ) ≤ (t.iteration : ℝ) := by push_cast; linarith
      exact_mod_cast h3
    · exact .inr h1

/-- **C90 (exceptions).** With a tolerance that is not negative, the only exception is a ZeroDivisionError, after an iteration that makes the field exactly zero. -/
theorem C90_raises (hp : ((0 : ℝ) : WithTop ℝ) < s.prevNorm) {rtol : ℝ} (hr : 0 ≤ rtol) (maxiter : WithTop ℝ) {i : ℕ} {e : PyErr}
    (hi : solve kind k .none rtol maxiter s i = .raised e) :
    e = .zeroDivision ∧ ∃ j < i, ∃ t, run kind k (start s) (j + 1) = .ok t ∧ getE k0 t = 0 := by
  obtain ⟨q, h0, h1, hstep, -⟩ := h.start
  obtain ⟨j, hj, hl, h2⟩ := (C39_raises rtol maxiter s hp.le i e).1 hi
  rcases h2 with h2 | ⟨t, ht, -, h2⟩
  · exfalso
    cases j with
    | zero =>
      simp only [run] at h2
      rw [step_error_iff kind k (start s) hp.le] at h2
      exact hp.ne' h2.1
    | succ j =>
      obtain ⟨t, ht, -, r, hr', h3⟩ := hl j (Nat.lt_succ_self j)
      have h4 : run kind k (start s) (j + 1 + 1) = step kind k t := by
        show (match run kind k (start s) (j + 1) with
          | .ok t => step kind k t
          | .error e => .error e) = _
        rw [ht]
      rw [h4] at h2
      obtain ⟨h5, -⟩ := (step_error_iff kind k t (run_prevNorm kind k (s := start s) hp.le ht) e).1 h2
      obtain ⟨t', ht'⟩ := run_of_succ ht
      obtain ⟨-, h6⟩ := hstep _ _ _ ht' ht
      obtain ⟨-, h7⟩ := residue_gt hk0 (run_residue_none ht) h6 hr hr' h3
      rw [h5] at h6
      have h8 : (0 : ℝ) = Backend.norm (t.field - t'.field) := WithTop.coe_injective h6
      rw [norm_change hk0] at h8
      have h9 : Backend.norm (getE k0 t - getE k0 t') = 0 := by
        rcases mul_eq_zero.1 h8.symm with h9 | h9
        · exact absurd h9 (pow_ne_zero 2 hk0)
        · exact h9
      rw [h9] at h7
      exact absurd h7 (not_lt.2 (mul_nonneg hr (norm_nonneg' _)))
  · obtain ⟨t', ht'⟩ := run_of_succ ht
    obtain ⟨-, h6⟩ := hstep _ _ _ ht' ht
    obtain ⟨h7, h8⟩ := residue_error hk0 (run_residue_none ht) h6 h2
    exact ⟨h7, j, hj, t, ht, h8⟩

/-- **C90 (termination).** For all tolerances larger than 0, whatever the limit: if the solution is not 0, then `solve` ends after a finite number of iterations. It returns, unless an iteration makes the
field exactly zero. -/
theorem C90_ends (hp : ((0 : ℝ) : WithTop ℝ) < s.prevNorm) (hE : E ≠ 0) {rtol : ℝ} (hr : 0 < rtol) (maxiter : WithTop ℝ) :
    ∃ i, (∃ t, solve kind k .none rtol maxiter s i = .done () t) ∨
      (solve kind k .none rtol maxiter s i = .raised .zeroDivision ∧ ∃ j < i, ∃ t, run kind k (start s) (j + 1) = .ok t ∧ getE k0 t = 0) := by
  obtain ⟨q, h0, h1, hstep, -⟩ := h.start
  have hbound : ∀ i t, run kind k (start s) i = .ok t → Backend.norm (getE k0 t - E) ≤ q ^ i * Backend.norm (getE k0 s - E) := by
    intro i
    induction i with
    | zero =>
      intro t ht
      simp only [run, Except.ok.injEq] at ht
      rw [← ht, pow_zero, one_mul]
      exact le_rfl
    | succ i ih =>
      intro t ht
      obtain ⟨t', ht'⟩ := run_of_succ ht
      have h2 := mul_le_mul_of_nonneg_left (ih t' ht') h0
      have h3 := (hstep i t' t ht' ht).1
      rw [pow_succ]
      linarith
  have hEpos : 0 < Backend.norm E := lt_of_le_of_ne (norm_nonneg' _) fun h2 => hE ((norm_eq_zero_iff _).1 h2.symm)
  have htend : Filter.Tendsto (fun i : ℕ => (2 + rtol) * (q ^ i * Backend.norm (getE k0 s - E))) Filter.atTop (nhds 0) := by
    simpa using ((tendsto_pow_atTop_nhds_zero_of_lt_one h0 h1).mul_const (Backend.norm (getE k0 s - E))).const_mul (2 + rtol)
  obtain ⟨l, hl⟩ := (htend.eventually (gt_mem_nhds (mul_pos hr hEpos))).exists
  have hnot : ∀ t, solve kind k .none rtol maxiter s (l + 1) ≠ .running () t := by
    intro t ht
    obtain ⟨t, ht, -, r, hr', h2⟩ := (C39_running rtol maxiter s hp.le (l + 1)).1 ⟨t, ht⟩ l (Nat.lt_succ_self l)
    obtain ⟨t', ht'⟩ := run_of_succ ht
    obtain ⟨h3, h4⟩ := hstep _ _ _ ht' ht
    obtain ⟨-, h5⟩ := residue_gt hk0 (run_residue_none ht) h4 hr.le hr' h2
    have h6 := hbound l t' ht'
    have h7 : Backend.norm (getE k0 t - getE k0 t') ≤ Backend.norm (getE k0 t - E) + Backend.norm (getE k0 t' - E) := by
      have := norm_sub_le' (getE k0 t - E) (getE k0 t' - E)
      rwa [sub_sub_sub_cancel_right] at this
    have h8 : Backend.norm E ≤ Backend.norm (getE k0 t) + Backend.norm (getE k0 t - E) := by
      have := norm_sub_le' (getE k0 t) (getE k0 t - E)
      rwa [sub_sub_cancel] at this
    have h9 : Backend.norm (getE k0 t - E) ≤ Backend.norm (getE k0 t' - E) :=
      h3.trans (mul_le_of_le_one_left (norm_nonneg' _) h1.le)
    have h10 : rtol * Backend.norm E ≤ rtol * (Backend.norm (getE k0 t) + Backend.norm (getE k0 t - E)) := mul_le_mul_of_nonneg_left h8 hr.le
    have h11 : rtol * Backend.norm (getE k0 t - E) ≤ rtol * (q ^ l * Backend.norm (getE k0 s - E)) := mul_le_mul_of_nonneg_left (h9.trans h6) hr.le
    linarith
  refine ⟨l + 1, ?_⟩
  cases hout : solve kind k .none rtol maxiter s (l + 1) with
  | running u t => exact absurd hout (hnot t)
  | done u t => exact .inl ⟨t, rfl⟩
  | raised e =>
    obtain ⟨rfl, h2⟩ := C90_raises hk0 h hp hr.le maxiter hout
    exact .inr ⟨rfl, h2⟩

/-- **C90 (termination, default initial field).** With the default initial field, 0, `solve` returns after a finite number of iterations. -/
theorem C90_returns (hp : ((0 : ℝ) : WithTop ℝ) < s.prevNorm) (hE : E ≠ 0) (hs : getE k0 s = 0) {rtol : ℝ} (hr : 0 < rtol) (maxiter : WithTop ℝ) :
    ∃ i t, solve kind k .none rtol maxiter s i = .done () t := by
  obtain ⟨i, h2 | ⟨-, j, -, t, ht, hz⟩⟩ := C90_ends hk0 h hp hE hr maxiter
  · exact ⟨i, h2⟩
  · exfalso
    obtain ⟨q, h0, h1, hb⟩ := h.start.bound
    have hEpos : 0 < Backend.norm (0 - E) := lt_of_le_of_ne (norm_nonneg' _) fun h2 => hE (by
      have := (norm_eq_zero_iff _).1 h2.symm
      rwa [zero_sub, neg_eq_zero] at this)
    rcases hb (j + 1) with ⟨t', ht', h3⟩ | ⟨h3, -⟩
    · rw [ht] at ht'
      cases ht'
      rw [hz, show getE k0 (start s) = getE k0 s from rfl, hs] at h3
      have h4 : q ^ (j + 1) < 1 := pow_lt_one₀ h0 h1 (Nat.succ_ne_zero j)
      nlinarith
    · rw [ht] at h3
      exact (nomatch h3)

/-- **C90 (no source).** Full claim: `solve` with a tolerance larger than 0 returns for all problems for which the iteration converges. It does not if the solution is 0, i.e. without a source,
and the initial field is not: for all small tolerances and without a limit, `solve` runs forever or raises an exception, although the error decreases exponentially: the residue is relative to the norm of a field that vanishes. -/
theorem C90_no_source_violates (hE : E = 0) (hs : getE k0 s ≠ 0) (hp : ((0 : ℝ) : WithTop ℝ) ≤ s.prevNorm) :
    ∃ r : ℝ, 0 < r ∧ ∀ rtol, 0 ≤ rtol → rtol < r → ∀ i t, solve kind k .none rtol ⊤ s i ≠ .done () t := by
  subst hE
  obtain ⟨q, h0, h1, hstep, -⟩ := h.start
  refine ⟨1 - q, by linarith, fun rtol hr hlt i t ht => ?_⟩
  obtain ⟨j, -, ⟨t, ht, h2⟩, hl⟩ := (C39_tolerance kind k rtol ⊤ s hp i).1 ⟨t, ht⟩
  obtain ⟨t', ht'⟩ := run_of_succ ht
  obtain ⟨h3, h4⟩ := hstep _ _ _ ht' ht
  rcases h2 with h2 | ⟨r, hr', h2⟩
  · exact absurd (top_le_iff.1 h2) (WithTop.coe_ne_top)
  obtain ⟨-, h5⟩ := residue_le hk0 (run_residue_none ht) h4 hr' h2
  have h6 := error_triangle 0 (getE k0 t') (getE k0 t)
  rw [sub_zero, sub_zero] at h6 h3
  have h7 : getE k0 t' = 0 := by
    rw [← norm_eq_zero_iff]
    refine le_antisymm ?_ (norm_nonneg' _)
    by_contra hne
    push Not at hne
    have h8 : rtol * Backend.norm (getE k0 t) ≤ rtol * Backend.norm (getE k0 t') :=
      mul_le_mul_of_nonneg_left (h3.trans (mul_le_of_le_one_left (norm_nonneg' _) h1.le)) hr
    nlinarith
  cases j with
  | zero =>
    simp only [run, Except.ok.injEq] at ht'
    rw [← ht'] at h7
    exact hs h7
  | succ j =>
    obtain ⟨u, hu, -, r', hr', h8⟩ := hl j (Nat.lt_succ_self j)
    rw [ht'] at hu
    cases hu
    obtain ⟨t'', ht''⟩ := run_of_succ ht'
    exact (residue_gt hk0 (run_residue_none ht') (hstep _ _ _ ht'' ht').2 hr hr' h8).1 h7

end Stop

end Verif.Solver
