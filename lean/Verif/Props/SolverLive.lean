import Verif.Lemmas.SolverLarge

/-!
# C100: iterations are not rejected for ever
-/

namespace Verif.Solver

open Verif Verif.Fourier Verif.Backend Complex Filter Topology

variable {d n : ℕ} {N : Fin d → ℕ}

theorem updateOperators_self {s : State n N} (hα : s.alpha.im ≠ 0) : updateOperators s s.alpha = s := by
  have h := ofReal_ne hα
  obtain ⟨f, so, al, be, c1, c2, c3, c4, mag, p, it, re⟩ := s
  simp only at hα h
  have h1 : (al.im : ℂ) / (al.im : ℂ) = 1 := div_self h
  have h2 : I / (al.im : ℂ) ≠ 0 := div_ne_zero I_ne_zero h
  simp only [updateOperators, h1, mul_one, one_smul, sub_self, zero_smul, add_zero, smul_smul, mul_inv_cancel₀ h2]

theorem updateOperators_twice (s : State n N) {a : ℂ} (ha : a.im ≠ 0) (b : ℂ) : updateOperators (updateOperators s a) b = updateOperators s b := by
  have h := ofReal_ne ha
  have h2 : I / (a.im : ℂ) ≠ 0 := div_ne_zero I_ne_zero h
  have h1 : ∀ z : ℂ, z / (a.im : ℂ) * ((a.im : ℂ) / (b.im : ℂ)) = z / (b.im : ℂ) := fun z => by field_simp
  have h3 : ∀ z : ℂ, (a.im : ℂ) / (b.im : ℂ) * (z / (a.im : ℂ)) = z / (b.im : ℂ) := fun z => by field_simp
  obtain ⟨f, so, al, be, c1, c2, c3, c4, mag, p, it, re⟩ := s
  simp only [updateOperators, mul_assoc, h1, smul_smul, h3, inv_mul_cancel₀ h2, one_smul, State.mk.injEq, true_and, and_true]
  funext x
  rw [add_assoc, ← add_smul, sub_add_sub_cancel]

theorem biased_zero {s : State n N} (hα : s.alpha.im ≠ 0) : biased s 0 = s := by
  unfold biased
  rw [increasedBias_zero, updateOperators_self hα]

variable (kind : Kind d n) (k : Fin d → Idx N → ℝ)

/-- The state with another counter and cached residue. -/
def counted (t : State n N) (i : ℤ) (r : Option (WithTop ℝ)) : State n N := { t with iteration := i, residue := r }

theorem update_counted (t : State n N) (i : ℤ) (r : Option (WithTop ℝ)) : update kind k (counted t i r) = update kind k t := rfl

theorem updateOperators_counted (t : State n N) (i : ℤ) (r : Option (WithTop ℝ)) (b : ℂ) : updateOperators (counted t i r) b = counted (updateOperators t b) i r := rfl

/-- The state after `j` iterations that were all rejected: only the bias, the counter and the cached residue differ. -/
noncomputable def waiting (s : State n N) (j : ℕ) (r : Option (WithTop ℝ)) : State n N := counted (biased s j) (s.iteration + j) r

theorem update_waiting (s : State n N) (j : ℕ) (r : Option (WithTop ℝ)) : update kind k (waiting s j r) = update kind k (biased s j) := update_counted kind k _ _ _

theorem reject_waiting {s : State n N} (hα : s.alpha.im ≠ 0) (j : ℕ) (r : Option (WithTop ℝ)) :
    updateOperators (counted (waiting s j r) ((waiting s j r).iteration + 1) none) (increased (waiting s j r).alpha) = waiting s (j + 1) none := by
  have e : increased (waiting s j r).alpha = increasedBias s.alpha (j + 1) := increased_increasedBias _ _
  have e2 : updateOperators (biased s j) (increasedBias s.alpha (j + 1)) = biased s (j + 1) := updateOperators_twice s (increasedBias_im_ne hα j) _
  have e3 : (waiting s j r).iteration + 1 = s.iteration + ((j + 1 : ℕ) : ℤ) := by
    rw [Nat.cast_add, Nat.cast_one, ← add_assoc]
    rfl
  rw [e, e3, updateOperators_counted]
  unfold waiting
  rw [updateOperators_counted, e2]
  rfl

/-- As long as all updates are rejected, only the bias changes. -/
theorem run_waiting {s : State n N} (hα : s.alpha.im ≠ 0) (h0 : ((0 : ℝ) : WithTop ℝ) < s.prevNorm) :
    ∀ j, (∀ i < j, ¬ ((Backend.norm (update kind k (biased s i)) : ℝ) : WithTop ℝ) < s.prevNorm) → ∃ r, run kind k s j = .ok (waiting s j r) := by
  intro j
  induction j with
  | zero =>
    intro _
    refine ⟨s.residue, ?_⟩
    unfold waiting
    rw [biased_zero hα, Nat.cast_zero, add_zero]
    rfl
  | succ j ih =>
    intro h
    obtain ⟨r, hr⟩ := ih fun i hi => h i (by omega)
    refine ⟨none, ?_⟩
    simp only [run, hr]
    rw [step_eq kind k (waiting s j r) (show s.prevNorm ≠ _ from h0.ne') h0.le, update_waiting]
    exact congrArg Except.ok ((if_neg (h j (by omega))).trans (reject_waiting hα j r))

/-- **C100 (progress).** For all materials (with gain as well), sources, fields and biases: after a finite number of iterations that only increase the bias there is one that changes the field,
by less than the last time. -/
theorem C100_progress {s : State n N} (hα : s.alpha.im ≠ 0) (h0 : ((0 : ℝ) : WithTop ℝ) < s.prevNorm) :
    ∃ j t t', run kind k s j = .ok t ∧ run kind k s (j + 1) = .ok t' ∧
      t.field = s.field ∧ t.prevNorm = s.prevNorm ∧ t.alpha.re = s.alpha.re ∧ t.alpha.im = 1.5 ^ j * s.alpha.im ∧
      ((Backend.norm (t'.field - s.field) : ℝ) : WithTop ℝ) < s.prevNorm ∧ t'.prevNorm = ((Backend.norm (t'.field - s.field) : ℝ) : WithTop ℝ) ∧ t'.alpha = t.alpha := by
  have hex : ∃ j, ((Backend.norm (update kind k (biased s j)) : ℝ) : WithTop ℝ) < s.prevNorm := by
    match hp : s.prevNorm with
    | none => exact ⟨0, WithTop.coe_lt_top _⟩
    | some p =>
      rw [hp] at h0
      have hpos : 0 < p := WithTop.coe_lt_coe.1 h0
      obtain ⟨j, hj⟩ := ((tendsto_update kind k hα).eventually (gt_mem_nhds hpos)).exists
      exact ⟨j, WithTop.coe_lt_coe.2 hj⟩
  classical
  obtain ⟨r, hr⟩ := run_waiting kind k hα h0 (Nat.find hex) fun i hi => Nat.find_min hex hi
  have hacc := Nat.find_spec hex
  generalize Nat.find hex = j at hr hacc
  have hr' : run kind k s (j + 1) = .ok { waiting s j r with iteration := (waiting s j r).iteration + 1, residue := none, field := fun c x => (waiting s j r).field c x + update kind k (biased s j) c x, prevNorm := ((Backend.norm (update kind k (biased s j)) : ℝ) : WithTop ℝ) } := by
    simp only [run, hr]
    rw [step_eq kind k (waiting s j r) (show s.prevNorm ≠ _ from h0.ne') h0.le, update_waiting]
    exact congrArg Except.ok (if_pos hacc)
  have e : (fun c x => s.field c x + update kind k (biased s j) c x) - s.field = update kind k (biased s j) := by
    funext c x
    simp
  refine ⟨j, _, _, hr, hr', rfl, rfl, increasedBias_re _ _, increasedBias_im _ _, ?_, ?_, rfl⟩
  · show ((Backend.norm ((fun c x => s.field c x + update kind k (biased s j) c x) - s.field) : ℝ) : WithTop ℝ) < _
    rw [e]
    exact hacc
  · show _ = ((Backend.norm ((fun c x => s.field c x + update kind k (biased s j) c x) - s.field) : ℝ) : WithTop ℝ)
    rw [e]

theorem run_alpha_ne {s : State n N} (hα : s.alpha.im ≠ 0) (h0 : ((0 : ℝ) : WithTop ℝ) ≤ s.prevNorm) (i : ℕ) : ∀ t, run kind k s i = .ok t → t.alpha.im ≠ 0 := by
  induction i with
  | zero =>
    intro t ht
    obtain rfl := Except.ok.inj ht
    exact hα
  | succ i ih =>
    intro t' ht'
    cases ht : run kind k s i with
    | error e => simp only [run, ht] at ht'; exact (nomatch ht')
    | ok t =>
      obtain ⟨-, h | h, -⟩ := C37_iteration kind k h0 ht ht'
      · rw [h.2.2.1]
        exact ih t ht
      · rw [h.2.2.2]
        exact mul_ne_zero (by norm_num) (ih t ht)

/-- **C100 (executions).** In every execution, after every iteration: either the last change of the field was exactly zero, so that the next iteration raises a ZeroDivisionError, or the field
is changed again by a later iteration that is accepted. -/
theorem C100_executions {s : State n N} (hα : s.alpha.im ≠ 0) (h0 : ((0 : ℝ) : WithTop ℝ) ≤ s.prevNorm) {i : ℕ} {t : State n N} (ht : run kind k s i = .ok t) :
    (t.prevNorm = ((0 : ℝ) : WithTop ℝ) ∧ ∀ j, run kind k s (i + 1 + j) = .error .zeroDivision) ∨
      ∃ j ≥ i, ∃ u u', run kind k s j = .ok u ∧ run kind k s (j + 1) = .ok u' ∧ u.field = t.field ∧ ((Backend.norm (u'.field - u.field) : ℝ) : WithTop ℝ) < t.prevNorm ∧
        u'.prevNorm = ((Backend.norm (u'.field - u.field) : ℝ) : WithTop ℝ) := by
  have h0t := run_prevNorm kind k h0 ht
  by_cases hp : t.prevNorm = ((0 : ℝ) : WithTop ℝ)
  · left
    refine ⟨hp, fun j => ?_⟩
    induction j with
    | zero =>
      simp only [run, ht]
      exact (step_error_iff kind k t h0t .zeroDivision).2 ⟨hp, rfl⟩
    | succ j ih => rw [← add_assoc, run, ih]
  · right
    obtain ⟨j, u, u', h1, h2, h3, -, -, -, h4, h5, -⟩ := C100_progress kind k (run_alpha_ne kind k hα h0 i t ht) (lt_of_le_of_ne h0t (Ne.symm hp))
    refine ⟨i + j, by omega, u, u', ?_, ?_, h3, ?_, ?_⟩
    · rw [run_add kind k ht]
      exact h1
    · rw [add_assoc, run_add kind k ht]
      exact h2
    · rw [h3]
      exact h4
    · rw [h3]
      exact h5

end Verif.Solver
