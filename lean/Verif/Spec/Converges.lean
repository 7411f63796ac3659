import Verif.Lemmas.SolverRun

/-!
# What it means that the iteration converges
-/

namespace Verif.Solver

open Verif Verif.Fourier Verif.Backend Complex

variable {d n : ℕ} {N : Fin d → ℕ}

/-- The electric field of the iteration converges to `E`, or the iteration stops in an exception after it has reached it exactly. -/
def ConvergesTo (kind : Kind d n) (k : Fin d → Idx N → ℝ) (k0 : ℝ) (s : State n N) (E : Field n N) : Prop :=
  ∀ δ : ℝ, 0 < δ → ∃ j0, ∀ i ≥ j0, (∃ t, run kind k s i = .ok t ∧ Backend.norm (getE k0 t - E) < δ) ∨
    (run kind k s i = .error .zeroDivision ∧ ∃ j < i, ∃ t, run kind k s j = .ok t ∧ getE k0 t = E)

/-- Every iteration reduces the error of the electric field by at least a factor `q < 1`, and it is accepted: the norm that it stores is that of the change of the field.
There is always another iteration, unless the field has been exact before. -/
def ConvergesAtRate (kind : Kind d n) (k : Fin d → Idx N → ℝ) (k0 : ℝ) (s : State n N) (E : Field n N) (q : ℝ) : Prop :=
  0 ≤ q ∧ q < 1 ∧
    (∀ i t t', run kind k s i = .ok t → run kind k s (i + 1) = .ok t' →
      Backend.norm (getE k0 t' - E) ≤ q * Backend.norm (getE k0 t - E) ∧ t'.prevNorm = ((Backend.norm (t'.field - t.field) : ℝ) : WithTop ℝ)) ∧
    ∀ i, (∃ t, run kind k s i = .ok t) ∨ (run kind k s i = .error .zeroDivision ∧ ∃ j < i, ∃ t, run kind k s j = .ok t ∧ getE k0 t = E)

/-- There is such a factor. -/
def ConvergesExponentially (kind : Kind d n) (k : Fin d → Idx N → ℝ) (k0 : ℝ) (s : State n N) (E : Field n N) : Prop := ∃ q : ℝ, ConvergesAtRate kind k k0 s E q

/-- The same for the field as it is stored. -/
def ContractsAtRate (kind : Kind d n) (k : Fin d → Idx N → ℝ) (s : State n N) (P : Field n N) (q : ℝ) : Prop :=
  0 ≤ q ∧ q < 1 ∧
    (∀ i t t', run kind k s i = .ok t → run kind k s (i + 1) = .ok t' →
      Backend.norm (t'.field - P) ≤ q * Backend.norm (t.field - P) ∧ t'.prevNorm = ((Backend.norm (t'.field - t.field) : ℝ) : WithTop ℝ)) ∧
    ∀ i, (∃ t, run kind k s i = .ok t) ∨ (run kind k s i = .error .zeroDivision ∧ ∃ j < i, ∃ t, run kind k s j = .ok t ∧ t.field = P)

/-- There is such a factor. -/
def ContractsTo (kind : Kind d n) (k : Fin d → Idx N → ℝ) (s : State n N) (P : Field n N) : Prop := ∃ q : ℝ, ContractsAtRate kind k s P q

theorem run_of_succ {kind : Kind d n} {k : Fin d → Idx N → ℝ} {s t : State n N} {i : ℕ} (h : run kind k s (i + 1) = .ok t) : ∃ t', run kind k s i = .ok t' := by
  simp only [run] at h
  split at h
  · exact ⟨_, ‹_›⟩
  · exact (nomatch h)

/-- The error after `i` iterations. -/
theorem ConvergesExponentially.bound {kind : Kind d n} {k : Fin d → Idx N → ℝ} {k0 : ℝ} {s : State n N} {E : Field n N} (h : ConvergesExponentially kind k k0 s E) :
    ∃ q : ℝ, 0 ≤ q ∧ q < 1 ∧ ∀ i, (∃ t, run kind k s i = .ok t ∧ Backend.norm (getE k0 t - E) ≤ q ^ i * Backend.norm (getE k0 s - E)) ∨
      (run kind k s i = .error .zeroDivision ∧ ∃ j < i, ∃ t, run kind k s j = .ok t ∧ getE k0 t = E) := by
  obtain ⟨q, h0, h1, hstep, hrun⟩ := h
  refine ⟨q, h0, h1, fun i => ?_⟩
  have key : ∀ i t, run kind k s i = .ok t → Backend.norm (getE k0 t - E) ≤ q ^ i * Backend.norm (getE k0 s - E) := by
    intro i
    induction i with
    | zero =>
      intro t ht
      simp only [run, Except.ok.injEq] at ht
      rw [ht, pow_zero, one_mul]
    | succ i ih =>
      intro t ht
      obtain ⟨t', ht'⟩ := run_of_succ ht
      have h2 := mul_le_mul_of_nonneg_left (ih t' ht') h0
      have h3 := (hstep i t' t ht' ht).1
      rw [pow_succ]
      linarith
  rcases hrun i with ⟨t, ht⟩ | h2
  · exact .inl ⟨t, ht, key i t ht⟩
  · exact .inr h2

theorem ConvergesExponentially.tendsto {kind : Kind d n} {k : Fin d → Idx N → ℝ} {k0 : ℝ} {s : State n N} {E : Field n N}
    (h : ConvergesExponentially kind k k0 s E) : ConvergesTo kind k k0 s E := by
  obtain ⟨q, h0, h1, hb⟩ := h.bound
  intro δ hδ
  have ht : Filter.Tendsto (fun i : ℕ => q ^ i * Backend.norm (getE k0 s - E)) Filter.atTop (nhds 0) := by
    simpa using (tendsto_pow_atTop_nhds_zero_of_lt_one h0 h1).mul_const (Backend.norm (getE k0 s - E))
  obtain ⟨j0, hj0⟩ := Filter.eventually_atTop.1 (ht.eventually (gt_mem_nhds hδ))
  refine ⟨j0, fun i hi => ?_⟩
  rcases hb i with ⟨t, ht, hn⟩ | h2
  · exact .inl ⟨t, ht, hn.trans_lt (hj0 i hi)⟩
  · exact .inr h2

end Verif.Solver
