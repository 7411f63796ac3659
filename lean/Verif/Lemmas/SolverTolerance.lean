import Verif.Props.SolverPermeability
import Verif.Lemmas.SolverConverge

/-!
# Media that are taken not to be magnetic
-/

namespace Verif.Solver

open Verif Verif.Fourier Verif.Backend Complex

variable {d n : ℕ} {N : Fin d → ℕ}

/-- The state with other coupling and magnetic tensors. -/
def State.withMagnetic (s : State n N) (a b c : Tensor n N) : State n N := { s with chiEH := a, chiHE := b, chiHH := c }

theorem chiOp_withMagnetic (k : Fin d → Idx N → ℝ) (s : State n N) (h : s.magnetic = false) (a b c : Tensor n N) (E : Field n N) :
    chiOp k (s.withMagnetic a b c) E = chiOp k s E := by
  unfold chiOp State.withMagnetic
  rw [if_neg (by simp [h]), if_neg (by simp [h])]

theorem update_withMagnetic (kind : Kind d n) (k : Fin d → Idx N → ℝ) (s : State n N) (h : s.magnetic = false) (a b c : Tensor n N) :
    update kind k (s.withMagnetic a b c) = update kind k s := by
  unfold update
  simp only [chiOp_withMagnetic k s h]
  rfl

/-- An iteration for a given change of the field. -/
noncomputable def stepWith (s : State n N) (u : Field n N) : Except PyErr (State n N) :=
  match divFloat (Backend.norm u) s.prevNorm with
  | .error e => .error e
  | .ok relative =>
    if relative < 1 then .ok { s with field := fun c x => s.field c x + u c x, prevNorm := (Backend.norm u : ℝ), iteration := s.iteration + 1, residue := none }
    else .ok (updateOperators { s with iteration := s.iteration + 1, residue := none } (increased s.alpha))

theorem step_eq_stepWith (kind : Kind d n) (k : Fin d → Idx N → ℝ) (s : State n N) : step kind k s = stepWith s (update kind k s) := rfl

/-- The iteration of media that are taken not to be magnetic does not use the coupling and magnetic tensors. -/
theorem step_withMagnetic (kind : Kind d n) (k : Fin d → Idx N → ℝ) (s : State n N) (h : s.magnetic = false) (a b c : Tensor n N) :
    (∃ e, step kind k s = .error e ∧ step kind k (s.withMagnetic a b c) = .error e) ∨
    ∃ t a' b' c', t.magnetic = false ∧ step kind k s = .ok t ∧ step kind k (s.withMagnetic a b c) = .ok (t.withMagnetic a' b' c') := by
  rw [step_eq_stepWith, step_eq_stepWith, update_withMagnetic kind k s h]
  generalize update kind k s = u
  unfold stepWith
  have hp : (s.withMagnetic a b c).prevNorm = s.prevNorm := rfl
  rw [hp]
  cases divFloat (Backend.norm u) s.prevNorm with
  | error e => exact .inl ⟨e, rfl, rfl⟩
  | ok rel =>
    right
    by_cases hlt : rel < 1
    · simp only [if_pos hlt]
      refine ⟨_, a, b, c, ?_, rfl, rfl⟩
      exact h
    · simp only [if_neg hlt]
      let v := updateOperators { s.withMagnetic a b c with iteration := s.iteration + 1, residue := none } (increased s.alpha)
      refine ⟨_, v.chiEH, v.chiHE, v.chiHH, ?_, rfl, rfl⟩
      exact h

theorem run_withMagnetic (kind : Kind d n) (k : Fin d → Idx N → ℝ) (s : State n N) (h : s.magnetic = false) (a b c : Tensor n N) (i : ℕ) :
    (∃ e, run kind k s i = .error e ∧ run kind k (s.withMagnetic a b c) i = .error e) ∨
    ∃ t a' b' c', t.magnetic = false ∧ run kind k s i = .ok t ∧ run kind k (s.withMagnetic a b c) i = .ok (t.withMagnetic a' b' c') := by
  induction i with
  | zero => exact .inr ⟨s, a, b, c, h, rfl, rfl⟩
  | succ i ih =>
    rcases ih with ⟨e, h1, h2⟩ | ⟨t, a', b', c', ht, h1, h2⟩
    · left
      refine ⟨e, ?_, ?_⟩
      · rw [run, h1]
      · rw [run, h2]
    · rcases step_withMagnetic kind k t ht a' b' c' with ⟨e, h3, h4⟩ | ⟨t', a'', b'', c'', ht', h3, h4⟩
      · left
        refine ⟨e, ?_, ?_⟩
        · rw [run, h1]; exact h3
        · rw [run, h2]; exact h4
      · right
        refine ⟨t', a'', b'', c'', ht', ?_, ?_⟩
        · rw [run, h1]; exact h3
        · rw [run, h2]; exact h4

/-- The medium that the iteration takes a medium for that is not found to be magnetic. -/
noncomputable def Medium.effective (m : Medium n N) (beta : ℝ) : Medium n N := ⟨m.epsilonPrime, fun _ => 0, fun _ => 0, fun _ => (beta : ℂ)⁻¹ • 1⟩

theorem effective_epsilonPrime (m : Medium n N) (beta : ℝ) : (m.effective beta).epsilonPrime = m.epsilonPrime := by
  funext x
  simp [Medium.epsilonPrime, Medium.effective]

theorem effective_muInv (m : Medium n N) {beta : ℝ} (hb : beta ≠ 0) (x : Idx N) : (m.effective beta).muInv x = (beta : ℂ) • 1 := by
  unfold Medium.muInv Medium.effective
  rw [smul_one_inv (inv_ne_zero (ofReal_ne hb)), inv_inv]

theorem effective_consistent (m : Medium n N) (mag : Bool) {beta : ℝ} (hb : beta ≠ 0) : Consistent (m.effective beta) mag beta :=
  .inr ⟨fun _ => rfl, fun _ => rfl, effective_muInv m hb⟩

/-- The prepared states only differ in the tensors that are not used. -/
theorem prepare_effective (m : Medium n N) (alpha : ℂ) (beta : ℝ) (S F : Field n N) :
    ∃ a b c, prepare m false alpha beta S F = (prepare (m.effective beta) false alpha beta S F).withMagnetic a b c := by
  refine ⟨(prepare m false alpha beta S F).chiEH, (prepare m false alpha beta S F).chiHE, (prepare m false alpha beta S F).chiHH, ?_⟩
  unfold prepare updateOperators prepared State.withMagnetic
  rw [effective_epsilonPrime]

theorem effective_chosen (m : Medium n N) {beta : ℝ} (hb : beta ≠ 0) (i0 : Fin n) (x0 : Idx N) :
    Chosen (m.effective beta) true i0 x0 false beta ∧ RealPermeability (m.effective beta) false x0 := by
  refine ⟨⟨?_, fun _ => ?_, hb⟩, fun _ => ⟨beta⁻¹, inv_ne_zero hb, ?_⟩⟩
  · simp [Medium.isMagnetic, Medium.effective]
  · rw [Medium.betaNonMagnetic, effective_muInv m hb]
    simp
  · simp [Medium.effective]

theorem preconditioned_withMagnetic (kind : Kind d n) (k : Fin d → Idx N → ℝ) (s : State n N) (h : s.magnetic = false) (a b c : Tensor n N) :
    Preconditioned kind k (s.withMagnetic a b c) ↔ Preconditioned kind k s := by
  unfold Preconditioned
  simp only [chiOp_withMagnetic k s h]
  rfl

end Verif.Solver
