import Verif.Lemmas.SolverNorm

/-!
# Trajectories of the iteration
-/

namespace Verif.Solver

open Verif Verif.Fourier Verif.Backend Complex

variable {d n : ℕ} {N : Fin d → ℕ}

/-- The state after `i` passes of the loop of `__iter__`, solver.py 1064–1098, or the exception that ended it. -/
noncomputable def run (kind : Kind d n) (k : Fin d → Idx N → ℝ) (s : State n N) : ℕ → Except PyErr (State n N)
  | 0 => .ok s
  | i + 1 => match run kind k s i with
    | .ok t => step kind k t
    | .error e => .error e

/-- The state of the trajectory from `s` after `i` accepted updates, with the given field and norm of the last change. -/
def at' (s : State n N) (i : ℕ) (F : Field n N) (p : WithTop ℝ) : State n N :=
  { s with field := F, prevNorm := p, iteration := s.iteration + i, residue := if i = 0 then s.residue else none }

theorem update_at' (kind : Kind d n) (k : Fin d → Idx N → ℝ) (s : State n N) (i : ℕ) (F : Field n N) (p : WithTop ℝ) :
    update kind k (at' s i F p) = homogeneous kind k s F - F + chiOp k s (green kind k s.alpha s.source) := update_eq kind k (at' s i F p)

theorem homogeneous_le_of_le {k : Fin d → Idx N → ℝ} (hk : ∀ x, origin x ↔ ∀ a, k a x = 0) (kind : Kind d n) {s : State n N}
    (hα : s.alpha.im ≠ 0) {ρ : ℝ} (hρ : ρ ≤ 1) (hB : Bounded k s ρ) (hP : Passive k s) (F : Field n N) :
    Backend.norm (homogeneous kind k s F) ≤ Backend.norm F := by
  have h := homogeneous_norm_sq hk kind hα hρ hB hP F
  have h2 : 0 ≤ (1 - ρ) / 2 * Backend.norm (F - homogeneous kind k s F) ^ 2 := by
    have : 0 ≤ 1 - ρ := by linarith
    positivity
  exact le_of_sq_le_sq (by linarith) (norm_nonneg' F)

/-- The state with the field after an accepted update. -/
noncomputable def next (kind : Kind d n) (k : Fin d → Idx N → ℝ) (s : State n N) : State n N :=
  { s with field := fun c x => s.field c x + update kind k s c x }

theorem update_next (kind : Kind d n) (k : Fin d → Idx N → ℝ) (s : State n N) :
    update kind k (next kind k s) = homogeneous kind k s (update kind k s) := by
  have hL := homogeneous_isLinear kind k s
  have h1 := update_eq kind k (next kind k s)
  have h2 := update_eq kind k s
  have e : (next kind k s).field = s.field + update kind k s := rfl
  have e2 : homogeneous kind k (next kind k s) = homogeneous kind k s := rfl
  have e3 : chiOp k (next kind k s) (green kind k (next kind k s).alpha (next kind k s).source) = chiOp k s (green kind k s.alpha s.source) := rfl
  rw [h1, e, e2, e3, hL.map_add]
  nth_rewrite 2 [h2]
  abel

theorem error_next (kind : Kind d n) (k : Fin d → Idx N → ℝ) (s : State n N) (E : Field n N) (hE : update kind k { s with field := E } = 0) :
    (next kind k s).field - E = homogeneous kind k s (s.field - E) := by
  have hL := homogeneous_isLinear kind k s
  have h1 := update_eq kind k { s with field := E }
  have h2 := update_eq kind k s
  have e : (next kind k s).field = s.field + update kind k s := rfl
  rw [hE] at h1
  have e2 : homogeneous kind k { s with field := E } = homogeneous kind k s := rfl
  have e3 : chiOp k { s with field := E } (green kind k ({ s with field := E } : State n N).alpha ({ s with field := E } : State n N).source) =
    chiOp k s (green kind k s.alpha s.source) := rfl
  rw [e2, e3] at h1
  change 0 = homogeneous kind k s E - E + chiOp k s (green kind k s.alpha s.source) at h1
  have h3 : chiOp k s (green kind k s.alpha s.source) = E - homogeneous kind k s E := by
    rw [eq_sub_iff_add_eq, ← sub_eq_zero, h1]; abel
  rw [e, h2, h3, hL.map_sub]
  abel

section
variable {k : Fin d → Idx N → ℝ} (hk : ∀ x, origin x ↔ ∀ a, k a x = 0) (kind : Kind d n) {s : State n N}
    (hα : s.alpha.im ≠ 0) {ρ : ℝ} (hρ : ρ < 1) (hB : Bounded k s ρ) (hP : Passive k s)
include hk hα hρ hB hP

theorem homogeneous_le (F : Field n N) : Backend.norm (homogeneous kind k s F) ≤ Backend.norm F :=
  homogeneous_le_of_le hk kind hα hρ.le hB hP F

theorem homogeneous_lt (F : Field n N) (h : homogeneous kind k s F ≠ F) : Backend.norm (homogeneous kind k s F) < Backend.norm F := by
  have h1 := homogeneous_norm_sq hk kind hα hρ.le hB hP F
  have h0 : 0 < Backend.norm (F - homogeneous kind k s F) := by
    refine lt_of_le_of_ne (norm_nonneg' _) fun e => ?_
    have := (norm_eq_zero_iff _).1 e.symm
    exact h (sub_eq_zero.1 this).symm
  have h2 : 0 < (1 - ρ) / 2 * Backend.norm (F - homogeneous kind k s F) ^ 2 := by
    have : 0 < 1 - ρ := by linarith
    positivity
  exact lt_of_pow_lt_pow_left₀ 2 (norm_nonneg' F) (by linarith)

/-- A change that the iteration would repeat for ever is zero. -/
theorem constant_change (e : Field n N) (h : homogeneous kind k s (homogeneous kind k s e - e) = homogeneous kind k s e - e) :
    homogeneous kind k s e - e = 0 := by
  have hL := homogeneous_isLinear kind k s
  set δ := homogeneous kind k s e - e with hδ
  have hiter : ∀ j : ℕ, Backend.norm (e + (j : ℂ) • δ) ≤ Backend.norm e := by
    intro j
    induction j with
    | zero => simp
    | succ j ih =>
      have : homogeneous kind k s (e + (j : ℂ) • δ) = e + ((j + 1 : ℕ) : ℂ) • δ := by
        rw [hL.map_add, hL.map_smul, h]
        have : homogeneous kind k s e = e + δ := by rw [hδ]; abel
        rw [this]
        push_cast
        module
      rw [← this]
      exact (homogeneous_le hk kind hα hρ hB hP _).trans ih
  have hb : ∀ j : ℕ, (j : ℝ) * ‖toE δ‖ ≤ 2 * ‖toE e‖ := by
    intro j
    have h1 := hiter j
    rw [← norm_toE, ← norm_toE, map_add, map_smul] at h1
    have h2 : ‖(j : ℂ) • toE δ‖ ≤ ‖toE e + (j : ℂ) • toE δ‖ + ‖toE e‖ := by
      have := norm_sub_le (toE e + (j : ℂ) • toE δ) (toE e)
      simpa using this
    rw [norm_smul] at h2
    simp only [Complex.norm_natCast] at h2
    linarith
  have h0 : ‖toE δ‖ = 0 := by
    by_contra hne
    have hpos : 0 < ‖toE δ‖ := lt_of_le_of_ne (norm_nonneg _) (Ne.symm hne)
    obtain ⟨j, hj⟩ := exists_nat_gt (2 * ‖toE e‖ / ‖toE δ‖)
    rw [div_lt_iff₀ hpos] at hj
    exact absurd (hb j) (not_le.2 hj)
  rw [norm_eq_zero] at h0
  exact (LinearEquiv.map_eq_zero_iff _).1 h0

/-- **Trajectories.** If there is a field `E` that an iteration does not change, then the iteration either does all its updates or it raises a
ZeroDivisionError after reaching a field that it does not change. -/
theorem trajectory (E : Field n N) (hE : ∀ i p, update kind k (at' s i E p) = 0) (hs : s.prevNorm = ⊤) (i : ℕ) :
    (∃ p, run kind k s i = .ok (at' s i (E + (homogeneous kind k s)^[i] (s.field - E)) p) ∧
      (i = 0 ∧ p = ⊤ ∨ ∃ j, i = j + 1 ∧ p = ((Backend.norm ((homogeneous kind k s)^[j + 1] (s.field - E) -
        (homogeneous kind k s)^[j] (s.field - E)) : ℝ) : WithTop ℝ) ∧
        ∃ p', run kind k s j = .ok (at' s j (E + (homogeneous kind k s)^[j] (s.field - E)) p'))) ∨
    (run kind k s i = .error .zeroDivision ∧ ∃ j < i, ∃ p, run kind k s j = .ok (at' s j (E + (homogeneous kind k s)^[j] (s.field - E)) p) ∧
      update kind k (at' s j (E + (homogeneous kind k s)^[j] (s.field - E)) p) = 0) := by
  have hL := homogeneous_isLinear kind k s
  set M := homogeneous kind k s with hM
  set e0 := s.field - E with he0
  have hupd : ∀ j p, update kind k (at' s j (E + M^[j] e0) p) = M^[j + 1] e0 - M^[j] e0 := by
    intro j p
    have h1 := hE j p
    rw [update_at'] at h1 ⊢
    rw [← hM] at h1 ⊢
    rw [hL.map_add, Function.iterate_succ_apply']
    have h2 : chiOp k s (green kind k s.alpha s.source) = E - M E := by
      rw [eq_sub_iff_add_eq, ← sub_eq_zero, ← h1]; abel
    rw [h2]; abel
  induction i with
  | zero =>
    refine .inl ⟨⊤, ?_, .inl ⟨rfl, rfl⟩⟩
    have : E + M^[0] e0 = s.field := by rw [he0]; simp
    rw [this]
    simp only [run, at']
    congr 1
    cases s
    simp only at hs
    simp [hs]
  | succ i ih =>
    rcases ih with ⟨p, hrun, hp⟩ | ⟨herr, j, hj, rest⟩
    · have hstep : run kind k s (i + 1) = step kind k (at' s i (E + M^[i] e0) p) := by
        simp only [run, hrun]
      rw [hstep]
      have hu' : update kind k { at' s i (E + M^[i] e0) p with iteration := (at' s i (E + M^[i] e0) p).iteration + 1, residue := none } =
          M^[i + 1] e0 - M^[i] e0 := hupd i p
      have accept : ∀ r, divFloat (Backend.norm (M^[i + 1] e0 - M^[i] e0)) p = .ok r → r < 1 →
          step kind k (at' s i (E + M^[i] e0) p) = .ok (at' s (i + 1) (E + M^[i + 1] e0) ((Backend.norm (M^[i + 1] e0 - M^[i] e0) : ℝ) : WithTop ℝ)) := by
        intro r hr hr1
        unfold step
        simp only [hu']
        have : (at' s i (E + M^[i] e0) p).prevNorm = p := rfl
        simp only [this, hr, hr1, if_true]
        congr 1
        simp only [at', State.mk.injEq, true_and, and_true, Nat.succ_ne_zero, if_false]
        refine ⟨?_, ?_⟩
        · funext c x
          simp only [Pi.add_apply, Pi.sub_apply]; ring
        · push_cast; ring
      rcases hp with ⟨rfl, rfl⟩ | ⟨j, rfl, rfl, hprev⟩
      · exact .inl ⟨_, accept 0 rfl one_pos, .inr ⟨0, rfl, rfl, _, hrun⟩⟩
      · set δ := M^[j + 1] e0 - M^[j] e0 with hδ
        by_cases h0 : Backend.norm δ = 0
        · refine .inr ⟨?_, j, by omega, ?_⟩
          · unfold step
            simp only [hu']
            have : (at' s (j + 1) (E + M^[j + 1] e0) ((Backend.norm δ : ℝ) : WithTop ℝ)).prevNorm = ((Backend.norm δ : ℝ) : WithTop ℝ) := rfl
            simp only [this]
            have : divFloat (Backend.norm (M^[j + 1 + 1] e0 - M^[j + 1] e0)) ((Backend.norm δ : ℝ) : WithTop ℝ) = .error .zeroDivision := by
              show (if Backend.norm δ = 0 then _ else _) = _
              rw [if_pos h0]
            rw [this]
          · obtain ⟨p, hpp⟩ := hprev
            exact ⟨p, hpp, by rw [hupd]; exact (norm_eq_zero_iff _).1 h0⟩
        · have hδ' : M^[j + 1 + 1] e0 - M^[j + 1] e0 = M δ := by
            simp only [hδ, hL.map_sub, Function.iterate_succ_apply']
          have hne : M δ ≠ δ := by
            intro h
            refine h0 ((norm_eq_zero_iff _).2 ?_)
            have h3 : δ = M (M^[j] e0) - M^[j] e0 := by rw [hδ, Function.iterate_succ_apply']
            rw [h3]
            refine constant_change hk kind hα hρ hB hP _ ?_
            rw [← hM, ← h3]; exact h
          have hlt : Backend.norm (M δ) < Backend.norm δ := homogeneous_lt hk kind hα hρ hB hP δ hne
          have hpos : 0 < Backend.norm δ := lt_of_le_of_ne (norm_nonneg' _) (Ne.symm h0)
          refine .inl ⟨_, accept (Backend.norm (M δ) / Backend.norm δ) ?_ ?_, .inr ⟨j + 1, rfl, rfl, _, hrun⟩⟩
          · rw [hδ']
            show (if Backend.norm δ = 0 then _ else _) = _
            rw [if_neg h0]
          · rwa [div_lt_one hpos]
    · refine .inr ⟨by simp only [run, herr], j, by omega, rest⟩

/-- Repeating the iteration makes the error converge. -/
theorem iterate_tendsto (e : Field n N) : ∃ p, homogeneous kind k s p = p ∧
    Filter.Tendsto (fun i => Backend.norm ((homogeneous kind k s)^[i] e - p)) Filter.atTop (nhds 0) := by
  have hit : ∀ i, (homogeneousE kind k s)^[i] (toE e) = toE ((homogeneous kind k s)^[i] e) := by
    intro i
    induction i with
    | zero => rfl
    | succ i ih => rw [Function.iterate_succ_apply', ih, homogeneousE_toE, Function.iterate_succ_apply']
  have hc : 0 < (1 - ρ) / 2 := by linarith
  obtain ⟨p, hp, ht⟩ := Contraction.tendsto_fixed (homogeneousE kind k s) hc (fun x => by
    obtain ⟨F, rfl⟩ := toE.surjective x
    rw [homogeneousE_toE, norm_toE, norm_toE, ← map_sub, norm_toE]
    exact homogeneous_norm_sq hk kind hα hρ.le hB hP F) (toE e)
  obtain ⟨P, rfl⟩ := toE.surjective p
  rw [homogeneousE_toE] at hp
  refine ⟨P, toE.injective hp, ?_⟩
  have := (tendsto_iff_norm_sub_tendsto_zero.1 ht)
  simpa only [hit, ← map_sub, norm_toE] using this

/-- If only zero repeats itself, the convergence is geometric. -/
theorem iterate_rate (hu : ∀ F, homogeneous kind k s F = F → F = 0) : ∃ q : ℝ, 0 ≤ q ∧ q < 1 ∧
    ∀ i e, Backend.norm ((homogeneous kind k s)^[i] e) ≤ q ^ i * Backend.norm e := by
  have hc : 0 < (1 - ρ) / 2 := by linarith
  obtain ⟨q, h0, h1, hq⟩ := Contraction.exists_rate (homogeneousE kind k s) hc (fun x => by
    obtain ⟨F, rfl⟩ := toE.surjective x
    rw [homogeneousE_toE, norm_toE, norm_toE, ← map_sub, norm_toE]
    exact homogeneous_norm_sq hk kind hα hρ.le hB hP F) (fun x hx => by
    obtain ⟨F, rfl⟩ := toE.surjective x
    rw [homogeneousE_toE] at hx
    rw [hu F (toE.injective hx), map_zero])
  refine ⟨q, h0, h1, fun i e => ?_⟩
  induction i with
  | zero => simp
  | succ i ih =>
    have := hq (toE ((homogeneous kind k s)^[i] e))
    rw [homogeneousE_toE, norm_toE, norm_toE] at this
    rw [Function.iterate_succ_apply', pow_succ]
    calc _ ≤ _ := this
      _ ≤ q * (q ^ i * Backend.norm e) := mul_le_mul_of_nonneg_left ih h0
      _ = _ := by ring

end

/-- With a strict bound, `χ` is injective. -/
theorem chiOp_injective {k : Fin d → Idx N → ℝ} {s : State n N} {ρ : ℝ} (hρ : ρ < 1) (hB : Bounded k s ρ) (F : Field n N) (h : chiOp k s F = 0) : F = 0 := by
  have := hB F
  rw [h, zero_sub, ← norm_toE, map_neg, norm_neg, norm_toE] at this
  refine (norm_eq_zero_iff F).1 (le_antisymm ?_ (norm_nonneg' F))
  nlinarith [norm_nonneg' F]

end Verif.Solver
