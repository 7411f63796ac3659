import Verif.Spec.Rounding
import Verif.Lemmas.SolverMedium

/-!
# The iteration with rounding errors
-/

namespace Verif.Solver

open Verif Verif.Fourier Verif.Backend Complex

variable {d n : ℕ} {N : Fin d → ℕ}

/-- The state `s` with another field, norm of the last change, number of iterations, and residue. -/
def State.at (s : State n N) (F : Field n N) (p : WithTop ℝ) (i : ℤ) (v : Option (WithTop ℝ)) : State n N :=
  { s with field := F, prevNorm := p, iteration := i, residue := v }

/-- The change as it is computed. -/
noncomputable def changeOf (kind : Kind d n) (k : Fin d → Idx N → ℝ) (s : State n N) (r : Rounding n N) (F : Field n N) : Field n N :=
  update kind k { s with field := F } + r.change

theorem stepRounded_at {kind : Kind d n} {k : Fin d → Idx N → ℝ} {s : State n N} (r : Rounding n N) (F : Field n N) {p : WithTop ℝ} (i : ℤ) (v : Option (WithTop ℝ))
    (hp : p = ⊤ ∨ ∃ c : ℝ, p = (c : WithTop ℝ) ∧ 0 < c ∧ Backend.norm (changeOf kind k s r F) + r.norm < c) :
    stepRounded kind k r (s.at F p i v) =
      .ok (s.at (F + changeOf kind k s r F + r.sum) ((Backend.norm (changeOf kind k s r F) + r.norm : ℝ) : WithTop ℝ) (i + 1) none) := by
  have e : stepRounded kind k r (s.at F p i v) = (match divFloat (Backend.norm (changeOf kind k s r F) + r.norm) p with
    | .error e => .error e
    | .ok relative => if relative < 1 then
        .ok (s.at (F + changeOf kind k s r F + r.sum) ((Backend.norm (changeOf kind k s r F) + r.norm : ℝ) : WithTop ℝ) (i + 1) none)
      else .ok (updateOperators (s.at F p (i + 1) none) (increased s.alpha))) := rfl
  rw [e]
  rcases hp with rfl | ⟨c, rfl, h0, hlt⟩
  · have e3 : divFloat (Backend.norm (changeOf kind k s r F) + r.norm) ⊤ = .ok 0 := rfl
    simp only [e3, zero_lt_one, if_true]
  · have e3 : divFloat (Backend.norm (changeOf kind k s r F) + r.norm) ((c : ℝ) : WithTop ℝ) = .ok ((Backend.norm (changeOf kind k s r F) + r.norm) / c) := by
      change (if c = 0 then _ else _) = _
      rw [if_neg h0.ne']
    simp only [e3, (div_lt_one h0).2 hlt, if_true]

/-- What the criterion answers for a finite norm. -/
theorem criterionRounded_at {s : State n N} (r : Rounding n N) (limit : WithTop ℝ) (rtol : ℝ) (hr : 0 ≤ rtol) (F : Field n N) (c : ℝ) (i : ℤ) (hF : 0 < Backend.norm F + r.fieldNorm) :
    (limit ≤ ((i : ℝ) : WithTop ℝ) ∧ criterionRounded r limit rtol () (s.at F (c : WithTop ℝ) i none) = .ok (false, (), s.at F (c : WithTop ℝ) i none)) ∨
      (((i : ℝ) : WithTop ℝ) < limit ∧ c ≤ rtol * (Backend.norm F + r.fieldNorm) ∧
        ∃ v, criterionRounded r limit rtol () (s.at F (c : WithTop ℝ) i none) = .ok (false, (), s.at F (c : WithTop ℝ) i v)) ∨
      (((i : ℝ) : WithTop ℝ) < limit ∧ rtol * (Backend.norm F + r.fieldNorm) < c ∧
        ∃ v, criterionRounded r limit rtol () (s.at F (c : WithTop ℝ) i none) = .ok (true, (), s.at F (c : WithTop ℝ) i v)) := by
  unfold criterionRounded
  have e : (s.at F (c : WithTop ℝ) i none).iteration = i := rfl
  rw [e]
  by_cases hl : ((i : ℝ) : WithTop ℝ) < limit
  · right
    rw [if_pos hl]
    have e1 : (s.at F (c : WithTop ℝ) i none).residue = none := rfl
    have e2 : (s.at F (c : WithTop ℝ) i none).prevNorm = some c := rfl
    have e3 : (s.at F (c : WithTop ℝ) i none).field = F := rfl
    unfold relativeResidueRounded
    simp only [e1, e2, e3]
    by_cases h0 : 0 < c
    · simp only [if_pos h0, if_neg hF.ne']
      by_cases h1 : c ≤ rtol * (Backend.norm F + r.fieldNorm)
      · left
        refine ⟨hl, h1, some ((c / (Backend.norm F + r.fieldNorm) : ℝ) : WithTop ℝ), ?_⟩
        have h2 : ¬ (((rtol : ℝ) : WithTop ℝ) < ((c / (Backend.norm F + r.fieldNorm) : ℝ) : WithTop ℝ)) := by
          rw [WithTop.coe_lt_coe, not_lt, div_le_iff₀ hF]
          exact h1
        rw [decide_eq_false h2]
        rfl
      · right
        push Not at h1
        refine ⟨hl, h1, some ((c / (Backend.norm F + r.fieldNorm) : ℝ) : WithTop ℝ), ?_⟩
        have h2 : (((rtol : ℝ) : WithTop ℝ) < ((c / (Backend.norm F + r.fieldNorm) : ℝ) : WithTop ℝ)) := by
          rw [WithTop.coe_lt_coe, lt_div_iff₀ hF]
          exact h1
        rw [decide_eq_true h2]
        rfl
    · left
      simp only [if_neg h0]
      refine ⟨hl, (not_lt.1 h0).trans (mul_nonneg hr hF.le), some ((0 : ℝ) : WithTop ℝ), ?_⟩
      have h2 : ¬ (((rtol : ℝ) : WithTop ℝ) < ((0 : ℝ) : WithTop ℝ)) := by
        rw [WithTop.coe_lt_coe, not_lt]
        exact hr
      rw [decide_eq_false h2]
      rfl
  · left
    rw [if_neg hl]
    exact ⟨not_lt.1 hl, rfl⟩

section
variable {kind : Kind d n} {k : Fin d → Idx N → ℝ} {s : State n N} {P : Field n N} {q ε : ℝ} (h : Contraction kind k s P q)
include h

/-- The error after an accepted pass. -/
theorem error_rounded {r : Rounding n N} (hr : r.Within ε) (F : Field n N) :
    Backend.norm (F + changeOf kind k s r F + r.sum - P) ≤ q * Backend.norm (F - P) + 2 * ε := by
  obtain ⟨-, -, hP, hq⟩ := h
  have e : F + changeOf kind k s r F + r.sum - P = (F + update kind k { s with field := F } - (P + update kind k { s with field := P })) + (r.change + r.sum) := by
    rw [hP]
    unfold changeOf
    abel
  rw [e]
  have h1 := norm_add_le' (F + update kind k { s with field := F } - (P + update kind k { s with field := P })) (r.change + r.sum)
  have h2 := norm_add_le' r.change r.sum
  have h3 := hq F P
  have h4 := hr.1
  have h5 := hr.2.1
  linarith

/-- The error before a pass, from the change that is computed. -/
theorem error_changeOf {r : Rounding n N} (hr : r.Within ε) (F : Field n N) :
    (1 - q) * Backend.norm (F - P) ≤ Backend.norm (changeOf kind k s r F) + ε := by
  obtain ⟨-, -, hP, hq⟩ := h
  have e : F - P = (F + update kind k { s with field := F } - (P + update kind k { s with field := P })) - changeOf kind k s r F + r.change := by
    rw [hP]
    unfold changeOf
    abel
  have h1 := norm_add_le' ((F + update kind k { s with field := F } - (P + update kind k { s with field := P })) - changeOf kind k s r F) r.change
  rw [← e] at h1
  have h2 := norm_sub_le' (F + update kind k { s with field := F } - (P + update kind k { s with field := P })) (changeOf kind k s r F)
  have h3 := hq F P
  have h4 := hr.1
  linarith

/-- Two changes after another. -/
theorem change_next {r r' : Rounding n N} (hr : r.Within ε) (hr' : r'.Within ε) (F : Field n N) :
    Backend.norm (changeOf kind k s r' (F + changeOf kind k s r F + r.sum)) ≤ q * Backend.norm (changeOf kind k s r F) + (3 + q) * ε := by
  obtain ⟨h0, -, -, hq⟩ := h
  set G := F + changeOf kind k s r F + r.sum with hG
  have e : changeOf kind k s r' G = (G + update kind k { s with field := G } - (F + update kind k { s with field := F })) - (r.change + r.sum) + r'.change := by
    unfold changeOf at hG ⊢
    have : r.change + r.sum = G - (F + update kind k { s with field := F }) := by rw [hG]; abel
    rw [this]
    abel
  rw [e]
  have h1 := norm_add_le' ((G + update kind k { s with field := G } - (F + update kind k { s with field := F })) - (r.change + r.sum)) r'.change
  have h2 := norm_sub_le' (G + update kind k { s with field := G } - (F + update kind k { s with field := F })) (r.change + r.sum)
  have h3 := norm_add_le' r.change r.sum
  have h4 := hq G F
  have h5 : Backend.norm (G - F) ≤ Backend.norm (changeOf kind k s r F) + Backend.norm r.sum := by
    have e2 : G - F = changeOf kind k s r F + r.sum := by rw [hG]; abel
    rw [e2]
    exact norm_add_le' _ _
  have h6 := mul_le_mul_of_nonneg_left h5 h0
  have h7 := mul_le_mul_of_nonneg_left hr.2.1 h0
  have h8 := hr.1
  have h9 := hr.2.1
  have h10 := hr'.1
  linarith

end

end Verif.Solver
