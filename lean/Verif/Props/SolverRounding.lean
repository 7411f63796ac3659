import Verif.Lemmas.SolverRounding
import Verif.Props.SolverRate

/-!
# C120: rounding errors do not accumulate

Every pass of the iteration may make arbitrary errors, which may be chosen by an adversary, in the change of the field, its sum with the field, and the norms.
-/

namespace Verif.Solver

open Verif Verif.Fourier Verif.Backend Complex Matrix
open Verif.Spec.Solver (NoGain Within WaveEquation ScalarWaveEquation gainOf rateOf iterationsRounded)

variable {d n : ℕ}

/-- While the residue exceeds the tolerance, the change exceeds the rounding errors. -/
private theorem above_floor {q ε rtol M c e : ℝ} (hq0 : 0 ≤ q) (hq1 : q < 1) (hε0 : 0 ≤ ε) (hrtol : 0 < rtol) (hε : 18 * ε * (1 - q + rtol) ≤ rtol * (1 - q) ^ 2 * M)
    (he : (1 - q) * e ≤ q * c + 2 * ε) (hlt : rtol * (M - e - ε) < c) : 6 * ε < (1 - q) * c := by
  obtain ⟨w, rfl⟩ : ∃ w, q = 1 - w := ⟨1 - q, by ring⟩
  rw [sub_sub_cancel] at *
  have hw0 : 0 < w := by linarith
  by_contra hn
  push Not at hn
  have h9 : w ^ 2 * e ≤ 6 * ε := by
    have h1 := mul_le_mul_of_nonneg_left he hw0.le
    have h2 := mul_le_mul_of_nonneg_left hn hq0
    have h3 : 0 ≤ w * ε := mul_nonneg hw0.le hε0
    linarith
  have h10 : w ^ 2 * (rtol * (M - e - ε)) < w ^ 2 * c := mul_lt_mul_of_pos_left hlt (by positivity)
  have h11 : w ^ 2 * c ≤ w * (6 * ε) := by
    have := mul_le_mul_of_nonneg_left hn hw0.le
    linarith
  have h13 : w ^ 2 * ε ≤ ε := mul_le_of_le_one_left hε0 (by nlinarith)
  have h14 := mul_le_mul_of_nonneg_left h9 hrtol.le
  have h15 := mul_le_mul_of_nonneg_left h13 hrtol.le
  have h16 := mul_nonneg hε0 hw0.le
  have h17 := mul_nonneg hε0 hrtol.le
  linarith

/-- How long the residue can exceed the tolerance. -/
private theorem not_yet {q ε rtol M c e e' x : ℝ} (hq0 : 0 ≤ q) (hq1 : q < 1) (hε0 : 0 ≤ ε) (hrtol : 0 < rtol) (hM : 0 < M) (ha : 18 * ε ≤ (1 - q) * M)
    (hb : 18 * ε ≤ rtol * (1 - q) * M) (hc : c ≤ e' + e + 2 * ε) (he : e ≤ x * M + 2 * ε / (1 - q)) (he' : e' ≤ x * M + 2 * ε / (1 - q)) (hlt : rtol * (M - e' - ε) < c) :
    rtol < 2 * (2 + rtol) * x := by
  obtain ⟨w, rfl⟩ : ∃ w, q = 1 - w := ⟨1 - q, by ring⟩
  rw [sub_sub_cancel] at *
  have hw0 : 0 < w := by linarith
  obtain ⟨y, rfl⟩ : ∃ y, ε = y * w := ⟨ε / w, by field_simp⟩
  have hy0 : 0 ≤ y := nonneg_of_mul_nonneg_left hε0 hw0
  have hey : 2 * (y * w) / w = 2 * y := by field_simp
  rw [hey] at he he'
  have hy1 : y * w ≤ y := mul_le_of_le_one_right hy0 (by linarith)
  have hy2 : 18 * y ≤ rtol * M := le_of_mul_le_mul_right (by linarith) hw0
  have hy3 : 18 * y ≤ M := le_of_mul_le_mul_right (by linarith) hw0
  have h5 := mul_le_mul_of_nonneg_left he' hrtol.le
  have h6 := mul_le_mul_of_nonneg_left hy1 hrtol.le
  have h7 := mul_le_mul_of_nonneg_left hy3 hrtol.le
  have h8 : rtol * M < 2 * (2 + rtol) * x * M := by linarith
  exact lt_of_mul_lt_mul_right h8 hM.le

section Rounded
variable {N : Fin d → ℕ} {kind : Kind d n} {k : Fin d → Idx N → ℝ} {s : State n N} {P : Field n N} {q ε : ℝ} (h : Contraction kind k s P q) (hp : s.prevNorm = ⊤)
  (hf : s.field = 0) (hP : P ≠ 0) {rtol : ℝ} (hrtol : 0 < rtol) {r : ℕ → Rounding n N} (hr : ∀ i, (r i).Within ε)
  (hε : 18 * ε * (1 - q + rtol) ≤ rtol * (1 - q) ^ 2 * Backend.norm P) (maxiter : WithTop ℝ)

/-- What is the case while `solve` runs. -/
private def Fine (kind : Kind d n) (k : Fin d → Idx N → ℝ) (s : State n N) (P : Field n N) (q ε rtol : ℝ) (i : ℕ) (t : State n N) : Prop :=
  ∃ F p v, t = s.at F p i v ∧ Backend.norm (F - P) ≤ q ^ i * Backend.norm P + 2 * ε / (1 - q) ∧ Backend.norm (F - P) ≤ Backend.norm P ∧
    (p = ⊤ ∨ ∃ c : ℝ, p = (c : WithTop ℝ) ∧ 0 < c ∧ ∀ r' : Rounding n N, r'.Within ε → Backend.norm (changeOf kind k s r' F) + r'.norm < c) ∧
    (i = 0 ∨ rtol < 2 * (2 + rtol) * q ^ (i - 1))

/-- What is the case when `solve` has returned. -/
private def Accurate (P : Field n N) (q ε rtol : ℝ) (maxiter : WithTop ℝ) (t : State n N) : Prop :=
  maxiter ≤ ((t.iteration : ℝ) : WithTop ℝ) ∨ (1 - q) * Backend.norm (t.field - P) ≤ q * rtol * (Backend.norm t.field + ε) + 2 * ε

include h hp hf hP hrtol hr hε

omit hp hf in
private theorem rounded_step {i : ℕ} {t : State n N} (ht : Fine kind k s P q ε rtol i t) :
    ∃ t', stepRounded kind k (r i) t = .ok t' ∧
      ((∃ t'', criterionRounded (r i) maxiter rtol () t' = .ok (false, (), t'') ∧ Accurate P q ε rtol maxiter t'') ∨
       (∃ t'', criterionRounded (r i) maxiter rtol () t' = .ok (true, (), t'') ∧ Fine kind k s P q ε rtol (i + 1) t'')) := by
  obtain ⟨F, p, v, rfl, h1, h2, h3, -⟩ := ht
  have hq0 := h.1
  have hq1 := h.2.1
  have hM : 0 < Backend.norm P := lt_of_le_of_ne (norm_nonneg' _) fun e => hP ((norm_eq_zero_iff _).1 e.symm)
  have hε0 : 0 ≤ ε := (norm_nonneg' _).trans (hr 0).1
  set w := 1 - q with hw
  have hw0 : 0 < w := by linarith
  have hw1 : w ≤ 1 := by linarith
  set M := Backend.norm P with hMdef
  have ha : 18 * ε ≤ w ^ 2 * M := by
    have : rtol * (18 * ε) ≤ rtol * (w ^ 2 * M) := by nlinarith [mul_nonneg hε0 hw0.le]
    exact le_of_mul_le_mul_left this hrtol
  have hb : 18 * ε ≤ rtol * w * M := by
    have : w * (18 * ε) ≤ w * (rtol * w * M) := by nlinarith [mul_nonneg hε0 hrtol.le]
    exact le_of_mul_le_mul_left this hw0
  have ha' : 18 * ε ≤ w * M := ha.trans (mul_le_mul_of_nonneg_right (by nlinarith) hM.le)
  have hri := hr i
  have hν := abs_le.1 hri.2.2.1
  have hφ := abs_le.1 hri.2.2.2
  have hacc : p = ⊤ ∨ ∃ c : ℝ, p = (c : WithTop ℝ) ∧ 0 < c ∧ Backend.norm (changeOf kind k s (r i) F) + (r i).norm < c :=
    h3.imp id fun ⟨c, hc, hc0, hlt⟩ => ⟨c, hc, hc0, hlt _ hri⟩
  refine ⟨_, stepRounded_at (r i) F i v hacc, ?_⟩
  set D := changeOf kind k s (r i) F with hD
  set G := F + D + (r i).sum with hG
  set c := Backend.norm D + (r i).norm with hc
  have he1 : Backend.norm (G - P) ≤ q * Backend.norm (F - P) + 2 * ε := error_rounded h hri F
  have he2 : w * Backend.norm (F - P) ≤ Backend.norm D + ε := error_changeOf h hri F
  have hGM : M ≤ Backend.norm G + Backend.norm (G - P) := by
    have := norm_sub_le' G (G - P)
    rwa [sub_sub_cancel] at this
  have he3 : Backend.norm (G - P) ≤ q * M + 2 * ε := he1.trans (by linarith [mul_le_mul_of_nonneg_left h2 hq0])
  have hGpos : 0 < Backend.norm G + (r i).fieldNorm := by
    have : w * M ≤ Backend.norm G + 2 * ε := by rw [hw]; linarith
    have : 0 < w * M := mul_pos hw0 hM
    linarith
  have he4 : w * Backend.norm (G - P) ≤ q * c + 2 * ε := by
    have := mul_le_mul_of_nonneg_left he1 hw0.le
    have h5 := mul_le_mul_of_nonneg_left he2 hq0
    have h6 : q * Backend.norm D ≤ q * (c + ε) := mul_le_mul_of_nonneg_left (by linarith) hq0
    have : w * (2 * ε) = 2 * ε - 2 * (q * ε) := by rw [hw]; ring
    nlinarith
  have hGP : Backend.norm (G - P) ≤ q ^ (i + 1) * M + 2 * ε / w := by
    have h5 := mul_le_mul_of_nonneg_left h1 hq0
    have e : q * (q ^ i * M + 2 * ε / w) + 2 * ε = q ^ (i + 1) * M + 2 * ε / w := by
      have : 2 * ε = 2 * ε / w * w := (div_mul_cancel₀ _ hw0.ne').symm
      nth_rewrite 2 [this]
      rw [hw, pow_succ]
      ring
    linarith
  have hcast : ((i : ℤ) + 1) = ((i + 1 : ℕ) : ℤ) := by push_cast; rfl
  rcases criterionRounded_at (s := s) (r i) maxiter rtol hrtol.le G c ((i : ℤ) + 1) hGpos with ⟨hl, hcr⟩ | ⟨hl, hle, v', hcr⟩ | ⟨hl, hlt, v', hcr⟩
  · exact .inl ⟨_, hcr, .inl hl⟩
  · refine .inl ⟨_, hcr, .inr ?_⟩
    change w * Backend.norm (G - P) ≤ q * rtol * (Backend.norm G + ε) + 2 * ε
    have h5 : c ≤ rtol * (Backend.norm G + ε) := hle.trans (mul_le_mul_of_nonneg_left (by linarith) hrtol.le)
    have h6 := mul_le_mul_of_nonneg_left h5 hq0
    linarith
  · refine .inr ⟨_, hcr, G, _, v', by rw [hcast], hGP, ?_, .inr ⟨c, rfl, ?_, ?_⟩, .inr ?_⟩
    · have : q * M + w * M = M := by rw [hw]; ring
      linarith
    · exact lt_of_le_of_lt (mul_nonneg hrtol.le hGpos.le) hlt
    · intro r' hr'
      have h5 := change_next h hri hr' F
      change Backend.norm (changeOf kind k s r' G) ≤ q * Backend.norm D + (3 + q) * ε at h5
      have h6 := (abs_le.1 hr'.2.2.1).2
      have h7 : q * Backend.norm D ≤ q * (c + ε) := mul_le_mul_of_nonneg_left (by linarith) hq0
      have h8 : 6 * ε < w * c := above_floor hq0 hq1 hε0 hrtol hε he4 (lt_of_le_of_lt (mul_le_mul_of_nonneg_left (by linarith) hrtol.le) hlt)
      have h9 : q * c + w * c = c := by rw [hw]; ring
      have h10 : q * ε ≤ ε := mul_le_of_le_one_left hε0 hq1.le
      linarith
    · rw [Nat.add_sub_cancel]
      have hcl : c ≤ Backend.norm (G - P) + Backend.norm (F - P) + 2 * ε := by
        have e : D = (G - P) - (F - P) - (r i).sum := by rw [hG]; abel
        have h5 := norm_sub_le' ((G - P) - (F - P)) (r i).sum
        rw [← e] at h5
        have h6 := norm_sub_le' (G - P) (F - P)
        have h7 := hri.2.1
        linarith
      have hGM' : rtol * (M - Backend.norm (G - P) - ε) < c := lt_of_le_of_lt (mul_le_mul_of_nonneg_left (by linarith) hrtol.le) hlt
      have hGP' : Backend.norm (G - P) ≤ q ^ i * M + 2 * ε / w := hGP.trans (by
        have : q ^ (i + 1) * M ≤ q ^ i * M := mul_le_mul_of_nonneg_right (pow_le_pow_of_le_one hq0 hq1.le (Nat.le_succ i)) hM.le
        linarith)
      exact not_yet hq0 hq1 hε0 hrtol hM ha' hb hcl h1 hGP' hGM'

private theorem rounded_all (i : ℕ) :
    (∃ t, solveRounded kind k r rtol maxiter s i = .running () t ∧ Fine kind k s P q ε rtol i t) ∨
      ∃ t, solveRounded kind k r rtol maxiter s i = .done () t ∧ Accurate P q ε rtol maxiter t := by
  induction i with
  | zero =>
    refine .inl ⟨_, rfl, 0, ⊤, s.residue, ?_, ?_, ?_, .inl rfl, .inl rfl⟩
    · rw [← hf, ← hp]
      rfl
    · have e : Backend.norm (0 - P) = Backend.norm P := by rw [zero_sub, ← neg_one_smul ℂ P, norm_smul', norm_neg, norm_one, one_mul]
      have hε0 : 0 ≤ ε := (norm_nonneg' _).trans (hr 0).1
      have : 0 ≤ 2 * ε / (1 - q) := div_nonneg (by linarith) (by linarith [h.2.1])
      rw [e, pow_zero, one_mul]
      linarith
    · rw [zero_sub, ← neg_one_smul ℂ P, norm_smul', norm_neg, norm_one, one_mul]
  | succ i ih =>
    rcases ih with ⟨t, ht, hfine⟩ | ⟨t, ht, hacc⟩
    · obtain ⟨t', hs, ⟨t'', hc, ha⟩ | ⟨t'', hc, hfi⟩⟩ := rounded_step h hP hrtol hr hε maxiter hfine
      · refine .inr ⟨t'', ?_, ha⟩
        simp only [solveRounded, ht, hs, hc, Bool.not_false, if_true]
      · refine .inl ⟨t'', ?_, hfi⟩
        simp only [solveRounded, ht, hs, hc, Bool.not_true, Bool.false_eq_true, if_false]
    · refine .inr ⟨t, ?_, hacc⟩
      simp only [solveRounded, ht]

/-- **C120.** Whatever the rounding errors are, if they are all at most `ε`, where `18 ε (1 - q + rtol) ≤ rtol (1 - q)² ‖P‖`: `solve` has returned after `l + 1` iterations, and later, if
`2 (2 + rtol) qˡ` is at most the tolerance, and unless the limit is reached the error is at most `(q rtol (‖field‖ + ε) + 2 ε) / (1 - q)`. -/
theorem C120_returns {l : ℕ} (hl : 2 * (2 + rtol) * q ^ l ≤ rtol) {i : ℕ} (hi : l < i) :
    ∃ t, solveRounded kind k r rtol maxiter s i = .done () t ∧
      (maxiter ≤ ((t.iteration : ℝ) : WithTop ℝ) ∨ Backend.norm (t.field - P) ≤ (q * rtol * (Backend.norm t.field + ε) + 2 * ε) / (1 - q)) := by
  have hw : 0 < 1 - q := by linarith [h.2.1]
  rcases rounded_all h hp hf hP hrtol hr hε maxiter i with ⟨t, -, hfine⟩ | ⟨t, ht, hacc⟩
  · obtain ⟨-, -, -, -, -, -, -, h1⟩ := hfine
    rcases h1 with h1 | h1
    · omega
    · have h2 : q ^ (i - 1) ≤ q ^ l := pow_le_pow_of_le_one h.1 h.2.1.le (by omega)
      have h3 : 2 * (2 + rtol) * q ^ (i - 1) ≤ 2 * (2 + rtol) * q ^ l := mul_le_mul_of_nonneg_left h2 (by linarith)
      linarith
  · refine ⟨t, ht, hacc.imp id fun h1 => ?_⟩
    rw [le_div_iff₀ hw]
    linarith

/-- **C120 (while it runs).** No rounding error makes `solve` raise an exception; while it runs, the error is at most that of exact arithmetic plus `2 ε / (1 - q)`, however many iterations there have been, and the
operators are those at the start: no iteration has been rejected. -/
theorem C120_running (i : ℕ) : (∃ t, solveRounded kind k r rtol maxiter s i = .done () t) ∨
    ∃ t, solveRounded kind k r rtol maxiter s i = .running () t ∧ Backend.norm (t.field - P) ≤ q ^ i * Backend.norm P + 2 * ε / (1 - q) ∧ t.alpha = s.alpha := by
  rcases rounded_all h hp hf hP hrtol hr hε maxiter i with ⟨t, ht, hfine⟩ | ⟨t, ht, -⟩
  · obtain ⟨F, p, v, rfl, h1, -⟩ := hfine
    exact .inr ⟨_, ht, h1, rfl⟩
  · exact .inl ⟨t, ht⟩

end Rounded

/-- **C120 (limit).** The tolerance must exceed the rounding errors: with errors of `4 rtol` times the norm of the solution, in no more than the norm of the changes, `solve` may never return, although the field
converges as before. -/
theorem C120_floor {N : Fin d → ℕ} {kind : Kind d n} {k : Fin d → Idx N → ℝ} {s : State n N} {P : Field n N} {q : ℝ} (h : Contraction kind k s P q) (hp : s.prevNorm = ⊤)
    (hf : s.field = 0) (hP : P ≠ 0) {rtol : ℝ} (hrtol : 0 < rtol) :
    ∃ r : ℕ → Rounding n N, (∀ i, (r i).Within (4 * rtol * Backend.norm P)) ∧
      ∀ i, ∃ t, solveRounded kind k r rtol ⊤ s i = .running () t ∧ Backend.norm (t.field - P) ≤ q ^ i * Backend.norm P := by
  have hM : 0 < Backend.norm P := lt_of_le_of_ne (norm_nonneg' _) fun e => hP ((norm_eq_zero_iff _).1 e.symm)
  obtain ⟨h0, h1, -⟩ := id h
  set M := Backend.norm P with hMdef
  have hz : Backend.norm (0 : Field n N) = 0 := (norm_eq_zero_iff _).2 rfl
  let ν : ℕ → ℝ := fun i => 2 * rtol * M * (1 + (1 / 2) ^ i)
  have hν1 : ∀ i, 2 * rtol * M < ν i := fun i => by
    have : 0 < 2 * rtol * M * (1 / 2) ^ i := by positivity
    change _ < 2 * rtol * M * (1 + (1 / 2) ^ i)
    linarith
  have hν2 : ∀ i, ν (i + 1) < ν i := fun i => by
    have : 0 < 2 * rtol * M * (1 / 2) ^ i := by positivity
    change 2 * rtol * M * (1 + (1 / 2) ^ (i + 1)) < 2 * rtol * M * (1 + (1 / 2) ^ i)
    rw [pow_succ]
    linarith
  have hν3 : ∀ i, ν i ≤ 4 * rtol * M := fun i => by
    have h2 : ((1 : ℝ) / 2) ^ i ≤ 1 := pow_le_one₀ (by norm_num) (by norm_num)
    have h3 : 0 ≤ 2 * rtol * M := by positivity
    have h4 := mul_le_mul_of_nonneg_left h2 h3
    change 2 * rtol * M * (1 + (1 / 2) ^ i) ≤ _
    linarith
  have hε : 0 ≤ 4 * rtol * M := by positivity
  refine ⟨fun i => ⟨0, 0, ν i, 0⟩, fun i => ⟨by rw [hz]; exact hε, by rw [hz]; exact hε, ?_, by rw [abs_zero]; exact hε⟩, ?_⟩
  · rw [abs_of_pos (lt_trans (by positivity) (hν1 i))]
    exact hν3 i
  have hw : ∀ _ : ℕ, (⟨0, 0, 0, 0⟩ : Rounding n N).Within 0 := fun _ => ⟨hz.le, hz.le, by rw [abs_zero], by rw [abs_zero]⟩
  have e : ∀ i F, changeOf kind k s ⟨0, 0, ν i, 0⟩ F = changeOf kind k s ⟨0, 0, 0, 0⟩ F := fun _ _ => rfl
  suffices H : ∀ i, ∃ F p v, solveRounded kind k (fun i => ⟨0, 0, ν i, 0⟩) rtol ⊤ s i = .running () (s.at F p i v) ∧ Backend.norm (F - P) ≤ q ^ i * M ∧
      (p = ⊤ ∨ ∃ c : ℝ, p = (c : WithTop ℝ) ∧ 0 < c ∧ Backend.norm (changeOf kind k s ⟨0, 0, ν i, 0⟩ F) + ν i < c) by
    intro i
    obtain ⟨F, p, v, h2, h3, -⟩ := H i
    exact ⟨_, h2, h3⟩
  intro i
  induction i with
  | zero =>
    refine ⟨0, ⊤, s.residue, ?_, ?_, .inl rfl⟩
    · rw [← hf, ← hp]
      rfl
    · rw [pow_zero, one_mul, zero_sub, ← neg_one_smul ℂ P, norm_smul', norm_neg, norm_one, one_mul]
  | succ i ih =>
    obtain ⟨F, p, v, h2, h3, h4⟩ := ih
    have hstep := stepRounded_at (kind := kind) (k := k) (s := s) ⟨0, 0, ν i, 0⟩ F i v h4
    have he : Backend.norm (F + changeOf kind k s ⟨0, 0, 0, 0⟩ F + 0 - P) ≤ q * Backend.norm (F - P) + 2 * 0 := error_rounded h (hw i) F
    have hn : Backend.norm (changeOf kind k s ⟨0, 0, 0, 0⟩ (F + changeOf kind k s ⟨0, 0, 0, 0⟩ F + 0)) ≤ q * Backend.norm (changeOf kind k s ⟨0, 0, 0, 0⟩ F) + (3 + q) * 0 :=
      change_next h (hw i) (hw i) F
    simp only [e] at hstep ⊢
    generalize hD : changeOf kind k s ⟨0, 0, 0, 0⟩ F = D at hstep he hn
    generalize hG : F + D + 0 = G at hstep he hn
    set c := Backend.norm D + ν i with hc
    have hc0 : 2 * rtol * M < c := by linarith [hν1 i, norm_nonneg' D]
    have hGP : Backend.norm (G - P) ≤ q ^ (i + 1) * M := by
      have h5 := mul_le_mul_of_nonneg_left h3 h0
      rw [pow_succ]
      linarith
    have hGM : Backend.norm (G - P) < M := by
      have : q ^ (i + 1) < 1 := pow_lt_one₀ h0 h1 (Nat.succ_ne_zero i)
      have := mul_lt_mul_of_pos_right this hM
      linarith
    have hG2 : Backend.norm G ≤ 2 * M := by
      have := norm_add_le' (G - P) P
      rw [sub_add_cancel] at this
      linarith
    have hG0 : 0 < Backend.norm G + 0 := by
      have := norm_sub_le' G (G - P)
      rw [sub_sub_cancel] at this
      linarith
    have hlt : rtol * (Backend.norm G + 0) < c := by
      have := mul_le_mul_of_nonneg_left hG2 hrtol.le
      linarith
    have hcast : ((i : ℤ) + 1) = ((i + 1 : ℕ) : ℤ) := by push_cast; rfl
    rcases criterionRounded_at (s := s) ⟨0, 0, ν i, 0⟩ ⊤ rtol hrtol.le G c ((i : ℤ) + 1) hG0 with ⟨hl, -⟩ | ⟨-, hle, -⟩ | ⟨-, -, v', hcr⟩
    · exact absurd hl (not_le.2 (WithTop.coe_lt_top _))
    · exact absurd hle (not_le.2 hlt)
    · refine ⟨G, c, v', ?_, hGP, .inr ⟨c, rfl, lt_trans (by positivity) hc0, ?_⟩⟩
      · simp only [solveRounded, h2, hstep, hcr, Bool.not_true, Bool.false_eq_true, if_false]
        rw [hcast]
      · have h6 : q * Backend.norm D ≤ Backend.norm D := mul_le_of_le_one_left (norm_nonneg' _) h1.le
        have h7 := hν2 i
        linarith

/-- **C120 (exact arithmetic).** Without rounding errors, the iteration with rounding errors is that of all other theorems. -/
theorem C120_exact {N : Fin d → ℕ} (kind : Kind d n) (k : Fin d → Idx N → ℝ) (rtol : ℝ) (maxiter : WithTop ℝ) (s : State n N) (i : ℕ) :
    solveRounded kind k (fun _ => .exact) rtol maxiter s i = solve kind k .none rtol maxiter s i := by
  have e1 : ∀ t : State n N, stepRounded kind k .exact t = step kind k t := by
    intro t
    have e : (fun c x => update kind k { t with iteration := t.iteration + 1, residue := none } c x + (Rounding.exact : Rounding n N).change c x) =
        update kind k { t with iteration := t.iteration + 1, residue := none } := by
      funext c x
      exact add_zero _
    have e' : ∀ F : Field n N, (fun c x => t.field c x + F c x + (Rounding.exact : Rounding n N).sum c x) = fun c x => t.field c x + F c x := by
      intro F
      funext c x
      exact add_zero _
    have e'' : (Rounding.exact : Rounding n N).norm = 0 := rfl
    unfold stepRounded step
    extract_lets s' F c F' c'
    have hF : F = F' := e
    have hc : c = c' := by rw [show c = Backend.norm F + _ from rfl, e'', add_zero, hF]
    rw [← hF, ← hc]
    cases divFloat c s'.prevNorm with
    | error e => rfl
    | ok x =>
      simp only
      rw [show (fun c x => s'.field c x + F c x + (Rounding.exact : Rounding n N).sum c x) = _ from e' F]
  have e2 : criterionRounded (Rounding.exact : Rounding n N) maxiter rtol = criterion maxiter rtol := by
    have e'' : (Rounding.exact : Rounding n N).fieldNorm = 0 := rfl
    have e3 : ∀ t : State n N, relativeResidueRounded .exact t = relativeResidue t := by
      intro t
      unfold relativeResidueRounded relativeResidue
      rw [e'', add_zero]
      cases t.residue with
      | some v => rfl
      | none =>
        simp only
        cases t.prevNorm with
        | top =>
          simp only
          split_ifs <;> rfl
        | coe p =>
          simp only
          split_ifs <;> rfl
    funext u t
    unfold criterionRounded criterion
    rw [e3]
    split_ifs
    · rcases relativeResidue t with ⟨v | v, t'⟩ <;> rfl
    · rfl
  have snoc : ∀ (i : ℕ) (t : State n N), (∀ u t', solveLoop kind k (criterion maxiter rtol) i () t = .running u t' →
        solveLoop kind k (criterion maxiter rtol) (i + 1) () t = solveLoop kind k (criterion maxiter rtol) 1 () t') ∧
      ((∀ u t', solveLoop kind k (criterion maxiter rtol) i () t ≠ .running u t') →
        solveLoop kind k (criterion maxiter rtol) (i + 1) () t = solveLoop kind k (criterion maxiter rtol) i () t) := by
    intro i
    induction i with
    | zero =>
      intro t
      refine ⟨fun u t' h => ?_, fun h => absurd rfl (h () t)⟩
      cases h
      rfl
    | succ i ih =>
      intro t
      rw [solveLoop, solveLoop]
      cases step kind k t with
      | error e => exact ⟨fun u t' h => (nomatch h), fun _ => rfl⟩
      | ok t1 =>
        simp only
        cases criterion maxiter rtol () t1 with
        | error e => exact ⟨fun u t' h => (nomatch h), fun _ => rfl⟩
        | ok x =>
          obtain ⟨again, u, t2⟩ := x
          cases again with
          | false => exact ⟨fun u t' h => (nomatch h), fun _ => rfl⟩
          | true => exact ih t2
  have e : ∀ i, solve kind k .none rtol maxiter s i = solveLoop kind k (criterion maxiter rtol) i () (start s) := fun _ => rfl
  induction i with
  | zero => rfl
  | succ i ih =>
    rw [e] at ih
    rw [e, solveRounded, ih, e2]
    cases hout : solveLoop kind k (criterion maxiter rtol) i () (start s) with
    | running u t =>
      rw [(snoc i (start s)).1 u t hout, solveLoop]
      simp only [e1]
      cases step kind k t with
      | error e => rfl
      | ok t1 =>
        simp only
        cases criterion maxiter rtol () t1 with
        | error e => rfl
        | ok x =>
          obtain ⟨again, u, t2⟩ := x
          cases again <;> rfl
    | done u t =>
      rw [(snoc i (start s)).2 (fun u t h => by rw [hout] at h; exact nomatch h), hout]
    | raised x =>
      rw [(snoc i (start s)).2 (fun u t h => by rw [hout] at h; exact nomatch h), hout]

/-! ### The electric field -/

section Electric
variable {N : Fin d → ℕ} {kind : Kind d n} {k : Fin d → Idx N → ℝ} {k0 : ℝ} (hk0 : k0 ≠ 0) {s : State n N} {E : Field n N} {q η : ℝ}
  (h : Contraction kind k s (((k0 : ℂ) ^ 2) • E) q) (hp : s.prevNorm = ⊤) (hs : getE k0 s = 0) (hE : E ≠ 0) {rtol : ℝ} (hrtol : 0 < rtol) {r : ℕ → Rounding n N}
  (hr : ∀ i, (r i).Within (η * Backend.norm (((k0 : ℂ) ^ 2) • E))) (hη : 18 * η * (1 - q + rtol) ≤ rtol * (1 - q) ^ 2) (maxiter : WithTop ℝ)
include hk0 h hp hs hE hrtol hr hη

/-- **C120 (electric field).** With rounding errors of at most `η` times the norm of the solution, where `18 η (1 - q + rtol) ≤ rtol (1 - q)²`: `solve` returns within the number of iterations for half the
tolerance, and unless the limit is reached the error is at most `(q rtol (‖E‖ + η ‖exact E‖) + 2 η ‖exact E‖) / (1 - q)`. -/
theorem C120_electric {l : ℕ} (hl : 2 * (2 + rtol) * q ^ l ≤ rtol) {i : ℕ} (hi : l < i) :
    ∃ t, solveRounded kind k r rtol maxiter s i = .done () t ∧
      (maxiter ≤ ((t.iteration : ℝ) : WithTop ℝ) ∨
        Backend.norm (getE k0 t - E) ≤ (q * rtol * (Backend.norm (getE k0 t) + η * Backend.norm E) + 2 * η * Backend.norm E) / (1 - q)) := by
  have hk2 : ((k0 : ℂ) ^ 2) ≠ 0 := pow_ne_zero 2 (ofReal_ne hk0)
  have hpos : 0 < k0 ^ 2 := by positivity
  have hn : Backend.norm (((k0 : ℂ) ^ 2) • E) = k0 ^ 2 * Backend.norm E := by rw [norm_smul', norm_pow, norm_real, Real.norm_eq_abs, sq_abs]
  have hf : s.field = 0 := by rw [field_getE hk0, hs, smul_zero]
  obtain ⟨t, ht, hacc⟩ := C120_returns h hp hf (smul_ne_zero hk2 hE) hrtol hr (by
    have := mul_le_mul_of_nonneg_right hη (norm_nonneg' (((k0 : ℂ) ^ 2) • E))
    linarith) maxiter hl hi
  refine ⟨t, ht, hacc.imp id fun h1 => ?_⟩
  have hw : 0 < 1 - q := by linarith [h.2.1]
  rw [norm_getE_sub hk0, norm_field hk0, hn, le_div_iff₀ hw] at h1
  rw [le_div_iff₀ hw]
  refine le_of_mul_le_mul_left ?_ hpos
  linarith

omit hk0 h hp hs hE hrtol hr hη in
theorem Contraction.mono {P : Field n N} {q' : ℝ} (h : Contraction kind k s P q) (hq : q ≤ q') (h1 : q' < 1) : Contraction kind k s P q' := by
  obtain ⟨h0, -, hP, hc⟩ := h
  exact ⟨h0.trans hq, h1, hP, fun F G => (hc F G).trans (mul_le_mul_of_nonneg_right hq (norm_nonneg' _))⟩

end Electric

/-- The condition on the rounding errors can be met: for a rate of 1/2 and a tolerance of 10⁻³, errors of 10⁻⁵, and 14 iterations. -/
example : 18 * (1e-5 : ℝ) * (1 - 1 / 2 + 1e-3) ≤ 1e-3 * (1 - 1 / 2) ^ 2 ∧ 2 * (2 + (1e-3 : ℝ)) * (1 / 2) ^ 13 ≤ 1e-3 := by norm_num

/-- `solve` returns within a number of iterations that is given by the contrast, the absorption and the tolerance, and its error is given by them and by the rounding errors, whatever these are, if they are
sufficiently small compared to the tolerance. -/
def SolvesRounded {N : Fin d → ℕ} (kind : Kind d n) (k : Fin d → Idx N → ℝ) (k0 : ℝ) (s : State n N) (E : Field n N) (A σ δ : ℝ) : Prop :=
  ∀ rtol : ℝ, 0 < rtol → ∀ (maxiter : WithTop ℝ) (η : ℝ) (r : ℕ → Rounding n N), (∀ i, (r i).Within (η * (k0 ^ 2 * Backend.norm E))) →
    18 * η * (1 - rateOf A σ δ + rtol) ≤ rtol * (1 - rateOf A σ δ) ^ 2 → ∀ i : ℕ, iterationsRounded A σ δ rtol ≤ i → ∃ t, solveRounded kind k r rtol maxiter s i = .done () t ∧
      (maxiter ≤ ((t.iteration : ℝ) : WithTop ℝ) ∨
        Backend.norm (getE k0 t - E) ≤ (rateOf A σ δ * rtol * (Backend.norm (getE k0 t) + η * Backend.norm E) + 2 * η * Backend.norm E) / (1 - rateOf A σ δ))

/-- **C120 (number of iterations).** When exact iterations bring fields together at the rate for a bias `A`, a contrast `σ`, and an absorption `δ`: with rounding errors, `solve` has returned after
`iterationsRounded A σ δ rtol` iterations. -/
theorem C120_count {N : Fin d → ℕ} {kind : Kind d n} {k : Fin d → Idx N → ℝ} {k0 : ℝ} (hk0 : k0 ≠ 0) {s : State n N} {E : Field n N} {A σ δ : ℝ} (hA : 0 < A) (hσ : σ < A)
    (hδ : 0 < δ) (h : Contraction kind k s (((k0 : ℂ) ^ 2) • E) (rateOf A σ δ)) (hp : s.prevNorm = ⊤) (hs : getE k0 s = 0) (hE : E ≠ 0) : SolvesRounded kind k k0 s E A σ δ := by
  intro rtol hr maxiter η r hw hη i hi
  have hpos : 0 < A - σ := sub_pos.2 hσ
  have hlog : 0 < Real.log (2 * (2 + rtol) / rtol) := Real.log_pos (by rw [lt_div_iff₀ hr]; linarith)
  have hc : A ^ 3 * (A - σ + 4 * δ) / (δ * (A - σ) ^ 3) = 2 / gainOf A σ δ := by
    unfold gainOf
    have : A - σ + 4 * δ ≠ 0 := by positivity
    field_simp
  unfold iterationsRounded at hi
  rw [hc] at hi
  have hg := gainOf_pos hA hσ hδ
  have hi0 : (1 : ℝ) ≤ i := le_trans (by have : 0 ≤ 2 / gainOf A σ δ * Real.log (2 * (2 + rtol) / rtol) := by positivity
                                         linarith) hi
  obtain ⟨j, rfl⟩ : ∃ j, i = j + 1 := ⟨i - 1, by have : 1 ≤ i := by exact_mod_cast hi0
                                                 omega⟩
  push_cast at hi
  have h1 := rateOf_pow hA hσ hδ (div_pos (by linarith) hr : 0 < 2 * (2 + rtol) / rtol) (l := j) (by linarith)
  rw [div_mul_eq_mul_div, div_le_one hr] at h1
  have hn : k0 ^ 2 * Backend.norm E = Backend.norm (((k0 : ℂ) ^ 2) • E) := by rw [norm_smul', norm_pow, norm_real, Real.norm_eq_abs, sq_abs]
  rw [hn] at hw
  exact C120_electric hk0 h hp hs hE hr hw hη maxiter h1 (Nat.lt_succ_self j)

/-! ### Materials that absorb -/

section Absorbing
variable {N : Fin d → ℕ}

theorem Contraction.withMagnetic {kind : Kind d n} {k : Fin d → Idx N → ℝ} {s : State n N} {P : Field n N} {q : ℝ} (h : Contraction kind k s P q) (hm : s.magnetic = false)
    (a b c : Tensor n N) : Contraction kind k (s.withMagnetic a b c) P q := by
  have e : ∀ F, update kind k { s.withMagnetic a b c with field := F } = update kind k { s with field := F } := fun F => update_withMagnetic kind k { s with field := F } hm a b c
  unfold Contraction
  simp only [e]
  exact h

variable {k : Fin d → Idx N → ℝ} (hk : ∀ x, origin x ↔ ∀ a, k a x = 0) (kind : Kind d n) {m : Medium n N} {mag : Bool} {alpha : ℂ} (hα : 0 < alpha.im) {beta : ℝ} (hβ : 0 < beta)
  (hc : Consistent m mag beta) {σ : ℝ} (hdev : ∀ F, Backend.norm (deviation k alpha.re beta kind m F) ≤ σ * Backend.norm F) (hσ : σ < alpha.im * beta)
  {δ : ℝ} (hδ : 0 < δ) (habs : ∀ F, δ * Backend.norm F ^ 2 ≤ (dot F (deviation k alpha.re beta kind m F)).im)
include hk hα hβ hc hdev hσ hδ habs

theorem contraction_absorbing (S F : Field n N) :
    ∃ P, waveOp k beta kind m P = S ∧ Contraction kind k (prepare m mag alpha beta S F) P (rateOf (alpha.im * beta) σ δ) := by
  obtain ⟨P, hP, -⟩ := converges_absorbing (mag := mag) hk kind hα hβ hc hdev hσ hδ habs S F
  have hA : 0 < alpha.im * beta := mul_pos hα hβ
  refine ⟨P, hP, rateOf_nonneg _ _ _, rateOf_lt_one hA hσ hδ, update_zero_of hk kind hα hβ hc S P hP, fun F1 G1 => ?_⟩
  have e : F1 + update kind k { prepare m mag alpha beta S F with field := F1 } - (G1 + update kind k { prepare m mag alpha beta S F with field := G1 }) =
      homogeneous kind k (prepare m mag alpha beta S F) (F1 - G1) := by
    rw [update_eq, update_eq, (homogeneous_isLinear kind k _).map_sub]
    change F1 + (homogeneous kind k (prepare m mag alpha beta S F) F1 - F1 + chiOp k (prepare m mag alpha beta S F) (green kind k alpha (prepare m mag alpha beta S F).source)) -
      (G1 + (homogeneous kind k (prepare m mag alpha beta S F) G1 - G1 + chiOp k (prepare m mag alpha beta S F) (green kind k alpha (prepare m mag alpha beta S F).source))) = _
    abel
  rw [e]
  exact homogeneous_rate hk kind hα hβ hc hdev hσ hδ habs S F (F1 - G1)

end Absorbing

section Vectorial
variable {g : Grid.Obj d ℝ} (hs : ∀ a, g.step a ≠ 0) {k0 : ℝ} (hk0 : k0 ≠ 0) (hd : d ≤ 3) {m : Medium 3 g.shape}
  {muScalar : Bool} {i0 : Fin 3} {x0 : Idx g.shape} {mag : Bool} {alpha : ℂ} {beta σ : ℝ} (hm : Passivity g k0 m alpha.re beta σ)

include hs hk0 hm in
/-- **C120 (contraction).** For all grids, anisotropic and magnetic materials without coupling that absorb at least `δ`, sources and initial fields: an exact iteration brings any two fields together by the factor
`rateOf` of C117. -/
theorem C120_contracts (hc : Chosen m muScalar i0 x0 mag beta) (hr : RealPermeability m mag x0) (hα : 0 < alpha.im) (hβ : 0 < beta) (hσ : σ < alpha.im * beta) {δ : ℝ} (hδ : 0 < δ)
    (habs : ∀ x (v : Fin 3 → ℂ), δ * ∑ i, ‖v i‖ ^ 2 ≤ (star v ⬝ᵥ (m.epsilon x).mulVec v).im) (S F : Field 3 g.shape) :
    ∃ E, WaveEquation (kOf g) k0 m.epsilon m.mu S E ∧
      Contraction (.vectorial hd) (backendK g k0) (prepare m mag alpha beta S F) (((k0 : ℂ) ^ 2) • E) (rateOf (alpha.im * beta) σ δ) := by
  have hk2 : ((k0 : ℂ) ^ 2) ≠ 0 := pow_ne_zero 2 (ofReal_ne hk0)
  have hw := fun S E => waveEquation_iff (C31_backend g hs hk0) hd m hm.xi hm.zeta beta S E
  obtain ⟨P, hP, hq⟩ := contraction_absorbing (mag := mag) (backendK_origin g hs hk0) (.vectorial hd) hα hβ (hc.consistent hr) (hm.deviation_norm hs hk0 hd) hσ hδ
    (hm.deviation_absorbs hd habs) S F
  have hPE : P = ((k0 : ℂ) ^ 2) • (((k0 : ℂ) ^ 2)⁻¹ • P) := by rw [smul_smul, mul_inv_cancel₀ hk2, one_smul]
  set E := ((k0 : ℂ) ^ 2)⁻¹ • P with hE
  exact ⟨E, (hw S E).2 (by rw [← hPE]; exact hP), hPE ▸ hq⟩

end Vectorial

section Constructed
variable {g : Grid.Obj d ℝ} (hs : ∀ a, g.step a ≠ 0) {k0 : ℝ} (hk0 : 0 < k0) (hd : d ≤ 3) {m : Medium 3 g.shape} (hxi : ∀ x, m.xi x = 0)
  (hzeta : ∀ x, m.zeta x = 0) (hgain : NoGain m.epsilon) (hmu : NoGain m.mu) {tol : ℝ} (htol : 0 ≤ tol) (thickness : List ℝ) (x0 : Idx g.shape)
  (hβ : 0 < ((m.mu x0)⁻¹ 0 0).re) (alphaR : ℝ) {δ : ℝ} (hδ : 0 < δ)
  (habs : ∀ x (v : Fin 3 → ℂ), δ * ∑ i, ‖v i‖ ^ 2 ≤ (star v ⬝ᵥ (m.epsilon x).mulVec v).im)
include hs hk0 hxi hzeta hgain hmu htol hβ hδ habs

/-- **C120 (as constructed).** For the constants that the code selects for a medium that it finds not to be magnetic. -/
theorem C120_constructed {s : ℝ} (h0 : 0 ≤ s) (hw : Within (fun x => m.epsilon x - (((m.constantsNonMagnetic tol k0 thickness 0 x0 alphaR).1.re *
      (m.constantsNonMagnetic tol k0 thickness 0 x0 alphaR).2 : ℝ) : ℂ) • 1) s)
    (hlt : s < (m.constantsNonMagnetic tol k0 thickness 0 x0 alphaR).1.im * (m.constantsNonMagnetic tol k0 thickness 0 x0 alphaR).2) (S F : Field 3 g.shape) :
    ∃ E, WaveEquation (kOf g) k0 m.epsilon (fun _ => (((m.mu x0)⁻¹ 0 0).re : ℂ)⁻¹ • 1) S E ∧
      Contraction (.vectorial hd) (backendK g k0) (prepare m false (m.constantsNonMagnetic tol k0 thickness 0 x0 alphaR).1
        (m.constantsNonMagnetic tol k0 thickness 0 x0 alphaR).2 S F) (((k0 : ℂ) ^ 2) • E)
        (rateOf ((m.constantsNonMagnetic tol k0 thickness 0 x0 alphaR).1.im * (m.constantsNonMagnetic tol k0 thickness 0 x0 alphaR).2) s δ) := by
  have hP := tolerance_bound hs hk0 hxi hzeta hgain hmu htol thickness x0 hβ alphaR h0 hw
  set c := m.constantsNonMagnetic tol k0 thickness 0 x0 alphaR with hc
  have hbp : 0 < c.2 := hβ
  have him : 0 < c.1.im := by
    by_contra hn
    push Not at hn
    have := mul_nonpos_of_nonpos_of_nonneg hn hbp.le
    linarith
  obtain ⟨hch, hr⟩ := effective_chosen m hbp.ne' 0 x0
  have heps : (m.effective c.2).epsilon = m.epsilon := by
    change m.epsilonPrime = m.epsilon
    exact epsilonPrime_eq hxi
  have hmu' : (m.effective c.2).mu = fun _ => (((m.mu x0)⁻¹ 0 0).re : ℂ)⁻¹ • 1 := rfl
  obtain ⟨E, hE, hconv⟩ := C120_contracts hs hk0.ne' hd hP hch hr him hbp hlt hδ (by rw [heps]; exact habs) S F
  rw [heps, hmu'] at hE
  obtain ⟨a, b, t, e⟩ := prepare_effective m c.1 c.2 S F
  refine ⟨E, hE, ?_⟩
  rw [e]
  exact hconv.withMagnetic rfl a b t

end Constructed

section Scalar
variable {g : Grid.Obj d ℝ} (hs : ∀ a, g.step a ≠ 0) {k0 : ℝ} (hk0 : k0 ≠ 0) {m : Medium 1 g.shape} (x0 : Idx g.shape) {mag : Bool} {alpha : ℂ} {beta σ : ℝ}
include hs hk0 x0

/-- **C120 (scalar).** The same for all scalar calculations, magnetic or not. -/
theorem C120_scalar (hα : 0 < alpha.im) (hβ : 0 < beta) (hb : ∀ x, ‖m.scalarEpsilon x - (alpha.re * beta : ℝ)‖ ≤ σ) (hσ : σ < alpha.im * beta) {δ : ℝ} (hδ : 0 < δ)
    (habs : ∀ x, δ ≤ (m.scalarEpsilon x).im) (S F : Field 1 g.shape) :
    ∃ E : Field 1 g.shape, ScalarWaveEquation (kOf g) k0 m.scalarEpsilon (beta : ℂ)⁻¹ (S 0) (E 0) ∧
      Contraction .scalar (backendK g k0) (prepare m mag alpha beta S F) (((k0 : ℂ) ^ 2) • E) (rateOf (alpha.im * beta) σ δ) := by
  have hk2 : ((k0 : ℂ) ^ 2) ≠ 0 := pow_ne_zero 2 (ofReal_ne hk0)
  have hgain : ∀ x, 0 ≤ (m.scalarEpsilon x).im := fun x => hδ.le.trans (habs x)
  have hp := scalar_passivity hgain hb
  have hxi : ∀ x, (m.effective beta).xi x = 0 := fun _ => rfl
  have hdev := hp.deviation_norm (k0 := k0) hxi
  have habs' : ∀ F, δ * Backend.norm F ^ 2 ≤ (dot F (deviation (backendK g k0) alpha.re beta .scalar (m.effective beta) F)).im := by
    intro F
    rw [deviation_im_scalar, epsilonPrime_eq hxi, norm_sq, Finset.sum_comm, Finset.mul_sum]
    refine Finset.sum_le_sum fun x _ => ?_
    have e : (m.effective beta).epsilon x 0 0 = m.scalarEpsilon x := epsilonPrime_one m x
    simp only [Matrix.mulVec, dotProduct, Finset.univ_unique, Finset.sum_singleton, Fin.default_eq_zero, Pi.star_apply, RCLike.star_def]
    rw [mul_left_comm, ← Complex.normSq_eq_conj_mul_self, mul_comm ((m.effective beta).epsilon x 0 0), im_ofReal_mul, e, normSq_eq_norm_sq, mul_comm]
    exact mul_le_mul_of_nonneg_left (habs x) (sq_nonneg _)
  have hw := fun S E => scalar_iff_all hs hk0 (m := m) x0 hα hβ S E
  have key : ∀ (q : ℝ) (S : Field 1 g.shape) (s : State 1 g.shape), (∃ P, waveOp (backendK g k0) beta .scalar m P = S ∧ Contraction .scalar (backendK g k0) s P q) →
      ∃ E : Field 1 g.shape, ScalarWaveEquation (kOf g) k0 m.scalarEpsilon (beta : ℂ)⁻¹ (S 0) (E 0) ∧ Contraction .scalar (backendK g k0) s (((k0 : ℂ) ^ 2) • E) q := by
    rintro q S s ⟨P, hP, hq⟩
    have hPE : P = ((k0 : ℂ) ^ 2) • (((k0 : ℂ) ^ 2)⁻¹ • P) := by rw [smul_smul, mul_inv_cancel₀ hk2, one_smul]
    exact ⟨((k0 : ℂ) ^ 2)⁻¹ • P, (hw S _).2 (by rw [← hPE]; exact hP), by rw [← hPE]; exact hq⟩
  cases mag with
  | true =>
    exact key _ S _ (contraction_absorbing (mag := true) (m := m) (backendK_origin g hs hk0) .scalar hα hβ (.inl rfl) (fun G => by rw [deviation_scalar]; exact hdev G) hσ hδ
      (fun G => by rw [deviation_scalar]; exact habs' G) S F)
  | false =>
    obtain ⟨P, hP, hq⟩ := contraction_absorbing (mag := false) (m := m.effective beta) (backendK_origin g hs hk0) .scalar hα hβ (effective_consistent m false hβ.ne') hdev hσ hδ
      habs' S F
    obtain ⟨a, b, c, e⟩ := prepare_effective m alpha beta S F
    obtain ⟨E, h1, h2⟩ := key _ S (prepare (m.effective beta) false alpha beta S F) ⟨P, by rw [← hP]; simp only [waveOp, effective_epsilonPrime], hq⟩
    refine ⟨E, h1, ?_⟩
    rw [e]
    exact h2.withMagnetic rfl a b c

end Scalar

end Verif.Solver
