import Verif.Props.SolverLive
import Verif.Lemmas.SolverRepresents
import Verif.Props.SolverResidue
import Verif.Props.ProblemRuns
import Verif.Props.ProblemExamples
import Mathlib.Analysis.SpecificLimits.Normed

/-!
# C101: a residue that tends to zero, with a field that does not tend to the solution
-/

namespace Verif.Solver

open Verif Verif.Fourier Verif.Backend Complex Filter Topology
open Verif.Spec.Solver (WaveEquation)

variable {d : ℕ} {N : Fin d → ℕ}

/-- A uniform medium that absorbs light with two of the three polarizations and amplifies the third. -/
noncomputable def amplifier (N : Fin d → ℕ) : Medium 3 N where
  epsilon := fun _ => Matrix.diagonal fun c => if c = 1 then -I else I
  xi := fun _ => 0
  zeta := fun _ => 0
  mu := fun _ => 1

/-- The uniform field that is polarized along the second axis. -/
def alongSecond (v : ℂ) : Field 3 N := fun c _ => if c = 1 then v else 0

theorem alongSecond_add (v w : ℂ) : (alongSecond v : Field 3 N) + alongSecond w = alongSecond (v + w) := by
  funext c x
  simp only [Pi.add_apply, alongSecond]
  split_ifs <;> simp

theorem alongSecond_sub (v w : ℂ) : (alongSecond v : Field 3 N) - alongSecond w = alongSecond (v - w) := by
  funext c x
  simp only [Pi.sub_apply, alongSecond]
  split_ifs <;> simp

theorem alongSecond_smul (a v : ℂ) : a • (alongSecond v : Field 3 N) = alongSecond (a * v) := by
  funext c x
  simp only [Pi.smul_apply, alongSecond, smul_eq_mul]
  split_ifs <;> simp

theorem norm_alongSecond (v : ℂ) : Backend.norm (alongSecond v : Field 3 N) = ‖v‖ * Backend.norm (alongSecond 1 : Field 3 N) := by
  rw [← norm_smul', alongSecond_smul, mul_one]

theorem norm_alongSecond_one (x0 : Idx N) : 0 < Backend.norm (alongSecond 1 : Field 3 N) := by
  refine lt_of_le_of_ne (norm_nonneg' _) fun h => ?_
  have := congrFun (congrFun ((norm_eq_zero_iff _).1 h.symm) 1) x0
  exact one_ne_zero this

section Constant
variable {k : Fin d → Idx N → ℝ} (hk : ∀ x, origin x → ∀ a, k a x = 0)

theorem ft_alongSecond (v : ℂ) (c : Fin 3) (q : Idx N) : ft ((alongSecond v : Field 3 N) c) q = if origin q then (if c = 1 then v else 0) * ∏ a, (N a : ℂ) else 0 := ft_constant _ q

include hk

theorem green_alongSecond (hd : d ≤ 3) {alpha : ℂ} (v : ℂ) : green (.vectorial hd) k alpha (alongSecond v) = alongSecond (I * (alpha.im : ℂ) / alpha * v) := by
  unfold green convolve
  funext c
  have e : greenFt k alpha (.vectorial hd) (fun c' => ft ((alongSecond v : Field 3 N) c')) c = ft ((alongSecond (I * (alpha.im : ℂ) / alpha * v) : Field 3 N) c) := by
    funext q
    rw [ft_alongSecond]
    simp only [greenFt]
    by_cases ho : origin q
    · have hg : gScalar k alpha q = I * (alpha.im : ℂ) / alpha := by
        unfold gScalar
        rw [k2_origin hk ho, ofReal_zero, zero_sub, neg_mul, neg_div_neg_eq]
      rw [hg, ← add_mul, sub_add_cancel, ft_alongSecond, if_pos ho, if_pos ho]
      split_ifs <;> ring
    · have hz : ∀ c, ft ((alongSecond v : Field 3 N) c) q = 0 := fun c => by rw [ft_alongSecond, if_neg ho]
      have hl : longitudinalFt k origin hd (fun c' => ft ((alongSecond v : Field 3 N) c')) c q = 0 := by
        simp only [longitudinalFt, hz, mul_zero, Finset.sum_const_zero, zero_div, ite_self, dite_eq_ite]
      rw [hl, hz, if_neg ho]
      simp
  rw [e, C23_ift_ft]

omit hk in
theorem amplifier_chi {S : Field 3 N} {s : State 3 N} (h : Represents (amplifier N) false S s) (hβ : s.beta = 1) (v : ℂ) :
    chiOp k s (alongSecond v) = alongSecond ((-I - s.alpha) * (I / (s.alpha.im : ℂ)) * v) := by
  rw [chiOp_nonmagnetic _ _ h.magnetic, h.chiEE]
  funext c x
  simp only [mulField, amplifier, Medium.epsilonPrime, zero_mul, sub_zero, factor, hβ, ofReal_one, div_one, alongSecond, Matrix.sub_apply, Matrix.smul_apply, smul_eq_mul, Matrix.diagonal_apply,
    Matrix.one_apply]
  rw [Fin.sum_univ_three]
  fin_cases c <;> simp
  left
  ring

/-- The change of the field relative to the error, for a medium that is amplified. -/
noncomputable def amplification (alpha : ℂ) : ℂ := (1 + I / alpha) / (alpha.im : ℂ)

theorem amplifier_update (hd : d ≤ 3) {s : State 3 N} (h : Represents (amplifier N) false (alongSecond 1) s) (hβ : s.beta = 1) {v : ℂ} (hf : s.field = alongSecond v) :
    update (.vectorial hd) k s = alongSecond (amplification s.alpha * (v + I)) := by
  have h1 := ofReal_ne h.alpha_ne
  have h2 : s.alpha ≠ 0 := fun e => h.alpha_ne (by rw [e]; rfl)
  have hs : s.source = alongSecond (I / (s.alpha.im : ℂ)) := by
    rw [h.source]
    funext c x
    simp only [alongSecond, factor, hβ, ofReal_one, div_one]
    split_ifs <;> simp
  have e : update (.vectorial hd) k s = chiOp k s (green (.vectorial hd) k s.alpha (chiOp k s s.field + s.source) - s.field) := rfl
  rw [e, hf, hs, amplifier_chi h hβ, alongSecond_add, green_alongSecond hk, alongSecond_sub, amplifier_chi h hβ]
  congr 1
  unfold amplification
  generalize s.alpha = α at *
  generalize ((α.im : ℝ) : ℂ) = b at *
  field_simp
  ring_nf
  simp only [I_sq, show I ^ 3 = -I by rw [pow_succ, I_sq]; ring, show I ^ 4 = 1 from I_pow_four, show I ^ 5 = I by rw [pow_succ, I_pow_four, one_mul]]
  ring

omit hk in
theorem amplification_re {alpha : ℂ} (h : 0 < alpha.im) : 0 < (amplification alpha).re := by
  have h2 : 0 < normSq alpha := normSq_pos.2 fun e => by rw [e] at h; simp at h
  unfold amplification
  rw [div_ofReal_re]
  refine div_pos ?_ h
  rw [add_re, one_re, div_re, I_re, I_im]
  have : 0 ≤ alpha.im / normSq alpha := by positivity
  simp only [zero_mul, zero_div, one_mul, zero_add]
  linarith

omit hk in
theorem amplification_gt {alpha : ℂ} (h : 0 < alpha.im) : 1 < ‖1 + amplification alpha‖ := by
  have h1 := re_le_norm (1 + amplification alpha)
  rw [add_re, one_re] at h1
  linarith [amplification_re h]

omit hk in
theorem amplification_le {alpha : ℂ} (h : 0 < alpha.im) : ‖amplification alpha‖ ≤ (1 + 1 / alpha.im) / alpha.im := by
  unfold amplification
  rw [norm_div, norm_real, Real.norm_of_nonneg h.le]
  refine div_le_div_of_nonneg_right ((norm_add_le _ _).trans ?_) h.le
  rw [norm_one, norm_div, norm_I]
  have := (abs_im_le_norm alpha)
  rw [abs_of_pos h] at this
  gcongr

/-- A state of a calculation with the medium `amplifier`, a source 1 and a field `v`, along the second axis. -/
structure Amplifies (t : State 3 N) (v : ℂ) : Prop where
  represents : Represents (amplifier N) false (alongSecond 1) t
  beta : t.beta = 1
  field : t.field = alongSecond v
  positive : 0 < t.alpha.im
  unfinished : ((0 : ℝ) : WithTop ℝ) < t.prevNorm

/-- What an iteration does. -/
theorem amplifier_step (x0 : Idx N) (hd : d ≤ 3) {t : State 3 N} {v : ℂ} (h : Amplifies t v) (hv : 0 < ‖v + I‖) :
    ∃ t' v', step (.vectorial hd) k t = .ok t' ∧ Amplifies t' v' ∧
      ((v' + I = (1 + amplification t.alpha) * (v + I) ∧ t'.alpha = t.alpha ∧ t'.prevNorm = ((‖amplification t.alpha‖ * ‖v + I‖ * Backend.norm (alongSecond 1 : Field 3 N) : ℝ) : WithTop ℝ) ∧
          ((‖amplification t.alpha‖ * ‖v + I‖ * Backend.norm (alongSecond 1 : Field 3 N) : ℝ) : WithTop ℝ) < t.prevNorm) ∨
        (v' = v ∧ t'.alpha = increased t.alpha ∧ t'.prevNorm = t.prevNorm)) := by
  have hM := norm_alongSecond_one x0
  have hu := amplifier_update hk hd h.represents h.beta h.field
  have hn : Backend.norm (update (.vectorial hd) k t) = ‖amplification t.alpha‖ * ‖v + I‖ * Backend.norm (alongSecond 1 : Field 3 N) := by
    rw [hu, norm_alongSecond, norm_mul]
  have ha : 0 < ‖amplification t.alpha‖ := norm_pos_iff.2 fun e => by
    have := amplification_re h.positive
    rw [e] at this
    simp at this
  have hs := step_eq (.vectorial hd) k t h.unfinished.ne' h.unfinished.le
  have hr := fun t' => h.represents.step (.vectorial hd) k h.unfinished.le (t := t')
  rw [hn] at hs
  by_cases hlt : ((‖amplification t.alpha‖ * ‖v + I‖ * Backend.norm (alongSecond 1 : Field 3 N) : ℝ) : WithTop ℝ) < t.prevNorm
  · rw [if_pos hlt] at hs
    refine ⟨_, v + amplification t.alpha * (v + I), hs, ⟨hr _ hs, h.beta, ?_, h.positive, WithTop.coe_lt_coe.2 (by positivity)⟩, .inl ⟨by ring, rfl, rfl, hlt⟩⟩
    show (fun c x => t.field c x + update (.vectorial hd) k t c x) = _
    rw [hu, h.field]
    exact alongSecond_add _ _
  · rw [if_neg hlt] at hs
    refine ⟨_, v, hs, ⟨hr _ hs, h.beta, h.field, ?_, h.unfinished⟩, .inr ⟨rfl, rfl, rfl⟩⟩
    show 0 < (increased t.alpha).im
    rw [increased_im]
    have := h.positive
    positivity

/-- The error does not decrease. -/
theorem amplifier_run (x0 : Idx N) (hd : d ≤ 3) {s : State 3 N} {v : ℂ} (h : Amplifies s v) (hv : 0 < ‖v + I‖) (i : ℕ) :
    ∃ t w, run (.vectorial hd) k s i = .ok t ∧ Amplifies t w ∧ ‖v + I‖ ≤ ‖w + I‖ := by
  induction i with
  | zero => exact ⟨s, v, rfl, h, le_rfl⟩
  | succ i ih =>
    obtain ⟨t, w, ht, hA, hw⟩ := ih
    obtain ⟨t', w', ht', hA', hc⟩ := amplifier_step hk x0 hd hA (hv.trans_le hw)
    refine ⟨t', w', by simp only [run, ht]; exact ht', hA', hw.trans ?_⟩
    rcases hc with ⟨h1, -⟩ | ⟨h1, -⟩
    · rw [h1, norm_mul]
      exact le_mul_of_one_le_left (norm_nonneg _) (amplification_gt hA.positive).le
    · rw [h1]

omit hk in
theorem alongSecond_injective (x0 : Idx N) {v w : ℂ} (h : (alongSecond v : Field 3 N) = alongSecond w) : v = w := congrFun (congrFun h 1) x0

/-- After an iteration that is accepted, the next one that is accepted has a larger bias. -/
theorem amplifier_next (x0 : Idx N) (hd : d ≤ 3) {t : State 3 N} {v w : ℂ} (h : Amplifies t w) (hv : 0 < ‖v + I‖) (hvw : ‖v + I‖ ≤ ‖w + I‖)
    (hp : t.prevNorm = ((‖amplification t.alpha‖ * ‖v + I‖ * Backend.norm (alongSecond 1 : Field 3 N) : ℝ) : WithTop ℝ)) :
    ∃ j t' w', run (.vectorial hd) k t (j + 1) = .ok t' ∧ Amplifies t' w' ∧ 1.5 * t.alpha.im ≤ t'.alpha.im ∧ ‖w + I‖ ≤ ‖w' + I‖ ∧
      ‖w' + I‖ ≤ ‖w + I‖ + ‖amplification t.alpha‖ * ‖v + I‖ ∧
      t'.prevNorm = ((‖amplification t'.alpha‖ * ‖w + I‖ * Backend.norm (alongSecond 1 : Field 3 N) : ℝ) : WithTop ℝ) ∧
      ‖amplification t'.alpha‖ * ‖w + I‖ < ‖amplification t.alpha‖ * ‖v + I‖ := by
  have hM := norm_alongSecond_one x0
  obtain ⟨j, u, u', h1, h2, h3, h4, -, h5, h6, h7, h8⟩ := C100_progress (.vectorial hd) k h.represents.alpha_ne h.unfinished
  obtain ⟨u₁, w₁, e1, hA, -⟩ := amplifier_run hk x0 hd h (hv.trans_le hvw) j
  rw [h1] at e1
  obtain rfl := Except.ok.inj e1
  have hw : w₁ = w := alongSecond_injective x0 (by rw [← hA.field, h3, h.field])
  subst hw
  obtain ⟨u₂, w₂, e2, hA2, hc⟩ := amplifier_step hk x0 hd hA (hv.trans_le hvw)
  have e3 : run (.vectorial hd) k t (j + 1) = .ok u₂ := by simp only [run, h1]; exact e2
  rw [h2] at e3
  obtain rfl := Except.ok.inj e3
  rcases hc with ⟨c1, c2, c3, c4⟩ | ⟨c1, c2, c3⟩
  · rw [h4, hp] at c4
    have c5 := lt_of_mul_lt_mul_right (WithTop.coe_lt_coe.1 c4) hM.le
    refine ⟨j, u', w₂, h2, hA2, ?_, ?_, ?_, ?_, ?_⟩
    · cases j with
      | zero =>
        obtain rfl : t = u := Except.ok.inj h1
        exact absurd c5 (not_lt.2 (mul_le_mul_of_nonneg_left hvw (norm_nonneg _)))
      | succ j =>
        rw [c2, h5]
        have : (1 : ℝ) ≤ 1.5 ^ j := one_le_pow₀ (by norm_num)
        rw [pow_succ]
        nlinarith [h.positive]
    · rw [c1, norm_mul]
      exact le_mul_of_one_le_left (norm_nonneg _) (amplification_gt hA.positive).le
    · rw [c1, add_mul, one_mul]
      refine (norm_add_le _ _).trans ?_
      rw [norm_mul]
      linarith
    · rw [c2]
      exact c3
    · rw [c2]
      exact c5
  · rw [hA2.field, h.field, c1] at h6 h7
    rw [c3, h4, sub_self] at h7
    rw [sub_self] at h6
    exact absurd h7.symm h6.ne

/-- The iterations that are accepted. -/
theorem amplifier_accepted (x0 : Idx N) (hd : d ≤ 3) {t : State 3 N} {v w : ℂ} (h : Amplifies t w) (hv : 0 < ‖v + I‖) (hvw : ‖v + I‖ ≤ ‖w + I‖)
    (hp : t.prevNorm = ((‖amplification t.alpha‖ * ‖v + I‖ * Backend.norm (alongSecond 1 : Field 3 N) : ℝ) : WithTop ℝ)) (l : ℕ) :
    ∃ i t' v' w', run (.vectorial hd) k t i = .ok t' ∧ Amplifies t' w' ∧ 1.5 ^ l * t.alpha.im ≤ t'.alpha.im ∧ ‖v + I‖ ≤ ‖v' + I‖ ∧ ‖v' + I‖ ≤ ‖w' + I‖ ∧ ‖w + I‖ ≤ ‖w' + I‖ ∧
      ‖w' + I‖ ≤ ‖w + I‖ + l * (‖amplification t.alpha‖ * ‖v + I‖) ∧
      t'.prevNorm = ((‖amplification t'.alpha‖ * ‖v' + I‖ * Backend.norm (alongSecond 1 : Field 3 N) : ℝ) : WithTop ℝ) ∧
      ‖amplification t'.alpha‖ * ‖v' + I‖ ≤ ‖amplification t.alpha‖ * ‖v + I‖ := by
  induction l with
  | zero => exact ⟨0, t, v, w, rfl, h, by simp, le_rfl, hvw, le_rfl, by simp, hp, le_rfl⟩
  | succ l ih =>
    obtain ⟨i, t', v', w', a1, a2, a3, a4, a5, a6, a7, a8, a9⟩ := ih
    obtain ⟨j, t'', w'', b1, b2, b3, b4, b5, b6, b7⟩ := amplifier_next hk x0 hd a2 (hv.trans_le a4) a5 a8
    refine ⟨i + (j + 1), t'', w', w'', by rw [run_add _ k a1]; exact b1, b2, ?_, a4.trans a5, b4, a6.trans b4, ?_, b6, b7.le.trans a9⟩
    · rw [pow_succ]
      linarith
    · push_cast
      linarith

/-- The changes of the field vanish. -/
theorem amplifier_vanishes (x0 : Idx N) (hd : d ≤ 3) {t : State 3 N} {v w : ℂ} (h : Amplifies t w) (hv : 0 < ‖v + I‖) (hvw : ‖v + I‖ ≤ ‖w + I‖)
    (hp : t.prevNorm = ((‖amplification t.alpha‖ * ‖v + I‖ * Backend.norm (alongSecond 1 : Field 3 N) : ℝ) : WithTop ℝ)) {e : ℝ} (he : 0 < e) :
    ∃ i t' w' p, run (.vectorial hd) k t i = .ok t' ∧ Amplifies t' w' ∧ ‖w + I‖ ≤ ‖w' + I‖ ∧ t'.prevNorm = ((p * Backend.norm (alongSecond 1 : Field 3 N) : ℝ) : WithTop ℝ) ∧ p < e := by
  have hb := h.positive
  set b := t.alpha.im with hbdef
  set P := ‖amplification t.alpha‖ * ‖v + I‖ with hP
  have hlim : Tendsto (fun l : ℕ => (1 + 1 / b) / b * ((2 / 3 : ℝ) ^ l * ‖w + I‖ + P * (l * (2 / 3 : ℝ) ^ l))) atTop (𝓝 0) := by
    have h1 := (tendsto_pow_atTop_nhds_zero_of_lt_one (r := (2 / 3 : ℝ)) (by norm_num) (by norm_num)).mul_const ‖w + I‖
    have h2 := (tendsto_self_mul_const_pow_of_lt_one (r := (2 / 3 : ℝ)) (by norm_num) (by norm_num)).const_mul P
    have h3 := (h1.add h2).const_mul ((1 + 1 / b) / b)
    simpa using h3
  obtain ⟨l, hl⟩ := (hlim.eventually (gt_mem_nhds he)).exists
  obtain ⟨i, t', v', w', a1, a2, a3, a4, a5, a6, a7, a8, -⟩ := amplifier_accepted hk x0 hd h hv hvw hp l
  refine ⟨i, t', w', _, a1, a2, a6, a8, lt_of_le_of_lt ?_ hl⟩
  have hpow : (0 : ℝ) < 1.5 ^ l := by positivity
  have hone : (1 : ℝ) ≤ 1.5 ^ l := one_le_pow₀ (by norm_num)
  have hbb : b ≤ t'.alpha.im := le_trans (by nlinarith) a3
  have h23 : (2 / 3 : ℝ) ^ l = (1.5 ^ l)⁻¹ := by
    rw [← inv_pow]
    norm_num
  have hamp : ‖amplification t'.alpha‖ ≤ (1 + 1 / b) / b * (2 / 3 : ℝ) ^ l := by
    refine (amplification_le a2.positive).trans ?_
    rw [h23, ← div_eq_mul_inv, div_div, mul_comm b]
    have := a2.positive
    gcongr
  calc ‖amplification t'.alpha‖ * ‖v' + I‖ ≤ (1 + 1 / b) / b * (2 / 3 : ℝ) ^ l * (‖w + I‖ + l * P) := by
        refine mul_le_mul hamp (a5.trans a7) (norm_nonneg _) ?_
        positivity
    _ = _ := by ring

/-- The relative residue vanishes, and can always be read. -/
theorem amplifier_residue (x0 : Idx N) (hd : d ≤ 3) {s : State 3 N} (h : Amplifies s 0) (hp : s.prevNorm = ⊤) :
    (∀ i, ∃ t w r, run (.vectorial hd) k s (i + 1) = .ok t ∧ Amplifies t w ∧ 1 < ‖w + I‖ ∧ (relativeResidue t).1 = .ok r) ∧
      ∀ rtol > 0, ∃ i t, run (.vectorial hd) k s (i + 1) = .ok t ∧ ∃ r ≤ ((rtol : ℝ) : WithTop ℝ), (relativeResidue t).1 = .ok r := by
  have hM := norm_alongSecond_one x0
  have hI : ‖(0 : ℂ) + I‖ = 1 := by rw [zero_add, norm_I]
  obtain ⟨t1, w1, b1, b2, b3⟩ := amplifier_step hk x0 hd h (by rw [hI]; exact one_pos)
  have b1' : run (.vectorial hd) k s 1 = .ok t1 := by simp only [run]; exact b1
  have hacc : t1.prevNorm = ((‖amplification t1.alpha‖ * ‖(0 : ℂ) + I‖ * Backend.norm (alongSecond 1 : Field 3 N) : ℝ) : WithTop ℝ) ∧ 1 < ‖w1 + I‖ := by
    obtain ⟨-, c, -⟩ := C37_iteration (.vectorial hd) k (s := s) (by rw [hp]; exact le_top) (i := 0) rfl b1'
    have hne : t1.prevNorm ≠ ⊤ := by
      rcases c with ⟨-, c, -⟩ | ⟨c, -⟩
      · rw [c]
        exact WithTop.coe_ne_top
      · exfalso
        rw [step_eq (.vectorial hd) k s h.unfinished.ne' h.unfinished.le, if_pos (by rw [hp]; exact WithTop.coe_lt_top _)] at b1
        have e := congrArg State.field (Except.ok.inj b1)
        rw [c] at e
        have hu := amplifier_update hk hd h.represents h.beta h.field
        have e2 := congrFun (congrFun e 1) x0
        simp only [hu, alongSecond, if_true] at e2
        have e3 : amplification s.alpha * (0 + I) = 0 := by
          have : s.field 1 x0 + amplification s.alpha * (0 + I) = s.field 1 x0 := e2
          simpa using this
        have e4 := amplification_re h.positive
        rw [zero_add, mul_eq_zero] at e3
        rcases e3 with e3 | e3
        · rw [e3] at e4
          simp at e4
        · exact I_ne_zero e3
    rcases b3 with ⟨c1, c2, c3, -⟩ | ⟨-, -, c3⟩
    · refine ⟨by rw [c2]; exact c3, ?_⟩
      rw [c1, norm_mul, hI, mul_one]
      exact amplification_gt h.positive
    · rw [hp] at c3
      exact absurd c3 hne
  have hres : ∀ (t : State 3 N) (w : ℂ) (p : ℝ), Amplifies t w → 1 < ‖w + I‖ → t.residue = none → t.prevNorm = ((p * Backend.norm (alongSecond 1 : Field 3 N) : ℝ) : WithTop ℝ) →
      (relativeResidue t).1 = .ok ((p / ‖w‖ : ℝ) : WithTop ℝ) := by
    intro t w p hA hw hr hpn
    have hw0 : 0 < ‖w‖ := by
      have := norm_add_le w I
      rw [norm_I] at this
      linarith
    have hnf : Backend.norm t.field = ‖w‖ * Backend.norm (alongSecond 1 : Field 3 N) := by rw [hA.field, norm_alongSecond]
    have hpos : 0 < p * Backend.norm (alongSecond 1 : Field 3 N) := by
      have := hA.unfinished
      rw [hpn] at this
      exact WithTop.coe_lt_coe.1 this
    unfold relativeResidue
    rw [hr, hpn]
    simp only [WithTop.some_eq_coe, if_pos hpos, hnf, if_neg (mul_pos hw0 hM).ne', mul_div_mul_right _ _ hM.ne']
  have hrun : ∀ i, ∃ t w, run (.vectorial hd) k s (i + 1) = .ok t ∧ Amplifies t w ∧ ‖w1 + I‖ ≤ ‖w + I‖ := fun i => by
    obtain ⟨t, w, e1, e2, e3⟩ := amplifier_run hk x0 hd b2 (by linarith) i
    exact ⟨t, w, by rw [add_comm, run_add _ k b1']; exact e1, e2, e3⟩
  constructor
  · intro i
    obtain ⟨t, w, e1, e2, e3⟩ := hrun i
    have hle := run_prevNorm_le (.vectorial hd) k (s := t1) b2.unfinished.le (i := i) (t := t) (by rw [add_comm, run_add _ k b1'] at e1; exact e1)
    have hne : t.prevNorm ≠ ⊤ := fun e => by
      rw [e, hacc.1, top_le_iff] at hle
      exact WithTop.coe_ne_top hle
    obtain ⟨p, hpn⟩ := WithTop.ne_top_iff_exists.1 hne
    exact ⟨t, w, _, e1, e2, hacc.2.trans_le e3, hres t w (p / Backend.norm (alongSecond 1 : Field 3 N)) e2 (hacc.2.trans_le e3) (run_residue_none e1) (by
      rw [div_mul_cancel₀ _ hM.ne']
      exact hpn.symm)⟩
  · intro rtol hr
    obtain ⟨i, t, w, p, e1, e2, e3, e4, e5⟩ := amplifier_vanishes hk x0 hd b2 (v := 0) (by rw [hI]; exact one_pos) (by rw [hI]; exact hacc.2.le) hacc.1
      (e := rtol * (‖w1 + I‖ - 1)) (mul_pos hr (by linarith [hacc.2]))
    have e1' : run (.vectorial hd) k s (i + 1) = .ok t := by rw [add_comm, run_add _ k b1']; exact e1
    refine ⟨i, t, e1', _, ?_, hres t w p e2 (hacc.2.trans_le e3) (run_residue_none e1') e4⟩
    have hw := norm_add_le w I
    rw [norm_I] at hw
    have hw0 : ‖w1 + I‖ - 1 ≤ ‖w‖ := by linarith
    have hw1 : 0 < ‖w‖ := by linarith [hacc.2]
    refine WithTop.coe_le_coe.2 ((div_le_iff₀ hw1).2 ?_)
    nlinarith

omit hk in
theorem amplifier_not_transposed (x0 : Idx N) {tol : ℝ} (htol : tol < 1) : ¬ (amplifier N).transposed tol := by
  rintro ⟨-, h⟩
  refine h (.inl ⟨x0, -1, (mem_roots_iff _ _).2 ⟨Pi.single 0 1, ?_, ?_⟩, by simpa using htol⟩)
  · exact fun e => one_ne_zero (α := ℂ) (by simpa using congrFun e 0)
  · funext c
    simp only [amplifier, Matrix.conjTranspose_neg, Matrix.diagonal_conjTranspose, Matrix.smul_mulVec, Matrix.sub_mulVec, Matrix.neg_mulVec, Matrix.mulVec_diagonal, Pi.smul_apply,
      Pi.sub_apply, Pi.neg_apply, Pi.star_apply, smul_eq_mul]
    by_cases hc : c = 0
    · subst hc
      simp
      ring_nf
      simp
    · simp [hc]

/-- The left-hand side of the wave equation minus the right-hand side. -/
noncomputable def mismatch (k : Fin d → Idx N → ℝ) (k0 : ℝ) (epsilon mu : Tensor 3 N) (S E : Field 3 N) : Field 3 N := fun c x =>
  Spec.Solver.curl k (Spec.Solver.act (fun x => (mu x)⁻¹) (Spec.Solver.curl k E)) c x - (k0 : ℂ) ^ 2 * Spec.Solver.act epsilon E c x - S c x

omit hk in
theorem mismatch_zero_iff (k : Fin d → Idx N → ℝ) (k0 : ℝ) (epsilon mu : Tensor 3 N) (S E : Field 3 N) : mismatch k k0 epsilon mu S E = 0 ↔ WaveEquation k k0 epsilon mu S E := by
  constructor
  · intro h c x
    exact sub_eq_zero.1 (congrFun (congrFun h c) x)
  · intro h
    funext c x
    exact sub_eq_zero.2 (h c x)

theorem curl_alongSecond (v : ℂ) : Spec.Solver.curl k (alongSecond v) = 0 := by
  funext c
  unfold Spec.Solver.curl
  have e : (fun x : Idx N => I * crossProduct (Spec.Backend.kVector k x) (fun c' => ft ((alongSecond v : Field 3 N) c') x) c) = 0 := by
    funext q
    by_cases ho : origin q
    · have : Spec.Backend.kVector k q = 0 := by
        funext a
        unfold Spec.Backend.kVector
        split_ifs
        · rw [hk q ho, ofReal_zero]
          rfl
        · rfl
      rw [this]
      simp
    · have : (fun c' => ft ((alongSecond v : Field 3 N) c') q) = 0 := by
        funext c'
        rw [ft_alongSecond, if_neg ho]
        rfl
      rw [this]
      simp
  rw [e, ift_isLinear.map_zero]
  rfl

theorem mismatch_amplifier (k0 : ℝ) (v : ℂ) : mismatch k k0 (amplifier N).epsilon (amplifier N).mu (alongSecond 1) (alongSecond v) = alongSecond (I * ((k0 : ℂ) ^ 2 * v + I)) := by
  funext c x
  unfold mismatch
  have hz : (0 : Field 3 N) = alongSecond 0 := by
    funext c x
    simp [alongSecond]
  have h1 : Spec.Solver.act (fun x => ((amplifier N).mu x)⁻¹) (Spec.Solver.curl k (alongSecond v)) = alongSecond 0 := by
    rw [curl_alongSecond hk, ← hz]
    funext c x
    unfold Spec.Solver.act
    exact congrFun (Matrix.mulVec_zero _) c
  rw [h1, curl_alongSecond hk]
  simp only [Spec.Solver.act, amplifier, Matrix.mulVec_diagonal, alongSecond, Pi.zero_apply]
  split_ifs
  · ring_nf
    rw [I_sq]
    ring
  · simp

end Constant

end Verif.Solver

namespace Verif.Problem

open Verif Verif.Fourier Verif.Backend Verif.Solver Verif.Construct Complex
open Verif.Assign (Arr toMatrixField full)
open Verif.Spec.Solver (WaveEquation)

variable {d : ℕ}

/-- **C101 (violation).** Full claim: if the relative residue tends to zero then the field tends to a solution of the wave equation, so `solve` with a sufficiently small tolerance returns
a field that is close to a solution.  This holds without gain (C90), but not for a uniform medium that absorbs light with one polarization and amplifies light with another: whatever the grid, the
boundary and the result of `fmin`, `solve` returns for every tolerance, although after each iteration the error is larger than that of the field 0 and so is the mismatch of the wave equation. -/
theorem C101_violates {co : Const} {p : Args d} (h : Describes co 3 p (amplifier p.grid.shape) (alongSecond 1) 0)
    (hvec : p.source.isVectorial (List.ofFn p.grid.shape) (p.currentFactor co) = true) (hd : d ≤ 3) (hs : ∀ a, p.grid.step a ≠ 0) (hk0 : p.frequency.k0 co.c ≠ 0) (o : Optimum) {tol : ℝ}
    (htol : tol < 1) (form : ScalarForm d p.mu) :
    ∃ s E, p.start co tol o = .ok ⟨3, s⟩ ∧ WaveEquation (kOf p.grid) (p.frequency.k0 co.c) (amplifier p.grid.shape).epsilon (amplifier p.grid.shape).mu (alongSecond 1) E ∧
      (∀ i, ∃ t, run (.vectorial hd) (backendK p.grid (p.frequency.k0 co.c)) s (i + 1) = .ok t ∧
        Backend.norm E < Backend.norm (getE (p.frequency.k0 co.c) t - E) ∧
        Backend.norm (alongSecond 1 : Solver.Field 3 p.grid.shape) <
          Backend.norm (mismatch (kOf p.grid) (p.frequency.k0 co.c) (amplifier p.grid.shape).epsilon (amplifier p.grid.shape).mu (alongSecond 1) (getE (p.frequency.k0 co.c) t))) ∧
      ∀ rtol > 0, ∃ i t, solve (.vectorial hd) (backendK p.grid (p.frequency.k0 co.c)) .none rtol ⊤ s i = .done () t ∧
        Backend.norm E < Backend.norm (getE (p.frequency.k0 co.c) t - E) ∧
        Backend.norm (alongSecond 1 : Solver.Field 3 p.grid.shape) <
          Backend.norm (mismatch (kOf p.grid) (p.frequency.k0 co.c) (amplifier p.grid.shape).epsilon (amplifier p.grid.shape).mu (alongSecond 1) (getE (p.frequency.k0 co.c) t)) := by
  have hc := C86_construct h tol o
  set x0 := first h.nonempty
  set k0 := p.frequency.k0 co.c with hk0def
  rw [not_magnetic h (fun _ => rfl) (fun _ => rfl) form (fun x => by
    show ‖(1 : Matrix (Fin 3) (Fin 3) ℂ) 0 0 - (1 : Matrix (Fin 3) (Fin 3) ℂ) 0 0‖ ≤ _
    rw [sub_self, norm_zero]
    positivity), if_neg (by decide)] at hc
  have hz : (fun c x => (0 : Solver.Field 3 p.grid.shape) c x * ((k0 ^ 2 : ℝ) : ℂ)) = alongSecond 0 := by
    funext c x
    simp [alongSecond]
  rw [hz] at hc
  set cs := (amplifier p.grid.shape).constantsNonMagnetic tol k0 p.thickness 0 x0 o.alphaR with hcs
  have hβ : cs.2 = 1 := by
    simp [hcs, Medium.constantsNonMagnetic, Medium.betaNonMagnetic, Medium.muInv, amplifier]
  have hα : 0 < cs.1.im := by
    simp only [hcs, Medium.constantsNonMagnetic, if_neg (amplifier_not_transposed x0 htol)]
    have h1 := C36_increase k0 p.thickness ((o.alphaR : ℂ) + I * ((amplifier p.grid.shape).sigmaEE o.alphaR ((amplifier p.grid.shape).betaNonMagnetic 0 x0) : ℂ))
    have h2 := sigmaEE_nonneg (amplifier p.grid.shape) o.alphaR ((amplifier p.grid.shape).betaNonMagnetic 0 x0)
    simp only [add_im, ofReal_im, I_mul_im, ofReal_re, zero_add] at h1
    norm_num at h1 ⊢
    linarith
  rw [hβ] at hc
  set s := prepare (amplifier p.grid.shape) false cs.1 1 (alongSecond 1) (alongSecond 0) with hsdef
  have hA : Amplifies s 0 := ⟨represents_prepare _ _ hα.ne' one_ne_zero _ _, rfl, rfl, hα, WithTop.coe_lt_top _⟩
  have hkb : ∀ y, origin y → ∀ a, backendK p.grid k0 a y = 0 := fun y hy => (backendK_origin p.grid hs hk0 y).1 hy
  have hkk : ∀ y, origin y → ∀ a, kOf p.grid a y = 0 := fun y hy => (kOf_origin p.grid hs y).1 hy
  have hk2 : ((k0 : ℂ) ^ 2) ≠ 0 := pow_ne_zero 2 (ofReal_ne hk0)
  have hM := norm_alongSecond_one x0
  obtain ⟨r1, r2⟩ := amplifier_residue hkb x0 hd hA rfl
  have hfield : ∀ (t : State 3 p.grid.shape) (w : ℂ), t.field = alongSecond w → getE k0 t = alongSecond (w / (k0 : ℂ) ^ 2) := by
    intro t w ht
    funext c x
    unfold getE
    rw [ht]
    simp only [alongSecond]
    push_cast
    split_ifs <;> simp
  have hend : ∀ (t : State 3 p.grid.shape) (w : ℂ), t.field = alongSecond w → 1 < ‖w + I‖ → Backend.norm (alongSecond (-I / (k0 : ℂ) ^ 2) : Solver.Field 3 p.grid.shape) <
      Backend.norm (getE k0 t - alongSecond (-I / (k0 : ℂ) ^ 2)) ∧ Backend.norm (alongSecond 1 : Solver.Field 3 p.grid.shape) <
          Backend.norm (mismatch (kOf p.grid) k0 (amplifier p.grid.shape).epsilon (amplifier p.grid.shape).mu (alongSecond 1) (getE k0 t)) := by
    intro t w ht hw
    rw [hfield t w ht, alongSecond_sub, mismatch_amplifier hkk, norm_alongSecond (-I / _), norm_alongSecond (_ - _), norm_alongSecond (I * _)]
    constructor
    · refine mul_lt_mul_of_pos_right ?_ hM
      rw [← sub_div, sub_neg_eq_add, norm_div, norm_div, norm_neg, norm_I]
      exact div_lt_div_of_pos_right hw (norm_pos_iff.2 hk2)
    · rw [mul_div_cancel₀ _ hk2, norm_mul, norm_I, one_mul]
      exact lt_mul_of_one_lt_left hM hw
  refine ⟨s, alongSecond (-I / (k0 : ℂ) ^ 2), start_vectorial hvec o tol hc, ?_, fun i => ?_, fun rtol hr => ?_⟩
  · rw [← mismatch_zero_iff, mismatch_amplifier hkk, mul_div_cancel₀ _ hk2, neg_add_cancel, mul_zero]
    funext c x
    simp [alongSecond]
  · obtain ⟨t, w, -, e1, e2, e3, -⟩ := r1 i
    exact ⟨t, e1, hend t w e2.field e3⟩
  · have hstart : start s = s := rfl
    classical
    have hex := r2 rtol hr
    have hdone : ∃ t, solve (.vectorial hd) (backendK p.grid k0) .none rtol ⊤ s (Nat.find hex + 1) = .done () t := by
      rw [C39_tolerance (.vectorial hd) (backendK p.grid k0) rtol ⊤ s hA.unfinished.le]
      refine ⟨Nat.find hex, Nat.lt_succ_self _, ?_, fun l hl => ?_⟩
      · obtain ⟨t, h1, h2⟩ := Nat.find_spec hex
        exact ⟨t, h1, .inr h2⟩
      · obtain ⟨t, w, r, e1, -, -, e4⟩ := r1 l
        refine ⟨t, e1, WithTop.coe_lt_top _, r, ?_, e4⟩
        refine lt_of_not_ge fun hle => Nat.find_min hex hl ⟨t, e1, r, hle, e4⟩
    obtain ⟨t, ht⟩ := hdone
    refine ⟨_, t, ht, ?_⟩
    unfold solve at ht
    simp only [criterion_eq, loop_done_iff] at ht
    obtain ⟨w, t0, r, -, hf, -, hg, rfl, -⟩ := ht
    rw [follows_iff_run] at hf
    have hlast := hf w.length (by simp)
    rw [List.getElem_concat_length rfl, hstart] at hlast
    obtain ⟨t1, w1, -, e1, e2, e3, -⟩ := r1 w.length
    rw [hlast] at e1
    obtain rfl := Except.ok.inj e1
    exact hend _ w1 e2.field e3

/-- A call with such a medium, on two points. -/
noncomputable def gainArgs : Args 1 :=
  { demoArgs true with
    source := ⟨some true, none, some ⟨[3, 1, 1], fun i => if i.getD 0 0 = 1 then 1 else 0⟩⟩
    epsilon := some ⟨[3, 3, 1], fun i => if i.getD 0 0 = i.getD 1 0 then (if i.getD 0 0 = 1 then -I else I) else 0⟩
    mu := ⟨[], fun _ => 1⟩
    electric := none
    initial := ⟨[], fun _ => 0⟩ }

theorem gain_describes (co : Const) : Describes co 3 gainArgs (amplifier demoGrid.shape) (alongSecond 1) 0 where
  nonempty := (demo_describes true 3 co).nonempty
  epsilon := by
    refine ⟨_, _, rfl, .tensor (by rfl) ?_ fun x => ?_, .inl ⟨rfl, rfl⟩⟩
    · unfold Fits
      change Refines [1, 3, 3] ((List.ofFn fun _ : Fin 1 => 2).reverse ++ [3, 3])
      simp [Refines]
    · ext r c
      have e : (List.ofFn fun b : Fin 1 => (x b : ℕ)) = [(x 0 : ℕ)] := by simp
      simp only [amplifier, tensorMeaning, e, bval, bidxRev, Matrix.diagonal_apply]
      simp [Fin.ext_iff]
  magnetic := rfl
  xi := (demo_describes true 3 co).xi
  zeta := (demo_describes true 3 co).zeta
  mu := by
    have h := constant_means 3 1
    simp only [one_smul] at h
    exact h
  source := by
    intro a
    fin_cases a <;> simp [gainArgs, demoArgs, Construct.Args.resolve, toMatrixField, Assign.expand, full]
  sourceValue := by
    intro c x
    simp [gainArgs, demoArgs, Construct.Args.resolve, toMatrixField, Assign.expand, alongSecond, Assign.broadcast, Fin.ext_iff]
  initial := fun a => .inr ((constant_field 0).1 a)
  initialValue := fun c x => ((constant_field 0).2 _).symm

/-- The hypotheses of `C101_violates` can be met. -/
example (co : Const) (o : Optimum) : ∃ s E, gainArgs.start co 1e-8 o = .ok ⟨3, s⟩ ∧ WaveEquation (kOf demoGrid) 1 (amplifier demoGrid.shape).epsilon (amplifier demoGrid.shape).mu (alongSecond 1) E ∧
    ∀ rtol > 0, ∃ i t, solve (.vectorial (show 1 ≤ 3 by decide)) (backendK demoGrid 1) .none rtol ⊤ s i = .done () t ∧ Backend.norm E < Backend.norm (getE 1 t - E) := by
  obtain ⟨s, E, h1, h2, -, h4⟩ := C101_violates (gain_describes co) rfl (show 1 ≤ 3 by decide) demo_step (show (1 : ℝ) ≠ 0 by norm_num) o (tol := 1e-8) (by norm_num)
    ⟨by simp [gainArgs, demoArgs], by simp [gainArgs, demoArgs]⟩
  refine ⟨s, E, h1, h2, fun rtol hr => ?_⟩
  obtain ⟨i, t, h5, h6, -⟩ := h4 rtol hr
  exact ⟨i, t, h5, h6⟩

/-! ### C100 as called -/

/-- **C100 (as called).** For all arguments that describe a problem, unless the material has gain and no loss: after every iteration, either the last change of the field was zero and the next
iteration raises an exception, or the field is changed again. -/
theorem C100_called {n : ℕ} [NeZero n] {co : Const} {p : Args d} {m : Medium n p.grid.shape} {S E : Solver.Field n p.grid.shape} (h : Describes co n p m S E) (kind : Kind d n)
    (hk0 : 0 < p.frequency.k0 co.c) (tol : ℝ) (o : Optimum)
    (hgain : ¬ m.transposed tol ∨ foundMagnetic (toMatrixField d p.xi) (toMatrixField d p.zeta) (toMatrixField d p.mu) = true) :
    ∃ s, p.construct co n tol o = .ok s ∧ ∀ i t, run kind (backendK p.grid (p.frequency.k0 co.c)) s i = .ok t →
      (t.prevNorm = ((0 : ℝ) : WithTop ℝ) ∧ ∀ j, run kind (backendK p.grid (p.frequency.k0 co.c)) s (i + 1 + j) = .error .zeroDivision) ∨
      ∃ j ≥ i, ∃ u u', run kind (backendK p.grid (p.frequency.k0 co.c)) s j = .ok u ∧ run kind (backendK p.grid (p.frequency.k0 co.c)) s (j + 1) = .ok u' ∧ u.field = t.field ∧
        ((Backend.norm (u'.field - u.field) : ℝ) : WithTop ℝ) < t.prevNorm ∧ u'.prevNorm = ((Backend.norm (u'.field - u.field) : ℝ) : WithTop ℝ) := by
  have hc := C86_construct h tol o
  refine ⟨_, hc, fun i t ht => ?_⟩
  refine C100_executions kind _ ?_ ?_ ht
  · split_ifs with hmag
    · change (m.constantsMagnetic p.grid.step (p.frequency.k0 co.c) p.thickness o.vec).1.im ≠ 0
      simp only [Medium.constantsMagnetic]
      have h1 := C36_increase (p.frequency.k0 co.c) p.thickness ((o.vec.1 : ℂ) + I * (m.singularValueSum p.grid.step (p.frequency.k0 co.c) o.vec.1 (o.vec.2 ^ 2) : ℂ))
      have h2 : 0 ≤ m.singularValueSum p.grid.step (p.frequency.k0 co.c) o.vec.1 (o.vec.2 ^ 2) := by
        have := sigmaD_nonneg p.grid.step hk0
        have := sigmaHH_nonneg m (o.vec.2 ^ 2)
        have := sigmaEE_nonneg m o.vec.1 (o.vec.2 ^ 2)
        unfold Medium.singularValueSum largestSingularValue
        positivity
      simp only [add_im, ofReal_im, I_mul_im, ofReal_re, zero_add] at h1
      norm_num at h1 ⊢
      exact (lt_of_lt_of_le (by linarith) h1).ne'
    · change (m.constantsNonMagnetic tol (p.frequency.k0 co.c) p.thickness 0 (first h.nonempty) o.alphaR).1.im ≠ 0
      simp only [Medium.constantsNonMagnetic, if_neg (hgain.resolve_right hmag)]
      have h1 := C36_increase (p.frequency.k0 co.c) p.thickness ((o.alphaR : ℂ) + I * (m.sigmaEE o.alphaR (m.betaNonMagnetic 0 (first h.nonempty)) : ℂ))
      have h2 := sigmaEE_nonneg m o.alphaR (m.betaNonMagnetic 0 (first h.nonempty))
      simp only [add_im, ofReal_im, I_mul_im, ofReal_re, zero_add] at h1
      norm_num at h1 ⊢
      exact (lt_of_lt_of_le (by linarith) h1).ne'
  · split_ifs <;> exact le_top

/-- The hypotheses of `C100_called` can be met, also by a medium with gain, for which iterations are rejected. -/
example (co : Const) (o : Optimum) : ∃ s, gainArgs.construct co 3 1e-8 o = .ok s ∧ ∀ i t, run (.vectorial (show 1 ≤ 3 by decide)) (backendK demoGrid 1) s i = .ok t →
    ∃ j ≥ i, ∃ u u', run (.vectorial (show 1 ≤ 3 by decide)) (backendK demoGrid 1) s j = .ok u ∧ run (.vectorial (show 1 ≤ 3 by decide)) (backendK demoGrid 1) s (j + 1) = .ok u' ∧
      u.field = t.field ∧ ((Backend.norm (u'.field - u.field) : ℝ) : WithTop ℝ) < t.prevNorm := by
  obtain ⟨s, h1, h2⟩ := C100_called (gain_describes co) (.vectorial (show 1 ≤ 3 by decide)) (show (0 : ℝ) < 1 by norm_num) 1e-8 o
    (.inl (amplifier_not_transposed (first (gain_describes co).nonempty) (by norm_num)))
  obtain ⟨s', E, h3, -, h4, -⟩ := C101_violates (gain_describes co) rfl (show 1 ≤ 3 by decide) demo_step (show (1 : ℝ) ≠ 0 by norm_num) o (tol := 1e-8) (by norm_num)
    ⟨by simp [gainArgs, demoArgs], by simp [gainArgs, demoArgs]⟩
  rw [start_vectorial rfl o _ h1] at h3
  obtain rfl : s = s' := eq_of_heq (Sigma.mk.inj (Except.ok.inj h3)).2
  refine ⟨s, h1, fun i t ht => ?_⟩
  rcases h2 i t ht with ⟨-, h5⟩ | ⟨j, hj, u, u', a1, a2, a3, a4, -⟩
  · obtain ⟨t', ht', -⟩ := h4 i
    have := h5 0
    rw [add_zero] at this
    exact (nomatch ht'.symm.trans this)
  · exact ⟨j, hj, u, u', a1, a2, a3, a4⟩

end Verif.Problem
