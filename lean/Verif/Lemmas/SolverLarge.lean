import Verif.Props.SolverState
import Mathlib.Analysis.SpecificLimits.Basic
import Mathlib.Topology.Algebra.Module.FiniteDimension

/-!
# The update of the field in the limit of a large bias
-/

namespace Verif.Solver

open Verif Verif.Fourier Verif.Backend Complex Filter Topology

variable {d n : ℕ} {N : Fin d → ℕ}

theorem tendsto_field {f : ℕ → Field n N} {F : Field n N} : Tendsto f atTop (𝓝 F) ↔ ∀ c x, Tendsto (fun j => f j c x) atTop (𝓝 (F c x)) := by
  rw [tendsto_pi_nhds]
  exact forall_congr' fun c => tendsto_pi_nhds

theorem tendsto_linear {m : ℕ} {T : Field n N → Field m N} (hT : IsLinearMap ℂ T) {f : ℕ → Field n N} {F : Field n N} (h : Tendsto f atTop (𝓝 F)) :
    Tendsto (fun j => T (f j)) atTop (𝓝 (T F)) :=
  ((hT.mk' T).continuous_of_finiteDimensional.tendsto F).comp h

theorem tendsto_mulField {A : ℕ → Tensor n N} {B : Tensor n N} {f : ℕ → Field n N} {F : Field n N} (hA : ∀ x r c, Tendsto (fun j => A j x r c) atTop (𝓝 (B x r c)))
    (h : Tendsto f atTop (𝓝 F)) : Tendsto (fun j => mulField (A j) (f j)) atTop (𝓝 (mulField B F)) := by
  rw [tendsto_field] at h ⊢
  intro c x
  unfold mulField
  exact tendsto_finsetSum _ fun i _ => (hA x c i).mul (h i x)

theorem tendsto_norm {f : ℕ → Field n N} {F : Field n N} (h : Tendsto f atTop (𝓝 F)) : Tendsto (fun j => Backend.norm (f j)) atTop (𝓝 (Backend.norm F)) := by
  rw [tendsto_field] at h
  unfold Backend.norm
  refine (Real.continuous_sqrt.tendsto _).comp (tendsto_finsetSum _ fun c _ => tendsto_finsetSum _ fun x _ => ((h c x).norm).pow 2)

/-- The bias after `j` increases. -/
noncomputable def increasedBias (alpha : ℂ) (j : ℕ) : ℂ := (alpha.re : ℂ) + I * ((1.5 ^ j * alpha.im : ℝ) : ℂ)

theorem increasedBias_re (alpha : ℂ) (j : ℕ) : (increasedBias alpha j).re = alpha.re := by
  unfold increasedBias
  rw [add_re, ofReal_re, I_mul_re, ofReal_im, neg_zero, add_zero]

theorem increasedBias_im (alpha : ℂ) (j : ℕ) : (increasedBias alpha j).im = 1.5 ^ j * alpha.im := by
  unfold increasedBias
  rw [add_im, ofReal_im, zero_add, I_mul_im, ofReal_re]

theorem increasedBias_zero (alpha : ℂ) : increasedBias alpha 0 = alpha := by
  apply Complex.ext
  · rw [increasedBias_re]
  · rw [increasedBias_im, pow_zero, one_mul]

theorem increased_increasedBias (alpha : ℂ) (j : ℕ) : increased (increasedBias alpha j) = increasedBias alpha (j + 1) := by
  apply Complex.ext
  · rw [increased_re, increasedBias_re, increasedBias_re]
  · rw [increased_im, increasedBias_im, increasedBias_im, pow_succ]
    ring

section Limits
variable {alpha : ℂ} (hα : alpha.im ≠ 0)
include hα

theorem increasedBias_im_ne (j : ℕ) : (increasedBias alpha j).im ≠ 0 := by
  rw [increasedBias_im]
  exact mul_ne_zero (by positivity) hα

omit hα in
/-- Everything that is divided by the imaginary part of the bias vanishes. -/
theorem tendsto_div_im (z : ℂ) : Tendsto (fun j => z / ((increasedBias alpha j).im : ℂ)) atTop (𝓝 0) := by
  have h1 : Tendsto (fun j : ℕ => ((2 / 3 : ℝ) ^ j : ℝ)) atTop (𝓝 0) := tendsto_pow_atTop_nhds_zero_of_lt_one (by norm_num) (by norm_num)
  have h2 : Tendsto (fun j : ℕ => z / (alpha.im : ℂ) * (((2 / 3 : ℝ) ^ j : ℝ) : ℂ)) atTop (𝓝 (z / (alpha.im : ℂ) * ((0 : ℝ) : ℂ))) :=
    tendsto_const_nhds.mul ((continuous_ofReal.tendsto 0).comp h1)
  rw [ofReal_zero, mul_zero] at h2
  refine h2.congr fun j => ?_
  rw [increasedBias_im]
  have h3 : ((2 / 3 : ℝ) ^ j : ℝ) = (1.5 ^ j : ℝ)⁻¹ := by
    rw [← inv_pow]
    norm_num
  rw [h3]
  push_cast
  rw [mul_comm ((1.5 : ℂ) ^ j), ← div_div, div_eq_mul_inv _ ((1.5 : ℂ) ^ j)]

/-- The ratio of the bias and its imaginary part. -/
theorem tendsto_bias : Tendsto (fun j => increasedBias alpha j / ((increasedBias alpha j).im : ℂ)) atTop (𝓝 I) := by
  have h := (tendsto_div_im (alpha := alpha) (alpha.re : ℂ)).add (tendsto_const_nhds (x := I))
  rw [zero_add] at h
  refine h.congr fun j => ?_
  have hne := ofReal_ne (increasedBias_im_ne hα j)
  have e : increasedBias alpha j = (alpha.re : ℂ) + I * ((increasedBias alpha j).im : ℂ) := by
    conv_lhs => unfold increasedBias
    rw [increasedBias_im]
  rw [eq_div_iff hne, add_mul, div_mul_cancel₀ _ hne]
  exact e.symm

theorem tendsto_gScalar (k : Fin d → Idx N → ℝ) (x : Idx N) : Tendsto (fun j => gScalar k (increasedBias alpha j) x) atTop (𝓝 1) := by
  have h : Tendsto (fun j => -I / ((k2 k x : ℂ) / ((increasedBias alpha j).im : ℂ) - increasedBias alpha j / ((increasedBias alpha j).im : ℂ))) atTop (𝓝 (-I / (0 - I))) :=
    (tendsto_const_nhds (x := -I)).div ((tendsto_div_im _).sub (tendsto_bias hα)) (by rw [zero_sub]; exact neg_ne_zero.2 I_ne_zero)
  rw [zero_sub, div_self (neg_ne_zero.2 I_ne_zero)] at h
  refine h.congr fun j => ?_
  have hne := ofReal_ne (increasedBias_im_ne hα j)
  unfold gScalar
  rw [← sub_div, div_div_eq_mul_div]

theorem tendsto_longitudinal : Tendsto (fun j => I * ((increasedBias alpha j).im : ℂ) / increasedBias alpha j) atTop (𝓝 1) := by
  have h : Tendsto (fun j => I / (increasedBias alpha j / ((increasedBias alpha j).im : ℂ))) atTop (𝓝 (I / I)) := (tendsto_const_nhds (x := I)).div (tendsto_bias hα) I_ne_zero
  rw [div_self I_ne_zero] at h
  refine h.congr fun j => ?_
  rw [div_div_eq_mul_div]

theorem tendsto_greenFt (kind : Kind d n) (k : Fin d → Idx N → ℝ) {f : ℕ → Field n N} {F : Field n N} (h : Tendsto f atTop (𝓝 F)) :
    Tendsto (fun j => greenFt k (increasedBias alpha j) kind (f j)) atTop (𝓝 F) := by
  cases kind with
  | scalar =>
    rw [tendsto_field] at h ⊢
    intro c x
    have := (h c x).mul (tendsto_gScalar hα k x)
    rw [mul_one] at this
    exact this
  | vectorial hd =>
    have hL := tendsto_field.1 (tendsto_linear (longitudinalFt_isLinear k origin hd) h)
    rw [tendsto_field] at h ⊢
    intro c x
    have := (((h c x).sub (hL c x)).mul (tendsto_gScalar hα k x)).add ((hL c x).mul (tendsto_longitudinal hα))
    rw [mul_one, mul_one, sub_add_cancel] at this
    exact this

theorem tendsto_green (kind : Kind d n) (k : Fin d → Idx N → ℝ) {f : ℕ → Field n N} {F : Field n N} (h : Tendsto f atTop (𝓝 F)) :
    Tendsto (fun j => green kind k (increasedBias alpha j) (f j)) atTop (𝓝 F) := by
  have hft : IsLinearMap ℂ fun (F : Field n N) (c : Fin n) => ft (F c) :=
    ⟨fun f g => by funext c; exact ft_isLinear.map_add _ _, fun z f => by funext c; exact ft_isLinear.map_smul _ _⟩
  have hift : IsLinearMap ℂ fun (F : Field n N) (c : Fin n) => ift (F c) :=
    ⟨fun f g => by funext c; exact ift_isLinear.map_add _ _, fun z f => by funext c; exact ift_isLinear.map_smul _ _⟩
  have h1 := tendsto_linear hift (tendsto_greenFt hα kind k (tendsto_linear hft h))
  simp only [C23_ift_ft] at h1
  exact h1

end Limits

/-- The state after `j` increases of the bias. -/
noncomputable def biased (s : State n N) (j : ℕ) : State n N := updateOperators s (increasedBias s.alpha j)

theorem tendsto_chiOp (k : Fin d → Idx N → ℝ) {s : State n N} (hα : s.alpha.im ≠ 0) {f : ℕ → Field n N} {F : Field n N} (h : Tendsto f atTop (𝓝 F)) :
    Tendsto (fun j => chiOp k (biased s j) (f j)) atTop (𝓝 F) := by
  have hz : ∀ (A : Tensor n N) x r c, Tendsto (fun j => (((s.alpha.im : ℂ) / ((increasedBias s.alpha j).im : ℂ)) • A x) r c) atTop (𝓝 ((0 : Tensor n N) x r c)) := by
    intro A x r c
    have := (tendsto_div_im (alpha := s.alpha) (s.alpha.im : ℂ)).mul_const (A x r c)
    rw [zero_mul] at this
    exact this
  have hEE : ∀ x r c, Tendsto (fun j => (biased s j).chiEE x r c) atTop (𝓝 ((1 : Matrix (Fin n) (Fin n) ℂ) r c)) := by
    intro x r c
    have h1 := (tendsto_div_im (alpha := s.alpha) I).mul_const (((I / (s.alpha.im : ℂ))⁻¹ • s.chiEE x + s.alpha • (1 : Matrix (Fin n) (Fin n) ℂ)) r c)
    have h2 := ((tendsto_bias hα).const_mul (-I)).mul_const ((1 : Matrix (Fin n) (Fin n) ℂ) r c)
    have h3 := h1.add h2
    rw [zero_mul, zero_add, neg_mul, I_mul_I, neg_neg, one_mul] at h3
    refine h3.congr fun j => ?_
    simp only [biased, updateOperators, Matrix.smul_apply, Matrix.add_apply, smul_eq_mul]
    ring
  have hmul1 : ∀ F : Field n N, mulField (fun _ => (1 : Matrix (Fin n) (Fin n) ℂ)) F = F := by
    intro F
    funext c x
    simp [mulField, Matrix.one_apply]
  have hmul0 : ∀ F : Field n N, mulField (0 : Tensor n N) F = 0 := by
    intro F
    funext c x
    simp [mulField]
  have hE := tendsto_mulField (B := fun _ => 1) hEE h
  rw [hmul1] at hE
  have hmag : ∀ j, (biased s j).magnetic = s.magnetic := fun _ => rfl
  by_cases hm : s.magnetic = true
  · have hcurl := tendsto_linear (curl_isLinear (n := n) (m := n) k) h
    have h1 : Tendsto (fun j => mulField (biased s j).chiHE (curl n k (f j))) atTop (𝓝 (mulField (0 : Tensor n N) (curl n k F))) := tendsto_mulField (hz s.chiHE) hcurl
    have h2 : Tendsto (fun j => mulField (biased s j).chiEH (f j)) atTop (𝓝 (mulField (0 : Tensor n N) F)) := tendsto_mulField (hz s.chiEH) h
    have h3 : Tendsto (fun j => mulField (biased s j).chiHH (curl n k (f j))) atTop (𝓝 (mulField (0 : Tensor n N) (curl n k F))) := tendsto_mulField (hz s.chiHH) hcurl
    have h4 := (hE.add h1).add (tendsto_linear (curl_isLinear (n := n) (m := n) k) (h2.add h3))
    rw [hmul0, hmul0, add_zero, add_zero, (curl_isLinear (n := n) (m := n) k).map_zero, add_zero] at h4
    refine h4.congr fun j => ?_
    unfold chiOp
    rw [hmag, if_pos hm]
    rfl
  · refine hE.congr fun j => ?_
    unfold chiOp
    rw [hmag, if_neg hm]

/-- The update vanishes in the limit of a large bias, for all materials and sources. -/
theorem tendsto_update (kind : Kind d n) (k : Fin d → Idx N → ℝ) {s : State n N} (hα : s.alpha.im ≠ 0) : Tendsto (fun j => Backend.norm (update kind k (biased s j))) atTop (𝓝 0) := by
  have hs : Tendsto (fun j => (biased s j).source) atTop (𝓝 (0 : Field n N)) := by
    rw [tendsto_field]
    intro c x
    have := (tendsto_div_im (alpha := s.alpha) (s.alpha.im : ℂ)).const_mul (s.source c x)
    rw [mul_zero] at this
    exact this
  have h1 := (tendsto_chiOp k hα (tendsto_const_nhds (x := s.field))).add hs
  rw [add_zero] at h1
  have h2 := (tendsto_green hα kind k h1).sub (tendsto_const_nhds (x := s.field))
  rw [sub_self] at h2
  have h3 := tendsto_norm (tendsto_chiOp k hα h2)
  rw [(norm_eq_zero_iff (0 : Field n N)).2 rfl] at h3
  exact h3

end Verif.Solver
