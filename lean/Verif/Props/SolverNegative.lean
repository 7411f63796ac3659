import Verif.Lemmas.SolverConverge
import Verif.Props.SolverBias

/-!
# C122: uniform media with a negative permeability

The error of every transverse wave near the resonance of the medium never decreases.
-/

namespace Verif.Solver

open Verif Verif.Fourier Verif.Backend Complex
open Verif.Spec.Backend (kVector)

variable {d n : ℕ} {N : Fin d → ℕ}

/-- The amplitude of the wave with frequency `q` and polarization `v`. -/
noncomputable def amplitude (v : Fin n → ℂ) (q : Idx N) (F : Field n N) : ℂ := ∑ c, v c * ft (F c) q

/-- In vectorial calculations the polarization is perpendicular to the wavevector. -/
def Transverse (k : Fin d → Idx N → ℝ) (q : Idx N) : {n : ℕ} → Kind d n → (Fin n → ℂ) → Prop
  | _, .scalar, _ => True
  | _, .vectorial _, v => ∑ c, v c * kVector k q c = 0

theorem amplitude_isLinear (v : Fin n → ℂ) (q : Idx N) : IsLinearMap ℂ (amplitude v q : Field n N → ℂ) where
  map_add F G := by
    unfold amplitude
    rw [← Finset.sum_add_distrib]
    refine Finset.sum_congr rfl fun c _ => ?_
    rw [Pi.add_apply, ft_isLinear.map_add, Pi.add_apply, mul_add]
  map_smul a F := by
    unfold amplitude
    rw [smul_eq_mul, Finset.mul_sum]
    refine Finset.sum_congr rfl fun c _ => ?_
    rw [Pi.smul_apply, ft_isLinear.map_smul, Pi.smul_apply, smul_eq_mul]
    ring

theorem amplitude_green {k : Fin d → Idx N → ℝ} (hk : ∀ x, origin x → ∀ a, k a x = 0) (kind : Kind d n) {q : Idx N} {v : Fin n → ℂ} (hv : Transverse k q kind v) (alpha : ℂ) (F : Field n N) :
    amplitude v q (green kind k alpha F) = gScalar k alpha q * amplitude v q F := by
  unfold amplitude green convolve
  rw [Finset.mul_sum]
  cases kind with
  | scalar =>
    refine Finset.sum_congr rfl fun c _ => ?_
    rw [C23_ft_ift]
    simp only [greenFt]
    ring
  | vectorial hd =>
    simp only [C23_ft_ift, greenFt]
    by_cases ho : origin q
    · have hg : gScalar k alpha q = I * (alpha.im : ℂ) / alpha := by
        unfold gScalar k2
        simp only [hk q ho]
        simp [neg_div_neg_eq]
      rw [hg]
      refine Finset.sum_congr rfl fun c _ => ?_
      ring
    · set w : ℂ := (∑ a : Fin d, (k a q : ℂ) * ft (F (Fin.castLE hd a)) q) / (k2 k q : ℂ) with hw
      have hl : ∀ c, longitudinalFt k origin hd (fun c' => ft (F c')) c q = kVector k q c * w := by
        intro c
        unfold longitudinalFt kVector
        simp only [if_neg ho]
        split_ifs
        · rfl
        · rw [zero_mul]
      have e : ∀ c, v c * ((ft (F c) q - longitudinalFt k origin hd (fun c' => ft (F c')) c q) * gScalar k alpha q +
          longitudinalFt k origin hd (fun c' => ft (F c')) c q * (I * (alpha.im : ℂ) / alpha)) =
          gScalar k alpha q * (v c * ft (F c) q) + (w * (I * (alpha.im : ℂ) / alpha - gScalar k alpha q)) * (v c * kVector k q c) := fun c => by
        rw [hl]
        ring
      rw [Finset.sum_congr rfl fun c _ => e c, Finset.sum_add_distrib, ← Finset.mul_sum, ← Finset.mul_sum, hv, mul_zero, add_zero, Finset.mul_sum]

/-- The factor by which an iteration changes the error of a transverse wave, minus 1; `e` is the permittivity relative to `beta`. -/
noncomputable def errorGain (k : Fin d → Idx N → ℝ) (e alpha : ℂ) (q : Idx N) : ℂ := -I * (e - alpha) * ((k2 k q : ℂ) - e) / ((alpha.im : ℂ) * ((k2 k q : ℂ) - alpha))

theorem k2_sub_ne (k : Fin d → Idx N → ℝ) {alpha : ℂ} (hα : alpha.im ≠ 0) (q : Idx N) : (k2 k q : ℂ) - alpha ≠ 0 := fun h => by
  have := congrArg Complex.im h
  rw [sub_im, ofReal_im, zero_sub, zero_im, neg_eq_zero] at this
  exact hα this

theorem amplitude_homogeneous {k : Fin d → Idx N → ℝ} (hk : ∀ x, origin x → ∀ a, k a x = 0) (kind : Kind d n) {q : Idx N} {v : Fin n → ℂ} (hv : Transverse k q kind v) {m : Medium n N}
    {epsilon : ℂ} (he : ∀ x, m.epsilonPrime x = epsilon • 1) {alpha : ℂ} (hα : alpha.im ≠ 0) {beta : ℝ} (hβ : beta ≠ 0) (S F G : Field n N) :
    amplitude v q (homogeneous kind k (prepare m false alpha beta S F) G) = (1 + errorGain k (epsilon / beta) alpha q) * amplitude v q G := by
  have hA := amplitude_isLinear (n := n) v q
  have h1 := ofReal_ne hα
  have h2 := ofReal_ne hβ
  have h3 := k2_sub_ne k hα q
  have hchi : ∀ H, chiOp k (prepare m false alpha beta S F) H = ((epsilon / beta - alpha) * (I / (alpha.im : ℂ))) • H := by
    intro H
    rw [prepare_eq m false hα, chiOp_nonmagnetic _ _ rfl]
    have : (prepared m false alpha beta S F).chiEE = fun _ => ((epsilon / beta - alpha) * (I / (alpha.im : ℂ))) • (1 : Matrix (Fin n) (Fin n) ℂ) := by
      funext x
      simp only [prepared, he, factor]
      rw [smul_smul, ← sub_smul]
      congr 1
      field_simp
    rw [this, mulField_smul_left, mulField_one]
  unfold homogeneous
  rw [hA.map_add, hchi, hA.map_smul, hA.map_sub, show (prepare m false alpha beta S F).alpha = alpha from rfl, amplitude_green hk kind hv, hchi, hA.map_smul]
  unfold errorGain gScalar
  simp only [smul_eq_mul]
  generalize amplitude v q G = A
  generalize (epsilon / beta : ℂ) = e
  field_simp
  ring_nf
  simp only [show I ^ 3 = -I by rw [pow_succ, I_sq]; ring]
  ring

/-- The real part of the gain is not negative for all values of the bias that are at least the (negative) absorption. -/
theorem errorGain_re (k : Fin d → Idx N → ℝ) {e alpha : ℂ} {q : Idx N} (he : e.im < 0) (hq : |e.re - k2 k q| ≤ -e.im) (hα : -e.im ≤ alpha.im) : 0 ≤ (errorGain k e alpha q).re := by
  have hp : 0 < alpha.im := by linarith
  have hne := k2_sub_ne k hp.ne' q
  have hn : 0 < normSq ((k2 k q : ℂ) - alpha) := normSq_pos.2 hne
  have hw : errorGain k e alpha q = (-I * (e - alpha) * ((k2 k q : ℂ) - e) * (starRingEnd ℂ) ((k2 k q : ℂ) - alpha)) / ((alpha.im * normSq ((k2 k q : ℂ) - alpha) : ℝ) : ℂ) := by
    unfold errorGain
    have h1 := ofReal_ne hp.ne'
    have h2 : ((normSq ((k2 k q : ℂ) - alpha) : ℝ) : ℂ) = (starRingEnd ℂ) ((k2 k q : ℂ) - alpha) * ((k2 k q : ℂ) - alpha) := normSq_eq_conj_mul_self
    have h3 : (starRingEnd ℂ) ((k2 k q : ℂ) - alpha) ≠ 0 := (map_ne_zero _).2 hne
    rw [ofReal_mul, h2]
    field_simp
  rw [hw, div_ofReal_re]
  refine div_nonneg ?_ (by positivity)
  obtain ⟨l1, l2⟩ := abs_le.1 hq
  generalize k2 k q = K at *
  have e1 : (-I * (e - alpha) * ((K : ℂ) - e) * (starRingEnd ℂ) ((K : ℂ) - alpha)).re =
      -e.im * (alpha.re - e.re) ^ 2 + (-e.im) * (alpha.im ^ 2 - (e.re - K) ^ 2) + alpha.im * (e.im ^ 2 - (e.re - K) ^ 2) := by
    simp only [mul_re, mul_im, sub_re, sub_im, neg_re, neg_im, I_re, I_im, ofReal_re, ofReal_im, conj_re, conj_im]
    ring
  rw [e1]
  have s1 : (e.re - K) ^ 2 ≤ e.im ^ 2 := by nlinarith
  have s2 : e.im ^ 2 ≤ alpha.im ^ 2 := by nlinarith
  have s3 : 0 ≤ -e.im * (alpha.re - e.re) ^ 2 := mul_nonneg (by linarith) (sq_nonneg _)
  have s4 : 0 ≤ -e.im * (alpha.im ^ 2 - (e.re - K) ^ 2) := mul_nonneg (by linarith) (by linarith)
  have s5 : 0 ≤ alpha.im * (e.im ^ 2 - (e.re - K) ^ 2) := mul_nonneg hp.le (by linarith)
  linarith

theorem one_le_errorGain (k : Fin d → Idx N → ℝ) {e alpha : ℂ} {q : Idx N} (he : e.im < 0) (hq : |e.re - k2 k q| ≤ -e.im) (hα : -e.im ≤ alpha.im) : 1 ≤ ‖1 + errorGain k e alpha q‖ := by
  have h1 := re_le_norm (1 + errorGain k e alpha q)
  rw [add_re, one_re] at h1
  linarith [errorGain_re k he hq hα]

section
variable {k : Fin d → Idx N → ℝ} (hk : ∀ x, origin x ↔ ∀ a, k a x = 0) (kind : Kind d n) {q : Idx N} {v : Fin n → ℂ} (hv : Transverse k q kind v) {m : Medium n N} {epsilon : ℂ}
  (he : ∀ x, m.epsilonPrime x = epsilon • 1) {alpha : ℂ} {beta : ℝ} (hβ : beta ≠ 0) (hc : Consistent m false beta) (him : (epsilon / beta).im < 0)
  (hq : |(epsilon / beta).re - k2 k q| ≤ -(epsilon / beta).im) (hα : -(epsilon / beta).im ≤ alpha.im)
include hk hv he hβ hc him hq hα

/-- **C122 (negative permeability).** In a uniform isotropic medium of which the permittivity has gain after division by that of the reference medium, as when an absorbing medium has a negative permeability:
whatever the source, the initial field and the bias, no number of iterations decreases the error of a transverse wave of which the frequency is within the absorption line. -/
theorem C122_iterations {S F P : Field n N} (hP : waveOp k beta kind m P = S) {i : ℕ} {t : State n N} (ht : run kind k (prepare m false alpha beta S F) i = .ok t) :
    ‖amplitude v q (F - P)‖ ≤ ‖amplitude v q (t.field - P)‖ := by
  have hα0 : 0 < alpha.im := by linarith
  suffices h : Of m false alpha beta S t ∧ ‖amplitude v q (F - P)‖ ≤ ‖amplitude v q (t.field - P)‖ from h.2
  induction i generalizing t with
  | zero =>
    obtain rfl := Except.ok.inj ht
    exact ⟨⟨alpha, F, _, _, _, rfl, rfl, le_rfl⟩, le_rfl⟩
  | succ i ih =>
    obtain ⟨t', ht'⟩ := run_of_succ ht
    obtain ⟨h1, h2⟩ := ih ht'
    have hs : step kind k t' = .ok t := by simpa only [run, ht'] using ht
    refine ⟨of_step hα0 kind k h1 hs, h2.trans ?_⟩
    obtain ⟨alpha', F', p, j, r, rfl, hre, hle⟩ := h1
    have hα' : alpha'.im ≠ 0 := (hα0.trans_le hle).ne'
    have hz : update kind k (prepare m false alpha' beta S P) = 0 := by
      rw [prepare_eq m false hα', update_prepared hk kind m false hα' hβ S P hc, hP, sub_self, (green_isLinear kind k alpha').map_zero, smul_zero, (chiOp_isLinear _ _).map_zero]
    have hn := error_next kind k (prepare m false alpha' beta S F') P hz
    unfold step at hs
    simp only at hs
    split at hs
    · simp at hs
    · split_ifs at hs with hlt
      · simp only [Except.ok.injEq] at hs
        subst hs
        have : amplitude v q ((next kind k (prepare m false alpha' beta S F')).field - P) = (1 + errorGain k (epsilon / beta) alpha' q) * amplitude v q (F' - P) := by
          rw [hn, amplitude_homogeneous (fun x => (hk x).1) kind hv he hα' hβ]
          rfl
        change ‖amplitude v q (F' - P)‖ ≤ ‖amplitude v q ((next kind k (prepare m false alpha' beta S F')).field - P)‖
        rw [this, norm_mul]
        exact le_mul_of_one_le_left (norm_nonneg _) (one_le_errorGain k him hq (hα.trans hle))
      · simp only [Except.ok.injEq] at hs
        subst hs
        exact le_rfl

end

end Verif.Solver
