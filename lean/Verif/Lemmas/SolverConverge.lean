import Verif.Lemmas.SolverMedium
import Verif.Props.SolverWave
import Verif.Spec.Converges

/-!
# Convergence of the iteration of a prepared problem
-/

namespace Verif.Solver

open Verif Verif.Fourier Verif.Backend Complex

variable {d n : ℕ} {N : Fin d → ℕ}

/-- The states that represent the problem with a given medium and source, for all biases at least as large as `alpha` with the same real part. -/
def Of (m : Medium n N) (mag : Bool) (alpha : ℂ) (beta : ℝ) (S : Field n N) (t : State n N) : Prop :=
  ∃ (alpha' : ℂ) (F : Field n N) (p : WithTop ℝ) (i : ℤ) (r : Option (WithTop ℝ)),
    t = { prepare m mag alpha' beta S F with prevNorm := p, iteration := i, residue := r } ∧ alpha'.re = alpha.re ∧ alpha.im ≤ alpha'.im

theorem increased_re (alpha : ℂ) : (increased alpha).re = alpha.re := by
  unfold increased; norm_num

theorem increased_im (alpha : ℂ) : (increased alpha).im = 1.5 * alpha.im := by
  unfold increased; norm_num

theorem of_step {m : Medium n N} {mag : Bool} {alpha : ℂ} (hα : 0 < alpha.im) {beta : ℝ} {S : Field n N} (kind : Kind d n) (k : Fin d → Idx N → ℝ)
    {t t' : State n N} (h : Of m mag alpha beta S t) (hs : step kind k t = .ok t') : Of m mag alpha beta S t' := by
  obtain ⟨alpha', F, p, i, r, rfl, hre, him⟩ := h
  have hα' : 0 < alpha'.im := hα.trans_le him
  unfold step at hs
  simp only at hs
  split at hs
  · simp at hs
  · split_ifs at hs with hlt
    · simp only [Except.ok.injEq] at hs
      subst hs
      exact ⟨alpha', _, _, _, _, rfl, hre, him⟩
    · simp only [Except.ok.injEq] at hs
      have hc := C33_change_bias m mag (alpha := alpha') (alpha' := increased alpha') hα'.ne'
        (by rw [increased_im]; positivity) beta S F
      refine ⟨increased alpha', F, p, i + 1, none, ?_, ?_, ?_⟩
      · rw [← hs, ← hc]
        rfl
      · rw [increased_re, hre]
      · rw [increased_im]; linarith

theorem waveOp_isLinear (k : Fin d → Idx N → ℝ) (beta : ℝ) (kind : Kind d n) (m : Medium n N) : IsLinearMap ℂ (waveOp k beta kind m) := by
  cases kind with
  | scalar =>
    have hT : IsLinearMap ℂ fun (F : Field 1 N) (c : Fin 1) (x : Idx N) => (k2 k x : ℂ) * F c x :=
      ⟨fun f g => by funext c x; simp only [Pi.add_apply]; ring, fun a f => by funext c x; simp only [Pi.smul_apply, smul_eq_mul]; ring⟩
    have hL := convolve_isLinear hT
    have hM := mulField_isLinear m.epsilonPrime
    refine ⟨fun f g => ?_, fun a f => ?_⟩
    · simp only [waveOp, curlCurl, hL.map_add, hM.map_add, smul_add]; abel
    · simp only [waveOp, curlCurl, hL.map_smul, hM.map_smul, smul_sub, smul_comm a]
  | vectorial hd =>
    have hL := curl_isLinear (n := 3) (m := 3) k
    have hM := fun A => mulField_isLinear (N := N) (n := 3) A
    refine ⟨fun f g => ?_, fun a f => ?_⟩
    · simp only [waveOp, hL.map_add, (hM _).map_add]; abel
    · simp only [waveOp, hL.map_smul, (hM _).map_smul, smul_sub]

section
variable {k : Fin d → Idx N → ℝ} (hk : ∀ x, origin x ↔ ∀ a, k a x = 0) (kind : Kind d n) {m : Medium n N} {mag : Bool} {alpha : ℂ}
  (hα : 0 < alpha.im) {beta : ℝ} (hβ : 0 < beta) (hc : Consistent m mag beta) {σ : ℝ}
  (hdev : ∀ F, Backend.norm (deviation k alpha.re beta kind m F) ≤ σ * Backend.norm F)
include hα hβ hc hdev

theorem bounded_prepare (S F : Field n N) : Bounded k (prepare m mag alpha beta S F) (σ / (alpha.im * beta)) := by
  rw [prepare_eq m mag hα.ne']
  refine bounded_of_deviation kind m mag hα hβ S F hc fun F => ?_
  rw [div_mul_cancel₀ _ (mul_pos hα hβ).ne']
  exact hdev F

include hk

/-- If the bias exceeds the deviation, only solutions of the wave equation are not changed. -/
theorem update_zero_iff (hσ : σ < alpha.im * beta) (S F : Field n N) :
    update kind k (prepare m mag alpha beta S F) = 0 ↔ waveOp k beta kind m F = S := by
  have hB := bounded_prepare kind hα hβ hc hdev S F
  have hρ : σ / (alpha.im * beta) < 1 := by rwa [div_lt_one (mul_pos hα hβ)]
  rw [← preconditioned_iff hk kind m mag hα.ne' hβ.ne' S F hc]
  have e : update kind k (prepare m mag alpha beta S F) = chiOp k (prepare m mag alpha beta S F)
      (fun c x => green kind k (prepare m mag alpha beta S F).alpha (fun c x => chiOp k (prepare m mag alpha beta S F) (prepare m mag alpha beta S F).field c x +
        (prepare m mag alpha beta S F).source c x) c x - (prepare m mag alpha beta S F).field c x) := rfl
  rw [e]
  constructor
  · intro h c x
    exact sub_eq_zero.1 (congrFun (congrFun (chiOp_injective hρ hB _ h) c) x)
  · intro h
    have : (fun c x => green kind k (prepare m mag alpha beta S F).alpha (fun c x => chiOp k (prepare m mag alpha beta S F) (prepare m mag alpha beta S F).field c x +
        (prepare m mag alpha beta S F).source c x) c x - (prepare m mag alpha beta S F).field c x) = (0 : Field n N) := by
      funext c x; exact sub_eq_zero.2 (h c x)
    rw [this, (chiOp_isLinear _ _).map_zero]

omit hdev in
theorem update_zero_of (S F : Field n N) (h : waveOp k beta kind m F = S) : update kind k (prepare m mag alpha beta S F) = 0 := by
  rw [prepare_eq m mag hα.ne', update_prepared hk kind m mag hα.ne' hβ.ne' S F hc, h, sub_self, (green_isLinear kind k alpha).map_zero, smul_zero,
    (chiOp_isLinear _ _).map_zero]

variable (hpas : ∀ F, 0 ≤ (dot F (deviation k alpha.re beta kind m F)).im)
include hpas

omit hk hdev in
theorem passive_prepare (S F : Field n N) : Passive k (prepare m mag alpha beta S F) := by
  rw [prepare_eq m mag hα.ne']
  exact passive_of_deviation kind m mag hα hβ S F hc hpas

theorem update_le (hσ : σ ≤ alpha.im * beta) (S F : Field n N) :
    Backend.norm (update kind k (next kind k (prepare m mag alpha beta S F))) ≤ Backend.norm (update kind k (prepare m mag alpha beta S F)) := by
  rw [update_next]
  refine homogeneous_le_of_le (s := prepare m mag alpha beta S F) hk kind hα.ne' ?_ (bounded_prepare kind hα hβ hc hdev S F)
    (passive_prepare kind hα hβ hc hpas S F) _
  rwa [div_le_one (mul_pos hα hβ)]

theorem error_le (hσ : σ ≤ alpha.im * beta) (S F E : Field n N) (hE : waveOp k beta kind m E = S) :
    Backend.norm ((next kind k (prepare m mag alpha beta S F)).field - E) ≤ Backend.norm (F - E) := by
  rw [error_next kind k (prepare m mag alpha beta S F) E (update_zero_of hk kind hα hβ hc S E hE)]
  refine homogeneous_le_of_le (s := prepare m mag alpha beta S F) hk kind hα.ne' ?_ (bounded_prepare kind hα hβ hc hdev S F)
    (passive_prepare kind hα hβ hc hpas S F) _
  rwa [div_le_one (mul_pos hα hβ)]

omit hα hdev hpas in
theorem error_le_step (hα : 0 < alpha.im) (hdev : ∀ F, Backend.norm (deviation k alpha.re beta kind m F) ≤ σ * Backend.norm F)
    (hpas : ∀ F, 0 ≤ (dot F (deviation k alpha.re beta kind m F)).im) (hσ : σ ≤ alpha.im * beta) (S E : Field n N)
    (hE : waveOp k beta kind m E = S) {t t' : State n N} (ht : Of m mag alpha beta S t) (hs : step kind k t = .ok t') :
    Backend.norm (t'.field - E) ≤ Backend.norm (t.field - E) := by
  obtain ⟨alpha', F, p, i, r, rfl, hre, him⟩ := ht
  have hα' : 0 < alpha'.im := hα.trans_le him
  have h := error_le hk kind hα' hβ hc (by rw [hre]; exact hdev) (by rw [hre]; exact hpas)
    (hσ.trans (mul_le_mul_of_nonneg_right him hβ.le)) S F E hE
  unfold step at hs
  simp only at hs
  split at hs
  · simp at hs
  · split_ifs at hs with hlt
    · simp only [Except.ok.injEq] at hs
      subst hs
      exact h
    · simp only [Except.ok.injEq] at hs
      subst hs
      exact le_refl _

variable (hσ : σ < alpha.im * beta)
include hσ

omit hpas in
theorem fixed_iff (F : Field n N) : homogeneous kind k (prepare m mag alpha beta 0 F) F = F ↔ waveOp k beta kind m F = 0 := by
  rw [← update_zero_iff hk kind hα hβ hc hdev hσ 0 F, update_eq]
  have : (prepare m mag alpha beta 0 F).source = 0 := by
    rw [prepare_eq m mag hα.ne']; funext c x; simp [prepared]
  rw [this, (green_isLinear kind k _).map_zero, (chiOp_isLinear k _).map_zero, add_zero]
  exact sub_eq_zero.symm

/-- Convergence, when there is a solution. -/
theorem converges (S F E : Field n N) (hE : waveOp k beta kind m E = S) :
    ∃ P, waveOp k beta kind m P = S ∧ ∀ δ : ℝ, 0 < δ → ∃ i0, ∀ i ≥ i0,
      (∃ t, run kind k (prepare m mag alpha beta S F) i = .ok t ∧ Backend.norm (t.field - P) < δ) ∨
      (run kind k (prepare m mag alpha beta S F) i = .error .zeroDivision ∧
        ∃ j < i, ∃ t, run kind k (prepare m mag alpha beta S F) j = .ok t ∧ t.field = P) := by
  have hρ : σ / (alpha.im * beta) < 1 := by rwa [div_lt_one (mul_pos hα hβ)]
  have hB := bounded_prepare kind hα hβ hc hdev S F
  have hP := passive_prepare kind hα hβ hc hpas S F
  set s := prepare m mag alpha beta S F with hs
  have hsE : ∀ i p, update kind k (at' s i E p) = 0 := fun i p => update_zero_of hk kind hα hβ hc S E hE
  have hX := homogeneous_isLinear kind k s
  obtain ⟨p, hp, htend⟩ := iterate_tendsto (s := s) hk kind hα.ne' hρ hB hP (F - E)
  have hpw : waveOp k beta kind m (E + p) = S := by
    rw [← update_zero_iff hk kind hα hβ hc hdev hσ S (E + p)]
    have h1 := hsE 0 ⊤
    rw [update_at'] at h1
    have h2 := update_at' kind k s 0 (E + p) ⊤
    rw [hX.map_add, hp] at h2
    have : update kind k (at' s 0 (E + p) ⊤) = 0 := by
      rw [h2, ← h1]; abel
    exact this
  refine ⟨E + p, hpw, fun δ hδ => ?_⟩
  rw [Metric.tendsto_atTop] at htend
  obtain ⟨i0, hi0⟩ := htend δ hδ
  refine ⟨i0, fun i hi => ?_⟩
  rcases trajectory (s := s) hk kind hα.ne' hρ hB hP E hsE rfl i with ⟨p', hrun, -⟩ | ⟨herr, j, hj, p', hrun, hz⟩
  · refine .inl ⟨_, hrun, ?_⟩
    have h1 := hi0 i hi
    rw [Real.dist_0_eq_abs, abs_of_nonneg (norm_nonneg' _)] at h1
    have : (at' s i (E + (homogeneous kind k s)^[i] (s.field - E)) p').field - (E + p) = (homogeneous kind k s)^[i] (F - E) - p := by
      show E + (homogeneous kind k s)^[i] (F - E) - (E + p) = _
      abel
    rw [this]; exact h1
  · refine .inr ⟨herr, j, hj, _, hrun, ?_⟩
    show E + (homogeneous kind k s)^[j] (F - E) = E + p
    congr 1
    have hfix : homogeneous kind k s ((homogeneous kind k s)^[j] (F - E)) = (homogeneous kind k s)^[j] (F - E) := by
      have h1 := hsE j p'
      rw [update_at'] at h1 hz
      rw [hX.map_add] at hz
      have : homogeneous kind k s ((homogeneous kind k s)^[j] (s.field - E)) - (homogeneous kind k s)^[j] (s.field - E) = 0 := by
        calc _ = (homogeneous kind k s E + homogeneous kind k s ((homogeneous kind k s)^[j] (s.field - E)) - (E + (homogeneous kind k s)^[j] (s.field - E)) +
              chiOp k s (green kind k s.alpha s.source)) - (homogeneous kind k s E - E + chiOp k s (green kind k s.alpha s.source)) := by abel
          _ = 0 := by rw [hz, h1, sub_zero]
      exact sub_eq_zero.1 this
    have hconst : ∀ l, (homogeneous kind k s)^[l] ((homogeneous kind k s)^[j] (F - E)) = (homogeneous kind k s)^[j] (F - E) :=
      fun l => Function.iterate_fixed hfix l
    by_contra hne
    have hpos : 0 < Backend.norm ((homogeneous kind k s)^[j] (F - E) - p) := by
      refine lt_of_le_of_ne (norm_nonneg' _) fun e => hne ?_
      exact sub_eq_zero.1 ((norm_eq_zero_iff _).1 e.symm)
    obtain ⟨i1, hi1⟩ := htend _ hpos
    have h2 := hi1 (i1 + j) (Nat.le_add_right _ _)
    rw [Function.iterate_add_apply, hconst, Real.dist_0_eq_abs, abs_of_nonneg (norm_nonneg' _)] at h2
    exact lt_irrefl _ h2

/-- Geometric convergence to the only solution, which exists, with the rate at which the operator reduces errors. -/
theorem converges_rate {q : ℝ} (h0 : 0 ≤ q) (h1 : q < 1)
    (hq : ∀ e, Backend.norm (homogeneous kind k (prepare m mag alpha beta 0 0) e) ≤ q * Backend.norm e) (S F : Field n N) :
    ∃ P, waveOp k beta kind m P = S ∧ ContractsAtRate kind k (prepare m mag alpha beta S F) P q := by
  have hρ : σ / (alpha.im * beta) < 1 := by rwa [div_lt_one (mul_pos hα hβ)]
  have hu : ∀ E, waveOp k beta kind m E = 0 → E = 0 := by
    intro E hE
    have hE := (fixed_iff (mag := mag) hk kind hα hβ hc hdev hσ E).2 hE
    have h2 : Backend.norm (homogeneous kind k (prepare m mag alpha beta 0 E) E) ≤ q * Backend.norm E := hq E
    rw [hE] at h2
    refine (norm_eq_zero_iff E).1 (le_antisymm ?_ (norm_nonneg' E))
    nlinarith [norm_nonneg' E]
  have hB := bounded_prepare kind hα hβ hc hdev S F
  have hP := passive_prepare kind hα hβ hc hpas S F
  let W : Field n N →ₗ[ℂ] Field n N := (waveOp_isLinear k beta kind m).mk' _
  have hinj : Function.Injective W := (injective_iff_map_eq_zero W).2 hu
  obtain ⟨E, hE⟩ := LinearMap.injective_iff_surjective.1 hinj S
  change waveOp k beta kind m E = S at hE
  set s := prepare m mag alpha beta S F with hs
  have hsE : ∀ i p, update kind k (at' s i E p) = 0 := fun i p => update_zero_of hk kind hα hβ hc S E hE
  refine ⟨E, hE, h0, h1, fun i t t' ht ht' => ?_, fun i => ?_⟩
  · rcases trajectory (s := s) hk kind hα.ne' hρ hB hP E hsE rfl (i + 1) with ⟨p, hrun, hp⟩ | ⟨herr, -⟩
    · rcases hp with ⟨h, -⟩ | ⟨j, hj, hp, p', hrun'⟩
      · exact absurd h (Nat.succ_ne_zero i)
      · obtain rfl : i = j := by omega
        rw [ht] at hrun'
        rw [ht'] at hrun
        cases hrun
        cases hrun'
        refine ⟨?_, ?_⟩
        · have e1 : (at' s (i + 1) (E + (homogeneous kind k s)^[i + 1] (s.field - E)) p).field - E = homogeneous kind k s ((homogeneous kind k s)^[i] (s.field - E)) := by
            show E + (homogeneous kind k s)^[i + 1] (s.field - E) - E = _
            rw [Function.iterate_succ_apply']
            abel
          have e2 : (at' s i (E + (homogeneous kind k s)^[i] (s.field - E)) p').field - E = (homogeneous kind k s)^[i] (s.field - E) := by
            show E + (homogeneous kind k s)^[i] (s.field - E) - E = _
            abel
          rw [e1, e2]
          exact hq ((homogeneous kind k s)^[i] (s.field - E))
        · have e : (at' s (i + 1) (E + (homogeneous kind k s)^[i + 1] (s.field - E)) p).field - (at' s i (E + (homogeneous kind k s)^[i] (s.field - E)) p').field =
              (homogeneous kind k s)^[i + 1] (s.field - E) - (homogeneous kind k s)^[i] (s.field - E) := by
            show E + (homogeneous kind k s)^[i + 1] (s.field - E) - (E + (homogeneous kind k s)^[i] (s.field - E)) = _
            abel
          rw [e]
          exact hp
    · rw [ht'] at herr
      exact (nomatch herr)
  · rcases trajectory (s := s) hk kind hα.ne' hρ hB hP E hsE rfl i with ⟨p', hrun, -⟩ | ⟨herr, j, hj, p', hrun, hz⟩
    · exact .inl ⟨_, hrun⟩
    · refine .inr ⟨herr, j, hj, _, hrun, ?_⟩
      have hw : waveOp k beta kind m (E + (homogeneous kind k s)^[j] (s.field - E)) = S := (update_zero_iff hk kind hα hβ hc hdev hσ S _).1 hz
      exact hinj (hw.trans hE.symm)

/-- The same rate for all sources and initial fields. -/
theorem converges_uniform (hu : ∀ E, waveOp k beta kind m E = 0 → E = 0) :
    ∃ q : ℝ, ∀ S F : Field n N, ∃ P, waveOp k beta kind m P = S ∧ ContractsAtRate kind k (prepare m mag alpha beta S F) P q := by
  have hρ : σ / (alpha.im * beta) < 1 := by rwa [div_lt_one (mul_pos hα hβ)]
  obtain ⟨q, h0, h1, hq⟩ := iterate_rate (s := prepare m mag alpha beta 0 0) hk kind hα.ne' hρ (bounded_prepare kind hα hβ hc hdev 0 0) (passive_prepare kind hα hβ hc hpas 0 0)
    fun F hF => hu F ((fixed_iff hk kind hα hβ hc hdev hσ F).1 hF)
  refine ⟨q, converges_rate hk kind hα hβ hc hdev hpas hσ h0 h1 fun e => ?_⟩
  have h2 := hq 1 e
  rwa [pow_one] at h2

/-- Geometric convergence to the only solution, which exists. -/
theorem converges_unique (hu : ∀ E, waveOp k beta kind m E = 0 → E = 0) (S F : Field n N) :
    ∃ P, waveOp k beta kind m P = S ∧ ContractsTo kind k (prepare m mag alpha beta S F) P := by
  obtain ⟨q, hq⟩ := converges_uniform (mag := mag) hk kind hα hβ hc hdev hpas hσ hu
  obtain ⟨P, hP, h⟩ := hq S F
  exact ⟨P, hP, q, h⟩

end

end Verif.Solver
