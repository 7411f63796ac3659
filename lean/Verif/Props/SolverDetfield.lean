import Verif.Props.SolverHistory
import Verif.Props.ProblemStop

/-!
# C102: the fields from which a ScatteringMatrix is calculated are accurate
-/

namespace Verif.Solver

open Verif Verif.Fourier Verif.Backend Complex
open Verif.Spec.Solver (WaveEquation)

variable {d n : ℕ} {N : Fin d → ℕ} {kind : Kind d n} {k : Fin d → Idx N → ℝ}

theorem reset_prevNorm (k0 : ℝ) (s : State n N) (S : Field n N) : (reset k0 s S).prevNorm = ⊤ := rfl

theorem getE_reset (k0 : ℝ) (s : State n N) (S : Field n N) : getE k0 (reset k0 s S) = 0 := by
  funext a x
  simp [getE, reset, setE, setSource]

/-- The default callback is that with the tolerance 10⁻⁶ and the limit 10⁴. -/
theorem source2detfield_default (k0 : ℝ) (s : State n N) (S : Field n N) (i : ℕ) :
    source2detfield kind k k0 matrixCallback s S i = solve kind k .none 1e-6 (((10000 : ℕ) : ℝ) : WithTop ℝ) (reset k0 s S) i := by
  rw [show (((10000 : ℕ) : ℝ) : WithTop ℝ) = ((1e4 : ℝ) : WithTop ℝ) by norm_num]
  rfl

/-- **C102 (when it stops).** With the default callback, for all materials, and whatever has been calculated before: the calculation for a source ends with the first iteration after which the residue is at
most 10⁻⁶, or with iteration number 10⁴. -/
theorem C102_stops (k0 : ℝ) (s : State n N) (S : Field n N) (i : ℕ) : (∃ t, source2detfield kind k k0 matrixCallback s S i = .done () t) ↔
    ∃ j < i, (∃ t, run kind k (start (reset k0 s S)) (j + 1) = .ok t ∧ (10000 ≤ j + 1 ∨ ∃ r ≤ ((1e-6 : ℝ) : WithTop ℝ), (relativeResidue t).1 = .ok r)) ∧
      ∀ l < j, ∃ t, run kind k (start (reset k0 s S)) (l + 1) = .ok t ∧ l + 1 < 10000 ∧ ∃ r > ((1e-6 : ℝ) : WithTop ℝ), (relativeResidue t).1 = .ok r := by
  have e1 : ∀ j : ℕ, (((10000 : ℕ) : ℝ) : WithTop ℝ) ≤ ((j + 1 : ℝ) : WithTop ℝ) ↔ 10000 ≤ j + 1 := fun j => by
    rw [WithTop.coe_le_coe]
    exact_mod_cast Iff.rfl
  have e2 : ∀ j : ℕ, ((j + 1 : ℝ) : WithTop ℝ) < (((10000 : ℕ) : ℝ) : WithTop ℝ) ↔ j + 1 < 10000 := fun j => by
    rw [WithTop.coe_lt_coe]
    exact_mod_cast Iff.rfl
  simp only [source2detfield_default]
  rw [C39_tolerance kind k 1e-6 _ (reset k0 s S) (by rw [reset_prevNorm]; exact le_top) i]
  simp only [e1, e2]

section Rate
variable {k0 : ℝ} (hk0 : k0 ≠ 0) {s : State n N} {S E : Field n N} {q : ℝ} (h : ConvergesAtRate kind k k0 (reset k0 s S) E q)
include hk0 h

/-- The errors of the iterations, from the field 0. -/
theorem detfield_bound (i : ℕ) (t : State n N) (ht : run kind k (start (reset k0 s S)) i = .ok t) : Backend.norm (getE k0 t - E) ≤ q ^ i * Backend.norm (0 - E) := by
  have hfirst : getE k0 (start (reset k0 s S)) = 0 := getE_reset k0 s S
  obtain ⟨h0, h1, hstep, -⟩ := h.start
  induction i generalizing t with
  | zero =>
    simp only [run, Except.ok.injEq] at ht
    rw [← ht, hfirst, pow_zero, one_mul]
  | succ i ih =>
    obtain ⟨t', ht'⟩ := run_of_succ ht
    have h2 := mul_le_mul_of_nonneg_left (ih t' ht') h0
    have h3 := (hstep i t' t ht' ht).1
    rw [pow_succ]
    linarith

/-- It returns within 10⁴ iterations, and does not raise. -/
theorem detfield_returns : ∃ t, source2detfield kind k k0 matrixCallback s S 10000 = .done () t ∧ 1 ≤ t.iteration ∧ t.iteration ≤ 10000 ∧
    Backend.norm (getE k0 t - E) ≤ Backend.norm E := by
  have hp : (((0 : ℝ) : WithTop ℝ)) < (reset k0 s S).prevNorm := by
    rw [reset_prevNorm]
    exact WithTop.coe_lt_top _
  have hmax : ∀ t, source2detfield kind k k0 matrixCallback s S 10000 = .done () t → 1 ≤ t.iteration ∧ t.iteration ≤ 10000 ∧ Backend.norm (getE k0 t - E) ≤ Backend.norm E := by
    intro t ht
    simp only [source2detfield, solve, matrixCallback, criterion_eq] at ht
    rw [loop_done_iff] at ht
    obtain ⟨w, t0, r, hw, hf, -, -, rfl, -⟩ := ht
    rw [follows_iff_run] at hf
    have hlast := hf w.length (by simp)
    rw [List.getElem_concat_length rfl] at hlast
    have := run_start_iteration kind k (reset k0 s S) hp.le hlast
    refine ⟨?_, ?_, ?_⟩
    · show 1 ≤ t0.iteration
      omega
    · show t0.iteration ≤ 10000
      omega
    · show Backend.norm (getE k0 t0 - E) ≤ Backend.norm E
      have h2 := detfield_bound hk0 h _ _ hlast
      rw [zero_sub, ← norm_toE (-E), map_neg, _root_.norm_neg, norm_toE] at h2
      obtain ⟨h0, h1, -⟩ := h
      exact h2.trans (mul_le_of_le_one_left (norm_nonneg' _) (pow_le_one₀ h0 h1.le))
  cases hout : source2detfield kind k k0 matrixCallback s S 10000 with
  | running u t =>
    rw [source2detfield_default] at hout
    exact absurd hout (C39_limit _ _ _ hp.le _ le_rfl (by norm_num) t)
  | done u t => exact ⟨t, rfl, hmax t hout⟩
  | raised e =>
    exfalso
    rw [source2detfield_default] at hout
    obtain ⟨h0, h1, hstep, -⟩ := h.start
    have key := detfield_bound hk0 h
    by_cases hE : E = 0
    · subst hE
      have hz : ∀ i t, run kind k (start (reset k0 s S)) i = .ok t → getE k0 t = 0 := fun i t ht => by
        have h2 := key i t ht
        rw [sub_zero, sub_self, (norm_eq_zero_iff (0 : Field n N)).2 rfl, mul_zero] at h2
        exact (norm_eq_zero_iff _).1 (le_antisymm h2 (norm_nonneg' _))
      have hres : ∀ j t, run kind k (start (reset k0 s S)) (j + 1) = .ok t → (relativeResidue t).1 = .ok ((0 : ℝ) : WithTop ℝ) := fun j t ht => by
        obtain ⟨t', ht'⟩ := run_of_succ ht
        rw [residue_electric hk0 (run_residue_none ht) (hstep _ _ _ ht' ht).2, hz _ _ ht, hz _ _ ht', sub_zero, if_pos ((norm_eq_zero_iff _).2 rfl)]
      obtain ⟨j, -, hl, h2⟩ := (C39_raises _ _ _ hp.le _ _).1 hout
      cases j with
      | zero =>
        rcases h2 with h2 | ⟨t, ht, -, h2⟩
        · simp only [run] at h2
          rw [step_error_iff kind k (start (reset k0 s S)) hp.le] at h2
          exact hp.ne' h2.1
        · rw [hres 0 t ht] at h2
          exact (nomatch h2)
      | succ j =>
        obtain ⟨t, ht, -, r, hr, h3⟩ := hl 0 (Nat.succ_pos j)
        rw [hres 0 t ht] at h3
        rw [← Except.ok.inj h3] at hr
        have := WithTop.coe_lt_coe.1 hr
        norm_num at this
    · obtain ⟨-, j, -, t, ht, hz⟩ := C90_raises hk0 ⟨q, h⟩ hp (by norm_num) _ hout
      have h2 := key _ _ ht
      rw [hz] at h2
      have hpos : 0 < Backend.norm (0 - E) := lt_of_le_of_ne (norm_nonneg' _) fun h3 => hE (by
        have := (norm_eq_zero_iff _).1 h3.symm
        rwa [zero_sub, neg_eq_zero] at this)
      have h3 : q ^ (j + 1) < 1 := pow_lt_one₀ h0 h1 (Nat.succ_ne_zero j)
      have := mul_lt_mul_of_pos_right h3 hpos
      linarith

/-- Its error, unless it has reached 10⁴ iterations. -/
theorem detfield_error {i : ℕ} {t : State n N} (ht : source2detfield kind k k0 matrixCallback s S i = .done () t) :
    10000 ≤ t.iteration ∨ Backend.norm (getE k0 t - E) ≤ q / (1 - q) * 1e-6 * Backend.norm (getE k0 t) := by
  rw [source2detfield_default] at ht
  rcases C90_rate hk0 h _ _ i t ht with h1 | h1
  · left
    have h2 : ((10000 : ℕ) : ℝ) ≤ (t.iteration : ℝ) := WithTop.coe_le_coe.1 h1
    exact_mod_cast h2
  · exact .inr h1

end Rate

/-- What a ScatteringMatrix with the default callback needs: there is one factor such that for every source, after any calculations for other sources, `source2detfield` returns, within 10⁴ iterations, a field
of which the error is at most that of the field 0, and of which the relative error is at most that factor times 10⁻⁶, unless it needed 10⁴ iterations.  The relation `Sol` between sources and fields is the equation that is to be solved. -/
def AccurateFields (kind : Kind d n) (k : Fin d → Idx N → ℝ) (k0 : ℝ) (s : State n N) (Sol : Field n N → Field n N → Prop) : Prop :=
  ∃ C : ℝ, 0 ≤ C ∧ ∀ t, Later kind k k0 matrixCallback s t → ∀ S, ∃ E t', Sol S E ∧ source2detfield kind k k0 matrixCallback t S 10000 = .done () t' ∧
    1 ≤ t'.iteration ∧ t'.iteration ≤ 10000 ∧ Backend.norm (getE k0 t' - E) ≤ Backend.norm E ∧ (t'.iteration < 10000 → Backend.norm (getE k0 t' - E) ≤ C * 1e-6 * Backend.norm (getE k0 t'))

/-- **C102 (accuracy).** This holds whenever the errors decrease exponentially, with the same rate for all sources. -/
theorem C102_accuracy {k0 : ℝ} (hk0 : k0 ≠ 0) {s : State n N} {q : ℝ} {Sol : Field n N → Field n N → Prop}
    (h : ∀ S, ∃ E, Sol S E ∧ ConvergesAtRate kind k k0 (reset k0 s S) E q) : AccurateFields kind k k0 s Sol := by
  obtain ⟨-, -, h0, h1, -⟩ := h 0
  refine ⟨q / (1 - q), div_nonneg h0 (by linarith), fun t ht S => ?_⟩
  obtain ⟨E, hE, hc⟩ := h S
  obtain ⟨t', h2, h3, h4, h6⟩ := detfield_returns hk0 hc
  refine ⟨E, t', hE, ?_, h3, h4, h6, fun h5 => (detfield_error hk0 hc h2).resolve_left (by omega)⟩
  rw [show (10000 : ℕ) = 9999 + 1 from rfl] at h2 ⊢
  rw [← h2]
  exact C94_history (fun S => by
    obtain ⟨E, -, hc⟩ := h S
    exact ⟨E, q, hc⟩) ht S 9999

/-- **C102 (superposition).** Then, if the equation is linear and has one solution for each source, the field that is calculated for a superposition of sources is that of the fields that are calculated for these sources, up to errors of the same order. -/
theorem C102_superposition {k0 : ℝ} {s : State n N} {Sol : Field n N → Field n N → Prop} (h : AccurateFields kind k k0 s Sol)
    (hlin : ∀ (a b : ℂ) S S' E E', Sol S E → Sol S' E' → Sol (a • S + b • S') (a • E + b • E')) (hone : ∀ S E E', Sol S E → Sol S E' → E = E') :
    ∃ C : ℝ, 0 ≤ C ∧ ∀ (a b : ℂ) (S S' : Field n N) (t t' u v v' w : State n N), Later kind k k0 matrixCallback s t → Later kind k k0 matrixCallback s t' →
      Later kind k k0 matrixCallback s u → source2detfield kind k k0 matrixCallback t S 10000 = .done () v → source2detfield kind k k0 matrixCallback t' S' 10000 = .done () v' →
      source2detfield kind k k0 matrixCallback u (a • S + b • S') 10000 = .done () w → v.iteration < 10000 → v'.iteration < 10000 → w.iteration < 10000 →
      Backend.norm (getE k0 w - (a • getE k0 v + b • getE k0 v')) ≤
        C * 1e-6 * (Backend.norm (getE k0 w) + ‖a‖ * Backend.norm (getE k0 v) + ‖b‖ * Backend.norm (getE k0 v')) := by
  obtain ⟨C, hC, hacc⟩ := h
  refine ⟨C, hC, fun a b S S' t t' u v v' w ht ht' hu hv hv' hw h1 h2 h3 => ?_⟩
  obtain ⟨E, v1, hE, e1, -, -, -, h4⟩ := hacc t ht S
  obtain ⟨E', v2, hE', e2, -, -, -, h5⟩ := hacc t' ht' S'
  obtain ⟨E'', v3, hE'', e3, -, -, -, h6⟩ := hacc u hu (a • S + b • S')
  rw [hv] at e1
  rw [hv'] at e2
  rw [hw] at e3
  cases e1
  cases e2
  cases e3
  have e : E'' = a • E + b • E' := hone _ _ _ hE'' (hlin a b S S' E E' hE hE')
  subst e
  have h4 := h4 h1
  have h5 := h5 h2
  have h6 := h6 h3
  have n1 := norm_sub_le' (getE k0 w - (a • E + b • E')) (a • (getE k0 v - E) + b • (getE k0 v' - E'))
  have n2 := norm_sub_le' (a • (getE k0 v - E)) (-(b • (getE k0 v' - E')))
  rw [sub_neg_eq_add, ← neg_smul, norm_smul', norm_smul', norm_neg] at n2
  rw [show getE k0 w - (a • E + b • E') - (a • (getE k0 v - E) + b • (getE k0 v' - E')) = getE k0 w - (a • getE k0 v + b • getE k0 v') by
    rw [smul_sub, smul_sub]; abel] at n1
  have n3 := mul_le_mul_of_nonneg_left h4 (norm_nonneg a)
  have n4 := mul_le_mul_of_nonneg_left h5 (norm_nonneg b)
  calc _ ≤ _ := n1
    _ ≤ C * 1e-6 * Backend.norm (getE k0 w) + (‖a‖ * (C * 1e-6 * Backend.norm (getE k0 v)) + ‖b‖ * (C * 1e-6 * Backend.norm (getE k0 v'))) := by linarith
    _ = _ := by ring

end Verif.Solver

namespace Verif.Problem

open Verif Verif.Fourier Verif.Backend Verif.Solver Verif.Construct Complex Matrix
open Verif.Assign (toMatrixField)
open Verif.Spec.Solver (NoGain Within WaveEquation ScalarWaveEquation)

variable {d n : ℕ}

section Vectorial
variable {co : Const} {p : Args d} {m : Medium 3 p.grid.shape} {S E0 : Solver.Field 3 p.grid.shape} (h : Describes co 3 p m S E0)
  (hvec : p.source.isVectorial (List.ofFn p.grid.shape) (p.currentFactor co) = true) (hd : d ≤ 3) (hs : ∀ a, p.grid.step a ≠ 0) (hk0 : 0 < p.frequency.k0 co.c)
  (hxi : ∀ x, m.xi x = 0) (hzeta : ∀ x, m.zeta x = 0) (hgain : NoGain m.epsilon) (hgainM : NoGain m.mu) (o : Optimum) (tol : ℝ)
include h hvec hs hk0 hxi hzeta hgain hgainM

/-- **C102 (as called, not magnetic).** For all arguments of the constructor that describe a problem without gain and coupling, with a uniform permeability in scalar form, such that there is no field without
source: the fields are accurate, for all sources, one after the other. -/
theorem C102_called (htol : 0 ≤ tol) (form : ScalarForm d p.mu) {r : ℝ} (hr : 0 < r) (hmu : ∀ x, m.mu x = (r : ℂ) • 1)
    (hu : ∀ E, WaveEquation (kOf p.grid) (p.frequency.k0 co.c) m.epsilon m.mu 0 E → E = 0) :
    ∃ s, p.start co tol o = .ok ⟨3, s⟩ ∧ AccurateFields (.vectorial hd) (backendK p.grid (p.frequency.k0 co.c)) (p.frequency.k0 co.c) s
      (WaveEquation (kOf p.grid) (p.frequency.k0 co.c) m.epsilon m.mu) := by
  have hinv : ((m.mu (first h.nonempty))⁻¹ 0 0).re = r⁻¹ := by
    rw [hmu, smul_one_inv (ofReal_ne hr.ne'), Matrix.smul_apply, Matrix.one_apply_eq, smul_eq_mul, mul_one, ← ofReal_inv, ofReal_re]
  have hmu' : m.mu = fun _ => (((m.mu (first h.nonempty))⁻¹ 0 0).re : ℂ)⁻¹ • (1 : Matrix (Fin 3) (Fin 3) ℂ) := by
    funext x
    rw [hmu x, hinv]
    push_cast
    rw [inv_inv]
  have hβ : 0 < ((m.mu (first h.nonempty))⁻¹ 0 0).re := by
    rw [hinv]
    positivity
  have hc := C86_construct h tol o
  rw [not_magnetic h hxi hzeta form (fun x => by rw [hmu, hmu, sub_self, norm_zero]; positivity), if_neg (by decide)] at hc
  obtain ⟨q, hq⟩ := C87_rate hs hk0 hd hxi hzeta hgain hgainM htol p.thickness (first h.nonempty) hβ o.alphaR (fun E hE => hu E (by rw [hmu']; exact hE))
  obtain ⟨σ, -, h0, hσ⟩ := tolerance_passivity hs hk0 hxi hzeta hgain hgainM htol p.thickness (first h.nonempty) hβ o.alphaR
  have him : (m.constantsNonMagnetic tol (p.frequency.k0 co.c) p.thickness 0 (first h.nonempty) o.alphaR).1.im ≠ 0 := by
    intro h1
    rw [h1, zero_mul] at hσ
    linarith
  refine ⟨_, start_vectorial hvec o tol hc, C102_accuracy hk0.ne' (q := q) fun S' => ?_⟩
  rw [reset_prepare _ _ _ him]
  obtain ⟨E, hE, h2⟩ := hq S' 0
  rw [← hmu'] at hE
  exact ⟨E, hE, h2⟩

/-- **C102 (as called, magnetic).** The same for materials that are found to be magnetic. -/
theorem C102_called_magnetic (hmag : foundMagnetic (toMatrixField d p.xi) (toMatrixField d p.zeta) (toMatrixField d p.mu) = true) (hinv : ∀ x, IsUnit (m.mu x).det)
    (hv : o.vec.2 ≠ 0) (hu : ∀ E, WaveEquation (kOf p.grid) (p.frequency.k0 co.c) m.epsilon m.mu 0 E → E = 0) :
    ∃ s, p.start co tol o = .ok ⟨3, s⟩ ∧ AccurateFields (.vectorial hd) (backendK p.grid (p.frequency.k0 co.c)) (p.frequency.k0 co.c) s
      (WaveEquation (kOf p.grid) (p.frequency.k0 co.c) m.epsilon m.mu) := by
  have hc := C86_construct h tol o
  rw [hmag, if_pos rfl] at hc
  obtain ⟨σ, hP, h0, hσ⟩ := magnetic_passivity hs hk0 hxi hzeta hgain hgainM hinv p.thickness hv
  set c := m.constantsMagnetic p.grid.step (p.frequency.k0 co.c) p.thickness o.vec with hcc
  have hbp : 0 < c.2 := by
    change 0 < o.vec.2 ^ 2
    positivity
  have him : 0 < c.1.im := by
    by_contra hn
    push Not at hn
    have := mul_nonpos_of_nonpos_of_nonneg hn hbp.le
    linarith
  have hch : Chosen m false 0 (first h.nonempty) true c.2 := ⟨by unfold Medium.isMagnetic; simp, (nomatch ·), hbp.ne'⟩
  obtain ⟨q, hq⟩ := C35_uniform hs hk0.ne' hd hP hch (nomatch ·) him hbp hσ hu
  refine ⟨_, start_vectorial hvec o tol hc, C102_accuracy hk0.ne' (q := q) fun S' => ?_⟩
  rw [reset_prepare _ _ _ him.ne']
  exact hq S' 0

end Vectorial

/-- **C102 (as called, scalar).** The same for scalar calculations. -/
theorem C102_called_scalar {co : Const} {p : Args d} {m : Medium 1 p.grid.shape} {S E0 : Solver.Field 1 p.grid.shape} (h : Describes co 1 p m S E0)
    (hvec : p.source.isVectorial (List.ofFn p.grid.shape) (p.currentFactor co) = false) (hs : ∀ a, p.grid.step a ≠ 0) (hk0 : 0 < p.frequency.k0 co.c)
    (hxi : ∀ x, m.xi x = 0) (hzeta : ∀ x, m.zeta x = 0) (hgain : ∀ x, 0 ≤ (m.epsilon x 0 0).im) (o : Optimum) (tol : ℝ) (hgainM : ∀ x, 0 ≤ (m.mu x 0 0).im) (htol : 0 ≤ tol)
    (hmu : ∀ x, ‖m.mu x 0 0 - m.mu (first h.nonempty) 0 0‖ ≤ 1e-8 + 1e-5 * ‖m.mu (first h.nonempty) 0 0‖) (hβ : 0 < ((m.mu (first h.nonempty) 0 0)⁻¹).re)
    (hu : ∀ E, ScalarWaveEquation (kOf p.grid) (p.frequency.k0 co.c) (fun x => m.epsilon x 0 0) (((m.mu (first h.nonempty) 0 0)⁻¹).re : ℂ)⁻¹ 0 E → E = 0) :
    ∃ s, p.start co tol o = .ok ⟨1, s⟩ ∧ AccurateFields .scalar (backendK p.grid (p.frequency.k0 co.c)) (p.frequency.k0 co.c) s fun S E =>
      ScalarWaveEquation (kOf p.grid) (p.frequency.k0 co.c) (fun x => m.epsilon x 0 0) (((m.mu (first h.nonempty) 0 0)⁻¹).re : ℂ)⁻¹ (S 0) (E 0) := by
  obtain ⟨alpha, beta, σ, hst, hb, hbp, him, hσ, hbound⟩ := scalar_constants h hvec hxi hzeta hgain o tol hgainM htol hmu hβ
  obtain ⟨q, hq⟩ := C88_rate hs hk0.ne' (first h.nonempty) (mag := false) (by rw [scalarEpsilon_eq hxi]; exact hgain) hbound him hbp hσ
    (fun E hE => hu E (by rw [scalarEpsilon_eq hxi, hb] at hE; exact hE))
  refine ⟨_, hst, C102_accuracy hk0.ne' (q := q) fun S' => ?_⟩
  rw [reset_prepare _ _ _ him.ne']
  obtain ⟨E, hE, h2⟩ := hq S' 0
  rw [scalarEpsilon_eq hxi, hb] at hE
  exact ⟨E, hE, h2⟩

/-- The wave equation is linear, and it has at most one solution if it has no solution without source: the assumptions of `C102_superposition`. -/
theorem waveEquation_linear (g : Grid.Obj d ℝ) (k0 : ℝ) (epsilon mu : Tensor 3 g.shape) :
    (∀ (a b : ℂ) S S' E E', WaveEquation (kOf g) k0 epsilon mu S E → WaveEquation (kOf g) k0 epsilon mu S' E' → WaveEquation (kOf g) k0 epsilon mu (a • S + b • S') (a • E + b • E')) ∧
      ((∀ E, WaveEquation (kOf g) k0 epsilon mu 0 E → E = 0) → ∀ S E E', WaveEquation (kOf g) k0 epsilon mu S E → WaveEquation (kOf g) k0 epsilon mu S E' → E = E') := by
  have hlin : ∀ (a b : ℂ) S S' E E', WaveEquation (kOf g) k0 epsilon mu S E → WaveEquation (kOf g) k0 epsilon mu S' E' →
      WaveEquation (kOf g) k0 epsilon mu (a • S + b • S') (a • E + b • E') := by
    intro a b S S' E E' h h' c x
    have h1 := h c x
    have h2 := h' c x
    rw [spec_curl, spec_curl, spec_act, spec_act] at h1 h2 ⊢
    simp only [(curl_isLinear _).map_add, (curl_isLinear _).map_smul, (mulField_isLinear _).map_add, (mulField_isLinear _).map_smul, Pi.add_apply, Pi.smul_apply, smul_eq_mul]
    rw [← h1, ← h2]
    ring
  refine ⟨hlin, fun hu S E E' h h' => ?_⟩
  have := hlin 1 (-1) S S E E' h h'
  rw [one_smul, one_smul, neg_smul, neg_smul, one_smul, one_smul, add_neg_cancel, ← sub_eq_add_neg] at this
  exact sub_eq_zero.1 (hu _ this)

/-- A case that is not trivial: the problem of `demoArgs`. -/
example (co : Const) (o : Optimum) : ∃ s, (quietArgs true).start co 1e-8 o = .ok ⟨3, s⟩ ∧
    AccurateFields (.vectorial (show 1 ≤ 3 by decide)) (backendK demoGrid 1) 1 s (WaveEquation (kOf demoGrid) 1 (demoMedium 3).epsilon (demoMedium 3).mu) := by
  obtain ⟨δ, hδ, habs⟩ := demo_absorbs 3
  exact C102_called (quiet_describes true 3 co) rfl (by decide) demo_step one_pos (fun _ => rfl) (fun _ => rfl) (demo_noGain 3).1 (demo_noGain 3).2 o 1e-8
    (by norm_num) ⟨by simp [quietArgs, demoArgs], by simp [quietArgs, demoArgs]⟩ (r := 2) (by norm_num) (fun _ => by push_cast; rfl)
    (absorbing_unique (m := demoMedium 3) (fun x => by
      show IsUnit ((2 : ℂ) • (1 : Matrix (Fin 3) (Fin 3) ℂ)).det
      rw [Matrix.det_smul, Matrix.det_one, mul_one]
      exact isUnit_iff_ne_zero.2 (pow_ne_zero _ two_ne_zero)) (demo_noGain 3).2 one_ne_zero hδ habs)

end Verif.Problem
