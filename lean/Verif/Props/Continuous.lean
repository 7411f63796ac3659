import Verif.Lemmas.Continuous
import Verif.Props.SolverFields
import Mathlib.Analysis.SpecialFunctions.Exp

/-!
# C123: the equations hold in continuous space

The derivatives of the library are multiplications in Fourier space. Here they are shown to be the derivatives, in the sense of analysis, of the function of the position that has the samples as its
values and that varies slowly enough. Hence the fields satisfy Maxwell's equations at all points of space, and not only a discrete version at the samples.
-/

namespace Verif.Continuous

open Verif Verif.Fourier Verif.Backend Verif.Spec.Continuous Verif.Spec.Backend Complex
open Verif.Solver (State Const getE getB getH getD getJ backendK angularFrequency)
open Verif.Spec.Solver (WaveEquation ScalarWaveEquation)

variable {d : ℕ}

/-! ### Interpolation -/

section
variable {g : Grid.Obj d ℝ} {f f' : Point → ℂ} {s s' : Idx g.shape → ℂ}

theorem _root_.Verif.Spec.Continuous.Interpolates.sub (h : Interpolates g f s) (h' : Interpolates g f' s') : Interpolates g (fun r => f r - f' r) fun x => s x - s' x :=
  ⟨Submodule.sub_mem _ h.1 h'.1, fun x r hr => by simp only [h.2 x r hr, h'.2 x r hr]⟩

theorem _root_.Verif.Spec.Continuous.Interpolates.add (h : Interpolates g f s) (h' : Interpolates g f' s') : Interpolates g (fun r => f r + f' r) fun x => s x + s' x :=
  ⟨Submodule.add_mem _ h.1 h'.1, fun x r hr => by simp only [h.2 x r hr, h'.2 x r hr]⟩

theorem _root_.Verif.Spec.Continuous.Interpolates.mul (z : ℂ) (h : Interpolates g f s) : Interpolates g (fun r => z * f r) fun x => z * s x :=
  ⟨Submodule.smul_mem _ z h.1, fun x r hr => by simp only [h.2 x r hr]⟩

theorem _root_.Verif.Spec.Continuous.Interpolates.sum {ι : Type} (t : Finset ι) {f : ι → Point → ℂ} {s : ι → Idx g.shape → ℂ} (h : ∀ i, Interpolates g (f i) (s i)) :
    Interpolates g (fun r => ∑ i ∈ t, f i r) fun x => ∑ i ∈ t, s i x := by
  refine ⟨?_, fun x r hr => Finset.sum_congr rfl fun i _ => (h i).2 x r hr⟩
  have := Submodule.sum_mem (BandLimited g.shape g.step) (t := t) fun i _ => (h i).1
  convert this using 1
  funext r
  rw [Finset.sum_apply]

variable (hd : d ≤ 3) (hs : ∀ a, g.step a ≠ 0)
include hd hs

theorem interpolates_iff (f : Point → ℂ) (s : Idx g.shape → ℂ) : Interpolates g f s ↔ ∃ a, f = series g a ∧ ∀ q, ft s q = a q * phase g q * ∏ b, (g.shape b : ℂ) := by
  unfold Interpolates
  rw [bandLimited_iff hs hd]
  constructor
  · rintro ⟨⟨a, rfl⟩, h⟩
    exact ⟨a, rfl, (series_interpolates hd hs a s).1 h⟩
  · rintro ⟨a, rfl, h⟩
    exact ⟨⟨a, rfl⟩, (series_interpolates hd hs a s).2 h⟩

/-- **C123 (interpolation).** For all grids and all values at the samples: there is exactly one function that varies slowly enough and has these values. -/
theorem C123_interpolation (s : Idx g.shape → ℂ) : ∃! f, Interpolates g f s := by
  have hN : ∀ q : Idx g.shape, phase g q * ∏ b, (g.shape b : ℂ) ≠ 0 := fun q => mul_ne_zero (phase_ne_zero g q) (prod_ne_zero_of_idx q)
  refine ⟨series g fun q => ft s q / (phase g q * ∏ b, (g.shape b : ℂ)), ?_, fun f hf => ?_⟩
  · refine (interpolates_iff hd hs _ _).2 ⟨_, rfl, fun q => ?_⟩
    have := hN q
    rw [mul_assoc, div_mul_cancel₀ _ this]
  · obtain ⟨a, rfl, ha⟩ := (interpolates_iff hd hs _ _).1 hf
    congr 1
    funext q
    rw [ha q, mul_assoc, mul_div_cancel_right₀ _ (hN q)]

theorem _root_.Verif.Spec.Continuous.Interpolates.unique (h : Interpolates g f s) (h' : Interpolates g f' s) : f = f' := (C123_interpolation hd hs s).unique h h'

/-- **C123 (bound).** The function is nowhere larger than the sum of the values at the samples; so if the values converge, then so does the function, uniformly in space. -/
theorem C123_bound (h : Interpolates g f s) (r : Point) : ‖f r‖ ≤ ∑ x, ‖s x‖ := by
  obtain ⟨a, rfl, ha⟩ := (interpolates_iff hd hs _ _).1 h
  have hft : ∀ q, ‖ft s q‖ ≤ ∑ x, ‖s x‖ := by
    intro q
    unfold ft
    refine (norm_sum_le _ _).trans (Finset.sum_le_sum fun x _ => ?_)
    rw [norm_mul, norm_prod]
    have : ∀ b, ‖twiddle (g.shape b) (q b) (x b)‖ = 1 := fun b => by
      unfold twiddle
      rw [Complex.norm_exp]
      simp
    simp [this]
  have hw : ∀ kappa r, ‖wave kappa r‖ = 1 := fun kappa r => by
    unfold wave
    rw [mul_comm, Complex.norm_exp_ofReal_mul_I]
  have hp : ∀ q, ‖phase g q‖ = 1 := fun q => by
    unfold phase
    rw [mul_comm, Complex.norm_exp_ofReal_mul_I]
  have hN : ‖∏ b, (g.shape b : ℂ)‖ = Fintype.card (Idx g.shape) := by
    rw [norm_prod, show Fintype.card (Idx g.shape) = ∏ b, Fintype.card (Fin (g.shape b)) from Fintype.card_pi]
    push_cast
    simp
  unfold series
  refine (norm_sum_le _ _).trans ?_
  by_cases h0 : IsEmpty (Idx g.shape)
  · simp
  rw [not_isEmpty_iff] at h0
  have hc : (0 : ℝ) < Fintype.card (Idx g.shape) := by exact_mod_cast Fintype.card_pos
  have hb : ∀ q, ‖a q * wave (waveVector g q) r‖ ≤ (∑ x, ‖s x‖) / Fintype.card (Idx g.shape) := by
    intro q
    rw [norm_mul, hw, mul_one, le_div_iff₀ hc]
    have := hft q
    rw [ha q, norm_mul, norm_mul, hp, mul_one, hN] at this
    exact this
  refine (Finset.sum_le_sum fun q _ => hb q).trans ?_
  rw [Finset.sum_const, Finset.card_univ, nsmul_eq_mul, mul_div_cancel₀ _ hc.ne']

/-! ### Derivatives -/

/-- **C123 (smooth).** The functions that vary slowly enough are differentiable along all axes at all points, their derivatives vary slowly enough too, and the order of derivatives does not matter. -/
theorem C123_smooth (h : f ∈ BandLimited g.shape g.step) (c : Fin 3) :
    (∀ r t, DifferentiableAt ℝ (fun t => f (Function.update r c t)) t) ∧ partialDeriv c f ∈ BandLimited g.shape g.step ∧ ∀ c', partialDeriv c' (partialDeriv c f) = partialDeriv c (partialDeriv c' f) := by
  obtain ⟨a, rfl⟩ := (bandLimited_iff hs hd f).1 h
  refine ⟨fun r t => (series_hasDerivAt g a c r t).differentiableAt, ?_, fun c' => ?_⟩
  · rw [partialDeriv_series]
    exact (bandLimited_iff hs hd _).2 ⟨_, rfl⟩
  · rw [partialDeriv_series, partialDeriv_series, partialDeriv_series, partialDeriv_series]
    congr 1
    funext q
    ring

/-- **C123 (derivatives).** The derivative along an axis has as its values at the samples the inverse transform of `i k` times the transform. -/
theorem C123_derivative (h : Interpolates g f s) (c : Fin 3) : Interpolates g (partialDeriv c f) (ift fun q => I * kVector (kOf g) q c * ft s q) := by
  obtain ⟨a, rfl, ha⟩ := (interpolates_iff hd hs _ _).1 h
  refine (interpolates_iff hd hs _ _).2 ⟨_, partialDeriv_series g a c, fun q => ?_⟩
  rw [C23_ft_ift, ha q, kVector_waveVector]
  ring

/-- **C123 (curl).** The curl that the solver calculates is the curl of the interpolated field. -/
theorem C123_curl {F : Fin 3 → Point → ℂ} {G : Fin 3 → Idx g.shape → ℂ} (h : ∀ c, Interpolates g (F c) (G c)) (c : Fin 3) :
    Interpolates g (Spec.Continuous.curl F c) (Spec.Solver.curl (kOf g) G c) := by
  have key : ∀ a b a' b' : Fin 3, (ift fun q => I * (kVector (kOf g) q a * ft (G b) q - kVector (kOf g) q a' * ft (G b') q)) =
      fun x => ift (fun q => I * kVector (kOf g) q a * ft (G b) q) x - ift (fun q => I * kVector (kOf g) q a' * ft (G b') q) x := by
    intro a b a' b'
    have := C23_ift_linear 1 (-1) (fun q => I * kVector (kOf g) q a * ft (G b) q) (fun q => I * kVector (kOf g) q a' * ft (G b') q)
    simp only [one_mul, neg_one_mul, ← sub_eq_add_neg] at this
    rw [← this]
    congr 1
    funext q
    ring
  unfold Spec.Solver.curl
  simp only [cross_apply]
  fin_cases c
  · exact (key 1 2 2 1) ▸ (C123_derivative hd hs (h 2) 1).sub (C123_derivative hd hs (h 1) 2)
  · exact (key 2 0 0 2) ▸ (C123_derivative hd hs (h 0) 2).sub (C123_derivative hd hs (h 2) 0)
  · exact (key 0 1 1 0) ▸ (C123_derivative hd hs (h 1) 0).sub (C123_derivative hd hs (h 0) 1)

/-- **C123 (divergence).** -/
theorem C123_divergence {F : Fin 3 → Point → ℂ} {G : Fin 3 → Idx g.shape → ℂ} (h : ∀ c, Interpolates g (F c) (G c)) :
    Interpolates g (Spec.Continuous.divergence F) (Spec.Solver.divergence (kOf g) G) := by
  have e : Spec.Solver.divergence (kOf g) G = fun x => ∑ c : Fin 3, ift (fun q => I * kVector (kOf g) q c * ft (G c) q) x := by
    funext x
    unfold Spec.Solver.divergence ift
    rw [← Finset.sum_div, Finset.sum_comm]
    congr 1
    refine Finset.sum_congr rfl fun q _ => ?_
    rw [← Finset.sum_mul]
    unfold dotProduct
    dsimp only
    rw [Finset.mul_sum]
    congr 1
    exact Finset.sum_congr rfl fun c _ => by ring
  rw [e]
  exact Interpolates.sum Finset.univ fun c => C123_derivative hd hs (h c) c

/-- **C123 (as called).** The methods `curl` and `div` of the back end, for vector fields and for each column of a tensor field. -/
theorem C123_backend {F : Fin 3 → Point → ℂ} {G : Fin 3 → Idx g.shape → ℂ} (h : ∀ c, Interpolates g (F c) (G c)) {p : ℕ} {T : Fin 3 → Fin p → Point → ℂ} {U : Fin 3 → Fin p → Idx g.shape → ℂ}
    (hT : ∀ c j, Interpolates g (T c j) (U c j)) :
    (∀ c, Interpolates g (Spec.Continuous.curl F c) (Backend.curl 3 (kOf g) G c)) ∧
      (∃ D, Backend.div (kOf g) G = .ok D ∧ Interpolates g (Spec.Continuous.divergence F) D) ∧
      ∃ D, divTensor (kOf g) U = .ok D ∧ ∀ j, Interpolates g (Spec.Continuous.divergence fun c => T c j) (D j) := by
  refine ⟨fun c => ?_, ⟨Spec.Solver.divergence (kOf g) G, ?_, C123_divergence hd hs h⟩, ⟨fun j => Spec.Solver.divergence (kOf g) fun c => U c j, ?_, fun j => C123_divergence hd hs fun c => hT c j⟩⟩
  · rw [← Solver.spec_curl]
    exact C123_curl hd hs h c
  · rw [Backend.div, C24_div_ft _ hd]
    rfl
  · rw [divTensor, C24_div_ft _ hd]
    rfl

/-- **C123 (Laplacian).** -/
theorem C123_laplacian (h : Interpolates g f s) : Interpolates g (laplacian f) fun x => -Spec.Solver.negLaplacian (kOf g) s x := by
  obtain ⟨a, rfl, ha⟩ := (interpolates_iff hd hs _ _).1 h
  have e : laplacian (series g a) = series g fun q => ∑ c : Fin 3, I * (waveVector g q c : ℂ) * (I * (waveVector g q c : ℂ) * a q) := by
    funext r
    unfold laplacian
    rw [← series_sum Finset.univ g (fun c q => I * (waveVector g q c : ℂ) * (I * (waveVector g q c : ℂ) * a q)) r]
    exact Finset.sum_congr rfl fun c _ => by rw [partialDeriv_series, partialDeriv_series]
  refine (interpolates_iff hd hs _ _).2 ⟨_, e, fun q => ?_⟩
  have h1 : (fun x => -Spec.Solver.negLaplacian (kOf g) s x) = ift fun q => -((∑ b, (kOf g b q : ℂ) ^ 2) * ft s q) := by
    unfold Spec.Solver.negLaplacian
    have := C23_ift_linear (-1) 0 (fun q => (∑ b, (kOf g b q : ℂ) ^ 2) * ft s q) fun _ => 0
    simpa using this.symm
  have h2 : ∑ b, (kOf g b q : ℂ) ^ 2 = ∑ c, (waveVector g q c : ℂ) ^ 2 := by
    refine Fintype.sum_of_injective (Fin.castLE hd) (Fin.castLE_injective hd) _ _ (fun c hc => ?_) fun b => ?_
    · unfold waveVector
      rw [dif_neg fun h => hc ⟨⟨c, h⟩, rfl⟩]
      simp
    · unfold waveVector
      rw [dif_pos (show ((Fin.castLE hd b : Fin 3) : ℕ) < d from b.isLt)]
      rfl
  rw [h1, C23_ft_ift, ha q, h2]
  rw [Finset.sum_mul, Finset.sum_mul, Finset.sum_mul, ← Finset.sum_neg_distrib]
  refine Finset.sum_congr rfl fun c _ => ?_
  linear_combination (-(waveVector g q c : ℂ) ^ 2 * a q * phase g q * ∏ b, (g.shape b : ℂ)) * I_sq

/-! ### Maxwell's equations -/

/-- **C123 (Faraday).** For all states, converged or not: the interpolated electric and magnetic fields satisfy `∇ × E = i ω B` at all points of space. -/
theorem C123_faraday {k0 : ℝ} (hk0 : k0 ≠ 0) {co : Const} (hc : co.c ≠ 0) (t : State 3 g.shape) {E B : Fin 3 → Point → ℂ}
    (hE : ∀ c, Interpolates g (E c) (getE k0 t c)) (hB : ∀ c, Interpolates g (B c) (getB co k0 (backendK g k0) t c)) (c : Fin 3) (r : Point) :
    Spec.Continuous.curl E c r = I * co.omega k0 * B c r := by
  have h1 := C123_curl hd hs hE c
  have h2 := (hB c).mul (I * co.omega k0)
  rw [show Spec.Solver.curl (kOf g) (getE k0 t) c = fun x => I * co.omega k0 * getB co k0 (backendK g k0) t c x from funext (Solver.C43_faraday g hs hk0 hc t c)] at h1
  exact congrFun (Interpolates.unique hd hs h1 h2) r

/-- **C123 (Ampère).** For all states, converged or not: `∇ × H = - i ω D - j` at all points of space; the sign of the current density is that of the code. -/
theorem C123_ampere {k0 : ℝ} (hk0 : k0 ≠ 0) {co : Const} (hc : co.c ≠ 0) (i0 : Fin 3) (x0 : Idx g.shape) (t : State 3 g.shape) {H D j : Fin 3 → Point → ℂ}
    (hH : ∀ c, Interpolates g (H c) (getH co k0 (backendK g k0) i0 x0 t c)) (hD : ∀ c, Interpolates g (D c) (getD co k0 (backendK g k0) i0 x0 t c))
    (hj : ∀ c, Interpolates g (j c) (getJ co k0 t c)) (c : Fin 3) (r : Point) : Spec.Continuous.curl H c r = -I * co.omega k0 * D c r - j c r := by
  have h1 := C123_curl hd hs hH c
  have h2 := ((hD c).mul (-I * co.omega k0)).sub (hj c)
  rw [show Spec.Solver.curl (kOf g) (getH co k0 (backendK g k0) i0 x0 t) c = fun x => -I * co.omega k0 * getD co k0 (backendK g k0) i0 x0 t c x - getJ co k0 t c x from
    funext (Solver.C43_ampere g hs hk0 hc i0 x0 t c)] at h1
  exact congrFun (Interpolates.unique hd hs h1 h2) r

/-- The divergence of a curl is 0. -/
theorem divergence_curl {F : Fin 3 → Point → ℂ} (h : ∀ c, F c ∈ BandLimited g.shape g.step) (r : Point) : Spec.Continuous.divergence (Spec.Continuous.curl F) r = 0 := by
  choose a ha using fun c => (bandLimited_iff hs hd (F c)).1 (h c)
  have hp : ∀ b c, partialDeriv b (F c) = series g fun q => I * (waveVector g q b : ℂ) * a c q := fun b c => by rw [ha c, partialDeriv_series]
  unfold Spec.Continuous.divergence Spec.Continuous.curl
  simp only [hp, Fin.sum_univ_three, Matrix.cons_val_zero, Matrix.cons_val_one, Matrix.cons_val_two, Matrix.head_cons, Matrix.tail_cons]
  simp only [series_sub, partialDeriv_series]
  unfold series
  rw [← Finset.sum_add_distrib, ← Finset.sum_add_distrib]
  exact Finset.sum_eq_zero fun q _ => by ring

/-- **C123 (no magnetic charge).** For all states: `∇ · B = 0` at all points of space. -/
theorem C123_gauss {k0 : ℝ} (hk0 : k0 ≠ 0) {co : Const} (hc : co.c ≠ 0) (t : State 3 g.shape) {B : Fin 3 → Point → ℂ}
    (hB : ∀ c, Interpolates g (B c) (getB co k0 (backendK g k0) t c)) (r : Point) : Spec.Continuous.divergence B r = 0 := by
  choose E hE _ using fun c => C123_interpolation hd hs (getE k0 t c)
  have hω : I * (co.omega k0 : ℂ) ≠ 0 := mul_ne_zero I_ne_zero (by
    unfold Solver.Const.omega angularFrequency
    exact_mod_cast mul_ne_zero hk0 hc)
  have e : B = fun c r => (I * (co.omega k0 : ℂ))⁻¹ * Spec.Continuous.curl E c r := by
    funext c r
    rw [C123_faraday hd hs hk0 hc t hE hB c r, inv_mul_cancel_left₀ hω]
  have h0 := divergence_curl hd hs (fun c => (hE c).1) r
  rw [e]
  unfold Spec.Continuous.divergence at h0 ⊢
  have : ∀ c, partialDeriv c (fun r => (I * (co.omega k0 : ℂ))⁻¹ * Spec.Continuous.curl E c r) r = (I * (co.omega k0 : ℂ))⁻¹ * partialDeriv c (Spec.Continuous.curl E c) r := fun c => by
    unfold partialDeriv
    exact deriv_const_mul _ ((C123_smooth hd hs (C123_curl hd hs hE c).1 c).1 r _)
  simp only [this]
  rw [← Finset.mul_sum, h0, mul_zero]

/-- **C123 (conservation of charge).** For all states: `∇ · j = - i ω ∇ · D` at all points of space. -/
theorem C123_charge {k0 : ℝ} (hk0 : k0 ≠ 0) {co : Const} (hc : co.c ≠ 0) (i0 : Fin 3) (x0 : Idx g.shape) (t : State 3 g.shape) {D j : Fin 3 → Point → ℂ}
    (hD : ∀ c, Interpolates g (D c) (getD co k0 (backendK g k0) i0 x0 t c)) (hj : ∀ c, Interpolates g (j c) (getJ co k0 t c)) (r : Point) :
    Spec.Continuous.divergence j r = -I * co.omega k0 * Spec.Continuous.divergence D r := by
  choose H hH _ using fun c => C123_interpolation hd hs (getH co k0 (backendK g k0) i0 x0 t c)
  have h0 := divergence_curl hd hs (fun c => (hH c).1) r
  rw [show Spec.Continuous.curl H = fun c r => -I * co.omega k0 * D c r - j c r from funext fun c => funext fun r => C123_ampere hd hs hk0 hc i0 x0 t hH hD hj c r] at h0
  unfold Spec.Continuous.divergence at h0 ⊢
  have : ∀ c, partialDeriv c (fun r => -I * co.omega k0 * D c r - j c r) r = -I * co.omega k0 * partialDeriv c (D c) r - partialDeriv c (j c) r := fun c => by
    unfold partialDeriv
    have h1 := (C123_smooth hd hs (hD c).1 c).1 r (r c)
    have h2 := (C123_smooth hd hs (hj c).1 c).1 r (r c)
    rw [deriv_fun_sub (h1.const_mul _) h2, deriv_const_mul _ h1]
  simp only [this] at h0
  rw [Finset.sum_sub_distrib, ← Finset.mul_sum] at h0
  exact (sub_eq_zero.1 h0).symm

/-! ### The wave equation -/

/-- **C123 (wave equation).** For all permittivities and permeabilities: the samples satisfy the wave equation with spectral derivatives if and only if the interpolated field satisfies the one with true
derivatives at the positions of the samples. Here `G` interpolates `μ⁻¹ ∇ × E`. -/
theorem C123_wave (k0 : ℝ) (epsilon mu : Idx g.shape → Matrix (Fin 3) (Fin 3) ℂ) {E S : Fin 3 → Idx g.shape → ℂ} {F G : Fin 3 → Point → ℂ} (hF : ∀ c, Interpolates g (F c) (E c))
    (hG : ∀ c, G c ∈ BandLimited g.shape g.step) (hGF : ∀ c x r, AtSample g x r → G c r = (mu x)⁻¹.mulVec (fun c => Spec.Continuous.curl F c r) c) :
    WaveEquation (kOf g) k0 epsilon mu S E ↔
      ∀ c x r, AtSample g x r → Spec.Continuous.curl G c r - (k0 : ℂ) ^ 2 * (epsilon x).mulVec (fun c => F c r) c = S c x := by
  have h1 : ∀ c, Interpolates g (G c) (Spec.Solver.act (fun x => (mu x)⁻¹) (Spec.Solver.curl (kOf g) E) c) := fun c =>
    ⟨hG c, fun x r hr => by
      rw [hGF c x r hr]
      unfold Spec.Solver.act
      congr 2
      funext c
      exact (C123_curl hd hs hF c).2 x r hr⟩
  have h2 : ∀ c x r, AtSample g x r → Spec.Continuous.curl G c r - (k0 : ℂ) ^ 2 * (epsilon x).mulVec (fun c => F c r) c =
      Spec.Solver.curl (kOf g) (Spec.Solver.act (fun x => (mu x)⁻¹) (Spec.Solver.curl (kOf g) E)) c x - (k0 : ℂ) ^ 2 * Spec.Solver.act epsilon E c x := by
    intro c x r hr
    rw [(C123_curl hd hs h1 c).2 x r hr]
    congr 2
    unfold Spec.Solver.act
    congr 2
    funext c
    exact (hF c).2 x r hr
  constructor
  · intro h c x r hr
    rw [h2 c x r hr]
    exact h c x
  · intro h c x
    obtain ⟨r, hr⟩ := exists_atSample hd g x
    rw [← h2 c x r hr]
    exact h c x r hr

/-- **C123 (wave equation, uniform permeability).** The same for `μ⁻¹ ∇ × ∇ × E`. -/
theorem C123_wave_uniform (k0 : ℝ) (epsilon : Idx g.shape → Matrix (Fin 3) (Fin 3) ℂ) {mu : ℂ} (hmu : mu ≠ 0) {E S : Fin 3 → Idx g.shape → ℂ} {F : Fin 3 → Point → ℂ}
    (hF : ∀ c, Interpolates g (F c) (E c)) :
    WaveEquation (kOf g) k0 epsilon (fun _ => mu • 1) S E ↔
      ∀ c x r, AtSample g x r → mu⁻¹ * Spec.Continuous.curl (Spec.Continuous.curl F) c r - (k0 : ℂ) ^ 2 * (epsilon x).mulVec (fun c => F c r) c = S c x := by
  have hC : ∀ c, Spec.Continuous.curl F c ∈ BandLimited g.shape g.step := fun c => (C123_curl hd hs hF c).1
  have hinv : (mu • (1 : Matrix (Fin 3) (Fin 3) ℂ))⁻¹ = mu⁻¹ • 1 := by
    refine Matrix.inv_eq_left_inv ?_
    rw [smul_mul_smul_comm, inv_mul_cancel₀ hmu, one_smul, one_mul]
  rw [C123_wave hd hs k0 epsilon (fun _ => mu • 1) (S := S) hF (G := fun c r => mu⁻¹ * Spec.Continuous.curl F c r) (fun c => Submodule.smul_mem _ mu⁻¹ (hC c))
    (fun c x r _ => by rw [hinv, Matrix.smul_mulVec, Matrix.one_mulVec]; rfl)]
  have hp : ∀ a b, partialDeriv a (fun r => mu⁻¹ * Spec.Continuous.curl F b r) = fun r => mu⁻¹ * partialDeriv a (Spec.Continuous.curl F b) r := fun a b => by
    funext r
    unfold partialDeriv
    exact deriv_const_mul _ ((C123_smooth hd hs (hC b) a).1 r _)
  have e : ∀ c r, Spec.Continuous.curl (fun c r => mu⁻¹ * Spec.Continuous.curl F c r) c r = mu⁻¹ * Spec.Continuous.curl (Spec.Continuous.curl F) c r := by
    intro c r
    rw [Spec.Continuous.curl.eq_1 (fun c r => mu⁻¹ * Spec.Continuous.curl F c r), Spec.Continuous.curl.eq_1 (Spec.Continuous.curl F)]
    simp only [hp]
    fin_cases c <;> exact (mul_sub _ _ _).symm
  simp only [e]

/-- **C123 (wave equation, uniform material).** In uniform isotropic materials, the equation holds at all points of space if it holds at the samples. -/
theorem C123_wave_everywhere (k0 : ℝ) (epsilon : ℂ) {mu : ℂ} (hmu : mu ≠ 0) {E S : Fin 3 → Idx g.shape → ℂ} {F P : Fin 3 → Point → ℂ}
    (hF : ∀ c, Interpolates g (F c) (E c)) (hP : ∀ c, Interpolates g (P c) (S c)) :
    WaveEquation (kOf g) k0 (fun _ => epsilon • 1) (fun _ => mu • 1) S E ↔
      ∀ c r, mu⁻¹ * Spec.Continuous.curl (Spec.Continuous.curl F) c r - (k0 : ℂ) ^ 2 * (epsilon * F c r) = P c r := by
  have hC := C123_curl hd hs hF
  have hCC := C123_curl hd hs hC
  have hm : ∀ r c, (epsilon • (1 : Matrix (Fin 3) (Fin 3) ℂ)).mulVec (fun c => F c r) c = epsilon * F c r := fun r c => by
    rw [Matrix.smul_mulVec, Matrix.one_mulVec]
    rfl
  rw [C123_wave_uniform hd hs k0 (fun _ => epsilon • 1) hmu hF]
  simp only [hm]
  constructor
  · intro h c r
    have h1 := ((hCC c).mul mu⁻¹).sub (((hF c).mul epsilon).mul ((k0 : ℂ) ^ 2))
    have h2 : Interpolates g (fun r => mu⁻¹ * Spec.Continuous.curl (Spec.Continuous.curl F) c r - (k0 : ℂ) ^ 2 * (epsilon * F c r)) (S c) := ⟨h1.1, fun x r hr => h c x r hr⟩
    exact congrFun (Interpolates.unique hd hs h2 (hP c)) r
  · intro h c x r hr
    rw [h c r, (hP c).2 x r hr]

/-- **C123 (scalar wave equation).** -/
theorem C123_scalar_wave (k0 : ℝ) (epsilon : Idx g.shape → ℂ) (mu : ℂ) {E S : Idx g.shape → ℂ} {F : Point → ℂ} (hF : Interpolates g F E) :
    ScalarWaveEquation (kOf g) k0 epsilon mu S E ↔ ∀ x r, AtSample g x r → -(mu⁻¹ * laplacian F r) - (k0 : ℂ) ^ 2 * (epsilon x * F r) = S x := by
  have h2 : ∀ x r, AtSample g x r → -(mu⁻¹ * laplacian F r) - (k0 : ℂ) ^ 2 * (epsilon x * F r) = mu⁻¹ * Spec.Solver.negLaplacian (kOf g) E x - (k0 : ℂ) ^ 2 * (epsilon x * E x) := by
    intro x r hr
    rw [(C123_laplacian hd hs hF).2 x r hr, hF.2 x r hr]
    ring
  constructor
  · intro h x r hr
    rw [h2 x r hr]
    exact h x
  · intro h x
    obtain ⟨r, hr⟩ := exists_atSample hd g x
    rw [← h2 x r hr]
    exact h x r hr

/-- **C123 (scalar wave equation, uniform material).** -/
theorem C123_scalar_everywhere (k0 : ℝ) (epsilon mu : ℂ) {E S : Idx g.shape → ℂ} {F P : Point → ℂ} (hF : Interpolates g F E) (hP : Interpolates g P S) :
    ScalarWaveEquation (kOf g) k0 (fun _ => epsilon) mu S E ↔ ∀ r, -(mu⁻¹ * laplacian F r) - (k0 : ℂ) ^ 2 * (epsilon * F r) = P r := by
  rw [C123_scalar_wave hd hs k0 (fun _ => epsilon) mu hF]
  constructor
  · intro h r
    have h1 := (((C123_laplacian hd hs hF).mul mu⁻¹).mul (-1)).sub ((hF.mul epsilon).mul ((k0 : ℂ) ^ 2))
    simp only [neg_one_mul] at h1
    have h2 : Interpolates g (fun r => -(mu⁻¹ * laplacian F r) - (k0 : ℂ) ^ 2 * (epsilon * F r)) S := ⟨h1.1, fun x r hr => h x r hr⟩
    exact congrFun (Interpolates.unique hd hs h2 hP) r
  · intro h x r hr
    rw [h r, hP.2 x r hr]

end

end Verif.Continuous
