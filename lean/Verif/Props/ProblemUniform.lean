import Verif.Props.ProblemRuns
import Verif.Props.ProblemExamples
import Verif.Props.SolverReciprocity

/-!
# C99: the field in uniform materials

The closed form of the solution, for every spatial frequency, and that the iteration converges to it.
-/

namespace Verif.Problem

open Verif Verif.Fourier Verif.Backend Verif.Solver Verif.Construct Complex Matrix
open Verif.Assign (Arr toMatrixField full CanBroadcast broadcast InShape)
open Verif.Spec.Solver (NoGain Within WaveEquation ScalarWaveEquation)
open Verif.Spec.Backend (kVector)

variable {d : ℕ} {N : Fin d → ℕ}

/-- The square of the wavenumber. -/
noncomputable def square (k : Fin d → Idx N → ℝ) (q : Idx N) : ℂ := ∑ a, (k a q : ℂ) ^ 2

/-- The part of the source along the wavevector; nothing for the wavevector 0. -/
noncomputable def along (k : Fin d → Idx N → ℝ) (S : Fin 3 → Idx N → ℂ) (c : Fin 3) (q : Idx N) : ℂ :=
  kVector k q c * (∑ b, kVector k q b * ft (S b) q) / square k q

/-- The field of a source in a uniform material: transverse waves have a resonance at the wavenumber of the material, longitudinal fields only screen the charges. -/
noncomputable def uniformField (k : Fin d → Idx N → ℝ) (k0 : ℝ) (epsilon mu : ℂ) (S : Fin 3 → Idx N → ℂ) : Fin 3 → Idx N → ℂ := fun c =>
  ift fun q => mu * (ft (S c) q - along k S c q) / (square k q - (k0 : ℂ) ^ 2 * epsilon * mu) - along k S c q / ((k0 : ℂ) ^ 2 * epsilon)

theorem square_k2 (k : Fin d → Idx N → ℝ) (q : Idx N) : square k q = (k2 k q : ℂ) := by
  unfold square k2
  push_cast
  rfl

theorem waveEquation_ft (k : Fin d → Idx N → ℝ) (k0 : ℝ) (epsilon : ℂ) {mu : ℂ} (hmu : mu ≠ 0) (S E : Fin 3 → Idx N → ℂ) :
    WaveEquation k k0 (fun _ => epsilon • 1) (fun _ => mu • 1) S E ↔
      ∀ c q, mu⁻¹ * ∑ b, (kVector k q b * kVector k q b * ft (E c) q - kVector k q c * kVector k q b * ft (E b) q) - (k0 : ℂ) ^ 2 * epsilon * ft (E c) q = ft (S c) q := by
  have hl : ∀ c, (fun x => Spec.Solver.curl k (Spec.Solver.act (fun _ => (mu • (1 : Matrix (Fin 3) (Fin 3) ℂ))⁻¹) (Spec.Solver.curl k E)) c x -
      (k0 : ℂ) ^ 2 * Spec.Solver.act (fun _ => epsilon • 1) E c x) = mu⁻¹ • curl 3 k (curl 3 k E) c - ((k0 : ℂ) ^ 2 * epsilon) • E c := by
    intro c
    rw [spec_curl, spec_curl, spec_act, spec_act]
    have h1 : mulField (fun _ : Idx N => (mu • (1 : Matrix (Fin 3) (Fin 3) ℂ))⁻¹) (curl 3 k E) = mu⁻¹ • curl 3 k E := by
      rw [smul_one_inv hmu]
      funext c x
      simp [mulField, Matrix.smul_apply, Matrix.one_apply]
    have h2 : mulField (fun _ : Idx N => epsilon • (1 : Matrix (Fin 3) (Fin 3) ℂ)) E = epsilon • E := by
      funext c x
      simp [mulField, Matrix.smul_apply, Matrix.one_apply]
    rw [h1, h2, (curl_isLinear (n := 3) k).map_smul]
    funext x
    simp only [Pi.smul_apply, Pi.sub_apply, smul_eq_mul]
    ring
  have hf : ∀ c, ft (mu⁻¹ • curl 3 k (curl 3 k E) c - ((k0 : ℂ) ^ 2 * epsilon) • E c) = fun q =>
      mu⁻¹ * ∑ b, (kVector k q b * kVector k q b * ft (E c) q - kVector k q c * kVector k q b * ft (E b) q) - (k0 : ℂ) ^ 2 * epsilon * ft (E c) q := by
    intro c
    rw [ft_isLinear.map_sub, ft_isLinear.map_smul, ft_isLinear.map_smul, ft_curl]
    simp only [ft_curl]
    funext q
    simp only [Pi.sub_apply, Pi.smul_apply, smul_eq_mul]
    rw [curlFt_twice]
  constructor
  · intro h c q
    have h1 := congrArg ft (hl c)
    rw [hf c] at h1
    have h2 := congrFun h1 q
    rw [← h2]
    congr 1
    funext x
    exact h c x
  · intro h c x
    have h1 : ft (mu⁻¹ • curl 3 k (curl 3 k E) c - ((k0 : ℂ) ^ 2 * epsilon) • E c) = ft (S c) := by
      rw [hf c]
      funext q
      exact h c q
    have h2 := ft_inj h1
    rw [← h2, ← hl c]

/-- The algebra of one spatial frequency: `x` is the part of the field along the wavevector, times the square of the wavevector. -/
theorem algebra_forward {K A mu e x s : ℂ} (hK : K ≠ 0) (hA : A ≠ 0) (hmu : mu ≠ 0) (hD : K - A * mu ≠ 0) (h : mu⁻¹ * (K * e - x) - A * e = s) :
    e = mu * (s - -A * x / K) / (K - A * mu) - -A * x / K / A := by
  rw [eq_sub_iff_add_eq, eq_div_iff hD, ← h]
  field_simp
  ring

theorem algebra_forward_zero {A mu e s : ℂ} (hA : A ≠ 0) (hmu : mu ≠ 0) (h : mu⁻¹ * (0 * e - 0) - A * e = s) : e = mu * s / (0 - A * mu) := by
  rw [← h]
  have hD : 0 - A * mu ≠ 0 := by rw [zero_sub]; exact neg_ne_zero.2 (mul_ne_zero hA hmu)
  rw [eq_div_iff hD]
  field_simp
  ring

theorem algebra_backward {K A mu s y : ℂ} (hK : K ≠ 0) (hA : A ≠ 0) (hmu : mu ≠ 0) (hD : K - A * mu ≠ 0) :
    mu⁻¹ * (K * (mu * (s - y / K) / (K - A * mu) - y / K / A) - -y / A) - A * (mu * (s - y / K) / (K - A * mu) - y / K / A) = s := by
  generalize hw : mu * (s - y / K) / (K - A * mu) = w
  rw [div_eq_iff hD] at hw
  have h2 : s - y / K = mu⁻¹ * (w * (K - A * mu)) := by rw [← hw]; field_simp
  have h3 : s = mu⁻¹ * (w * (K - A * mu)) + y / K := by rw [← h2]; ring
  rw [h3]
  field_simp
  ring

theorem algebra_backward_zero {A mu s : ℂ} (hA : A ≠ 0) (hmu : mu ≠ 0) : mu⁻¹ * (0 * (mu * s / (0 - A * mu)) - 0) - A * (mu * s / (0 - A * mu)) = s := by
  have hD : A * mu ≠ 0 := mul_ne_zero hA hmu
  rw [zero_sub]
  field_simp
  ring

/-- **C99 (closed form).** For all sources, and all permittivities and permeabilities other than 0 that have no resonance at a wavenumber of the grid: the closed form is the only solution of the wave equation. -/
theorem C99_closed_form (hd : d ≤ 3) (k : Fin d → Idx N → ℝ) {k0 : ℝ} (hk0 : k0 ≠ 0) {epsilon mu : ℂ} (he : epsilon ≠ 0) (hmu : mu ≠ 0)
    (hres : ∀ q, square k q ≠ (k0 : ℂ) ^ 2 * epsilon * mu) (S E : Fin 3 → Idx N → ℂ) :
    WaveEquation k k0 (fun _ => epsilon • 1) (fun _ => mu • 1) S E ↔ E = uniformField k k0 epsilon mu S := by
  rw [waveEquation_ft k k0 epsilon hmu]
  have hA : (k0 : ℂ) ^ 2 * epsilon ≠ 0 := mul_ne_zero (pow_ne_zero 2 (ofReal_ne hk0)) he
  have hsq : ∀ q, ∑ b, kVector k q b * kVector k q b = square k q := by
    intro q
    rw [square_k2, ← kVector_k2 k hd q]
    exact Finset.sum_congr rfl fun b _ => by ring
  have hz : ∀ q, square k q = 0 → ∀ c, kVector k q c = 0 := by
    intro q h c
    rw [square_k2, ofReal_eq_zero] at h
    unfold kVector
    split_ifs with hc
    · have h1 := (Finset.sum_eq_zero_iff_of_nonneg fun a _ => sq_nonneg (k a q)).1 h ⟨c, hc⟩ (Finset.mem_univ _)
      rw [pow_eq_zero_iff two_ne_zero] at h1
      rw [h1, ofReal_zero]
    · rfl
  have hE : E = uniformField k k0 epsilon mu S ↔ ∀ c q, ft (E c) q = mu * (ft (S c) q - along k S c q) / (square k q - (k0 : ℂ) ^ 2 * epsilon * mu) - along k S c q / ((k0 : ℂ) ^ 2 * epsilon) := by
    constructor
    · intro h c q
      rw [h]
      unfold uniformField
      rw [C23_ft_ift]
    · intro h
      funext c
      apply ft_inj
      unfold uniformField
      rw [C23_ft_ift]
      funext q
      exact h c q
  rw [hE]
  have hL : ∀ q c, along k S c q = kVector k q c * (∑ b, kVector k q b * ft (S b) q) / square k q := fun _ _ => rfl
  have hsum : ∀ q c (F : Fin 3 → Idx N → ℂ), ∑ b, (kVector k q b * kVector k q b * ft (F c) q - kVector k q c * kVector k q b * ft (F b) q) =
      square k q * ft (F c) q - kVector k q c * ∑ b, kVector k q b * ft (F b) q := by
    intro q c F
    rw [Finset.sum_sub_distrib, ← Finset.sum_mul, hsq, Finset.mul_sum]
    congr 1
    exact Finset.sum_congr rfl fun b _ => by ring
  have hdot : ∀ q (a : ℂ) (F G : Fin 3 → Idx N → ℂ), (∀ c, ft (F c) q = a * ft (G c) q) → ∑ b, kVector k q b * ft (F b) q = a * ∑ b, kVector k q b * ft (G b) q := by
    intro q a F G h
    rw [Finset.mul_sum]
    exact Finset.sum_congr rfl fun b _ => by rw [h b]; ring
  constructor
  · intro h c q
    have hD : square k q - (k0 : ℂ) ^ 2 * epsilon * mu ≠ 0 := sub_ne_zero.2 (hres q)
    have h' : ∀ c, mu⁻¹ * (square k q * ft (E c) q - kVector k q c * ∑ b, kVector k q b * ft (E b) q) - (k0 : ℂ) ^ 2 * epsilon * ft (E c) q = ft (S c) q := by
      intro c
      rw [← hsum]
      exact h c q
    have hS : ∑ b, kVector k q b * ft (S b) q = -((k0 : ℂ) ^ 2 * epsilon) * ∑ b, kVector k q b * ft (E b) q := by
      simp only [← h']
      have e : ∀ b, kVector k q b * (mu⁻¹ * (square k q * ft (E b) q - kVector k q b * ∑ b, kVector k q b * ft (E b) q) - (k0 : ℂ) ^ 2 * epsilon * ft (E b) q) =
          (mu⁻¹ * square k q - (k0 : ℂ) ^ 2 * epsilon) * (kVector k q b * ft (E b) q) - mu⁻¹ * (∑ b, kVector k q b * ft (E b) q) * (kVector k q b * kVector k q b) := fun b => by ring
      rw [Finset.sum_congr rfl fun b _ => e b, Finset.sum_sub_distrib, ← Finset.mul_sum, ← Finset.mul_sum, hsq]
      ring
    have hc := h' c
    rw [hL, hS]
    by_cases h0 : square k q = 0
    · rw [h0, hz q h0 c, zero_mul (∑ b, kVector k q b * ft (E b) q)] at hc
      rw [h0, hz q h0 c, zero_mul, zero_div, sub_zero, zero_div, sub_zero]
      exact algebra_forward_zero hA hmu hc
    · have e := algebra_forward h0 hA hmu hD hc
      rw [mul_left_comm]
      exact e
  · intro h c q
    have hD : square k q - (k0 : ℂ) ^ 2 * epsilon * mu ≠ 0 := sub_ne_zero.2 (hres q)
    rw [hsum]
    have hkE : ∑ b, kVector k q b * ft (E b) q = -(∑ b, kVector k q b * ft (S b) q) / ((k0 : ℂ) ^ 2 * epsilon) := by
      by_cases h0 : square k q = 0
      · have e : ∀ (F : Fin 3 → Idx N → ℂ), ∑ b, kVector k q b * ft (F b) q = 0 := fun F => Finset.sum_eq_zero fun b _ => by rw [hz q h0 b, zero_mul]
        rw [e, e, neg_zero, zero_div]
      · have e : ∀ b, kVector k q b * ft (E b) q = mu / (square k q - (k0 : ℂ) ^ 2 * epsilon * mu) * (kVector k q b * ft (S b) q) -
            (mu / (square k q - (k0 : ℂ) ^ 2 * epsilon * mu) + 1 / ((k0 : ℂ) ^ 2 * epsilon)) * ((∑ b, kVector k q b * ft (S b) q) / square k q) * (kVector k q b * kVector k q b) := by
          intro b
          rw [h b q, hL]
          ring
        rw [Finset.sum_congr rfl fun b _ => e b, Finset.sum_sub_distrib, ← Finset.mul_sum, ← Finset.mul_sum, hsq]
        field_simp
        ring
    rw [hkE, h c q, hL]
    by_cases h0 : square k q = 0
    · rw [h0, hz q h0 c]
      simp only [zero_mul, zero_div, sub_zero]
      have e := algebra_backward_zero (s := ft (S c) q) hA hmu
      simpa only [zero_mul, sub_zero] using e
    · have e := algebra_backward (s := ft (S c) q) (y := kVector k q c * ∑ b, kVector k q b * ft (S b) q) h0 hA hmu hD
      rw [← mul_div_assoc, mul_neg]
      exact e

/-- **C99 (resonance).** At a resonance, the wave equation has solutions only for sources without a transverse part at the wavenumber of the material, and if it has one, then it has others:
adding a transverse plane wave with the wavenumber of the material gives another solution. -/
theorem C99_resonance (hd : d ≤ 3) (k : Fin d → Idx N → ℝ) {k0 : ℝ} (hk0 : k0 ≠ 0) {epsilon mu : ℂ} (he : epsilon ≠ 0) (hmu : mu ≠ 0) {q : Idx N}
    (hres : square k q = (k0 : ℂ) ^ 2 * epsilon * mu) (S E : Fin 3 → Idx N → ℂ) (h : WaveEquation k k0 (fun _ => epsilon • 1) (fun _ => mu • 1) S E) :
    (∀ c, ft (S c) q = along k S c q) ∧
      ∀ v : Fin 3 → ℂ, ∑ b, kVector k q b * v b = 0 → WaveEquation k k0 (fun _ => epsilon • 1) (fun _ => mu • 1) S (fun c x => E c x + v c * wave q x) := by
  have hA : (k0 : ℂ) ^ 2 * epsilon ≠ 0 := mul_ne_zero (pow_ne_zero 2 (ofReal_ne hk0)) he
  have hK : square k q ≠ 0 := hres ▸ mul_ne_zero hA hmu
  have hsq : ∑ b, kVector k q b * kVector k q b = square k q := by
    rw [square_k2, ← kVector_k2 k hd q]
    exact Finset.sum_congr rfl fun b _ => by ring
  rw [waveEquation_ft k k0 epsilon hmu] at h
  have hsum : ∀ c (F : Fin 3 → ℂ), ∑ b, (kVector k q b * kVector k q b * F c - kVector k q c * kVector k q b * F b) =
      square k q * F c - kVector k q c * ∑ b, kVector k q b * F b := by
    intro c F
    rw [Finset.sum_sub_distrib, ← Finset.sum_mul, hsq, Finset.mul_sum]
    congr 1
    exact Finset.sum_congr rfl fun b _ => by ring
  constructor
  · have h' : ∀ c, ft (S c) q = -(mu⁻¹ * (kVector k q c * ∑ b, kVector k q b * ft (E b) q)) := by
      intro c
      rw [← h c q, hsum c fun b => ft (E b) q, hres]
      field_simp
      ring
    intro c
    unfold along
    have hS : ∑ b, kVector k q b * ft (S b) q = -(mu⁻¹ * (square k q * ∑ b, kVector k q b * ft (E b) q)) := by
      have e : ∀ b, kVector k q b * ft (S b) q = kVector k q b * kVector k q b * -(mu⁻¹ * ∑ b, kVector k q b * ft (E b) q) := fun b => by rw [h' b]; ring
      rw [Finset.sum_congr rfl fun b _ => e b, ← Finset.sum_mul, hsq]
      ring
    rw [hS, h' c]
    field_simp
  · intro v hv
    rw [waveEquation_ft k k0 epsilon hmu]
    intro c p
    have hft : ∀ c, ft (fun x => E c x + v c * wave q x) p = ft (E c) p + v c * ft (wave q) p := fun c =>
      (congrFun (ft_isLinear.map_add (E c) (v c • wave q)) p).trans (congrArg (ft (E c) p + ·) (congrFun (ft_isLinear.map_smul (v c) (wave q)) p))
    simp only [hft]
    by_cases hp : p = q
    · subst hp
      have e := h c p
      rw [hsum c fun b => ft (E b) p] at e
      rw [hsum c fun b => ft (E b) p + v b * ft (wave p) p, ← e]
      have e2 : ∑ b, kVector k p b * (ft (E b) p + v b * ft (wave p) p) = ∑ b, kVector k p b * ft (E b) p := by
        simp only [mul_add, Finset.sum_add_distrib]
        have e3 : ∑ b, kVector k p b * (v b * ft (wave p) p) = (∑ b, kVector k p b * v b) * ft (wave p) p := by
          rw [Finset.sum_mul]
          exact Finset.sum_congr rfl fun b _ => by ring
        rw [e3, hv, zero_mul, add_zero]
      rw [e2, hres]
      field_simp
      ring
    · have e : ft (wave q) p = 0 := by
        rw [ft_wave]
        simp [hp]
      simp only [e, mul_zero, add_zero]
      exact h c p

/-- **C99 (scalar, closed form).** -/
theorem C99_scalar_closed_form (k : Fin d → Idx N → ℝ) (k0 : ℝ) {epsilon mu : ℂ} (hmu : mu ≠ 0)
    (hres : ∀ q, square k q ≠ (k0 : ℂ) ^ 2 * epsilon * mu) (S E : Idx N → ℂ) :
    ScalarWaveEquation k k0 (fun _ => epsilon) mu S E ↔ E = ift fun q => mu * ft S q / (square k q - (k0 : ℂ) ^ 2 * epsilon * mu) := by
  have hl : ft (fun x => mu⁻¹ * Spec.Solver.negLaplacian k E x - (k0 : ℂ) ^ 2 * (epsilon * E x)) = fun q => mu⁻¹ * (square k q * ft E q) - (k0 : ℂ) ^ 2 * epsilon * ft E q := by
    have e : (fun x => mu⁻¹ * Spec.Solver.negLaplacian k E x - (k0 : ℂ) ^ 2 * (epsilon * E x)) = mu⁻¹ • Spec.Solver.negLaplacian k E - ((k0 : ℂ) ^ 2 * epsilon) • E := by
      funext x
      simp only [Pi.sub_apply, Pi.smul_apply, smul_eq_mul]
      ring
    rw [e, ft_isLinear.map_sub, ft_isLinear.map_smul, ft_isLinear.map_smul]
    unfold Spec.Solver.negLaplacian
    rw [C23_ft_ift]
    rfl
  have hD : ∀ q, square k q - (k0 : ℂ) ^ 2 * epsilon * mu ≠ 0 := fun q => sub_ne_zero.2 (hres q)
  constructor
  · intro h
    apply ft_inj
    rw [C23_ft_ift]
    have hS : (fun x => mu⁻¹ * Spec.Solver.negLaplacian k E x - (k0 : ℂ) ^ 2 * (epsilon * E x)) = S := funext h
    rw [hS] at hl
    funext q
    rw [hl, eq_div_iff (hD q)]
    field_simp
  · intro h
    have h1 : ft (fun x => mu⁻¹ * Spec.Solver.negLaplacian k E x - (k0 : ℂ) ^ 2 * (epsilon * E x)) = ft S := by
      rw [hl, h, C23_ft_ift]
      funext q
      generalize hw : mu * ft S q / (square k q - (k0 : ℂ) ^ 2 * epsilon * mu) = w
      rw [div_eq_iff (hD q)] at hw
      have h2 : ft S q = mu⁻¹ * (w * (square k q - (k0 : ℂ) ^ 2 * epsilon * mu)) := by rw [← hw]; field_simp
      rw [h2]
      field_simp
    exact congrFun (ft_inj h1)

/-- Without gain in a material with positive permeability there are no resonances. -/
theorem no_resonance (k : Fin d → Idx N → ℝ) {k0 : ℝ} (hk0 : k0 ≠ 0) {epsilon : ℂ} (he : epsilon.im ≠ 0) {r : ℝ} (hr : r ≠ 0) (q : Idx N) : square k q ≠ (k0 : ℂ) ^ 2 * epsilon * r := by
  intro h
  have h1 := congrArg Complex.im h
  rw [square_k2, ofReal_im, ← ofReal_pow, Complex.im_mul_ofReal, Complex.im_ofReal_mul] at h1
  exact mul_ne_zero (mul_ne_zero (pow_ne_zero 2 hk0) he) hr h1.symm

/-- **C99 (as called).** For all arguments that describe a uniform isotropic material that absorbs: the constructor succeeds and the iteration converges exponentially to the closed form,
from any initial field. -/
theorem C99_called {co : Const} {p : Args d} {m : Medium 3 p.grid.shape} {S E0 : Solver.Field 3 p.grid.shape} (h : Describes co 3 p m S E0)
    (hvec : p.source.isVectorial (List.ofFn p.grid.shape) (p.currentFactor co) = true) (hd : d ≤ 3) (hs : ∀ a, p.grid.step a ≠ 0) (hk0 : 0 < p.frequency.k0 co.c)
    (hxi : ∀ x, m.xi x = 0) (hzeta : ∀ x, m.zeta x = 0) (o : Optimum) {tol : ℝ} (htol : 0 ≤ tol) (form : ScalarForm d p.mu) {r : ℝ} (hr : 0 < r) (hmu : ∀ x, m.mu x = (r : ℂ) • 1)
    {epsilon : ℂ} (he : 0 < epsilon.im) (hepsilon : ∀ x, m.epsilon x = epsilon • 1) :
    ∃ s, p.start co tol o = .ok ⟨3, s⟩ ∧
      ConvergesExponentially (.vectorial hd) (backendK p.grid (p.frequency.k0 co.c)) (p.frequency.k0 co.c) s (uniformField (kOf p.grid) (p.frequency.k0 co.c) epsilon r S) := by
  have hval : ∀ z : ℂ, ∀ v : Fin 3 → ℂ, (star v ⬝ᵥ (z • (1 : Matrix (Fin 3) (Fin 3) ℂ)).mulVec v).im = z.im * ∑ i, ‖v i‖ ^ 2 := by
    intro z v
    rw [Matrix.smul_mulVec, Matrix.one_mulVec, dotProduct_smul, star_dot_self, smul_eq_mul, im_mul_ofReal]
  have habs : Absorbs m.epsilon := ⟨epsilon.im, he, fun x v => by rw [hepsilon, hval]⟩
  have hgain : NoGain m.epsilon := fun x v => by
    rw [hepsilon, hval]
    exact mul_nonneg he.le (Finset.sum_nonneg fun i _ => sq_nonneg _)
  have hgainM : NoGain m.mu := fun x v => by
    rw [hmu, hval, ofReal_im, zero_mul]
  obtain ⟨s, E, h1, -, h3, h4⟩ := C86_uniform h hvec hd hs hk0 hxi hzeta hgain hgainM o tol htol form hr hmu habs
  have e1 : m.epsilon = fun _ => epsilon • 1 := funext hepsilon
  have e2 : m.mu = fun _ => (r : ℂ) • 1 := funext hmu
  rw [e1, e2] at h3
  have hne : epsilon ≠ 0 := fun h0 => by rw [h0] at he; exact lt_irrefl _ he
  rw [C99_closed_form hd (kOf p.grid) hk0.ne' hne (ofReal_ne hr.ne') (no_resonance (kOf p.grid) hk0.ne' he.ne' hr.ne')] at h3
  exact ⟨s, h1, h3 ▸ h4⟩

/-- **C99 (as called, without losses).** Also without absorption, such as for metals with a negative permittivity and for all transparent materials without a resonance on the grid:
the constructor succeeds and the iteration converges exponentially to the closed form. -/
theorem C99_called_transparent {co : Const} {p : Args d} {m : Medium 3 p.grid.shape} {S E0 : Solver.Field 3 p.grid.shape} (h : Describes co 3 p m S E0)
    (hvec : p.source.isVectorial (List.ofFn p.grid.shape) (p.currentFactor co) = true) (hd : d ≤ 3) (hs : ∀ a, p.grid.step a ≠ 0) (hk0 : 0 < p.frequency.k0 co.c)
    (hxi : ∀ x, m.xi x = 0) (hzeta : ∀ x, m.zeta x = 0) (o : Optimum) {tol : ℝ} (htol : 0 ≤ tol) (form : ScalarForm d p.mu) {r : ℝ} (hr : 0 < r) (hmu : ∀ x, m.mu x = (r : ℂ) • 1)
    {epsilon : ℂ} (he : 0 ≤ epsilon.im) (hne : epsilon ≠ 0) (hres : ∀ q, square (kOf p.grid) q ≠ (p.frequency.k0 co.c : ℂ) ^ 2 * epsilon * r) (hepsilon : ∀ x, m.epsilon x = epsilon • 1) :
    ∃ s, p.start co tol o = .ok ⟨3, s⟩ ∧
      ConvergesExponentially (.vectorial hd) (backendK p.grid (p.frequency.k0 co.c)) (p.frequency.k0 co.c) s (uniformField (kOf p.grid) (p.frequency.k0 co.c) epsilon r S) := by
  have hval : ∀ z : ℂ, ∀ v : Fin 3 → ℂ, (star v ⬝ᵥ (z • (1 : Matrix (Fin 3) (Fin 3) ℂ)).mulVec v).im = z.im * ∑ i, ‖v i‖ ^ 2 := by
    intro z v
    rw [Matrix.smul_mulVec, Matrix.one_mulVec, dotProduct_smul, star_dot_self, smul_eq_mul, im_mul_ofReal]
  have hgain : NoGain m.epsilon := fun x v => by
    rw [hepsilon, hval]
    exact mul_nonneg he (Finset.sum_nonneg fun i _ => sq_nonneg _)
  have hgainM : NoGain m.mu := fun x v => by
    rw [hmu, hval, ofReal_im, zero_mul]
  have hinv : ((m.mu (first h.nonempty))⁻¹ 0 0).re = r⁻¹ := by
    rw [hmu, smul_one_inv (ofReal_ne hr.ne'), Matrix.smul_apply, Matrix.one_apply_eq, smul_eq_mul, mul_one, ← ofReal_inv, ofReal_re]
  have e1 : m.epsilon = fun _ => epsilon • 1 := funext hepsilon
  have e2 : ((((m.mu (first h.nonempty))⁻¹ 0 0).re : ℝ) : ℂ)⁻¹ = r := by
    rw [hinv, ofReal_inv, inv_inv]
  have hclosed := C99_closed_form hd (kOf p.grid) hk0.ne' hne (ofReal_ne hr.ne') hres
  obtain ⟨s, E, h1, -, h3, h4⟩ := C86_unique h hvec hd hs hk0 hxi hzeta hgain hgainM o tol htol form (fun x => by
    rw [hmu, hmu, sub_self, norm_zero]; positivity) (by rw [hinv]; positivity) (fun E hE => by
      rw [e1, e2] at hE
      rw [(hclosed 0 E).1 hE, ← (hclosed 0 0).1]
      intro c x
      rw [spec_curl, spec_curl, spec_act, spec_act, (curl_isLinear _).map_zero, (mulField_isLinear _).map_zero, (curl_isLinear _).map_zero, (mulField_isLinear _).map_zero]
      simp)
  rw [e1, e2] at h3
  exact ⟨s, h1, (hclosed S E).1 h3 ▸ h4⟩

/-- A negative permittivity has no resonance. -/
theorem no_resonance_metal (k : Fin d → Idx N → ℝ) {k0 : ℝ} (hk0 : k0 ≠ 0) {epsilon r : ℝ} (he : epsilon < 0) (hr : 0 < r) (q : Idx N) : square k q ≠ (k0 : ℂ) ^ 2 * epsilon * r := by
  intro h
  rw [square_k2] at h
  have h1 : k2 k q = k0 ^ 2 * epsilon * r := by exact_mod_cast h
  have h2 : 0 ≤ k2 k q := Finset.sum_nonneg fun a _ => sq_nonneg _
  have h3 : k0 ^ 2 * epsilon * r < 0 := mul_neg_of_neg_of_pos (mul_neg_of_pos_of_neg (by positivity) he) hr
  linarith

/-- **C99 (as called, scalar, without losses).** As above for scalar calculations. -/
theorem C99_called_scalar_transparent {co : Const} {p : Args d} {m : Medium 1 p.grid.shape} {S E0 : Solver.Field 1 p.grid.shape} (h : Describes co 1 p m S E0)
    (hvec : p.source.isVectorial (List.ofFn p.grid.shape) (p.currentFactor co) = false) (hs : ∀ a, p.grid.step a ≠ 0) (hk0 : 0 < p.frequency.k0 co.c)
    (hxi : ∀ x, m.xi x = 0) (hzeta : ∀ x, m.zeta x = 0) (o : Optimum) {tol : ℝ} (htol : 0 ≤ tol) {r : ℝ} (hr : 0 < r) (hmu : ∀ x, m.mu x = (r : ℂ) • 1)
    {epsilon : ℂ} (he : 0 ≤ epsilon.im) (hres : ∀ q, square (kOf p.grid) q ≠ (p.frequency.k0 co.c : ℂ) ^ 2 * epsilon * r) (hepsilon : ∀ x, m.epsilon x = epsilon • 1) :
    ∃ s, p.start co tol o = .ok ⟨1, s⟩ ∧
      ConvergesExponentially .scalar (backendK p.grid (p.frequency.k0 co.c)) (p.frequency.k0 co.c) s fun _ =>
        ift fun q => r * ft (S 0) q / (square (kOf p.grid) q - (p.frequency.k0 co.c : ℂ) ^ 2 * epsilon * r) := by
  have hone : ∀ z : ℂ, (z • (1 : Matrix (Fin 1) (Fin 1) ℂ)) 0 0 = z := fun z => by simp
  have hre : (((r : ℂ)⁻¹).re : ℂ)⁻¹ = r := by
    have h1 : ((r : ℂ)⁻¹).re = r⁻¹ := by rw [← ofReal_inv, ofReal_re]
    rw [h1, ofReal_inv, inv_inv]
  obtain ⟨s, E, h1, -, h3, h4⟩ := C86_scalar_unique h hvec hs hk0 hxi hzeta (fun x => by rw [hepsilon, hone]; exact he) o tol (fun x => by rw [hmu, hone, ofReal_im]) htol
    (fun x => by rw [hmu, hmu, sub_self, norm_zero]; positivity) (by rw [hmu, hone, ← ofReal_inv, ofReal_re]; positivity) (fun E hE => by
      simp only [hepsilon, hmu, hone, hre] at hE
      rw [C99_scalar_closed_form (kOf p.grid) (p.frequency.k0 co.c) (ofReal_ne hr.ne') hres] at hE
      rw [hE]
      funext x
      simp [ft, ift])
  simp only [hepsilon, hmu, hone, hre] at h3
  rw [C99_scalar_closed_form (kOf p.grid) (p.frequency.k0 co.c) (ofReal_ne hr.ne') hres] at h3
  have e : E = fun _ => ift fun q => r * ft (S 0) q / (square (kOf p.grid) q - (p.frequency.k0 co.c : ℂ) ^ 2 * epsilon * r) := by
    funext c
    rw [Subsingleton.elim c 0]
    exact h3
  exact ⟨s, h1, e ▸ h4⟩

/-- **C99 (as called, scalar).** In particular with absorption. -/
theorem C99_called_scalar {co : Const} {p : Args d} {m : Medium 1 p.grid.shape} {S E0 : Solver.Field 1 p.grid.shape} (h : Describes co 1 p m S E0)
    (hvec : p.source.isVectorial (List.ofFn p.grid.shape) (p.currentFactor co) = false) (hs : ∀ a, p.grid.step a ≠ 0) (hk0 : 0 < p.frequency.k0 co.c)
    (hxi : ∀ x, m.xi x = 0) (hzeta : ∀ x, m.zeta x = 0) (o : Optimum) {tol : ℝ} (htol : 0 ≤ tol) {r : ℝ} (hr : 0 < r) (hmu : ∀ x, m.mu x = (r : ℂ) • 1)
    {epsilon : ℂ} (he : 0 < epsilon.im) (hepsilon : ∀ x, m.epsilon x = epsilon • 1) :
    ∃ s, p.start co tol o = .ok ⟨1, s⟩ ∧
      ConvergesExponentially .scalar (backendK p.grid (p.frequency.k0 co.c)) (p.frequency.k0 co.c) s fun _ =>
        ift fun q => r * ft (S 0) q / (square (kOf p.grid) q - (p.frequency.k0 co.c : ℂ) ^ 2 * epsilon * r) :=
  C99_called_scalar_transparent h hvec hs hk0 hxi hzeta o htol hr hmu he.le (no_resonance (kOf p.grid) hk0.ne' he.ne' hr.ne') hepsilon

/-- **C99 (plane waves).** A source that is a plane wave with a direction at right angles to its wavevector gives the same plane wave, divided by the difference of the squares of the wavenumbers;
with a direction along its wavevector, divided by minus the square of the wavenumber of the material. -/
theorem C99_plane_wave (k : Fin d → Idx N → ℝ) (hd : d ≤ 3) (k0 : ℝ) (epsilon mu : ℂ) (q : Idx N) (v : Fin 3 → ℂ) :
    (∑ b, kVector k q b * v b = 0 → ∀ c x, uniformField k k0 epsilon mu (fun c x => v c * wave q x) c x = mu / (square k q - (k0 : ℂ) ^ 2 * epsilon * mu) * (v c * wave q x)) ∧
      (square k q ≠ 0 → (∃ z : ℂ, ∀ c, v c = z * kVector k q c) → ∀ c x, uniformField k k0 epsilon mu (fun c x => v c * wave q x) c x = -(v c * wave q x) / ((k0 : ℂ) ^ 2 * epsilon)) := by
  have hft : ∀ (z : ℂ) p, ft (fun x => z * wave q x) p = z * ft (wave q) p := fun z p => congrFun (ft_isLinear.map_smul z (wave q)) p
  have hL : ∀ c p, along k (fun c x => v c * wave q x) c p = (if p = q then kVector k q c * (∑ b, kVector k q b * v b) / square k q else 0) * ft (wave q) p := by
    intro c p
    unfold along
    simp only [hft]
    by_cases hp : p = q
    · subst hp
      rw [if_pos rfl, ← Finset.sum_congr rfl fun b _ => mul_assoc _ _ _, ← Finset.sum_mul]
      ring
    · rw [ft_wave]
      simp [hp]
  have key : ∀ (z : ℂ) c, (fun p => mu * (ft (fun x => v c * wave q x) p - along k (fun c x => v c * wave q x) c p) / (square k p - (k0 : ℂ) ^ 2 * epsilon * mu) -
      along k (fun c x => v c * wave q x) c p / ((k0 : ℂ) ^ 2 * epsilon)) = ft (fun x => z * wave q x) →
      ∀ x, uniformField k k0 epsilon mu (fun c x => v c * wave q x) c x = z * wave q x := by
    intro z c h x
    unfold uniformField
    rw [h, C23_ift_ft]
  constructor
  · intro h0 c x
    rw [← mul_assoc]
    refine key _ c ?_ x
    funext p
    rw [hL, hft, hft, h0]
    by_cases hp : p = q
    · subst hp
      simp only [if_true, mul_zero, zero_div, zero_mul, sub_zero]
      ring
    · rw [ft_wave]
      simp [hp]
  · rintro hs ⟨z, hz⟩ c x
    have e : -(v c * wave q x) / ((k0 : ℂ) ^ 2 * epsilon) = (-v c / ((k0 : ℂ) ^ 2 * epsilon)) * wave q x := by ring
    rw [e]
    refine key _ c ?_ x
    have hv : kVector k q c * (∑ b, kVector k q b * v b) / square k q = v c := by
      have h1 : ∑ b, kVector k q b * v b = z * square k q := by
        rw [square_k2, ← kVector_k2 k hd q, Finset.mul_sum]
        exact Finset.sum_congr rfl fun b _ => by rw [hz b]; ring
      rw [h1, hz c]
      field_simp
    funext p
    rw [hL, hft, hft, hv]
    by_cases hp : p = q
    · subst hp
      simp only [if_true, sub_self, mul_zero, zero_div, zero_sub]
      ring
    · rw [ft_wave]
      simp [hp]

/-- The hypotheses can be met: vacuum is left out because of its resonances, but a material that absorbs has none. -/
example (k : Fin 3 → Idx ![4, 4, 4] → ℝ) (S : Fin 3 → Idx ![4, 4, 4] → ℂ) : WaveEquation k 1 (fun _ => (1 + I) • 1) (fun _ => ((2 : ℝ) : ℂ) • 1) S (uniformField k 1 (1 + I) (2 : ℝ) S) :=
  (C99_closed_form le_rfl k one_ne_zero (by intro h; have := congrArg Complex.im h; simp at this) (ofReal_ne two_ne_zero) (no_resonance k one_ne_zero (by simp) two_ne_zero) S _).2 rfl

/-- The hypotheses of `C99_called_transparent` on the permittivity can be met by a metal, and those of `C99_resonance` by vacuum on a grid that fits its wavelength. -/
example (k : Fin 3 → Idx ![4, 4, 4] → ℝ) (q : Idx ![4, 4, 4]) : square k q ≠ ((1 : ℝ) : ℂ) ^ 2 * ((-2 : ℝ) : ℂ) * ((1 : ℝ) : ℂ) :=
  no_resonance_metal k one_ne_zero (by norm_num) one_pos q

example : square (fun (_ : Fin 1) (q : Idx ![2]) => ((q 0 : ℕ) : ℝ)) (fun a => match a with | 0 => (1 : Fin 2)) = ((1 : ℝ) : ℂ) ^ 2 * 1 * 1 := by
  simp [square]

/-- Permittivity `1 + i` everywhere, permeability 2, no absorbing boundary. -/
noncomputable def uniformArgs (vectorial : Bool) : Args 1 :=
  { demoArgs vectorial with epsilon := some ⟨[], fun _ => 1 + I⟩, electric := none }

noncomputable def uniformMedium (n : ℕ) : Medium n demoGrid.shape := ⟨fun _ => (1 + I) • 1, fun _ => 0, fun _ => 0, fun _ => (2 : ℂ) • 1⟩

theorem uniform_describes (v : Bool) (n : ℕ) (co : Const) : Describes co n (uniformArgs v) (uniformMedium n) (fun _ _ => 1) (fun _ _ => 3) where
  nonempty := (demo_describes v n co).nonempty
  epsilon := ⟨_, _, rfl, constant_means n (1 + I), .inl ⟨rfl, rfl⟩⟩
  magnetic := rfl
  xi := (demo_describes v n co).xi
  zeta := (demo_describes v n co).zeta
  mu := (demo_describes v n co).mu
  source := (demo_describes v n co).source
  sourceValue := (demo_describes v n co).sourceValue
  initial := (demo_describes v n co).initial
  initialValue := (demo_describes v n co).initialValue

/-- The hypotheses of `C99_called` can be met. -/
example (co : Const) (o : Optimum) : ∃ s, (uniformArgs true).start co 1e-8 o = .ok ⟨3, s⟩ ∧
    ConvergesExponentially (.vectorial (show 1 ≤ 3 by decide)) (backendK demoGrid 1) 1 s (uniformField (kOf demoGrid) 1 (1 + I) (2 : ℝ) fun _ _ => 1) :=
  C99_called (uniform_describes true 3 co) rfl (by decide) demo_step one_pos (fun _ => rfl) (fun _ => rfl) o (by norm_num) ⟨by simp [uniformArgs, demoArgs], by simp [uniformArgs, demoArgs]⟩
    (r := 2) (by norm_num) (fun _ => by push_cast; rfl) (by simp) fun _ => rfl

/-- The hypotheses of `C99_called_scalar` can be met. -/
example (co : Const) (o : Optimum) : ∃ s, (uniformArgs false).start co 1e-8 o = .ok ⟨1, s⟩ ∧
    ConvergesExponentially .scalar (backendK demoGrid 1) 1 s fun _ => ift fun q => (2 : ℝ) * ft (fun _ => 1) q / (square (kOf demoGrid) q - ((1 : ℝ) : ℂ) ^ 2 * (1 + I) * (2 : ℝ)) :=
  C99_called_scalar (uniform_describes false 1 co) rfl demo_step one_pos (fun _ => rfl) (fun _ => rfl) o (by norm_num) (r := 2) (by norm_num) (fun _ => by push_cast; rfl) (by simp) fun _ => rfl

end Verif.Problem
