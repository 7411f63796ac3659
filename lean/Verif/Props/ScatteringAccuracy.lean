import Verif.Props.SolverDetfield
import Verif.Props.ScatteringLinear
import Mathlib.Analysis.Normed.Module.FiniteDimension

/-!
# C102: the products with a ScatteringMatrix are accurate
-/

namespace Verif.Scattering

open Verif Verif.Fourier Verif.Backend Verif.Solver Complex

variable {d : ℕ}

/-- The field of the solver for a field of the scattering matrix: the same array, with the indices of all axes in one multi-index. -/
def toSolver {g : Grid.Obj (d + 1) ℝ} {k0 tol : ℝ} {P : Polarization} (F : Field (Setup.ofGrid g k0 tol) P) : Solver.Field P.c g.shape := fun c x => F c (x 0) fun a => x a.succ

/-- The inverse of `toSolver`. -/
def ofSolver {g : Grid.Obj (d + 1) ℝ} (k0 tol : ℝ) {P : Polarization} (F : Solver.Field P.c g.shape) : Field (Setup.ofGrid g k0 tol) P := fun c i x =>
  F c (Fin.cons (α := fun a => Fin (g.shape a)) i x)

theorem toSolver_ofSolver {g : Grid.Obj (d + 1) ℝ} (k0 tol : ℝ) {P : Polarization} (F : Solver.Field P.c g.shape) : toSolver (ofSolver k0 tol F) = F := by
  funext c x
  unfold toSolver ofSolver
  congr 1
  exact Fin.cons_self_tail x

theorem ofSolver_toSolver {g : Grid.Obj (d + 1) ℝ} {k0 tol : ℝ} {P : Polarization} (F : Field (Setup.ofGrid g k0 tol) P) : ofSolver k0 tol (toSolver F) = F := rfl

/-- A linear map between arrays is bounded. -/
theorem bounded {V W : Type} [NormedAddCommGroup V] [NormedSpace ℂ V] [FiniteDimensional ℂ V] [NormedAddCommGroup W] [NormedSpace ℂ W] {f : V → W} (h : IsLinearMap ℂ f) :
    ∃ K : ℝ, 0 ≤ K ∧ ∀ v, ‖f v‖ ≤ K * ‖v‖ :=
  ⟨‖(LinearMap.toContinuousLinearMap (h.mk' f))‖, _root_.norm_nonneg _, fun v => (LinearMap.toContinuousLinearMap (h.mk' f)).le_opNorm v⟩

/-- The two norms of a field. -/
theorem sup_le_norm {n : ℕ} {e : ℕ} {N : Fin e → ℕ} (F : Solver.Field n N) : ‖F‖ ≤ Backend.norm F := by
  rw [pi_norm_le_iff_of_nonneg (norm_nonneg' F)]
  intro c
  rw [pi_norm_le_iff_of_nonneg (norm_nonneg' F)]
  intro x
  apply Real.le_sqrt_of_sq_le
  refine le_trans ?_ (Finset.single_le_sum (f := fun c => ∑ x, ‖F c x‖ ^ 2) (fun c _ => Finset.sum_nonneg fun x _ => by positivity) (Finset.mem_univ c))
  exact Finset.single_le_sum (f := fun x => ‖F c x‖ ^ 2) (fun x _ => by positivity) (Finset.mem_univ x)

theorem flatten_linear {M p : ℕ} : IsLinearMap ℂ (flatten (M := M) (p := p)) := ⟨fun _ _ => rfl, fun _ _ => rfl⟩

theorem unflatten_linear {M p : ℕ} : IsLinearMap ℂ (unflatten (M := M) (p := p)) := ⟨fun _ _ => rfl, fun _ _ => rfl⟩

/-- The product depends on the calculated field only through the measurement at the detectors. -/
theorem product_difference (s : Setup d) (P : Polarization) (hP : P.Linear) (c mu0 : ℝ) (sources detectors : Fin 2 → Fin s.shape0) (F G : Field s P → Field s P) (v : Fin (2 * P.p * s.count) → ℂ) :
    s.product P c mu0 sources detectors F v - s.product P c mu0 sources detectors G v =
      flatten (s.detect P detectors (F (s.source P c mu0 sources (unflatten v)) - G (s.source P c mu0 sources (unflatten v)))) := by
  unfold Setup.product Setup.scatter
  dsimp only
  rw [← flatten_linear.map_sub, ← (detect_linear s P hP detectors).map_sub]
  congr 2
  funext e i x
  simp only [Pi.sub_apply]
  split_ifs <;> ring

/-- What is expected of the products: there is a matrix, with which the product would be calculated if the equation `Sol` between sources and fields were solved exactly, and a factor, such that the product that
is calculated with any vector, after any earlier calculations, differs from the product with that matrix by at most that factor times 10⁻⁶ times the largest amplitude, unless 10⁴ iterations were needed.  As in
C97, the amplitudes must not be so small that they are taken for zero. -/
def AccurateProducts (g : Grid.Obj (d + 1) ℝ) (k0 tol : ℝ) (P : Polarization) (kind : Kind (d + 1) P.c) (k : Fin (d + 1) → Idx g.shape → ℝ) (st : State P.c g.shape)
    (Sol : Solver.Field P.c g.shape → Solver.Field P.c g.shape → Prop) (c mu0 : ℝ) (sources detectors : Fin 2 → Fin (g.shape 0)) : Prop :=
  let s := Setup.ofGrid g k0 tol
  ∃ matrix : Fin (2 * P.p * s.count) → Fin (2 * P.p * s.count) → ℂ,
    (∀ exact : Field s P → Field s P, (∀ S, Sol (toSolver S) (toSolver (exact S))) → ∀ v, s.Proper P c mu0 (unflatten v) →
      s.product P c mu0 sources detectors exact v = fun i => ∑ j, matrix i j * v j) ∧
    ∃ K : ℝ, 0 ≤ K ∧ ∀ t, Later kind k k0 matrixCallback st t → ∀ v, s.Proper P c mu0 (unflatten v) →
      ∃ t', source2detfield kind k k0 matrixCallback t (toSolver (s.source P c mu0 sources (unflatten v))) 10000 = .done () t' ∧ t'.iteration ≤ 10000 ∧
        (t'.iteration < 10000 → ∀ i, ‖s.product P c mu0 sources detectors (fun _ => ofSolver k0 tol (getE k0 t')) v i - ∑ j, matrix i j * v j‖ ≤ K * 1e-6 * ‖v‖)

/-- **C102 (products).** The products are accurate if the fields are, and the equation is linear with one solution for each source. -/
theorem C102_matrix {g : Grid.Obj (d + 1) ℝ} {k0 tol : ℝ} {P : Polarization} (hP : P = scalar ∨ P = vectorial) {kind : Kind (d + 1) P.c} {k : Fin (d + 1) → Idx g.shape → ℝ} {st : State P.c g.shape}
    {Sol : Solver.Field P.c g.shape → Solver.Field P.c g.shape → Prop} (h : AccurateFields kind k k0 st Sol)
    (hlin : ∀ (a b : ℂ) S S' E E', Sol S E → Sol S' E' → Sol (a • S + b • S') (a • E + b • E')) (hone : ∀ S E E', Sol S E → Sol S E' → E = E') (c mu0 : ℝ)
    (sources detectors : Fin 2 → Fin (g.shape 0)) : AccurateProducts g k0 tol P kind k st Sol c mu0 sources detectors := by
  unfold AccurateProducts
  intro s
  have hl : P.Linear := by
    rcases hP with rfl | rfl
    · exact scalar_linear
    · exact vectorial_linear
  obtain ⟨C, hC, hacc⟩ := h
  have hex : ∀ S, ∃ E, Sol S E := fun S => by
    obtain ⟨E, t', hE, -⟩ := hacc st .refl S
    exact ⟨E, hE⟩
  choose L hL using hex
  have hLlin : IsLinearMap ℂ L := isLinear_of fun a b S S' => hone _ _ _ (hL _) (hlin a b S S' _ _ (hL S) (hL S'))
  set exact : Field s P → Field s P := fun S => ofSolver k0 tol (L (toSolver S)) with hexact
  have hsolve : IsLinearMap ℂ exact := isLinear_of fun a b S S' => by
    show ofSolver k0 tol (L (toSolver (a • S + b • S'))) = _
    have : (toSolver (a • S + b • S') : Solver.Field P.c g.shape) = a • toSolver S + b • toSolver S' := rfl
    rw [this, lin_combination hLlin]
    rfl
  obtain ⟨matrix, hmatrix⟩ := C97_linear_partial s P c mu0 sources detectors exact hP hsolve
  refine ⟨matrix, fun exact' hexact' v hv => ?_, ?_⟩
  · rw [← hmatrix v hv]
    congr 1
    funext S
    have h1 := hone _ _ _ (hexact' S) (hL (toSolver S))
    show exact' S = ofSolver k0 tol (L (toSolver S))
    rw [← h1]
    rfl
  · -- the field at the detectors
    obtain ⟨K1, hK1, h1⟩ := bounded (f := fun F : Solver.Field P.c g.shape => flatten (s.detect P detectors (ofSolver k0 tol F)))
      (isLinear_of fun a b F G => by
        have : (ofSolver k0 tol (a • F + b • G) : Field s P) = a • ofSolver k0 tol F + b • ofSolver k0 tol G := rfl
        rw [this, lin_combination (detect_linear s P hl detectors), lin_combination flatten_linear])
    -- the exact field for a vector
    obtain ⟨K2, hK2, h2⟩ := bounded (f := fun v : Fin (2 * P.p * s.count) → ℂ => toE (L (toSolver (s.exactSource P c mu0 sources (unflatten v)))))
      (isLinear_of fun a b v w => by
        rw [lin_combination unflatten_linear, lin_combination (exactSource_linear s P c mu0 sources hl)]
        have : (toSolver (a • s.exactSource P c mu0 sources (unflatten v) + b • s.exactSource P c mu0 sources (unflatten w)) : Solver.Field P.c g.shape) =
          a • toSolver (s.exactSource P c mu0 sources (unflatten v)) + b • toSolver (s.exactSource P c mu0 sources (unflatten w)) := rfl
        rw [this, lin_combination hLlin, map_add, map_smul, map_smul])
    refine ⟨K1 * (C * (2 * K2)), by positivity, fun t ht v hv => ?_⟩
    obtain ⟨E, t', hE, h3, -, h4, h5, h6⟩ := hacc t ht (toSolver (s.source P c mu0 sources (unflatten v)))
    refine ⟨t', h3, h4, fun h7 i => ?_⟩
    have h6 := h6 h7
    have eE : E = L (toSolver (s.source P c mu0 sources (unflatten v))) := hone _ _ _ hE (hL _)
    have h8 := h2 v
    rw [norm_toE, ← source_exact s P c mu0 sources hl _ hv, ← eE] at h8
    have h9 : Backend.norm (getE k0 t') ≤ 2 * K2 * ‖v‖ := by
      have := norm_add_le' (getE k0 t' - E) E
      rw [sub_add_cancel] at this
      linarith
    have h10 := h1 (getE k0 t' - E)
    have h11 := product_difference s P hl c mu0 sources detectors (fun _ => ofSolver k0 tol (getE k0 t')) exact v
    have h12 : (ofSolver k0 tol (getE k0 t') - exact (s.source P c mu0 sources (unflatten v)) : Field s P) = ofSolver k0 tol (getE k0 t' - E) := by
      rw [eE]
      rfl
    rw [h12, hmatrix v hv] at h11
    have h13 := (norm_le_pi_norm (flatten (s.detect P detectors (ofSolver k0 tol (getE k0 t' - E)))) i).trans h10
    rw [← h11] at h13
    refine h13.trans ?_
    calc K1 * ‖getE k0 t' - E‖ ≤ K1 * (C * 1e-6 * (2 * K2 * ‖v‖)) :=
          mul_le_mul_of_nonneg_left (((sup_le_norm _).trans h6).trans (mul_le_mul_of_nonneg_left h9 (by positivity))) hK1
      _ = _ := by ring

end Verif.Scattering

namespace Verif.Problem

open Verif Verif.Fourier Verif.Backend Verif.Solver Verif.Construct Verif.Scattering Complex Matrix
open Verif.Assign (toMatrixField)
open Verif.Spec.Solver (NoGain WaveEquation ScalarWaveEquation)

variable {d : ℕ}

section Vectorial
variable {co : Const} {p : Args (d + 1)} {m : Medium 3 p.grid.shape} {S E0 : Solver.Field 3 p.grid.shape} (h : Describes co 3 p m S E0)
  (hvec : p.source.isVectorial (List.ofFn p.grid.shape) (p.currentFactor co) = true) (hd : d + 1 ≤ 3) (hs : ∀ a, p.grid.step a ≠ 0) (hk0 : 0 < p.frequency.k0 co.c)
  (hxi : ∀ x, m.xi x = 0) (hzeta : ∀ x, m.zeta x = 0) (hgain : NoGain m.epsilon) (hgainM : NoGain m.mu) (o : Optimum) (tol : ℝ)
  (hu : ∀ E, WaveEquation (kOf p.grid) (p.frequency.k0 co.c) m.epsilon m.mu 0 E → E = 0) (c mu0 modeTol : ℝ) (sources detectors : Fin 2 → Fin (p.grid.shape 0))
include h hvec hs hk0 hxi hzeta hgain hgainM hu

/-- **C102 (products, as called, not magnetic).** For the arguments of C102_called. -/
theorem C102_matrix_called (htol : 0 ≤ tol) (form : ScalarForm (d + 1) p.mu) {r : ℝ} (hr : 0 < r) (hmu : ∀ x, m.mu x = (r : ℂ) • 1) :
    ∃ s, p.start co tol o = .ok ⟨3, s⟩ ∧ AccurateProducts p.grid (p.frequency.k0 co.c) modeTol vectorial (.vectorial hd) (backendK p.grid (p.frequency.k0 co.c)) s
      (WaveEquation (kOf p.grid) (p.frequency.k0 co.c) m.epsilon m.mu) c mu0 sources detectors := by
  obtain ⟨s, hs, hacc⟩ := C102_called h hvec hd hs hk0 hxi hzeta hgain hgainM o tol htol form hr hmu hu
  have hw := waveEquation_linear p.grid (p.frequency.k0 co.c) m.epsilon m.mu
  exact ⟨s, hs, C102_matrix (P := vectorial) (.inr rfl) hacc hw.1 (hw.2 hu) c mu0 sources detectors⟩

/-- **C102 (products, as called, magnetic).** For the arguments of C102_called_magnetic. -/
theorem C102_matrix_called_magnetic (hmag : foundMagnetic (toMatrixField (d + 1) p.xi) (toMatrixField (d + 1) p.zeta) (toMatrixField (d + 1) p.mu) = true) (hinv : ∀ x, IsUnit (m.mu x).det)
    (hv : o.vec.2 ≠ 0) :
    ∃ s, p.start co tol o = .ok ⟨3, s⟩ ∧ AccurateProducts p.grid (p.frequency.k0 co.c) modeTol vectorial (.vectorial hd) (backendK p.grid (p.frequency.k0 co.c)) s
      (WaveEquation (kOf p.grid) (p.frequency.k0 co.c) m.epsilon m.mu) c mu0 sources detectors := by
  obtain ⟨s, hs, hacc⟩ := C102_called_magnetic h hvec hd hs hk0 hxi hzeta hgain hgainM o tol hmag hinv hv hu
  have hw := waveEquation_linear p.grid (p.frequency.k0 co.c) m.epsilon m.mu
  exact ⟨s, hs, C102_matrix (P := vectorial) (.inr rfl) hacc hw.1 (hw.2 hu) c mu0 sources detectors⟩

end Vectorial

theorem scalarEquation_linear {e : ℕ} (g : Grid.Obj e ℝ) (k0 : ℝ) (epsilon : Idx g.shape → ℂ) (mu a b : ℂ) (S S' E E' : Idx g.shape → ℂ)
    (h : ScalarWaveEquation (kOf g) k0 epsilon mu S E) (h' : ScalarWaveEquation (kOf g) k0 epsilon mu S' E') :
    ScalarWaveEquation (kOf g) k0 epsilon mu (a • S + b • S') (a • E + b • E') := by
  intro x
  have hl : Spec.Solver.negLaplacian (kOf g) (a • E + b • E') = a • Spec.Solver.negLaplacian (kOf g) E + b • Spec.Solver.negLaplacian (kOf g) E' := by
    unfold Spec.Solver.negLaplacian
    rw [← ift_isLinear.map_smul, ← ift_isLinear.map_smul, ← ift_isLinear.map_add, ft_isLinear.map_add, ft_isLinear.map_smul, ft_isLinear.map_smul]
    congr 1
    funext x
    simp only [Pi.add_apply, Pi.smul_apply, smul_eq_mul]
    ring
  rw [hl]
  simp only [Pi.add_apply, Pi.smul_apply, smul_eq_mul]
  rw [← h x, ← h' x]
  ring

/-- **C102 (products, as called, scalar).** For the arguments of C102_called_scalar. -/
theorem C102_matrix_called_scalar {co : Const} {p : Args (d + 1)} {m : Medium 1 p.grid.shape} {S E0 : Solver.Field 1 p.grid.shape} (h : Describes co 1 p m S E0)
    (hvec : p.source.isVectorial (List.ofFn p.grid.shape) (p.currentFactor co) = false) (hs : ∀ a, p.grid.step a ≠ 0) (hk0 : 0 < p.frequency.k0 co.c)
    (hxi : ∀ x, m.xi x = 0) (hzeta : ∀ x, m.zeta x = 0) (hgain : ∀ x, 0 ≤ (m.epsilon x 0 0).im) (o : Optimum) (tol : ℝ) (hgainM : ∀ x, 0 ≤ (m.mu x 0 0).im) (htol : 0 ≤ tol)
    (hmu : ∀ x, ‖m.mu x 0 0 - m.mu (first h.nonempty) 0 0‖ ≤ 1e-8 + 1e-5 * ‖m.mu (first h.nonempty) 0 0‖) (hβ : 0 < ((m.mu (first h.nonempty) 0 0)⁻¹).re)
    (hu : ∀ E, ScalarWaveEquation (kOf p.grid) (p.frequency.k0 co.c) (fun x => m.epsilon x 0 0) (((m.mu (first h.nonempty) 0 0)⁻¹).re : ℂ)⁻¹ 0 E → E = 0)
    (c mu0 modeTol : ℝ) (sources detectors : Fin 2 → Fin (p.grid.shape 0)) :
    ∃ s, p.start co tol o = .ok ⟨1, s⟩ ∧ AccurateProducts p.grid (p.frequency.k0 co.c) modeTol scalar .scalar (backendK p.grid (p.frequency.k0 co.c)) s
      (fun (S E : Solver.Field 1 p.grid.shape) => ScalarWaveEquation (kOf p.grid) (p.frequency.k0 co.c) (fun x => m.epsilon x 0 0) (((m.mu (first h.nonempty) 0 0)⁻¹).re : ℂ)⁻¹ (S 0) (E 0)) c mu0 sources detectors := by
  obtain ⟨s, hs, hacc⟩ := C102_called_scalar h hvec hs hk0 hxi hzeta hgain o tol hgainM htol hmu hβ hu
  have hl := scalarEquation_linear p.grid (p.frequency.k0 co.c) (fun x => m.epsilon x 0 0) (((m.mu (first h.nonempty) 0 0)⁻¹).re : ℂ)⁻¹
  refine ⟨s, hs, C102_matrix (P := scalar) (.inl rfl) hacc (fun a b S S' E E' h1 h2 => hl a b _ _ _ _ h1 h2) (fun S E E' h1 h2 => ?_) c mu0 sources detectors⟩
  have h3 := hl 1 (-1) _ _ _ _ h1 h2
  rw [one_smul, one_smul, neg_smul, neg_smul, one_smul, one_smul, add_neg_cancel, ← sub_eq_add_neg] at h3
  funext i
  rw [Fin.fin_one_eq_zero i]
  exact sub_eq_zero.1 (hu _ h3)

/-- Cases of `C102_matrix_called` and `C102_matrix_called_scalar`, and with them of `C102_matrix`, that are not trivial: the problem of `demoArgs`, with vectors and with scalars. -/
example (co : Const) (o : Optimum) (c mu0 : ℝ) : ∃ s, (quietArgs true).start co 1e-8 o = .ok ⟨3, s⟩ ∧
    AccurateProducts demoGrid 1 1e-8 vectorial (.vectorial (show 1 ≤ 3 by decide)) (backendK demoGrid 1) s (WaveEquation (kOf demoGrid) 1 (demoMedium 3).epsilon (demoMedium 3).mu) c mu0
      (fun side : Fin 2 => (side : Fin 2)) (fun side : Fin 2 => (1 - side : Fin 2)) := by
  obtain ⟨δ, hδ, habs⟩ := demo_absorbs 3
  exact C102_matrix_called (quiet_describes true 3 co) rfl (by decide) demo_step one_pos (fun _ => rfl) (fun _ => rfl) (demo_noGain 3).1 (demo_noGain 3).2 o 1e-8
    (absorbing_unique (m := demoMedium 3) (fun x => by
      show IsUnit ((2 : ℂ) • (1 : Matrix (Fin 3) (Fin 3) ℂ)).det
      rw [Matrix.det_smul, Matrix.det_one, mul_one]
      exact isUnit_iff_ne_zero.2 (pow_ne_zero _ two_ne_zero)) (demo_noGain 3).2 one_ne_zero hδ habs) c mu0 1e-8 _ _
    (by norm_num) ⟨by simp [quietArgs, demoArgs], by simp [quietArgs, demoArgs]⟩ (r := 2) (by norm_num) (fun _ => by push_cast; rfl)

example (co : Const) (o : Optimum) (c mu0 : ℝ) : ∃ s, (quietArgs false).start co 1e-8 o = .ok ⟨1, s⟩ ∧
    AccurateProducts demoGrid 1 1e-8 scalar .scalar (backendK demoGrid 1) s
      (fun (S E : Solver.Field 1 demoGrid.shape) => ScalarWaveEquation (kOf demoGrid) 1 (fun x => (demoMedium 1).epsilon x 0 0) ((((2 : ℂ) • (1 : Matrix (Fin 1) (Fin 1) ℂ)) 0 0)⁻¹.re : ℂ)⁻¹ (S 0) (E 0)) c mu0
      (fun side : Fin 2 => (side : Fin 2)) (fun side : Fin 2 => (1 - side : Fin 2)) := by
  obtain ⟨δ, hδ, habs⟩ := demo_absorbs 1
  have hpos : ∀ x, 0 < ((demoMedium 1).epsilon x 0 0).im := fun x => by
    have := habs x (fun _ => 1)
    simp [dotProduct, Matrix.mulVec] at this
    linarith
  have hmu : ∀ x, (demoMedium 1).mu x 0 0 = 2 := fun x => by
    show ((2 : ℂ) • (1 : Matrix (Fin 1) (Fin 1) ℂ)) 0 0 = 2
    simp
  have h1 : ∀ x, 0 ≤ ((demoMedium 1).mu x 0 0).im := fun x => by rw [hmu]; norm_num
  have h2 : ∀ x y, ‖(demoMedium 1).mu x 0 0 - (demoMedium 1).mu y 0 0‖ ≤ 1e-8 + 1e-5 * ‖(demoMedium 1).mu y 0 0‖ := fun x y => by rw [hmu, hmu]; norm_num
  have h3 : ∀ x, 0 < ((demoMedium 1).mu x 0 0)⁻¹.re := fun x => by rw [hmu]; norm_num
  exact C102_matrix_called_scalar (quiet_describes false 1 co) rfl demo_step one_pos (fun _ => rfl) (fun _ => rfl) (fun x => (hpos x).le) o 1e-8
    h1 (by norm_num) (fun x => h2 x _) (h3 _)
    (fun E hE => scalar_absorbing demoGrid one_ne_zero _ _ hpos E hE) c mu0 1e-8 _ _

end Verif.Problem
