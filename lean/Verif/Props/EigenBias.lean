import Verif.Lemmas.EigenBias
import Verif.Spec.EigenBias
import Verif.Props.SolverTolerance
import Verif.Props.SolverScalarMedia

/-!
# C135: the iteration converges with the eigenvalues as they are calculated

The eigenvalues of `mat3_eigh` are not exact for matrices of which all eigenvalues are nearly equal (`C27_violates`).  The margin of 0.05 that the code adds to the bias covers that error.
-/

namespace Verif.Solver

open Verif Verif.Fourier Verif.Backend Complex Matrix
open Verif.Spec.Solver (NoGain Within WaveEquation ScalarWaveEquation Close)

variable {d n : ℕ} {N : Fin d → ℕ} {eps : ℝ}

/-! ### The eigenvalues that are calculated -/

/-- **C135 (values).** For all 3-by-3 matrices there are three values, without exceptions and without NaN, for both back ends.  Those of the back end torch are real. -/
theorem C135_values (heps : 2 * eps ≤ 1) (A : Matrix (Fin 3) (Fin 3) ℂ) :
    Roots.mat3Eigh eps ⟨3, 3, A⟩ = .ok ((spectrum eps false A).map some) ∧ Roots.mat3EighTorch eps ⟨3, 3, A⟩ = .ok ((spectrum eps true A).map some) ∧
      (spectrum eps false A).length = 3 ∧ (spectrum eps true A).length = 3 ∧ ∀ y ∈ spectrum eps true A, y.im = 0 := by
  obtain ⟨p1, p2⟩ := spectrum_three heps A
  obtain ⟨X, h1, h3, Y, rfl, h2⟩ := Roots.mat3Eigh_full heps A
  have h1' : Roots.mat3Eigh eps ⟨3, 3, A⟩ = .ok (Y.map some) := h1
  have hc : Roots.mat3Eigh eps ⟨3, 3, A⟩ = Roots.calcRoots eps (Roots.charCoefficients A) := by
    unfold Roots.mat3Eigh
    rw [dif_pos ⟨rfl, rfl⟩]
    rfl
  have hY : spectrum eps false A = Y := by
    unfold spectrum
    simp only [Bool.false_eq_true, if_false]
    rw [h1']
    exact Roots.map_some_reduceOption Y
  have e : Roots.mat3EighTorch eps ⟨3, 3, A⟩ = .ok (Roots.sort ((Y.map some).map (Option.map fun z => ((z.re : ℝ) : ℂ)))) := by
    unfold Roots.mat3EighTorch
    rw [dif_pos ⟨rfl, rfl⟩]
    change Roots.calcRootsTorch eps (Roots.charCoefficients A) = _
    unfold Roots.calcRootsTorch
    rw [← hc, h1']
    rfl
  have hall : ∀ L : List (Option ℂ), (∀ x ∈ L, x.isSome) → L.reduceOption.map some = L := by
    intro L
    induction L with
    | nil => intro; rfl
    | cons x L ih =>
      intro h
      obtain ⟨y, rfl⟩ := Option.isSome_iff_exists.1 (h x (by simp))
      rw [List.reduceOption_cons_of_some, List.map_cons, ih fun x hx => h x (by simp [hx])]
  have hT : (spectrum eps true A).map some = Roots.sort ((Y.map some).map (Option.map fun z => ((z.re : ℝ) : ℂ))) := by
    unfold spectrum
    simp only [if_true]
    rw [e]
    refine hall _ fun x hx => ?_
    have := (List.mergeSort_perm _ _).mem_iff.1 hx
    rw [List.map_map, List.mem_map] at this
    obtain ⟨y, -, rfl⟩ := this
    rfl
  have hl : (Roots.formula eps (Roots.charCoefficients A)).length = 3 := by rw [← h2.length_eq]; simpa using h3
  refine ⟨by rw [hY]; exact h1', by rw [hT]; exact e, by rw [p1.length_eq, hl], by rw [p2.length_eq, List.length_map, hl], fun y hy => ?_⟩
  rw [p2.mem_iff, List.mem_map] at hy
  obtain ⟨z, -, rfl⟩ := hy
  exact ofReal_im _

theorem det_real {A : Matrix (Fin n) (Fin n) ℂ} (hA : A.IsHermitian) {x : ℂ} (hx : (x • (1 : Matrix (Fin n) (Fin n) ℂ) - A).det = 0) : x.im = 0 := by
  rw [← mem_roots_det, hA.roots_charpoly_eq_eigenvalues, Multiset.mem_map] at hx
  obtain ⟨i, -, rfl⟩ := hx
  exact ofReal_im _

/-- **C135 (accuracy).** For all Hermitian 3-by-3 matrices, the calculated values are nowhere less than the smallest eigenvalue, and they and the eigenvalues are within four times the
square root of the precision of each other, for both back ends. -/
theorem C135_accuracy (heps : 2 * eps ≤ 1) (torch : Bool) : Close (n := 3) (4 * √eps) (spectrum eps torch) := by
  have key : ∀ A : Matrix (Fin 3) (Fin 3) ℂ, A.IsHermitian → ∀ f ∈ [fun z : ℂ => z, fun z : ℂ => ((z.re : ℝ) : ℂ)],
      (∀ y ∈ (Roots.formula eps (Roots.charCoefficients A)).map f, ∃ x : ℂ, (x • (1 : Matrix (Fin 3) (Fin 3) ℂ) - A).det = 0 ∧ x.re ≤ y.re) ∧
      (∀ y ∈ (Roots.formula eps (Roots.charCoefficients A)).map f, ∃ x : ℂ, (x • (1 : Matrix (Fin 3) (Fin 3) ℂ) - A).det = 0 ∧ ‖y - x‖ ≤ 4 * √eps) ∧
      (∀ x : ℂ, (x • (1 : Matrix (Fin 3) (Fin 3) ℂ) - A).det = 0 → ∃ y ∈ (Roots.formula eps (Roots.charCoefficients A)).map f, ‖y - x‖ ≤ 4 * √eps) := by
    intro A hA f hf
    have hfre : ∀ z, (f z).re = z.re := by
      simp only [List.mem_cons, List.not_mem_nil, or_false] at hf
      rcases hf with rfl | rfl <;> intro z <;> simp
    have hfn : ∀ z x : ℂ, x.im = 0 → ‖f z - x‖ ≤ ‖z - x‖ := by
      intro z x hx
      simp only [List.mem_cons, List.not_mem_nil, or_false] at hf
      rcases hf with rfl | rfl
      · exact le_rfl
      · have e : ((z.re : ℝ) : ℂ) - x = (((z - x).re : ℝ) : ℂ) := by
          apply Complex.ext <;> simp [hx]
        change ‖((z.re : ℝ) : ℂ) - x‖ ≤ _
        rw [e, norm_real]
        exact abs_re_le_norm _
    have h0 : 0 ≤ 4 * √eps := by positivity
    have hne : Roots.formula eps (Roots.charCoefficients A) ≠ [] := by
      intro h
      have := (spectrum_three heps A).1.length_eq
      rw [(C135_values heps A).2.2.1, h] at this
      exact absurd this (by decide)
    obtain ⟨x0, hx0⟩ : ∃ x0 : ℂ, (x0 • (1 : Matrix (Fin 3) (Fin 3) ℂ) - A).det = 0 := by
      refine ⟨((hA.eigenvalues 0 : ℝ) : ℂ), ?_⟩
      rw [← mem_roots_det, hA.roots_charpoly_eq_eigenvalues]
      exact Multiset.mem_map.2 ⟨0, Finset.mem_univ (0 : Fin 3), rfl⟩
    obtain ⟨Y, hY, -, hcase⟩ := Roots.C27_error heps A
    obtain ⟨X, h1, -, Z, rfl, h2⟩ := Roots.mat3Eigh_full heps A
    have hYZ : Y = Z := by
      rw [h1] at hY
      have := congrArg List.reduceOption (Except.ok.inj hY)
      rw [Roots.map_some_reduceOption, Roots.map_some_reduceOption] at this
      exact this.symm
    subst hYZ
    refine ⟨fun y hy => ?_, fun y hy => ?_, fun x hx => ?_⟩
    · obtain ⟨z, hz, rfl⟩ := List.mem_map.1 hy
      obtain ⟨x, hx, hle⟩ := Roots.hermitian_lower hA z hz
      exact ⟨x, hx, by rw [hfre]; exact hle⟩
    · obtain ⟨z, hz, rfl⟩ := List.mem_map.1 hy
      rcases hcase with h | h
      · have hdet : (z • (1 : Matrix (Fin 3) (Fin 3) ℂ) - A).det = 0 := by
          rw [h z, List.prod_eq_zero_iff, List.mem_map]
          exact ⟨z, h2.mem_iff.2 hz, sub_self _⟩
        refine ⟨z, hdet, (hfn z z (det_real hA hdet)).trans ?_⟩
        rw [sub_self, norm_zero]
        exact h0
      · exact ⟨x0, hx0, (hfn z x0 (det_real hA hx0)).trans (h x0 hx0 z (h2.mem_iff.2 hz))⟩
    · rcases hcase with h | h
      · have hm : x ∈ Y := by
          have := h x
          rw [hx, eq_comm, List.prod_eq_zero_iff, List.mem_map] at this
          obtain ⟨w, hw, h3⟩ := this
          rw [sub_eq_zero.1 h3]
          exact hw
        refine ⟨f x, List.mem_map.2 ⟨x, h2.mem_iff.1 hm, rfl⟩, (hfn x x (det_real hA hx)).trans ?_⟩
        rw [sub_self, norm_zero]
        exact h0
      · obtain ⟨z, hz⟩ := List.exists_mem_of_ne_nil _ hne
        exact ⟨f z, List.mem_map.2 ⟨z, hz, rfl⟩, (hfn z x (det_real hA hx)).trans (h x hx z (h2.mem_iff.2 hz))⟩
  have hp : ∀ A : Matrix (Fin 3) (Fin 3) ℂ, ∃ f ∈ [fun z : ℂ => z, fun z : ℂ => ((z.re : ℝ) : ℂ)],
      (spectrum eps torch A).Perm ((Roots.formula eps (Roots.charCoefficients A)).map f) := by
    intro A
    obtain ⟨p1, p2⟩ := spectrum_three heps A
    cases torch with
    | false => exact ⟨fun z => z, by simp, by rw [List.map_id']; exact p1⟩
    | true => exact ⟨_, List.mem_cons_of_mem _ (List.mem_singleton.2 rfl), p2⟩
  refine ⟨fun A hA y hy => ?_, fun A hA y hy => ?_, fun A hA x hx => ?_⟩
  · obtain ⟨f, hf, p⟩ := hp A
    exact (key A hA f hf).1 y (p.mem_iff.1 hy)
  · obtain ⟨f, hf, p⟩ := hp A
    exact (key A hA f hf).2.1 y (p.mem_iff.1 hy)
  · obtain ⟨f, hf, p⟩ := hp A
    obtain ⟨y, hy, h⟩ := (key A hA f hf).2.2 x hx
    exact ⟨y, p.mem_iff.2 hy, h⟩

/-- **C135 (scalar calculations).** There the eigenvalues are exact. -/
theorem C135_accuracy_scalar (torch : Bool) : Close (n := 1) 0 (spectrum eps torch) := by
  have hdet : ∀ (A : Matrix (Fin 1) (Fin 1) ℂ) (x : ℂ), (x • (1 : Matrix (Fin 1) (Fin 1) ℂ) - A).det = x - A 0 0 := by
    intro A x
    simp
  refine ⟨fun A hA y hy => ?_, fun A hA y hy => ?_, fun A hA x hx => ?_⟩
  · rw [spectrum_one, List.mem_singleton] at hy
    exact ⟨y, by rw [hdet, hy, sub_self], le_rfl⟩
  · rw [spectrum_one, List.mem_singleton] at hy
    exact ⟨y, by rw [hdet, hy, sub_self], by simp⟩
  · rw [hdet, sub_eq_zero] at hx
    exact ⟨x, by rw [spectrum_one, hx]; simp, by simp⟩

/-- **C135 (numbers).** A material that is stored as a number has the same values as one that is stored as a matrix. -/
theorem C135_number (heps : 2 * eps ≤ 1) (torch : Bool) (z : ℝ) :
    spectrum eps torch ((z : ℂ) • (1 : Matrix (Fin 3) (Fin 3) ℂ)) = [(z : ℂ), (z : ℂ), (z : ℂ)] ∧
      spectrum eps torch ((z : ℂ) • (1 : Matrix (Fin 1) (Fin 1) ℂ)) = [(z : ℂ)] := by
  refine ⟨?_, by rw [spectrum_one]; simp⟩
  have h := Roots.C27_multiple heps ((z : ℂ) • (1 : Matrix (Fin 3) (Fin 3) ℂ)) z fun x => by
    rw [← sub_smul, Matrix.det_smul, Matrix.det_one]
    simp
    ring
  obtain ⟨e1, -⟩ := C135_values heps ((z : ℂ) • (1 : Matrix (Fin 3) (Fin 3) ℂ))
  have hf : spectrum eps false ((z : ℂ) • (1 : Matrix (Fin 3) (Fin 3) ℂ)) = [(z : ℂ), (z : ℂ), (z : ℂ)] := by
    have := congrArg List.reduceOption (Except.ok.inj (e1.symm.trans h))
    rw [Roots.map_some_reduceOption] at this
    exact this
  cases torch with
  | false => exact hf
  | true =>
    obtain ⟨p1, p2⟩ := spectrum_three heps ((z : ℂ) • (1 : Matrix (Fin 3) (Fin 3) ℂ))
    rw [hf] at p1
    have h3 := p2.trans (p1.symm.map fun z : ℂ => ((z.re : ℝ) : ℂ))
    have e : [(z : ℂ), (z : ℂ), (z : ℂ)].map (fun z : ℂ => ((z.re : ℝ) : ℂ)) = List.replicate 3 (z : ℂ) := by simp [List.replicate_succ]
    rw [e] at h3
    have := List.perm_replicate.1 h3
    rw [this]
    rfl

/-! ### The largest eigenvalue, and gain -/

variable {δ : ℝ} {ev : Matrix (Fin n) (Fin n) ℂ → List ℂ}

theorem value_le (ev : Matrix (Fin n) (Fin n) ℂ → List ℂ) (A : Tensor n N) (x : Idx N) {z : ℂ} (hz : z ∈ ev (A x)) : ‖z‖ ≤ largestWith ev A := by
  refine le_csSup ?_ ⟨x, z, hz, rfl⟩
  have : {r | ∃ x, ∃ z ∈ ev (A x), r = ‖z‖} = ⋃ x, (fun z => ‖z‖) '' {z | z ∈ ev (A x)} := by
    ext r
    simp only [Set.mem_ofPred_eq, Set.mem_iUnion, Set.mem_image]
    exact exists_congr fun x => exists_congr fun z => and_congr_right fun _ => eq_comm
  rw [this]
  exact (Set.finite_iUnion fun x => Set.Finite.image _ (ev (A x)).finite_toSet).bddAbove

theorem largestWith_nonneg (ev : Matrix (Fin n) (Fin n) ℂ → List ℂ) (A : Tensor n N) : 0 ≤ largestWith ev A := by
  refine Real.sSup_nonneg ?_
  rintro r ⟨x, z, -, rfl⟩
  exact norm_nonneg z

/-- **C135 (largest eigenvalue).** The largest calculated value differs from the largest eigenvalue by at most the error of the values, for all Hermitian materials. -/
theorem C135_largest (hδ : 0 ≤ δ) (hev : Close δ ev) (A : Tensor n N) (hA : ∀ x, (A x).IsHermitian) : |largestWith ev A - largestEigenvalue A| ≤ δ := by
  rw [abs_le]
  constructor
  · have : largestEigenvalue A ≤ largestWith ev A + δ := by
      refine Real.sSup_le ?_ (add_nonneg (largestWith_nonneg ev A) hδ)
      rintro r ⟨x, z, hz, rfl⟩
      obtain ⟨y, hy, h⟩ := hev.cover (A x) (hA x) z ((mem_roots_det _ _).1 hz)
      have h1 := value_le ev A x hy
      have h2 : ‖z‖ ≤ ‖y‖ + ‖y - z‖ := by
        have := norm_sub_le y (y - z)
        rwa [sub_sub_cancel] at this
      linarith
    linarith
  · have : largestWith ev A ≤ largestEigenvalue A + δ := by
      refine Real.sSup_le ?_ (add_nonneg (largestEigenvalue_nonneg A) hδ)
      rintro r ⟨x, y, hy, rfl⟩
      obtain ⟨z, hz, h⟩ := hev.near (A x) (hA x) y hy
      have h1 := eigenvalue_le A x ((mem_roots_det _ _).2 hz)
      have h2 := norm_sub_norm_le y z
      linarith
    linarith

theorem gain_hermitian (A : Matrix (Fin n) (Fin n) ℂ) : ((-I / 2) • (A - Aᴴ)).IsHermitian := by
  rw [Matrix.IsHermitian, Matrix.conjTranspose_smul, Matrix.conjTranspose_sub, Matrix.conjTranspose_conjTranspose, RCLike.star_def]
  have : (starRingEnd ℂ) (-I / 2) = - (-I / 2) := by
    rw [map_div₀, map_neg, conj_I, map_ofNat]; ring
  rw [this, neg_smul, ← smul_neg, neg_sub]

/-- **C135 (gain).** What is found to have gain has gain, and gain that exceeds the tolerance by more than the error is found. -/
theorem C135_gain (hev : Close δ ev) (tol : ℝ) (A : Tensor n N) : (gainWith ev tol A → hasGain tol A) ∧ (hasGain (tol + δ) A → gainWith ev tol A) := by
  constructor
  · rintro ⟨x, y, hy, hre⟩
    obtain ⟨z, hz, hle⟩ := hev.lower _ (gain_hermitian (A x)) y hy
    exact ⟨x, z, (mem_roots_det _ _).2 hz, by linarith⟩
  · rintro ⟨x, z, hz, hre⟩
    obtain ⟨y, hy, h⟩ := hev.cover _ (gain_hermitian (A x)) z ((mem_roots_det _ _).1 hz)
    refine ⟨x, y, hy, ?_⟩
    have := (re_le_norm (y - z)).trans h
    rw [sub_re] at this
    linarith

/-- Materials without gain are not considered to be transposed. -/
theorem not_transposedWith (hev : Close δ ev) (m : Medium n N) {tol : ℝ} (htol : 0 ≤ tol) (hE : NoGain m.epsilon) (hxi : ∀ x, m.xi x = 0) (hzeta : ∀ x, m.zeta x = 0)
    (hmu : NoGain m.mu) : ¬ m.transposedWith ev tol := by
  have hz : ∀ A : Tensor n N, (∀ x, A x = 0) → NoGain A := by
    intro A hA x v; rw [hA]; simp
  have key : ∀ A : Tensor n N, NoGain A → ¬ gainWith ev tol A := fun A hA h => (hasGain_iff _).1 (hasGain_mono htol ((C135_gain hev tol A).1 h)) hA
  rintro ⟨h | h | h | h, -⟩
  · exact key _ hE h
  · exact key _ (hz _ hxi) h
  · exact key _ (hz _ hzeta) h
  · exact key _ hmu h

/-! ### The bias -/

theorem sqrt_largest (hδ : 0 ≤ δ) (hev : Close δ ev) (A : Tensor n N) (hA : ∀ x, (A x).IsHermitian) :
    √(largestEigenvalue A) ≤ √(largestWith ev A) + √δ := by
  have h := (abs_le.1 (C135_largest hδ hev A hA)).1
  have h0 := largestWith_nonneg ev A
  refine Real.sqrt_le_iff.2 ⟨by positivity, ?_⟩
  rw [add_sq, Real.sq_sqrt h0, Real.sq_sqrt hδ]
  have : 0 ≤ 2 * √(largestWith ev A) * √δ := by positivity
  linarith

theorem deltaEE_hermitian (m : Medium n N) (alphaR beta : ℝ) (x : Idx N) : (m.deltaEEBeta2 alphaR beta x).IsHermitian := by
  have e : m.deltaEEBeta2 alphaR beta x = (m.epsilonPrime x - ((alphaR * beta : ℝ) : ℂ) • 1)ᴴ * (m.epsilonPrime x - ((alphaR * beta : ℝ) : ℂ) • 1) := by
    rw [gram_sub, Medium.deltaEEBeta2, add_comm]
  rw [e]
  exact Matrix.isHermitian_conjTranspose_mul_self _

theorem chiHH_hermitian (m : Medium n N) (beta : ℝ) (x : Idx N) : (m.chiHHBeta2 beta x).IsHermitian := by
  have e : m.chiHHBeta2 beta x = (m.muInv x - (beta : ℂ) • 1)ᴴ * (m.muInv x - (beta : ℂ) • 1) := by
    rw [gram_sub, Medium.chiHHBeta2]
  rw [e]
  exact Matrix.isHermitian_conjTranspose_mul_self _

/-- **C135 (bias).** Unless the material is found to have gain and no loss: if the square root of the error of the eigenvalues is less than 0.05 times the inverse permeability, the bias
that is selected with them exceeds the largest singular value of the deviation of the permittivity from its centre. -/
theorem C135_bias (hδ : 0 ≤ δ) (hev : Close δ ev) (m : Medium n N) {tol : ℝ} (h : ¬ m.transposedWith ev tol) (k0 : ℝ) (thickness : List ℝ) (i0 : Fin n) (x0 : Idx N)
    (hβ : √δ < 0.05 * |m.betaNonMagnetic i0 x0|) (alphaR : ℝ) :
    ∃ s, 0 ≤ s ∧
      Within (fun x => m.epsilonPrime x - (((m.nonMagneticWith ev tol k0 thickness i0 x0 alphaR).1.re *
        (m.nonMagneticWith ev tol k0 thickness i0 x0 alphaR).2 : ℝ) : ℂ) • 1) s ∧
      s < (m.nonMagneticWith ev tol k0 thickness i0 x0 alphaR).1.im * |(m.nonMagneticWith ev tol k0 thickness i0 x0 alphaR).2| := by
  unfold Medium.nonMagneticWith
  simp only [if_neg h, increaseBias_re]
  set beta := m.betaNonMagnetic i0 x0
  have hb : 0 < |beta| := by
    have := Real.sqrt_nonneg δ
    by_contra hn
    push Not at hn
    linarith
  have e1 : ((alphaR : ℂ) + I * (m.sigmaEEWith ev alphaR beta : ℂ)).re = alphaR := by simp
  have e2 : ((alphaR : ℂ) + I * (m.sigmaEEWith ev alphaR beta : ℂ)).im = m.sigmaEEWith ev alphaR beta := by simp
  refine ⟨m.sigmaEE alphaR beta * |beta|, mul_nonneg (sigmaEE_nonneg m _ _) hb.le, ?_, ?_⟩
  · rw [e1]; exact m.within_sigmaEE alphaR (abs_pos.1 hb)
  · have := C36_increase k0 thickness ((alphaR : ℂ) + I * (m.sigmaEEWith ev alphaR beta : ℂ))
    rw [e2] at this
    refine lt_of_lt_of_le ?_ (mul_le_mul_of_nonneg_right this hb.le)
    have h1 := sqrt_largest hδ hev _ (deltaEE_hermitian m alphaR beta)
    unfold Medium.sigmaEE Medium.sigmaEEWith
    rw [div_mul_cancel₀ _ hb.ne', add_mul, div_mul_cancel₀ _ hb.ne']
    linarith

/-- **C135 (bias, magnetic).** The same for magnetic media, if the error is small compared to that of the largest wavenumber of the grid. -/
theorem C135_bias_magnetic (hδ : 0 ≤ δ) (hev : Close δ ev) (m : Medium n N) (pitch : Fin d → ℝ) {k0 : ℝ} (hk0 : 0 < k0) (thickness : List ℝ) (vec : ℝ × ℝ)
    (hv : (1 + sigmaD pitch k0) ^ 2 * √δ < 0.05 * vec.2 ^ 2) :
    ∃ sE sM sEH sHE : ℝ, 0 ≤ sE ∧ 0 ≤ sM ∧ 0 ≤ sEH ∧ 0 ≤ sHE ∧
      Within (fun x => m.epsilonPrime x - (((m.magneticWith ev pitch k0 thickness vec).1.re * (m.magneticWith ev pitch k0 thickness vec).2 : ℝ) : ℂ) • 1) sE ∧
      Within (fun x => m.muInv x - ((m.magneticWith ev pitch k0 thickness vec).2 : ℂ) • 1) sM ∧ Within m.chiEHBeta sEH ∧ Within m.chiHEBeta sHE ∧
      sE + sigmaD pitch k0 ^ 2 * sM + sigmaD pitch k0 * (sEH + sHE) <
        (m.magneticWith ev pitch k0 thickness vec).1.im * (m.magneticWith ev pitch k0 thickness vec).2 := by
  unfold Medium.magneticWith
  simp only [increaseBias_re]
  set beta := vec.2 ^ 2 with hbeta
  have hD := sigmaD_nonneg pitch hk0
  have hb : 0 < beta := by
    have : 0 ≤ (1 + sigmaD pitch k0) ^ 2 * √δ := by positivity
    by_contra hn
    push Not at hn
    linarith
  have e1 : ((vec.1 : ℂ) + I * (m.singularSumWith ev pitch k0 vec.1 beta : ℂ)).re = vec.1 := by simp
  have e2 : ((vec.1 : ℂ) + I * (m.singularSumWith ev pitch k0 vec.1 beta : ℂ)).im = m.singularSumWith ev pitch k0 vec.1 beta := by simp
  refine ⟨m.sigmaEE vec.1 beta * |beta|, m.sigmaHH beta * |beta|, largestSingularValue m.chiEHBeta, largestSingularValue m.chiHEBeta,
    mul_nonneg (sigmaEE_nonneg m _ _) (abs_nonneg _), mul_nonneg (sigmaHH_nonneg m _) (abs_nonneg _), Real.sqrt_nonneg _, Real.sqrt_nonneg _, ?_,
    m.within_sigmaHH hb.ne', within_largest _, within_largest _, ?_⟩
  · rw [e1]; exact m.within_sigmaEE vec.1 hb.ne'
  · have := C36_increase k0 thickness ((vec.1 : ℂ) + I * (m.singularSumWith ev pitch k0 vec.1 beta : ℂ))
    rw [e2] at this
    refine lt_of_lt_of_le ?_ (mul_le_mul_of_nonneg_right this hb.le)
    have h1 := sqrt_largest hδ hev _ (deltaEE_hermitian m vec.1 beta)
    have h2 := sqrt_largest hδ hev _ (chiHH_hermitian m beta)
    have h3 := sqrt_largest hδ hev (fun x => (m.chiEHBeta x)ᴴ * m.chiEHBeta x) fun x => Matrix.isHermitian_conjTranspose_mul_self _
    have h4 := sqrt_largest hδ hev (fun x => (m.chiHEBeta x)ᴴ * m.chiHEBeta x) fun x => Matrix.isHermitian_conjTranspose_mul_self _
    unfold Medium.singularSumWith Medium.sigmaEE Medium.sigmaHH Medium.sigmaEEWith Medium.sigmaHHWith largestSingularValue largestSingularWith
    rw [abs_of_pos hb, div_mul_cancel₀ _ hb.ne', div_mul_cancel₀ _ hb.ne']
    generalize √(largestEigenvalue (m.deltaEEBeta2 vec.1 beta)) = a1 at *
    generalize √(largestWith ev (m.deltaEEBeta2 vec.1 beta)) = b1 at *
    generalize √(largestEigenvalue (m.chiHHBeta2 beta)) = a2 at *
    generalize √(largestWith ev (m.chiHHBeta2 beta)) = b2 at *
    generalize √(largestEigenvalue fun x => (m.chiEHBeta x)ᴴ * m.chiEHBeta x) = a3 at *
    generalize √(largestWith ev fun x => (m.chiEHBeta x)ᴴ * m.chiEHBeta x) = b3 at *
    generalize √(largestEigenvalue fun x => (m.chiHEBeta x)ᴴ * m.chiHEBeta x) = a4 at *
    generalize √(largestWith ev fun x => (m.chiHEBeta x)ᴴ * m.chiHEBeta x) = b4 at *
    generalize sigmaD pitch k0 = D at *
    have e : (D ^ 2 * (b2 / beta) + D * (b3 + b4) / beta + b1 / beta + 0.05) * beta = D ^ 2 * b2 + D * (b3 + b4) + b1 + 0.05 * beta := by
      field_simp
    rw [e]
    have g2 := mul_le_mul_of_nonneg_left h2 (sq_nonneg D)
    have g3 := mul_le_mul_of_nonneg_left (add_le_add h3 h4) hD
    nlinarith

/-! ### Convergence -/

section
variable {g : Grid.Obj d ℝ} (hs : ∀ a, g.step a ≠ 0) {k0 : ℝ} (hk0 : 0 < k0) (hd : d ≤ 3) {m : Medium 3 g.shape} (hxi : ∀ x, m.xi x = 0)
  (hzeta : ∀ x, m.zeta x = 0) (hgain : NoGain m.epsilon) (hmu : NoGain m.mu) {tol : ℝ} (htol : 0 ≤ tol) (thickness : List ℝ) (x0 : Idx g.shape)
  {δ : ℝ} {ev : Matrix (Fin 3) (Fin 3) ℂ → List ℂ} (hδ : 0 ≤ δ) (hev : Close δ ev)
include hs hk0 hxi hzeta hgain hmu hδ hev

/-- **C135 (convergence, not magnetic).** For the constants that are selected with the calculated eigenvalues, for all media that are found not to be magnetic, without gain: the same as C87, if
the error of the eigenvalues is small enough for the permeability. -/
theorem C135_rate (htol : 0 ≤ tol) (hβ : √δ < 0.05 * ((m.mu x0)⁻¹ 0 0).re) (alphaR : ℝ)
    (hu : ∀ E, WaveEquation (kOf g) k0 m.epsilon (fun _ => (((m.mu x0)⁻¹ 0 0).re : ℂ)⁻¹ • 1) 0 E → E = 0) : ∃ q : ℝ, ∀ S F : Field 3 g.shape,
    ∃ E, WaveEquation (kOf g) k0 m.epsilon (fun _ => (((m.mu x0)⁻¹ 0 0).re : ℂ)⁻¹ • 1) S E ∧
      ConvergesAtRate (.vectorial hd) (backendK g k0) k0 (prepare m false (m.nonMagneticWith ev tol k0 thickness 0 x0 alphaR).1
        (m.nonMagneticWith ev tol k0 thickness 0 x0 alphaR).2 S F) E q := by
  have hbp : 0 < m.betaNonMagnetic 0 x0 := by
    have h0 := Real.sqrt_nonneg δ
    change 0 < ((m.mu x0)⁻¹ 0 0).re
    by_contra hn
    push Not at hn
    linarith
  obtain ⟨s, hs0, hw, hlt⟩ := C135_bias hδ hev m (not_transposedWith hev m htol hgain hxi hzeta hmu) k0 thickness 0 x0 (by rw [abs_of_pos hbp]; exact hβ) alphaR
  set c := m.nonMagneticWith ev tol k0 thickness 0 x0 alphaR with hc
  have hbp : 0 < c.2 := hbp
  rw [abs_of_pos hbp] at hlt
  have heps : (m.effective c.2).epsilon = m.epsilon := by
    change m.epsilonPrime = m.epsilon
    exact epsilonPrime_eq hxi
  have hmu' : (m.effective c.2).mu = fun _ => (((m.mu x0)⁻¹ 0 0).re : ℂ)⁻¹ • 1 := rfl
  have hP : Passivity g k0 (m.effective c.2) c.1.re c.2 s := by
    refine ⟨fun _ => rfl, fun _ => rfl, by rw [heps]; exact hgain, ?_, fun x => ?_, sigmaD g.step k0, s, 0, sigmaD_nonneg _ hk0, hs0, le_rfl, kOf_le g hs hk0, ?_, ?_, ?_⟩
    · intro x v
      change 0 ≤ (star v ⬝ᵥ ((c.2 : ℂ)⁻¹ • (1 : Matrix (Fin 3) (Fin 3) ℂ)).mulVec v).im
      rw [Matrix.smul_mulVec, Matrix.one_mulVec, dotProduct_smul, star_dot_self, smul_eq_mul, ← ofReal_inv, ← ofReal_mul, ofReal_im]
    · change IsUnit ((c.2 : ℂ)⁻¹ • (1 : Matrix (Fin 3) (Fin 3) ℂ)).det
      rw [Matrix.det_smul, Matrix.det_one, mul_one]
      exact isUnit_iff_ne_zero.2 (pow_ne_zero _ (inv_ne_zero (ofReal_ne hbp.ne')))
    · exact hw
    · intro x v
      have : ((m.effective c.2).mu x)⁻¹ - (c.2 : ℂ) • (1 : Matrix (Fin 3) (Fin 3) ℂ) = 0 := by
        rw [show ((m.effective c.2).mu x)⁻¹ = (m.effective c.2).muInv x from rfl, effective_muInv m hbp.ne', sub_self]
      simp only [this]; simp
    · simp
  have him : 0 < c.1.im := by
    by_contra hn
    push Not at hn
    have := mul_nonpos_of_nonpos_of_nonneg hn hbp.le
    linarith
  obtain ⟨hch, hr⟩ := effective_chosen m hbp.ne' 0 x0
  obtain ⟨q, hq⟩ := C35_uniform hs hk0.ne' hd hP hch hr him hbp hlt (fun E hE => hu E (by rw [heps, hmu'] at hE; exact hE))
  refine ⟨q, fun S F => ?_⟩
  obtain ⟨E, hE, hconv⟩ := hq S F
  rw [heps, hmu'] at hE
  refine ⟨E, hE, ?_⟩
  obtain ⟨a, b, t, e⟩ := prepare_effective m c.1 c.2 S F
  rw [e]
  exact hconv.withMagnetic rfl a b t

include x0 in
/-- **C135 (convergence, magnetic).** For all magnetic media without gain and without coupling between electric and magnetic fields. -/
theorem C135_magnetic (hinv : ∀ x, IsUnit (m.mu x).det) {vec : ℝ × ℝ}
    (hv : (1 + sigmaD g.step k0) ^ 2 * √δ < 0.05 * vec.2 ^ 2) (hu : ∀ E, WaveEquation (kOf g) k0 m.epsilon m.mu 0 E → E = 0) : ∃ q : ℝ, ∀ S F : Field 3 g.shape,
    ∃ E, WaveEquation (kOf g) k0 m.epsilon m.mu S E ∧
      ConvergesAtRate (.vectorial hd) (backendK g k0) k0 (prepare m true (m.magneticWith ev g.step k0 thickness vec).1
        (m.magneticWith ev g.step k0 thickness vec).2 S F) E q := by
  obtain ⟨sE, sM, sEH, sHE, h1, h2, h3, h4, w1, w2, -, -, hlt⟩ := C135_bias_magnetic hδ hev m g.step hk0 thickness vec hv
  have hD := sigmaD_nonneg g.step hk0
  set c := m.magneticWith ev g.step k0 thickness vec with hcc
  have hbp : 0 < c.2 := by
    change 0 < vec.2 ^ 2
    have : 0 ≤ (1 + sigmaD g.step k0) ^ 2 * √δ := by positivity
    by_contra hn
    push Not at hn
    linarith
  have hP : Passivity g k0 m c.1.re c.2 (sE + sigmaD g.step k0 ^ 2 * sM) :=
    ⟨hxi, hzeta, hgain, hmu, hinv, sigmaD g.step k0, sE, sM, hD, h1, h2, kOf_le g hs hk0, by rw [← epsilonPrime_eq hxi]; exact w1, w2, le_rfl⟩
  have hσ : sE + sigmaD g.step k0 ^ 2 * sM < c.1.im * c.2 := by
    have : 0 ≤ sigmaD g.step k0 * (sEH + sHE) := by positivity
    linarith
  have him : 0 < c.1.im := by
    by_contra hn
    push Not at hn
    have := mul_nonpos_of_nonpos_of_nonneg hn hbp.le
    have h0 : 0 ≤ sE + sigmaD g.step k0 ^ 2 * sM := by positivity
    linarith
  have hc : Chosen m false 0 x0 true c.2 := ⟨by unfold Medium.isMagnetic; simp, (nomatch ·), hbp.ne'⟩
  exact C35_uniform hs hk0.ne' hd hP hc (fun h => absurd h (by decide)) him hbp hσ hu

end

/-- **C135 (as calculated).** With the values of `mat3_eigh` for either back end: for all media that are found not to be magnetic and that absorb a little everywhere, if four times the square root
of the precision is less than the square of 0.05 times the inverse permeability, there is exactly one solution and the error decreases exponentially. -/
theorem C135_absorbing {g : Grid.Obj d ℝ} (hs : ∀ a, g.step a ≠ 0) {k0 : ℝ} (hk0 : 0 < k0) (hd : d ≤ 3) {m : Medium 3 g.shape} (hxi : ∀ x, m.xi x = 0)
    (hzeta : ∀ x, m.zeta x = 0) (hmu : NoGain m.mu) {tol : ℝ} (htol : 0 ≤ tol) (thickness : List ℝ) (x0 : Idx g.shape) (heps : 2 * eps ≤ 1) (torch : Bool)
    (hβ : 0 < ((m.mu x0)⁻¹ 0 0).re) (hprec : 4 * √eps < (0.05 * ((m.mu x0)⁻¹ 0 0).re) ^ 2) (alphaR : ℝ) {δ : ℝ} (hδ : 0 < δ)
    (habs : ∀ x (v : Fin 3 → ℂ), δ * ∑ i, ‖v i‖ ^ 2 ≤ (star v ⬝ᵥ (m.epsilon x).mulVec v).im) (S F : Field 3 g.shape) :
    ∃ E, WaveEquation (kOf g) k0 m.epsilon (fun _ => (((m.mu x0)⁻¹ 0 0).re : ℂ)⁻¹ • 1) S E ∧
      (∀ E', WaveEquation (kOf g) k0 m.epsilon (fun _ => (((m.mu x0)⁻¹ 0 0).re : ℂ)⁻¹ • 1) S E' → E' = E) ∧
      ConvergesExponentially (.vectorial hd) (backendK g k0) k0 (prepare m false (m.nonMagneticWith (spectrum eps torch) tol k0 thickness 0 x0 alphaR).1
        (m.nonMagneticWith (spectrum eps torch) tol k0 thickness 0 x0 alphaR).2 S F) E := by
  have hgain : NoGain m.epsilon := fun x v => le_trans (mul_nonneg hδ.le (Finset.sum_nonneg fun _ _ => sq_nonneg _)) (habs x v)
  have hsq : √(4 * √eps) < 0.05 * ((m.mu x0)⁻¹ 0 0).re := by
    rw [Real.sqrt_lt' (by positivity)]
    exact hprec
  obtain ⟨σ, hP, -, -⟩ := tolerance_passivity hs hk0 hxi hzeta hgain hmu htol thickness x0 hβ alphaR
  have heps' : (m.effective (m.constantsNonMagnetic tol k0 thickness 0 x0 alphaR).2).epsilon = m.epsilon := by
    change m.epsilonPrime = m.epsilon
    exact epsilonPrime_eq hxi
  have hu : ∀ E, WaveEquation (kOf g) k0 m.epsilon (fun _ => (((m.mu x0)⁻¹ 0 0).re : ℂ)⁻¹ • 1) 0 E → E = 0 := fun E hE =>
    absorbing hP hk0.ne' hδ (by rw [heps']; exact habs) E (by rw [heps']; exact hE)
  obtain ⟨q, hq⟩ := C135_rate hs hk0 hd hxi hzeta hgain hmu thickness x0 (by positivity) (C135_accuracy heps torch) htol hsq alphaR hu
  obtain ⟨E, hE, h⟩ := hq S F
  refine ⟨E, hE, fun E' hE' => ?_, q, h⟩
  have h0 := hu (E' - E) fun c x => by
    have h1 := hE c x
    have h2 := hE' c x
    rw [spec_curl, spec_curl, spec_act, spec_act] at h1 h2 ⊢
    rw [(curl_isLinear _).map_sub, (mulField_isLinear _).map_sub, (curl_isLinear _).map_sub, (mulField_isLinear _).map_sub]
    simp only [Pi.sub_apply, Pi.zero_apply]
    linear_combination h2 - h1
  exact sub_eq_zero.1 h0

/-- **C135 (scalar calculations).** There the eigenvalues are exact, so that the precision does not matter. -/
theorem C135_scalar {g : Grid.Obj d ℝ} (hs : ∀ a, g.step a ≠ 0) {k0 : ℝ} (hk0 : 0 < k0) {m : Medium 1 g.shape} (hxi : ∀ x, m.xi x = 0)
    (hzeta : ∀ x, m.zeta x = 0) (hmu : NoGain m.mu) {tol : ℝ} (htol : 0 ≤ tol) (thickness : List ℝ) (x0 : Idx g.shape) (torch mag : Bool)
    (hβ : 0 < ((m.mu x0)⁻¹ 0 0).re) (alphaR : ℝ) (habs : ∀ x, 0 < (m.epsilon x 0 0).im) (S F : Field 1 g.shape) :
    ∃ E : Field 1 g.shape, ScalarWaveEquation (kOf g) k0 (fun x => m.epsilon x 0 0) (((m.mu x0)⁻¹ 0 0).re : ℂ)⁻¹ (S 0) (E 0) ∧
      ConvergesExponentially .scalar (backendK g k0) k0 (prepare m mag (m.nonMagneticWith (spectrum eps torch) tol k0 thickness 0 x0 alphaR).1
        (m.nonMagneticWith (spectrum eps torch) tol k0 thickness 0 x0 alphaR).2 S F) E := by
  have hgain : NoGain m.epsilon := fun x v => by
    have e : star v ⬝ᵥ (m.epsilon x).mulVec v = m.epsilon x 0 0 * ((normSq (v 0) : ℝ) : ℂ) := by
      simp only [dotProduct, Matrix.mulVec, Finset.univ_unique, Fin.default_eq_zero, Finset.sum_singleton, Pi.star_apply, RCLike.star_def]
      rw [← mul_conj]
      ring
    rw [e, im_mul_ofReal]
    exact mul_nonneg (habs x).le (normSq_nonneg _)
  have hev := C135_accuracy_scalar (eps := eps) torch
  have hbp : 0 < m.betaNonMagnetic 0 x0 := hβ
  obtain ⟨s, hs0, hw, hlt⟩ := C135_bias le_rfl hev m (not_transposedWith hev m htol hgain hxi hzeta hmu) k0 thickness 0 x0
    (by rw [abs_of_pos hbp, Real.sqrt_zero]; positivity) alphaR
  set c := m.nonMagneticWith (spectrum eps torch) tol k0 thickness 0 x0 alphaR with hc
  have hbp : 0 < c.2 := hbp
  rw [abs_of_pos hbp] at hlt
  have him : 0 < c.1.im := by
    by_contra hn
    push Not at hn
    have := mul_nonpos_of_nonpos_of_nonneg hn hbp.le
    linarith
  have heps' : m.scalarEpsilon = fun x => m.epsilon x 0 0 := by
    funext x
    simp [Medium.scalarEpsilon, hxi]
  rw [epsilonPrime_eq hxi] at hw
  obtain ⟨E, hE, hconv⟩ := C88_absorbing (mag := mag) hs hk0.ne' x0 (alpha := c.1) (beta := c.2) (σ := s) (fun x => by rw [heps']; exact habs x) (fun x => by
    have h1 := hw x 1
    simp only [Matrix.mulVec, dotProduct, Finset.univ_unique, Fin.default_eq_zero, Finset.sum_singleton, Matrix.sub_apply, Matrix.smul_apply, Matrix.one_apply_eq, Pi.one_apply,
      mul_one, smul_eq_mul, norm_one, one_pow] at h1
    rw [heps']
    exact (pow_le_pow_iff_left₀ (norm_nonneg _) hs0 two_ne_zero).1 h1) him hbp hlt S F
  rw [heps'] at hE
  exact ⟨E, hE, hconv⟩

end Verif.Solver
