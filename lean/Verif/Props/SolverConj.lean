import Verif.Lemmas.SolverConj
import Verif.Props.SolverCover
import Verif.Props.SolverConv
import Verif.Props.SolverFields
import Verif.Props.SolverReciprocity
import Verif.Props.SolverBias

/-!
# C115: phase conjugation reverses time
-/

namespace Verif.Solver

open Verif Verif.Fourier Verif.Backend Complex Matrix

variable {d n : ℕ} {N : Fin d → ℕ}

/-- The material with the time reversed: the real parts of permittivity and permeability are the same, absorption becomes gain; magneto-electric coupling has the opposite sign also, because the magnetic field does. -/
structure ReversedMedium (m m' : Medium n N) : Prop where
  epsilon : ∀ x i j, m'.epsilon x i j = (starRingEnd ℂ) (m.epsilon x i j)
  xi : ∀ x i j, m'.xi x i j = -(starRingEnd ℂ) (m.xi x i j)
  zeta : ∀ x i j, m'.zeta x i j = -(starRingEnd ℂ) (m.zeta x i j)
  mu : ∀ x i j, m'.mu x i j = (starRingEnd ℂ) (m.mu x i j)

/-- The second field is the complex conjugate of the first. -/
def Conjugate (F F' : Field n N) : Prop := ∀ c x, F' c x = (starRingEnd ℂ) (F c x)

/-- The second field is minus the complex conjugate of the first. -/
def MinusConjugate (F F' : Field n N) : Prop := ∀ c x, F' c x = -(starRingEnd ℂ) (F c x)

/-- All that can be obtained from the second `Solution` is what the first one gives with the time reversed: magnetic fields, currents and the flux of energy have the opposite direction; forces and energies are the same. -/
structure ReversedSolution (co : Const) (k0 : ℝ) (k : Fin d → Idx N → ℝ) (i0 : Fin n) (x0 : Idx N) (s s' : State n N) : Prop where
  E : Conjugate (getE k0 s) (getE k0 s')
  B : MinusConjugate (getB co k0 k s) (getB co k0 k s')
  H : MinusConjugate (getH co k0 k i0 x0 s) (getH co k0 k i0 x0 s')
  D : Conjugate (getD co k0 k i0 x0 s) (getD co k0 k i0 x0 s')
  source : Conjugate (getSource s) (getSource s')
  current : MinusConjugate (getJ co k0 s) (getJ co k0 s')
  S : ∀ c x, getS co k0 k i0 x0 s' c x = -getS co k0 k i0 x0 s c x
  energy : ∀ x, getEnergy co k0 k i0 x0 s' x = getEnergy co k0 k i0 x0 s x
  stress : ∀ i j x, getStress co k0 k i0 x0 s' i j x = getStress co k0 k i0 x0 s i j x
  force : getForce co k0 k i0 x0 s' = getForce co k0 k i0 x0 s
  alpha : s'.alpha = (starRingEnd ℂ) s.alpha
  iteration : s'.iteration = s.iteration
  residue : (relativeResidue s').1 = (relativeResidue s).1

/-- The field, the source and the residue of the second `Solution` are those of the first, conjugated. -/
structure ReversedField (k0 : ℝ) (s s' : State n N) : Prop where
  E : Conjugate (getE k0 s) (getE k0 s')
  source : Conjugate (getSource s) (getSource s')
  alpha : s'.alpha = (starRingEnd ℂ) s.alpha
  iteration : s'.iteration = s.iteration
  residue : (relativeResidue s').1 = (relativeResidue s).1

theorem cross_conj (A B : Fin n → Idx N → ℂ) (c : Fin n) (x : Idx N) : cross (conjField A) (fun c x => -(starRingEnd ℂ) (B c x)) c x = -(starRingEnd ℂ) (cross A B c x) := by
  unfold cross conjField
  simp only [map_sub, map_mul]
  ring

theorem reversed_solution {k : Fin d → Idx N → ℝ} (hk : Reversible n k) (kind : Kind d n) (co : Const) (k0 : ℝ) (i0 : Fin n) (x0 : Idx N) (s : State n N) :
    ReversedSolution co k0 k i0 x0 s s.conj := by
  have hE := getE_conj k0 s
  have hH := getH_conj hk kind co k0 i0 x0 s
  have hD := getD_conj hk kind co k0 i0 x0 s
  have hB := getB_conj hk kind co k0 s
  have hT : ∀ i j x, getStress co k0 k i0 x0 s.conj i j x = getStress co k0 k i0 x0 s i j x := by
    intro i j x
    rw [C45_stress, C45_stress, hE, hH]
    simp [conjField]
  refine ⟨fun c x => ?_, fun c x => ?_, fun c x => ?_, fun c x => ?_, fun c x => ?_, fun c x => ?_, fun c x => ?_, fun x => ?_, hT, ?_, rfl, rfl, residue_conj s⟩
  · rw [hE]; rfl
  · rw [hB]
  · rw [hH]
  · rw [hD]; rfl
  · rw [getSource_conj]; rfl
  · unfold getJ
    rw [getSource_conj]
    simp [conjField]
    ring
  · have h1 : (fun c x => (starRingEnd ℂ) (getH co k0 k i0 x0 s.conj c x)) = fun c x => -(starRingEnd ℂ) ((starRingEnd ℂ) (getH co k0 k i0 x0 s c x)) := by
      rw [hH]
      funext c x
      simp
    unfold getS
    rw [h1, hE, cross_conj, neg_re, conj_re]
    ring
  · unfold getEnergy
    rw [hE, hD, hB, hH]
    have e : ∀ z w : ℂ, ((starRingEnd ℂ) z * (starRingEnd ℂ) ((starRingEnd ℂ) w)).re = (z * (starRingEnd ℂ) w).re := by
      intro z w
      rw [← map_mul, conj_re]
    have e2 : ∀ z w : ℂ, (-(starRingEnd ℂ) z * (starRingEnd ℂ) (-(starRingEnd ℂ) w)).re = (z * (starRingEnd ℂ) w).re := by
      intro z w
      rw [map_neg, neg_mul_neg, ← map_mul, conj_re]
    simp only [conjField, e, e2]
  · unfold getForce
    simp only [hT]

/-- The frequencies of grids with an odd number of samples along each axis, or of any grid for scalar calculations. -/
theorem reversible_grid (g : Grid.Obj d ℝ) (hs : ∀ a, g.step a ≠ 0) {k0 : ℝ} (hk0 : k0 ≠ 0) (hodd : n ≠ 1 → ∀ a, g.shape a % 2 = 1) : Reversible n (backendK g k0) := by
  have h1 : ∀ a x, backendK g k0 a x = kOf g a x / k0 := fun a x => by rw [C31_backend g hs hk0, mul_div_cancel_left₀ _ hk0]
  constructor
  · intro q
    have := k2_opposite g (fun a _ => hs a) q
    unfold k2 at this ⊢
    simp only [h1, div_pow, ← Finset.sum_div]
    rw [this]
  · intro hn a x
    rw [h1, h1, kOf_odd g (fun a _ => hs a) (hodd hn), neg_div]

/-- The frequencies of grids without an axis with an even number of samples next to another one with more than two samples, or of any grid for scalar calculations. -/
theorem dyads_grid (g : Grid.Obj d ℝ) (hs : ∀ a, g.step a ≠ 0) {k0 : ℝ} (hk0 : k0 ≠ 0) (hb : n ≠ 1 → Balanced g.shape) : EvenDyads n (backendK g k0) := by
  have h1 : ∀ a x, backendK g k0 a x = kOf g a x / k0 := fun a x => by rw [C31_backend g hs hk0, mul_div_cancel_left₀ _ hk0]
  refine ⟨(reversible_grid (n := 1) g hs hk0 fun h => absurd rfl h).square, fun hn a b q => ?_⟩
  rw [h1, h1, h1, h1, div_mul_div_comm, div_mul_div_comm, dyad_opposite g (fun a _ => hs a) (hb hn)]

theorem reversed_eq {m m' : Medium n N} (h : ReversedMedium m m') : m' = m.reversed := by
  cases m' with
  | mk e x z u =>
    have e1 : e = m.reversed.epsilon := funext fun x => Matrix.ext fun i j => h.epsilon x i j
    have e2 : x = m.reversed.xi := funext fun x => Matrix.ext fun i j => h.xi x i j
    have e3 : z = m.reversed.zeta := funext fun x => Matrix.ext fun i j => h.zeta x i j
    have e4 : u = m.reversed.mu := funext fun x => Matrix.ext fun i j => h.mu x i j
    rw [e1, e2, e3, e4]

theorem conjugate_eq {F F' : Field n N} (h : Conjugate F F') : F' = conjField F := funext fun c => funext fun x => h c x

/-! ### C115 -/

/-- **C115 (executions).** With conjugated materials, source, initial field and bias, each iteration gives the conjugated fields, with the same residues and exceptions: for scalar calculations on all grids, for vectorial
ones on grids with an odd number of samples along each axis. -/
theorem C115_reversal_partial (kind : Kind d n) (g : Grid.Obj d ℝ) (hs : ∀ a, g.step a ≠ 0) {k0 : ℝ} (hk0 : k0 ≠ 0) (hodd : n ≠ 1 → ∀ a, g.shape a % 2 = 1) (co : Const) (i0 : Fin n) (x0 : Idx g.shape)
    {m m' : Medium n g.shape} {S S' F F' : Field n g.shape} (hm : ReversedMedium m m') (hS : Conjugate S S') (hF : Conjugate F F') (mag : Bool) (alpha : ℂ) (beta : ℝ) (i : ℕ) :
    BothRuns (ReversedSolution co k0 (backendK g k0) i0 x0) (run kind (backendK g k0) (prepare m mag alpha beta S F) i)
      (run kind (backendK g k0) (prepare m' mag ((starRingEnd ℂ) alpha) beta S' F') i) := by
  have hk := reversible_grid (n := n) g hs hk0 hodd
  rw [reversed_eq hm, conjugate_eq hS, conjugate_eq hF, prepare_conj, run_conj hk.even kind _ fun _ => hk]
  cases h : run kind (backendK g k0) (prepare m mag alpha beta S F) i with
  | error e => exact rfl
  | ok s => exact reversed_solution hk kind co k0 i0 x0 s

/-- **C115 (equation).** On such grids the conjugated field solves the wave equation with the conjugated material and source, if and only if the field solves the wave equation. -/
theorem C115_equation_partial (g : Grid.Obj d ℝ) (hs : ∀ a, g.step a ≠ 0) (hodd : ∀ a, g.shape a % 2 = 1) (k0 : ℝ) {m m' : Medium 3 g.shape} {S S' E E' : Field 3 g.shape}
    (hm : ReversedMedium m m') (hS : Conjugate S S') (hE : Conjugate E E') :
    Spec.Solver.WaveEquation (kOf g) k0 m'.epsilon m'.mu S' E' ↔ Spec.Solver.WaveEquation (kOf g) k0 m.epsilon m.mu S E := by
  rw [reversed_eq hm, conjugate_eq hS, conjugate_eq hE]
  have hk := kOf_odd g (fun a _ => hs a) hodd
  have hact : ∀ (A : Tensor 3 g.shape) F, Spec.Solver.act (conjTensor A) (conjField F) = conjField (Spec.Solver.act A F) := fun A F => by
    rw [spec_act, spec_act, mulField_conj]
  have hinv : (fun x => (m.reversed.mu x)⁻¹) = conjTensor fun x => (m.mu x)⁻¹ := funext fun x => (conj_map_inv _).symm
  unfold Spec.Solver.WaveEquation
  rw [hinv, show m.reversed.epsilon = conjTensor m.epsilon from rfl]
  simp only [spec_curl, curl_conj hk, hact]
  refine forall_congr' fun c => forall_congr' fun x => ?_
  rw [show (k0 : ℂ) ^ 2 = (starRingEnd ℂ) ((k0 : ℂ) ^ 2) by simp]
  unfold conjField
  rw [← map_mul, ← map_sub]
  simp only [map_pow, conj_ofReal]
  exact (starRingEnd ℂ).injective.eq_iff

/-- **C115 (executions, without magnetic contrast).** Without magnetic contrast the field, the source and the residues of each iteration are conjugated on all grids that have no axis with an even number of samples next to
another one with more than two samples; in particular, on all that extend along one axis only. -/
theorem C115_nonmagnetic_partial (kind : Kind d n) (g : Grid.Obj d ℝ) (hs : ∀ a, g.step a ≠ 0) {k0 : ℝ} (hk0 : k0 ≠ 0) (hb : n ≠ 1 → Balanced g.shape) {m m' : Medium n g.shape} {S S' F F' : Field n g.shape}
    (hm : ReversedMedium m m') (hS : Conjugate S S') (hF : Conjugate F F') (alpha : ℂ) (beta : ℝ) (i : ℕ) :
    BothRuns (ReversedField k0) (run kind (backendK g k0) (prepare m false alpha beta S F) i) (run kind (backendK g k0) (prepare m' false ((starRingEnd ℂ) alpha) beta S' F') i) := by
  rw [reversed_eq hm, conjugate_eq hS, conjugate_eq hF, prepare_conj, run_conj (dyads_grid g hs hk0 hb) kind _ fun h => Bool.noConfusion h]
  cases h : run kind (backendK g k0) (prepare m false alpha beta S F) i with
  | error e => exact rfl
  | ok s =>
    refine ⟨fun c x => ?_, fun c x => ?_, rfl, rfl, residue_conj s⟩
    · rw [getE_conj]; rfl
    · rw [getSource_conj]; rfl

/-- **C115 (equation, without magnetic contrast).** On these grids the conjugated field solves the wave equation with the conjugated material and source. -/
theorem C115_equation_nonmagnetic_partial (g : Grid.Obj d ℝ) (hs : ∀ a, g.step a ≠ 0) (hb : Balanced g.shape) (k0 : ℝ) {m m' : Medium 3 g.shape} {mu : ℂ} (hmu : mu ≠ 0)
    (hu : ∀ x, m.mu x = mu • (1 : Matrix (Fin 3) (Fin 3) ℂ)) {S S' E E' : Field 3 g.shape} (hm : ReversedMedium m m') (hS : Conjugate S S') (hE : Conjugate E E') :
    Spec.Solver.WaveEquation (kOf g) k0 m'.epsilon m'.mu S' E' ↔ Spec.Solver.WaveEquation (kOf g) k0 m.epsilon m.mu S E := by
  rw [reversed_eq hm, conjugate_eq hS, conjugate_eq hE]
  have hk := fun a b x => dyad_opposite g (fun a _ => hs a) hb a b x
  have hL := curl_isLinear (n := 3) (m := 3) (kOf g)
  have e1 : m.mu = fun _ => mu • (1 : Matrix (Fin 3) (Fin 3) ℂ) := funext hu
  have e2 : m.reversed.mu = fun _ => (starRingEnd ℂ) mu • (1 : Matrix (Fin 3) (Fin 3) ℂ) := by
    funext x
    show (m.mu x).map _ = _
    rw [hu, conj_map_smul, conj_map_one]
  have hmu' : (starRingEnd ℂ) mu ≠ 0 := (map_ne_zero _).2 hmu
  have e3 : ∀ {r : ℂ}, r ≠ 0 → ∀ F : Field 3 g.shape, mulField (fun _ => (r • (1 : Matrix (Fin 3) (Fin 3) ℂ))⁻¹) F = r⁻¹ • F := fun hr F => by
    rw [smul_one_inv hr, mulField_smul_left, mulField_one]
  unfold Spec.Solver.WaveEquation
  rw [e1, e2, show m.reversed.epsilon = conjTensor m.epsilon from rfl]
  simp only [spec_curl, spec_act, e3 hmu, e3 hmu', hL.map_smul, curlCurl_conj hk, mulField_conj]
  refine forall_congr' fun c => forall_congr' fun x => ?_
  rw [show (k0 : ℂ) ^ 2 = (starRingEnd ℂ) ((k0 : ℂ) ^ 2) by simp]
  unfold conjField
  simp only [Pi.smul_apply, smul_eq_mul]
  rw [← map_inv₀, ← map_mul, ← map_mul, ← map_sub]
  simp only [map_pow, conj_ofReal]
  exact (starRingEnd ℂ).injective.eq_iff

theorem converges_conj {kind : Kind d 3} {k : Fin d → Idx N → ℝ} (hk : EvenDyads 3 k) (s : State 3 N) (hr : s.magnetic = true → Reversible 3 k) {k0 : ℝ} {E : Field 3 N}
    (h : ConvergesExponentially kind k k0 s E) : ConvergesExponentially kind k k0 s.conj (conjField E) := by
  obtain ⟨q, hq0, hq1, hq2, hq3⟩ := h
  have hsub : ∀ A B : Field 3 N, conjField A - conjField B = conjField (A - B) := fun A B => by
    funext c x
    simp [conjField]
  refine ⟨q, hq0, hq1, ?_, ?_⟩
  · intro i t t' ht ht'
    rw [run_conj hk kind s hr] at ht ht'
    cases h1 : run kind k s i with
    | error e => rw [h1] at ht; cases ht
    | ok u =>
      cases h2 : run kind k s (i + 1) with
      | error e => rw [h2] at ht'; cases ht'
      | ok u' =>
        rw [h1] at ht
        rw [h2] at ht'
        obtain rfl := Except.ok.inj ht
        obtain rfl := Except.ok.inj ht'
        obtain ⟨h3, h4⟩ := hq2 i u u' h1 h2
        rw [getE_conj, getE_conj, hsub, hsub, norm_conjField, norm_conjField]
        refine ⟨h3, ?_⟩
        show u'.prevNorm = _
        rw [h4, show u'.conj.field - u.conj.field = conjField (u'.field - u.field) from hsub _ _, norm_conjField]
  · intro i
    simp only [run_conj hk kind s hr]
    rcases hq3 i with ⟨t, ht⟩ | ⟨he, j, hj, t, ht, htE⟩
    · exact Or.inl ⟨t.conj, by rw [ht]; rfl⟩
    · refine Or.inr ⟨by rw [he]; rfl, j, hj, t.conj, by rw [ht]; rfl, ?_⟩
      rw [getE_conj, htE]

/-- **C115 (gain).** The iteration converges exponentially for media with gain everywhere, if the bias is the complex conjugate of one that is admissible for the medium in which the gain is absorption. -/
theorem C115_gain_partial {g : Grid.Obj d ℝ} (hs : ∀ a, g.step a ≠ 0) (hodd : ∀ a, g.shape a % 2 = 1) {k0 : ℝ} (hk0 : k0 ≠ 0) (hd : d ≤ 3) {m m' : Medium 3 g.shape} (hmm : ReversedMedium m m') {muScalar : Bool}
    {i0 : Fin 3} {x0 : Idx g.shape} {mag : Bool} {alpha : ℂ} {beta σ : ℝ} (hm : Passivity g k0 m alpha.re beta σ) (hc : Chosen m muScalar i0 x0 mag beta) (hr : RealPermeability m mag x0) (hα : 0 < alpha.im)
    (hβ : 0 < beta) (hσ : σ < alpha.im * beta) {δ : ℝ} (hδ : 0 < δ) (habs : ∀ x (v : Fin 3 → ℂ), δ * ∑ i, ‖v i‖ ^ 2 ≤ (star v ⬝ᵥ (m.epsilon x).mulVec v).im) (S F : Field 3 g.shape) :
    ∃ E, Spec.Solver.WaveEquation (kOf g) k0 m'.epsilon m'.mu S E ∧
      ConvergesExponentially (.vectorial hd) (backendK g k0) k0 (prepare m' mag ((starRingEnd ℂ) alpha) beta S F) E := by
  obtain ⟨E, hE, h⟩ := C35_absorbing (mag := mag) hs hk0 hd hm hc hr hα hβ hσ hδ habs (conjField S) (conjField F)
  have hk := reversible_grid (n := 3) g hs hk0 fun _ => hodd
  have hp : prepare m' mag ((starRingEnd ℂ) alpha) beta S F = (prepare m mag alpha beta (conjField S) (conjField F)).conj := by
    rw [← prepare_conj, conjField_conjField, conjField_conjField, reversed_eq hmm]
  refine ⟨conjField E, (C115_equation_partial g hs hodd k0 hmm (S := conjField S) (E := E) (fun c x => (conj_conj _).symm) fun c x => rfl).2 hE, ?_⟩
  rw [hp]
  exact converges_conj hk.even _ (fun _ => hk) h

/-- **C115 (gain, without magnetic contrast).** The same on all grids without an axis with an even number of samples next to another one with more than two samples. -/
theorem C115_gain_nonmagnetic_partial {g : Grid.Obj d ℝ} (hs : ∀ a, g.step a ≠ 0) (hb : Balanced g.shape) {k0 : ℝ} (hk0 : k0 ≠ 0) (hd : d ≤ 3) {m m' : Medium 3 g.shape} (hmm : ReversedMedium m m') {muScalar : Bool}
    {i0 : Fin 3} {x0 : Idx g.shape} {alpha : ℂ} {beta σ : ℝ} (hm : Passivity g k0 m alpha.re beta σ) (hc : Chosen m muScalar i0 x0 false beta) (hr : RealPermeability m false x0) (hα : 0 < alpha.im)
    (hβ : 0 < beta) (hσ : σ < alpha.im * beta) {δ : ℝ} (hδ : 0 < δ) (habs : ∀ x (v : Fin 3 → ℂ), δ * ∑ i, ‖v i‖ ^ 2 ≤ (star v ⬝ᵥ (m.epsilon x).mulVec v).im) (S F : Field 3 g.shape) :
    ∃ E, Spec.Solver.WaveEquation (kOf g) k0 m'.epsilon m'.mu S E ∧
      ConvergesExponentially (.vectorial hd) (backendK g k0) k0 (prepare m' false ((starRingEnd ℂ) alpha) beta S F) E := by
  obtain ⟨E, hE, h⟩ := C35_absorbing (mag := false) hs hk0 hd hm hc hr hα hβ hσ hδ habs (conjField S) (conjField F)
  have hk := dyads_grid (n := 3) g hs hk0 fun _ => hb
  have hp : prepare m' false ((starRingEnd ℂ) alpha) beta S F = (prepare m false alpha beta (conjField S) (conjField F)).conj := by
    rw [← prepare_conj, conjField_conjField, conjField_conjField, reversed_eq hmm]
  obtain ⟨-, -, -, hu⟩ := hc.nonmagnetic rfl
  obtain ⟨r, hr0, hr1⟩ := hr rfl
  refine ⟨conjField E, (C115_equation_nonmagnetic_partial g hs hb k0 (ofReal_ne hr0) (fun x => (hu x).trans hr1) hmm (S := conjField S) (E := E) (fun c x => (conj_conj _).symm) fun c x => rfl).2 hE, ?_⟩
  rw [hp]
  exact converges_conj hk _ (fun h => Bool.noConfusion h) h

theorem hermitian_roots {A B : Matrix (Fin n) (Fin n) ℂ} (hA : Aᴴ = A) (h : B = A.map (starRingEnd ℂ)) : B.charpoly.roots = A.charpoly.roots := by
  rw [h, conj_map_eq, hA, charpoly_transpose]

/-- A material has gain if and only if its conjugate has loss. -/
theorem hasGain_conj (tol : ℝ) (A : Tensor n N) : hasGain tol (conjTensor A) ↔ hasLoss tol A := by
  unfold hasLoss hasGain
  refine exists_congr fun x => ?_
  have h : ((-I / 2) • (conjTensor A x - (conjTensor A x)ᴴ)).charpoly.roots = ((-I / 2) • (-A x - (-A x)ᴴ)).charpoly.roots := by
    refine hermitian_roots ?_ ?_
    · ext i j
      simp only [conjTranspose_apply, Matrix.smul_apply, Matrix.sub_apply, Matrix.neg_apply, smul_eq_mul, star_def, map_mul, map_sub, map_neg, conj_conj, map_div₀, conj_I, map_ofNat]
      ring
    · ext i j
      simp only [conjTensor, conjTranspose_apply, Matrix.smul_apply, Matrix.sub_apply, Matrix.neg_apply, smul_eq_mul, star_def, map_apply, map_mul, map_sub, map_neg, conj_conj, map_div₀, conj_I, map_ofNat]
      ring
  rw [h]

theorem hasLoss_conj (tol : ℝ) (A : Tensor n N) : hasLoss tol (conjTensor A) ↔ hasGain tol A := by
  have h := hasGain_conj tol fun x => -A x
  have e1 : (conjTensor fun x => -A x) = fun x => -(conjTensor A x) := by
    funext x
    ext i j
    simp [conjTensor]
  rw [e1] at h
  unfold hasLoss at h ⊢
  simpa using h

/-- **C115 (choice of the bias; refuted).** For dielectrics with gain but no loss, the code conjugates the bias, but then adds 0.05 to its imaginary part instead of subtracting it: the bias is never the conjugate of that for
the material in which the gain is loss.  The magnitude of the offset is 0.1 smaller. -/
theorem C115_bias_violates (m m' : Medium n N) (hmm : ReversedMedium m m') (hxi : ∀ x, m.xi x = 0) (hzeta : ∀ x, m.zeta x = 0) {tol : ℝ} (htol : 0 ≤ tol) (hgain : hasGain tol m.epsilon ∨ hasGain tol m.mu)
    (hloss : ¬ hasLoss tol m.epsilon ∧ ¬ hasLoss tol m.mu) (k0 : ℝ) (i0 : Fin n) (x0 : Idx N) (alphaR : ℝ) :
    (m.constantsNonMagnetic tol k0 [] i0 x0 alphaR).2 = (m'.constantsNonMagnetic tol k0 [] i0 x0 alphaR).2 ∧
      (m.constantsNonMagnetic tol k0 [] i0 x0 alphaR).1.im = -(m'.constantsNonMagnetic tol k0 [] i0 x0 alphaR).1.im + 0.1 := by
  obtain rfl := reversed_eq hmm
  have h0 : ∀ A : Tensor n N, (∀ x, A x = 0) → ¬ hasGain tol A := by
    rintro A hA ⟨x, z, hz, hlt⟩
    rw [hA, sub_eq_add_neg, conjTranspose_zero, neg_zero, add_zero, smul_zero, charpoly_zero, Polynomial.roots_pow, Polynomial.roots_X] at hz
    have hz0 : z = 0 := by
      have := Multiset.mem_of_mem_nsmul hz
      simpa using this
    rw [hz0, zero_re] at hlt
    linarith
  have hc : ∀ A : Tensor n N, (∀ x, A x = 0) → ∀ x, -(conjTensor A x) = 0 := fun A hA x => by simp [conjTensor, hA]
  have ht : m.transposed tol := by
    refine ⟨?_, ?_⟩
    · tauto
    · rintro (h | h | h | h)
      · exact hloss.1 h
      · exact h0 _ (fun x => by rw [hxi, neg_zero]) h
      · exact h0 _ (fun x => by rw [hzeta, neg_zero]) h
      · exact hloss.2 h
  have ht' : ¬ m.reversed.transposed tol := by
    rintro ⟨h | h | h | h, -⟩
    · exact hloss.1 ((hasGain_conj tol _).1 h)
    · exact h0 _ (hc _ hxi) h
    · exact h0 _ (hc _ hzeta) h
    · exact hloss.2 ((hasGain_conj tol _).1 h)
  have hb : m.reversed.betaNonMagnetic i0 x0 = m.betaNonMagnetic i0 x0 := by
    unfold Medium.betaNonMagnetic
    rw [show m.reversed.muInv x0 = (m.muInv x0).map (starRingEnd ℂ) from (conj_map_inv _).symm, map_apply, conj_re]
  have heps : ∀ x, m.reversed.epsilonPrime x = (m.epsilonPrime x).map (starRingEnd ℂ) := by
    intro x
    have h1 : m.reversed.xi x = 0 := hc _ hxi x
    unfold Medium.epsilonPrime
    rw [h1, hxi, zero_mul, zero_mul, sub_zero, sub_zero]
    rfl
  have hE : ∀ b, m.reversed.sigmaEE alphaR b = m.sigmaEE alphaR b := by
    intro b
    unfold Medium.sigmaEE largestEigenvalue
    have hr : ∀ x, (m.reversed.deltaEEBeta2 alphaR b x).charpoly.roots = (m.deltaEEBeta2 alphaR b x).charpoly.roots := by
      intro x
      refine hermitian_roots ?_ ?_
      · unfold Medium.deltaEEBeta2
        rw [conjTranspose_add, conjTranspose_sub, conjTranspose_add, conjTranspose_mul, conjTranspose_smul, conjTranspose_smul, conjTranspose_smul, conjTranspose_conjTranspose, conjTranspose_one]
        simp [add_comm]
      · unfold Medium.deltaEEBeta2
        rw [heps, conj_map_add, conj_map_sub, conj_map_add, conj_map_mul, conj_map_smul, conj_map_smul, conj_map_smul, conj_map_one, conj_map_eq, conj_map_eq]
        simp only [conj_ofReal, conjTranspose_conjTranspose]
        have hcc : (⇑(starRingEnd ℂ) ∘ ⇑(starRingEnd ℂ)) = id := funext fun z => conj_conj z
        simp [conjTranspose, transpose_map, hcc]
    simp only [hr]
  unfold Medium.constantsNonMagnetic
  simp only [hb, hE, if_pos ht, if_neg ht', true_and]
  unfold increaseBias
  simp
  norm_num
  ring

/-- **C115 (standing waves).** A field that has the same phase everywhere carries no power in materials without loss, on grids with an odd number of samples along each axis. -/
theorem C115_standing_partial (g : Grid.Obj d ℝ) (hs : ∀ a, g.step a ≠ 0) {k0 : ℝ} (hk0 : k0 ≠ 0) (hd : d ≤ 3) (hodd : ∀ a, g.shape a % 2 = 1) (co : Const) (i0 : Fin 3) (x0 : Idx g.shape) {m : Medium 3 g.shape} {mag : Bool}
    (hm : ReversedMedium m m) (hu : Uniform m mag) {S : Field 3 g.shape} {s : State 3 g.shape} (h : Represents m mag S s) {p : ℂ} {A : Fin 3 → Idx g.shape → ℝ} (hE : ∀ c x, getE k0 s c x = p * A c x) (c : Fin 3)
    (x : Idx g.shape) : getS co k0 (backendK g k0) i0 x0 s c x = 0 := by
  have hk := reversible_grid (n := 3) g hs hk0 fun _ => hodd
  have hL := curl_isLinear (n := 3) (m := 3) (backendK g k0)
  obtain ⟨F, rfl⟩ : ∃ F : Field 3 g.shape, F = fun c x => (A c x : ℂ) := ⟨_, rfl⟩
  have hF : getE k0 s = p • fun c x => (A c x : ℂ) := funext fun c => funext fun x => hE c x
  have hreal : conjField (fun c x => (A c x : ℂ) : Field 3 g.shape) = fun c x => (A c x : ℂ) := by
    funext c x
    simp [conjField]
  have hrev := reversed_eq hm
  have hmu : m.muInv = conjTensor m.muInv := by
    have e : m.mu = conjTensor m.mu := congrArg Medium.mu hrev
    funext x
    show (m.mu x)⁻¹ = ((m.mu x)⁻¹).map _
    rw [conj_map_inv]
    exact congrArg (·⁻¹) (congrFun e x)
  have hx : m.chiHEBeta = conjTensor m.chiHEBeta := by
    have e : ∀ x, m.zeta x = -(conjTensor m.zeta x) := congrFun (congrArg Medium.zeta hrev)
    funext x
    show I • (m.muInv x * m.zeta x) = (I • (m.muInv x * m.zeta x)).map _
    rw [conj_map_smul, conj_map_mul, conj_I, show (m.muInv x).map (starRingEnd ℂ) = m.muInv x from (congrFun hmu x).symm]
    conv_lhs => rw [e x]
    simp [conjTensor]
  obtain ⟨B, hB⟩ : ∃ B : Field 3 g.shape, B = mulField m.chiHEBeta (fun c x => (A c x : ℂ)) - mulField m.muInv (curl 3 (backendK g k0) fun c x => (A c x : ℂ)) := ⟨_, rfl⟩
  have hBr : ∀ c x, (B c x).im = 0 := by
    intro c x
    have : conjField B = B := by
      rw [hB]
      conv_rhs => rw [hx, hmu, ← hreal, curl_conjField hk (.vectorial hd), mulField_conj, mulField_conj]
      funext c x
      simp [conjField]
    have h1 := congrArg Complex.im (congrFun (congrFun this c) x)
    simp only [conjField, conj_im] at h1
    linarith
  have hH : ∀ c x, getH co k0 (backendK g k0) i0 x0 s c x = I / ((co.mu0 : ℂ) * (co.c : ℂ)) * (p * B c x) := by
    intro c x
    rw [getH_eq h hu, hF, hL.map_smul, mulField_smul_field, mulField_smul_field, ← smul_sub, ← hB]
    rfl
  rw [C45_poynting]
  have hre : ∀ a b, (getE k0 s a x * (starRingEnd ℂ) (getH co k0 (backendK g k0) i0 x0 s b x)).re = 0 := by
    intro a b
    rw [hE, hH]
    have e1 : (starRingEnd ℂ) (B b x) = B b x := conj_eq_iff_im.2 (hBr b x)
    obtain ⟨r, hr⟩ : ∃ r : ℝ, B b x = r := ⟨(B b x).re, by apply Complex.ext <;> simp [hBr b x]⟩
    have e2 : p * (A a x : ℂ) * (starRingEnd ℂ) (I / ((co.mu0 : ℂ) * (co.c : ℂ)) * (p * B b x)) = ((-(normSq p * A a x * r / (co.mu0 * co.c)) : ℝ) : ℂ) * I := by
      rw [map_mul, map_mul, e1, map_div₀, conj_I, map_mul, conj_ofReal, conj_ofReal, hr]
      push_cast
      rw [normSq_eq_conj_mul_self]
      ring
    rw [e2, re_ofReal_mul, I_re, mul_zero]
  rw [cross_apply]
  fin_cases c <;> simp [sub_re, hre, -mul_re]

/-- **C115 (refuted for even numbers of samples).** On grids with an even number of samples along some axis the time is not reversed: there the real field `standing` carries power in vacuum, both with the bias and with its
conjugate. -/
theorem C115_violates {alpha : ℂ} (hα : alpha.im ≠ 0) {co : Const} (hc : co.c ≠ 0) (hmu0 : co.mu0 ≠ 0) (i0 : Fin 3) (x0 : Idx demoGrid.shape) :
    ∃ (m : Medium 3 demoGrid.shape) (F : Field 3 demoGrid.shape), ReversedMedium m m ∧ Conjugate F F ∧
      ¬ ∀ x, getS co 2 (backendK demoGrid 2) i0 x0 (prepare m false ((starRingEnd ℂ) alpha) 1 0 F) 0 x = -getS co 2 (backendK demoGrid 2) i0 x0 (prepare m false alpha 1 0 F) 0 x := by
  refine ⟨vacuum demoGrid.shape, fun c x => 4 * ((1 + 2 * alternating x) * constantY c x), ⟨fun x i j => ?_, fun x i j => ?_, fun x i j => ?_, fun x i j => ?_⟩, fun c x => ?_, fun h => ?_⟩
  · show (1 : Matrix (Fin 3) (Fin 3) ℂ) i j = (starRingEnd ℂ) ((1 : Matrix (Fin 3) (Fin 3) ℂ) i j)
    rw [one_apply]; split_ifs <;> simp
  · simp [vacuum]
  · simp [vacuum]
  · show (1 : Matrix (Fin 3) (Fin 3) ℂ) i j = (starRingEnd ℂ) ((1 : Matrix (Fin 3) (Fin 3) ℂ) i j)
    rw [one_apply]; split_ifs <;> simp
  · show 4 * ((1 + 2 * alternating x) * constantY c x) = (starRingEnd ℂ) (4 * ((1 + 2 * alternating x) * constantY c x))
    rw [alternating_eq]
    have h4 : (starRingEnd ℂ) (4 : ℂ) = 4 := map_ofNat _ 4
    have h2 : (starRingEnd ℂ) (2 : ℂ) = 2 := map_ofNat _ 2
    unfold constantY
    split_ifs <;> simp [h4, h2]
  · have h0 := h fun _ => (0 : Fin 2)
    have hα' : ((starRingEnd ℂ) alpha).im ≠ 0 := by simpa using hα
    have e1 := standing_S hα co i0 x0 fun _ => (0 : Fin 2)
    have e2 := standing_S hα' co i0 x0 fun _ => (0 : Fin 2)
    have h1 : ((getS co 2 (backendK demoGrid 2) i0 x0 (standing ((starRingEnd ℂ) alpha)) 0 (fun _ => (0 : Fin 2)) : ℝ) : ℂ) =
        -((getS co 2 (backendK demoGrid 2) i0 x0 (standing alpha) 0 (fun _ => (0 : Fin 2)) : ℝ) : ℂ) := by
      rw [← ofReal_neg]
      exact congrArg _ h0
    have ha : alternating (fun _ => (0 : Fin 2)) = 1 / 2 := (alternating_eq _).trans (if_pos rfl)
    rw [e1, e2, ha] at h1
    have hz : ((backendK demoGrid 2 0 nyquist / (co.mu0 * co.c) : ℝ) : ℂ) = 0 := by linear_combination h1 / 2
    have hk : ¬ ∀ a, backendK demoGrid 2 a nyquist = 0 := by
      rw [← backendK_origin demoGrid demo_step two_ne_zero]
      intro h
      exact absurd (h 0) one_ne_zero
    refine hk fun a => ?_
    rw [Fin.fin_one_eq_zero a]
    have := (div_eq_zero_iff.1 (ofReal_eq_zero.1 hz)).resolve_right (mul_ne_zero hmu0 hc)
    exact this

/-! ### Examples -/

/-- A uniform medium that absorbs: the reverse of `gainMedium`. -/
noncomputable def lossMedium (n : ℕ) (N : Fin d → ℕ) : Medium n N where
  epsilon := fun _ => (1 + I) • 1
  xi := fun _ => 0
  zeta := fun _ => 0
  mu := fun _ => 1

theorem loss_gain (n : ℕ) (N : Fin d → ℕ) : ReversedMedium (lossMedium n N) (gainMedium n N) := by
  refine ⟨fun x i j => ?_, fun x i j => ?_, fun x i j => ?_, fun x i j => ?_⟩
  · simp only [lossMedium, gainMedium, Matrix.smul_apply, smul_eq_mul, one_apply]
    split_ifs <;> simp [sub_eq_add_neg]
  · simp [lossMedium, gainMedium]
  · simp [lossMedium, gainMedium]
  · simp only [lossMedium, gainMedium, one_apply]
    split_ifs <;> simp

theorem gain_loss (n : ℕ) (N : Fin d → ℕ) : ReversedMedium (gainMedium n N) (lossMedium n N) := by
  have h := loss_gain n N
  refine ⟨fun x i j => ?_, fun x i j => ?_, fun x i j => ?_, fun x i j => ?_⟩
  · rw [h.epsilon, conj_conj]
  · simp [lossMedium, gainMedium]
  · simp [lossMedium, gainMedium]
  · rw [h.mu, conj_conj]

theorem loss_absorbs (N : Fin d → ℕ) (x : Idx N) (v : Fin 3 → ℂ) : 1 * ∑ i, ‖v i‖ ^ 2 ≤ (star v ⬝ᵥ ((lossMedium 3 N).epsilon x).mulVec v).im := by
  have : star v ⬝ᵥ ((lossMedium 3 N).epsilon x).mulVec v = (1 + I) * ((∑ i, ‖v i‖ ^ 2 : ℝ) : ℂ) := by
    simp only [lossMedium, Matrix.smul_mulVec, Matrix.one_mulVec, dotProduct_smul, smul_eq_mul]
    congr 1
    simp only [dotProduct, Pi.star_apply, star_def, conj_mul']
    push_cast
    rfl
  rw [this, im_mul_ofReal]
  simp

/-- **C115 (gain)** for the uniform medium with gain, on two samples. -/
example (S F : Field 3 demoGrid.shape) (x0 : Idx demoGrid.shape) :
    ∃ (alpha : ℂ) (beta : ℝ) (E : Field 3 demoGrid.shape), alpha.im < 0 ∧ Spec.Solver.WaveEquation (kOf demoGrid) 1 (gainMedium 3 demoGrid.shape).epsilon (gainMedium 3 demoGrid.shape).mu S E ∧
      ConvergesExponentially (.vectorial (by decide)) (backendK demoGrid 1) 1 (prepare (gainMedium 3 demoGrid.shape) false alpha beta S F) E := by
  have hgain : Spec.Solver.NoGain (lossMedium 3 demoGrid.shape).epsilon := fun x v => by
    have h1 := loss_absorbs _ x v
    have h2 : 0 ≤ ∑ i, ‖v i‖ ^ 2 := Finset.sum_nonneg fun _ _ => sq_nonneg _
    linarith
  have hmu : ∀ x, (lossMedium 3 demoGrid.shape).mu x = ((1 : ℝ) : ℂ) • (1 : Matrix (Fin 3) (Fin 3) ℂ) := fun x => by simp [lossMedium]
  obtain ⟨σ, hP, hσ⟩ := dielectric_passivity (m := lossMedium 3 demoGrid.shape) demo_step one_pos (fun _ => rfl) (fun _ => rfl) hgain one_pos hmu le_rfl [] x0 1
  have hc := dielectric_chosen (m := lossMedium 3 demoGrid.shape) demo_step one_pos (fun _ => rfl) (fun _ => rfl) hgain one_pos hmu le_rfl [] x0 1
  have him := dielectric_im (m := lossMedium 3 demoGrid.shape) demo_step one_pos (fun _ => rfl) (fun _ => rfl) hgain one_pos hmu le_rfl [] x0 1
  have hb := dielectric_beta (m := lossMedium 3 demoGrid.shape) demo_step one_pos (fun _ => rfl) (fun _ => rfl) hgain one_pos hmu le_rfl [] x0 1
  obtain ⟨E, h1, h2⟩ := C115_gain_nonmagnetic_partial demo_step (fun a b h => absurd (Subsingleton.elim a b) h) one_ne_zero (by decide) (loss_gain 3 _) hP hc (fun _ => ⟨1, one_ne_zero, hmu x0⟩) him
    (by rw [hb]; norm_num) hσ one_pos (loss_absorbs _) S F
  exact ⟨_, _, E, by rw [conj_im]; linarith, h1, h2⟩

/-- **C115 (choice of the bias)** for the uniform medium with gain. -/
example (x0 : Idx demoGrid.shape) : ((gainMedium 3 demoGrid.shape).constantsNonMagnetic 0 1 [] 0 x0 1).1.im =
    -((lossMedium 3 demoGrid.shape).constantsNonMagnetic 0 1 [] 0 x0 1).1.im + 0.1 := by
  have : Nonempty (Idx demoGrid.shape) := ⟨x0⟩
  refine (C115_bias_violates _ _ (gain_loss 3 _) (fun _ => rfl) (fun _ => rfl) le_rfl (Or.inl ((hasGain_smul_one 0 (1 - I)).2 (by simp))) ⟨fun h => ?_, fun h => ?_⟩ 1 0 x0 1).2
  · have : hasGain 0 (fun _ : Idx demoGrid.shape => (-(1 - I)) • (1 : Matrix (Fin 3) (Fin 3) ℂ)) := by
      simp only [neg_smul]
      exact h
    have := (hasGain_smul_one 0 _).1 this
    simp at this
    linarith
  · have : hasGain 0 (fun _ : Idx demoGrid.shape => (-1 : ℂ) • (1 : Matrix (Fin 3) (Fin 3) ℂ)) := by
      simpa [hasLoss, gainMedium] using h
    have := (hasGain_smul_one 0 _).1 this
    simp at this

/-- **C115 (executions)** for the same medium on a line of any length, without magnetic contrast. -/
example (g : Grid.Obj 1 ℝ) (hs : ∀ a, g.step a ≠ 0) (S : Field 3 g.shape) (i : ℕ) :
    BothRuns (ReversedField 2) (run (.vectorial (by decide)) (backendK g 2) (prepare (lossMedium 3 g.shape) false (1 + I) 1 S 0) i)
      (run (.vectorial (by decide)) (backendK g 2) (prepare (gainMedium 3 g.shape) false (1 - I) 1 (conjField S) 0) i) := by
  have := C115_nonmagnetic_partial (.vectorial (by decide)) g hs two_ne_zero (fun _ a b h => absurd (Subsingleton.elim a b) h) (loss_gain 3 _) (S := S) (F := 0) (S' := conjField S) (fun c x => rfl) (F' := 0) (fun c x => by simp) (1 + I) 1 i
  simpa [sub_eq_add_neg] using this

end Verif.Solver
