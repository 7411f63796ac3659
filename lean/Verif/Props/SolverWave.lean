import Verif.Lemmas.SolverWave
import Verif.Props.Grid02

/-!
# Properties C31–C33: the frequency, the equation that is solved, and changes of the bias
-/

namespace Verif.Solver

open Verif Verif.Fourier Verif.Backend Complex

variable {d n : ℕ} {N : Fin d → ℕ}

/-! ### C31 -/

/-- **C31 (consistency).** The reported angular frequency and wavelength are those of the reported wavenumber. -/
theorem C31_consistent (a : FreqArgs) {c : ℝ} (hc : 0 < c) (h : a.k0 c ≠ 0) :
    a.k0 c = angularFrequency c (a.k0 c) / c ∧ a.k0 c = 2 * Real.pi / wavelength (a.k0 c) := by
  unfold angularFrequency wavelength
  have := Real.pi_ne_zero
  constructor
  · field_simp
  · norm_num

/-- **C31 (angular frequency).** A given angular frequency is reported, whatever else is given. -/
theorem C31_angular_frequency (k : ℝ) (l : Option ℝ) (w : ℝ) {c : ℝ} (hc : 0 < c) :
    angularFrequency c (FreqArgs.k0 ⟨k, some w, l⟩ c) = w := by
  unfold angularFrequency FreqArgs.k0
  field_simp

/-- **C31 (wavelength).** A given wavelength is reported if no angular frequency is given, whatever the wavenumber. -/
theorem C31_wavelength (k l : ℝ) (hl : l ≠ 0) (c : ℝ) : wavelength (FreqArgs.k0 ⟨k, none, some l⟩ c) = l := by
  unfold wavelength FreqArgs.k0
  have := Real.pi_ne_zero
  norm_num

/-- **C31 (wavenumber).** The wavenumber is used if nothing else is given. -/
theorem C31_wavenumber (k c : ℝ) : FreqArgs.k0 ⟨k, none, none⟩ c = k := rfl

/-- **C31 (positive).** Positive arguments give a positive wavenumber. -/
theorem C31_positive (a : FreqArgs) {c : ℝ} (hc : 0 < c) (hk : 0 < a.wavenumber) (hw : ∀ w ∈ a.angularFrequency, 0 < w)
    (hl : ∀ l ∈ a.vacuumWavelength, 0 < l) : 0 < a.k0 c := by
  obtain ⟨k, w, l⟩ := a
  unfold FreqArgs.k0
  rcases w with _ | w
  · rcases l with _ | l
    · exact hk
    · have := hl l rfl
      have := Real.pi_pos
      simp only
      positivity
  · have := hw w rfl
    simp only
    positivity

example : (0 : ℝ) < FreqArgs.k0 ⟨1, some 3, some 5⟩ 2 ∧ angularFrequency 2 (FreqArgs.k0 ⟨1, some 3, some 5⟩ 2) = 3 :=
  ⟨C31_positive _ two_pos one_pos (by simp) (by simp), C31_angular_frequency _ _ _ two_pos⟩

/-- **C31 (units of the back end).** The back end measures lengths in units of the inverse wavenumber: its wavenumbers are those of the grid,
divided by the wavenumber in vacuum. -/
theorem C31_backend (g : Grid.Obj d ℝ) (hs : ∀ a, g.step a ≠ 0) {k0 : ℝ} (hk0 : k0 ≠ 0) (a : Fin d) (x : Idx g.shape) :
    kOf g a x = k0 * backendK g k0 a x := by
  have hN : ∀ a, 1 ≤ g.shape a := fun a => (Nat.zero_le _).trans_lt (x a).isLt
  unfold backendK
  let g' : Grid.Obj d ℝ :=
    { shape := g.shape, step := fun i => g.step i * k0, center := fun i => g.center i * k0,
      dt := if d = 0 then .float else (g.dt.promote .float).promote (g.dt.promote .float), flat := g.flat,
      originAtCenter := g.originAtCenter, centerAtIndex := g.centerAtIndex, multidimensional := g.multidimensional, stepShort := false }
  have hg : Grid.mul g ⟨.float, fun _ => k0⟩ = .ok g' := Grid.rebuild_eq hN _ _ _ _ _
  rw [hg]
  have h1 : g'.shape = g.shape := rfl
  have h2 : ∀ a, g'.step a = g.step a * k0 := fun _ => rfl
  show _ = k0 * kOf g' a x
  rw [C24_kOf g (fun a _ => hs a), C24_kOf g' (fun a _ => by rw [h2]; exact mul_ne_zero (hs a) hk0), h2]
  have := hs a
  have h3 : (g.shape a : ℝ) ≠ 0 := by have := hN a; positivity
  field_simp
  exact (mul_div_cancel_left₀ _ h3).symm

theorem backendK_origin (g : Grid.Obj d ℝ) (hs : ∀ a, g.step a ≠ 0) {k0 : ℝ} (hk0 : k0 ≠ 0) (x : Idx g.shape) :
    origin x ↔ ∀ a, backendK g k0 a x = 0 := by
  rw [kOf_origin g hs]
  refine forall_congr' fun a => ?_
  rw [C31_backend g hs hk0]
  simp [hk0]

/-! ### C32 -/

theorem spec_curl (k : Fin d → Idx N → ℝ) (F : Field 3 N) : Spec.Solver.curl k F = curl 3 k F := by
  funext c
  unfold Spec.Solver.curl curl convolve
  congr 1
  funext x
  have := congrFun (C24_curl_ft k (fun c' => ft (F c')) x) c
  rw [this]
  congr 2

theorem curl_scale (k kp : Fin d → Idx N → ℝ) (k0 : ℝ) (hkp : ∀ a x, kp a x = k0 * k a x) (F : Field 3 N) :
    curl 3 kp F = (k0 : ℂ) • curl 3 k F := by
  rw [← spec_curl, ← spec_curl]
  funext c
  show _ = (k0 : ℂ) • Spec.Solver.curl k F c
  unfold Spec.Solver.curl
  rw [← ift_isLinear.map_smul]
  congr 1
  funext x
  have : Spec.Backend.kVector kp x = (k0 : ℂ) • Spec.Backend.kVector k x := by
    funext c
    simp only [Spec.Backend.kVector, Pi.smul_apply, smul_eq_mul]
    split_ifs
    · rw [hkp]; push_cast; ring
    · ring
  rw [this]
  simp only [map_smul, LinearMap.smul_apply, Pi.smul_apply, smul_eq_mul]
  ring

theorem spec_act (A : Tensor n N) (F : Field n N) : Spec.Solver.act A F = mulField A F := rfl

/-- The field in the units of the code. -/
theorem field_getE {k0 : ℝ} (hk0 : k0 ≠ 0) (s : State n N) : s.field = ((k0 : ℂ) ^ 2) • getE k0 s := by
  funext c x
  have := ofReal_ne hk0
  simp only [getE, Pi.smul_apply, smul_eq_mul]
  push_cast
  field_simp

/-- The wave equation in the units of the back end. -/
theorem waveEquation_iff {k kp : Fin d → Idx N → ℝ} {k0 : ℝ} (hkp : ∀ a x, kp a x = k0 * k a x) (hd : d ≤ 3) (m : Medium 3 N)
    (hxi : ∀ x, m.xi x = 0) (hzeta : ∀ x, m.zeta x = 0) (beta : ℝ) (S E : Field 3 N) :
    Spec.Solver.WaveEquation kp k0 m.epsilon m.mu S E ↔ waveOp k beta (.vectorial hd) m (((k0 : ℂ) ^ 2) • E) = S := by
  have z1 : ∀ F : Field 3 N, mulField m.chiHEBeta F = 0 := by
    intro F
    have : m.chiHEBeta = fun _ => 0 := by funext x; simp [Medium.chiHEBeta, hzeta]
    rw [this, mulField_zero]
  have z2 : ∀ F : Field 3 N, mulField m.chiEHBeta F = 0 := by
    intro F
    have : m.chiEHBeta = fun _ => 0 := by funext x; simp [Medium.chiEHBeta, hxi]
    rw [this, mulField_zero]
  have z3 : m.epsilonPrime = m.epsilon := by funext x; simp [Medium.epsilonPrime, hxi]
  have hL := curl_isLinear (n := 3) (m := 3) k
  have hM := mulField_isLinear m.muInv
  have key : waveOp k beta (.vectorial hd) m (((k0 : ℂ) ^ 2) • E) =
      fun c x => Spec.Solver.curl kp (Spec.Solver.act (fun x => (m.mu x)⁻¹) (Spec.Solver.curl kp E)) c x
        - (k0 : ℂ) ^ 2 * Spec.Solver.act m.epsilon E c x := by
    simp only [waveOp, spec_curl, spec_act, curl_scale k kp k0 hkp]
    rw [z1, z2, z3, hL.map_zero, sub_zero, sub_zero, hL.map_smul, hM.map_smul, hL.map_smul, (mulField_isLinear _).map_smul]
    rw [show (fun x => (m.mu x)⁻¹) = m.muInv from rfl, hM.map_smul, hL.map_smul, smul_smul, ← sq]
    rfl
  rw [key]
  constructor
  · intro h; funext c x; exact h c x
  · intro h c x; exact congrFun (congrFun h c) x

/-- What the code has chosen before it makes the operators: whether the medium is magnetic, and if it is not, the reference permeability. -/
structure Chosen (m : Medium n N) (muScalar : Bool) (i0 : Fin n) (x0 : Idx N) (mag : Bool) (beta : ℝ) : Prop where
  mag_eq : mag = m.isMagnetic muScalar x0
  beta_eq : mag = false → beta = m.betaNonMagnetic i0 x0
  beta_ne : beta ≠ 0

/-- The constant scalar permeability of a medium that is not magnetic is real. -/
def RealPermeability (m : Medium n N) (mag : Bool) (x0 : Idx N) : Prop :=
  mag = false → ∃ r : ℝ, r ≠ 0 ∧ m.mu x0 = (r : ℂ) • (1 : Matrix (Fin n) (Fin n) ℂ)

theorem Chosen.nonmagnetic {m : Medium n N} {muScalar : Bool} {i0 : Fin n} {x0 : Idx N} {mag : Bool} {beta : ℝ}
    (h : Chosen m muScalar i0 x0 mag beta) (hm : mag = false) :
    (∀ x, m.xi x = 0) ∧ (∀ x, m.zeta x = 0) ∧ muScalar = true ∧ ∀ x, m.mu x = m.mu x0 := by
  have := h.mag_eq
  rw [hm] at this
  simpa [Medium.isMagnetic] using this.symm

theorem smul_one_inv {c : ℂ} (hc : c ≠ 0) : (c • (1 : Matrix (Fin n) (Fin n) ℂ))⁻¹ = c⁻¹ • (1 : Matrix (Fin n) (Fin n) ℂ) := by
  refine Matrix.inv_eq_left_inv ?_
  rw [smul_mul_smul_comm, inv_mul_cancel₀ hc, one_mul, one_smul]

theorem Chosen.consistent {m : Medium n N} {muScalar : Bool} {i0 : Fin n} {x0 : Idx N} {mag : Bool} {beta : ℝ}
    (h : Chosen m muScalar i0 x0 mag beta) (hr : RealPermeability m mag x0) : Consistent m mag beta := by
  cases hm : mag with
  | true => exact .inl rfl
  | false =>
    obtain ⟨h1, h2, -, h4⟩ := h.nonmagnetic hm
    obtain ⟨r, hr0, hr1⟩ := hr hm
    refine .inr ⟨h1, h2, fun x => ?_⟩
    have hc := ofReal_ne hr0
    have e : m.muInv x = ((r : ℂ))⁻¹ • 1 := by unfold Medium.muInv; rw [h4 x, hr1, smul_one_inv hc]
    have e0 : m.muInv x0 = ((r : ℂ))⁻¹ • 1 := by unfold Medium.muInv; rw [hr1, smul_one_inv hc]
    rw [e, h.beta_eq hm, Medium.betaNonMagnetic, e0]
    simp [← Complex.ofReal_inv]

/-- The preconditioned problem `E = G (χ E + s)` for the field of the state. -/
def Preconditioned (kind : Kind d n) (k : Fin d → Idx N → ℝ) (s : State n N) : Prop :=
  ∀ c x, green kind k s.alpha (fun c x => chiOp k s s.field c x + s.source c x) c x = s.field c x

theorem preconditioned_iff {k : Fin d → Idx N → ℝ} (hk : ∀ x, origin x ↔ ∀ a, k a x = 0) (kind : Kind d n) (m : Medium n N) (mag : Bool)
    {alpha : ℂ} (hα : alpha.im ≠ 0) {beta : ℝ} (hβ : beta ≠ 0) (S F : Field n N) (hc : Consistent m mag beta) :
    Preconditioned kind k (prepare m mag alpha beta S F) ↔ waveOp k beta kind m F = S := by
  rw [prepare_eq m mag hα]
  have h := residual hk kind m mag hα hβ S F F hc
  have e : Preconditioned kind k (prepared m mag alpha beta S F) ↔
      green kind k alpha (chiOp k (prepared m mag alpha beta S F) F + (prepared m mag alpha beta S F).source) - F = 0 := by
    rw [sub_eq_zero]
    constructor
    · intro h; funext c x; exact h c x
    · intro h c x; exact congrFun (congrFun h c) x
  rw [e, h]
  constructor
  · intro h
    have := (smul_eq_zero.1 h).resolve_left (factor_ne hα hβ)
    exact (sub_eq_zero.1 (green_injective hk kind hα _ this)).symm
  · intro h
    rw [h, sub_self, (green_isLinear kind k alpha).map_zero, smul_zero]

section Vectorial
variable (g : Grid.Obj d ℝ) (hs : ∀ a, g.step a ≠ 0) {k0 : ℝ} (hk0 : k0 ≠ 0) (hd : d ≤ 3) (m : Medium 3 g.shape)
  (hxi : ∀ x, m.xi x = 0) (hzeta : ∀ x, m.zeta x = 0) {muScalar : Bool} {i0 : Fin 3} {x0 : Idx g.shape} {mag : Bool} {beta : ℝ}
  (hc : Chosen m muScalar i0 x0 mag beta) (hr : RealPermeability m mag x0) {alpha : ℂ} (hα : alpha.im ≠ 0)
include hs hk0 hxi hzeta hc hr hα

/-- **C32 (vectorial).** For all grids, materials without coupling between electric and magnetic fields (isotropic or not), sources and admissible
values of the bias: a field solves the preconditioned problem if and only if it solves the wave equation for the given material and source. -/
theorem C32_wave_equation (S F : Field 3 g.shape) :
    Preconditioned (.vectorial hd) (backendK g k0) (prepare m mag alpha beta S F) ↔
      Spec.Solver.WaveEquation (kOf g) k0 m.epsilon m.mu S (getE k0 (prepare m mag alpha beta S F)) := by
  rw [preconditioned_iff (backendK_origin g hs hk0) _ m mag hα hc.beta_ne S F (hc.consistent hr),
    waveEquation_iff (C31_backend g hs hk0) hd m hxi hzeta beta]
  rw [← field_getE hk0]
  rfl

/-- **C32 (an exact solution is not changed).** The change of the field in an iteration is zero if the field solves the wave equation. -/
theorem C32_update_zero (S F : Field 3 g.shape)
    (h : Spec.Solver.WaveEquation (kOf g) k0 m.epsilon m.mu S (getE k0 (prepare m mag alpha beta S F))) :
    ∀ c x, update (.vectorial hd) (backendK g k0) (prepare m mag alpha beta S F) c x = 0 := by
  have h2 := (C32_wave_equation g hs hk0 hd m hxi hzeta hc hr hα S F).2 h
  intro c x
  have e : (fun c x => green (.vectorial hd) (backendK g k0) (prepare m mag alpha beta S F).alpha
      (fun c x => chiOp (backendK g k0) (prepare m mag alpha beta S F) (prepare m mag alpha beta S F).field c x +
        (prepare m mag alpha beta S F).source c x) c x - (prepare m mag alpha beta S F).field c x) = (0 : Field 3 g.shape) := by
    funext c x
    exact sub_eq_zero.2 (h2 c x)
  unfold update
  rw [e, (chiOp_isLinear _ _).map_zero]
  rfl

end Vectorial

/-- **C32 (scalar).** The same for scalar calculations with a permeability that does not depend on the position. -/
theorem C32_scalar (g : Grid.Obj d ℝ) (hs : ∀ a, g.step a ≠ 0) {k0 : ℝ} (hk0 : k0 ≠ 0) (m : Medium 1 g.shape) {muScalar : Bool}
    {x0 : Idx g.shape} {beta : ℝ} (hc : Chosen m muScalar 0 x0 false beta) (hr : RealPermeability m false x0) {alpha : ℂ} (hα : alpha.im ≠ 0)
    (S F : Field 1 g.shape) :
    Preconditioned .scalar (backendK g k0) (prepare m false alpha beta S F) ↔
      Spec.Solver.ScalarWaveEquation (kOf g) k0 (fun x => m.epsilon x 0 0) (m.mu x0 0 0) (S 0)
        (getE k0 (prepare m false alpha beta S F) 0) := by
  rw [preconditioned_iff (backendK_origin g hs hk0) _ m false hα hc.beta_ne S F (hc.consistent hr)]
  obtain ⟨hxi, -, -, -⟩ := hc.nonmagnetic rfl
  obtain ⟨r, hr0, hr1⟩ := hr rfl
  have hb : (beta : ℂ) = (m.mu x0 0 0)⁻¹ := by
    rw [hc.beta_eq rfl, Medium.betaNonMagnetic, Medium.muInv, hr1, smul_one_inv (ofReal_ne hr0)]
    simp [← Complex.ofReal_inv]
  have z3 : m.epsilonPrime = m.epsilon := by funext x; simp [Medium.epsilonPrime, hxi]
  set E := getE k0 (prepare m false alpha beta S F) with hE
  have hF : F = ((k0 : ℂ) ^ 2) • E := field_getE hk0 (prepare m false alpha beta S F)
  have hlap : convolve (fun F c x => (k2 (backendK g k0) x : ℂ) * F c x) F = fun c => Spec.Solver.negLaplacian (kOf g) (E c) := by
    rw [hF]
    funext c
    unfold convolve Spec.Solver.negLaplacian
    congr 1
    funext x
    have : ft ((((k0 : ℂ) ^ 2) • E) c) = ((k0 : ℂ) ^ 2) • ft (E c) := ft_isLinear.map_smul _ _
    simp only [this]
    have h2 : ∑ a, (kOf g a x : ℂ) ^ 2 = (k0 : ℂ) ^ 2 * (k2 (backendK g k0) x : ℂ) := by
      unfold k2
      push_cast
      rw [Finset.mul_sum]
      exact Finset.sum_congr rfl fun a _ => by rw [C31_backend g hs hk0]; push_cast; ring
    rw [h2]
    simp only [Pi.smul_apply, smul_eq_mul]
    ring
  simp only [waveOp, curlCurl]
  rw [hlap, z3, hb]
  constructor
  · intro h x
    have := congrFun (congrFun h 0) x
    rw [← this]
    simp only [Pi.sub_apply, Pi.smul_apply, smul_eq_mul, mulField, Finset.univ_unique, Finset.sum_singleton, Fin.default_eq_zero]
    rw [show F 0 x = (k0 : ℂ) ^ 2 * E 0 x from congrFun (congrFun hF 0) x]
    ring
  · intro h
    funext c x
    rw [Fin.fin_one_eq_zero c, ← h x]
    simp only [Pi.sub_apply, Pi.smul_apply, smul_eq_mul, mulField, Finset.univ_unique, Finset.sum_singleton, Fin.default_eq_zero]
    rw [show F 0 x = (k0 : ℂ) ^ 2 * E 0 x from congrFun (congrFun hF 0) x]
    ring

/-! ### C33 -/

/-- **C33 (bias).** Changing the bias of a problem gives the state that would have been prepared with the new bias: the same material, source
and field. -/
theorem C33_change_bias (m : Medium n N) (mag : Bool) {alpha alpha' : ℂ} (hα : alpha.im ≠ 0) (hα' : alpha'.im ≠ 0) (beta : ℝ)
    (S F : Field n N) : updateOperators (prepare m mag alpha beta S F) alpha' = prepare m mag alpha' beta S F := by
  rw [prepare_eq m mag hα, prepare_eq m mag hα', updateOperators_prepared m mag hα]

/-- **C33 (sequences).** The same for all sequences of changes. -/
theorem C33_change_bias_repeated (m : Medium n N) (mag : Bool) {alpha : ℂ} (hα : alpha.im ≠ 0) (alphas : List ℂ) (hs : ∀ a ∈ alphas, a.im ≠ 0)
    (beta : ℝ) (S F : Field n N) :
    alphas.foldl updateOperators (prepare m mag alpha beta S F) = prepare m mag (alphas.getLastD alpha) beta S F := by
  induction alphas generalizing alpha with
  | nil => rfl
  | cons a as ih =>
    have ha := hs a (by simp)
    rw [List.foldl_cons, C33_change_bias m mag hα ha, ih ha fun b hb => hs b (by simp [hb])]
    rw [List.getLastD_cons]

/-- **C33 (exact solutions).** The fields that solve the preconditioned problem are the same before and after a change of the bias. -/
theorem C33_solutions {k : Fin d → Idx N → ℝ} (hk : ∀ x, origin x ↔ ∀ a, k a x = 0) (kind : Kind d n) (m : Medium n N) (mag : Bool)
    {alpha alpha' : ℂ} (hα : alpha.im ≠ 0) (hα' : alpha'.im ≠ 0) {beta : ℝ} (hβ : beta ≠ 0) (S F : Field n N) (hc : Consistent m mag beta) :
    Preconditioned kind k (updateOperators (prepare m mag alpha beta S F) alpha') ↔ Preconditioned kind k (prepare m mag alpha beta S F) := by
  rw [C33_change_bias m mag hα hα', preconditioned_iff hk kind m mag hα' hβ S F hc, preconditioned_iff hk kind m mag hα hβ S F hc]

/-- **C33 (source).** The represented source is the same, whatever the state. -/
theorem C33_source (s : State n N) {alpha : ℂ} (h : alpha.im ≠ 0) : getSource (updateOperators s alpha) = getSource s := by
  have h2 := ofReal_ne h
  funext c x
  simp only [getSource, updateOperators]
  field_simp

end Verif.Solver
