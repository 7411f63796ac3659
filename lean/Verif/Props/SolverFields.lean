import Verif.Lemmas.SolverRepresents
import Verif.Props.SolverPermeability
import Verif.Spec.Maxwell

/-!
# Properties C43–C45: the fields, energy, stress and force that are derived from E
-/

namespace Verif.Solver

open Verif Verif.Fourier Verif.Backend Complex
open Verif.Spec.Solver (WaveEquation)
open Verif.Spec.Maxwell (Faraday Ampere MagneticResponse ElectricResponse NonNegative)

variable {d n : ℕ} {N : Fin d → ℕ}

/-! ### C43 -/

/-- **C43 (Faraday).** For all states, converged or not. -/
theorem C43_faraday (g : Grid.Obj d ℝ) (hs : ∀ a, g.step a ≠ 0) {k0 : ℝ} (hk0 : k0 ≠ 0) {co : Const} (hc : co.c ≠ 0) (s : State 3 g.shape) :
    Faraday (kOf g) (co.omega k0) (getE k0 s) (getB co k0 (backendK g k0) s) := by
  intro c x
  rw [spec_curl, curl_scale _ _ k0 (C31_backend g hs hk0)]
  have := ofReal_ne hc
  have := I_ne_zero
  simp only [getB, Const.omega, angularFrequency, Pi.smul_apply, smul_eq_mul]
  push_cast
  field_simp

/-- **C43 (Ampère).** For all states, converged or not. -/
theorem C43_ampere (g : Grid.Obj d ℝ) (hs : ∀ a, g.step a ≠ 0) {k0 : ℝ} (hk0 : k0 ≠ 0) {co : Const} (hc : co.c ≠ 0) (i0 : Fin 3) (x0 : Idx g.shape)
    (s : State 3 g.shape) :
    Ampere (kOf g) (co.omega k0) (getH co k0 (backendK g k0) i0 x0 s) (getD co k0 (backendK g k0) i0 x0 s) (getJ co k0 s) := by
  intro c x
  rw [spec_curl, curl_scale _ _ k0 (C31_backend g hs hk0)]
  have h1 := ofReal_ne hc
  have h2 := ofReal_ne hk0
  have h3 := I_ne_zero
  simp only [getD, getJ, getSource, Const.omega, angularFrequency, Pi.smul_apply, smul_eq_mul]
  generalize curl 3 (backendK g k0) (getH co k0 (backendK g k0) i0 x0 s) c x = z
  push_cast
  by_cases hm : (co.mu0 : ℂ) = 0
  · rw [hm]
    simp only [mul_zero, div_zero, zero_mul, sub_zero]
    field_simp
    rw [I_sq]
    ring
  · field_simp
    rw [I_sq]
    ring

/-- A medium that is treated as not magnetic has no coupling and a permeability that is a number and does not depend on the position. -/
def Uniform (m : Medium n N) (mag : Bool) : Prop :=
  mag = false → (∀ x, m.xi x = 0) ∧ (∀ x, m.zeta x = 0) ∧ ∃ mu : ℂ, mu ≠ 0 ∧ ∀ x, m.mu x = mu • (1 : Matrix (Fin n) (Fin n) ℂ)

/-- What H is for the represented medium. -/
theorem getH_eq {m : Medium n N} {mag : Bool} {S : Field n N} {s : State n N} (h : Represents m mag S s) (hu : Uniform m mag) (co : Const) (k0 : ℝ)
    (k : Fin d → Idx N → ℝ) (i0 : Fin n) (x0 : Idx N) :
    getH co k0 k i0 x0 s = (I / ((co.mu0 : ℂ) * (co.c : ℂ))) • (mulField m.chiHEBeta (getE k0 s) - mulField m.muInv (curl n k (getE k0 s))) := by
  have h1 := ofReal_ne h.alpha_ne
  have h2 := ofReal_ne h.beta_ne
  have hI := I_ne_zero
  have e1 : -I * (s.alpha.im : ℂ) * (I / (s.alpha.im : ℂ)) = 1 := by field_simp; rw [I_sq]; ring
  unfold getH
  rw [h.magnetic]
  cases mag with
  | true =>
    have e2 : (fun x => (s.beta : ℂ) • (1 - (-I * (s.alpha.im : ℂ)) • s.chiHH x)) = m.muInv := by
      funext x
      rw [h.chiHH]
      simp only [smul_smul, e1, one_smul, sub_sub_cancel]
      rw [mul_one_div_cancel h2, one_smul]
    have e3 : (fun x => (-I * (s.alpha.im : ℂ)) • s.chiHE x) = fun x => (1 / (s.beta : ℂ)) • m.chiHEBeta x := by
      funext x
      rw [h.chiHE]
      simp only [smul_smul]
      congr 1
      rw [factor, mul_div_assoc', e1]
    simp only [if_true]
    rw [e2, e3, mulField_smul_left]
    funext c x
    simp only [Pi.smul_apply, smul_eq_mul, Pi.sub_apply]
    rw [← mul_assoc (s.beta : ℂ), mul_one_div_cancel h2]
    ring
  | false =>
    obtain ⟨-, hz, mu, hmu, hm⟩ := hu rfl
    have e4 : ∀ x, m.muInv x = mu⁻¹ • 1 := fun x => by rw [Medium.muInv, hm, smul_one_inv hmu]
    have e5 : (1 - s.chiHH x0 i0 i0 * (-I * (s.alpha.im : ℂ))) * (s.beta : ℂ) = mu⁻¹ := by
      rw [h.chiHH]
      simp only [e4, Matrix.smul_apply, Matrix.sub_apply, Matrix.one_apply_eq, smul_eq_mul, mul_one]
      rw [mul_comm, mul_comm (_ / _) _, mul_assoc, mul_comm (I / _), e1]
      field_simp
      ring
    have e6 : mulField m.chiHEBeta (getE k0 s) = 0 := by
      have : m.chiHEBeta = fun _ => 0 := by funext x; simp [Medium.chiHEBeta, hz]
      rw [this, mulField_zero]
    have e7 : mulField m.muInv (curl n k (getE k0 s)) = mu⁻¹ • curl n k (getE k0 s) := by
      rw [show m.muInv = fun x => mu⁻¹ • (1 : Matrix (Fin n) (Fin n) ℂ) from funext e4, mulField_smul_left, mulField_one]
    simp only [Bool.false_eq_true, if_false]
    rw [e5, e6, e7]
    funext c x
    simp only [Pi.smul_apply, smul_eq_mul, Pi.sub_apply, Pi.zero_apply]
    ring

section
variable (g : Grid.Obj d ℝ) (hs : ∀ a, g.step a ≠ 0) {k0 : ℝ} (hk0 : k0 ≠ 0) {co : Const} (hc : co.c ≠ 0) (hmu0 : co.mu0 ≠ 0)
  {m : Medium 3 g.shape} {mag : Bool} {S : Field 3 g.shape} {s : State 3 g.shape} (h : Represents m mag S s) (hu : Uniform m mag)
  (hinv : ∀ x, IsUnit (m.mu x).det) (i0 : Fin 3) (x0 : Idx g.shape)

include hc hmu0 h hu hinv in
/-- **C43, C44 (magnetic response).** For all states that represent the medium, converged or not, and with or without coupling:
`B = ζ E / c + μ₀ μ H`. -/
theorem C43_magnetic :
    MagneticResponse co.c co.mu0 m.zeta m.mu (getE k0 s) (getH co k0 (backendK g k0) i0 x0 s) (getB co k0 (backendK g k0) s) := by
  intro c x
  have h1 := ofReal_ne hc
  have h2 := ofReal_ne hmu0
  have hI := I_ne_zero
  have e1 : ∀ F : Field 3 g.shape, mulField m.mu (mulField m.muInv F) = F := by
    intro F
    rw [← mulField_mul, show (fun x => m.mu x * m.muInv x) = fun _ => 1 from funext fun x => Matrix.mul_nonsing_inv _ (hinv x), mulField_one]
  have e2 : mulField m.mu (mulField m.chiHEBeta (getE k0 s)) = I • mulField m.zeta (getE k0 s) := by
    rw [← mulField_mul, ← mulField_smul_left]
    congr 1
    funext x
    rw [Medium.chiHEBeta, mul_smul_comm, ← mul_assoc, Medium.muInv, Matrix.mul_nonsing_inv _ (hinv x), one_mul]
  rw [getH_eq h hu, spec_act, spec_act, (mulField_isLinear m.mu).map_smul, (mulField_isLinear m.mu).map_sub, e1, e2]
  simp only [getB, Pi.smul_apply, smul_eq_mul, Pi.sub_apply]
  generalize curl 3 (backendK g k0) (getE k0 s) c x = z1
  generalize mulField m.zeta (getE k0 s) c x = z2
  field_simp
  linear_combination (z1 - I * z2) * I_sq

include hk0 hc hmu0 h hu in
/-- What D is, for the represented medium. -/
theorem getD_eq :
    getD co k0 (backendK g k0) i0 x0 s = (1 / ((co.omega k0 : ℂ) ^ 2 * (co.mu0 : ℂ))) •
      (((k0 : ℂ) ^ 2) • (curl 3 (backendK g k0) (mulField m.muInv (curl 3 (backendK g k0) (getE k0 s)))
        - curl 3 (backendK g k0) (mulField m.chiHEBeta (getE k0 s))) - S) := by
  have h1 := ofReal_ne hc
  have h2 := ofReal_ne hmu0
  have h3 := ofReal_ne hk0
  have h4 := ofReal_ne h.alpha_ne
  have h5 := ofReal_ne h.beta_ne
  have hI := I_ne_zero
  have hL := curl_isLinear (n := 3) (m := 3) (backendK g k0)
  funext c x
  unfold getD
  rw [getH_eq h hu, h.source, hL.map_smul, hL.map_sub]
  simp only [Const.omega, angularFrequency, factor, Pi.smul_apply, smul_eq_mul, Pi.sub_apply]
  generalize curl 3 (backendK g k0) (mulField m.chiHEBeta (getE k0 s)) c x = z1
  generalize curl 3 (backendK g k0) (mulField m.muInv (curl 3 (backendK g k0) (getE k0 s))) c x = z2
  push_cast
  field_simp
  rw [I_sq]
  ring

include hs hk0 hc hmu0 h hu in
/-- **C43 (electric response).** For media without coupling, and all states: `D = ε₀ ε E` if and only if the field solves the wave equation. -/
theorem C43_electric (hco : co.c ^ 2 * co.mu0 * co.epsilon0 = 1) (hxi : ∀ x, m.xi x = 0) (hzeta : ∀ x, m.zeta x = 0) :
    ElectricResponse co.c co.epsilon0 m.epsilon m.xi (getE k0 s) (getH co k0 (backendK g k0) i0 x0 s) (getD co k0 (backendK g k0) i0 x0 s) ↔
      WaveEquation (kOf g) k0 m.epsilon m.mu S (getE k0 s) := by
  have h1 := ofReal_ne hc
  have h2 := ofReal_ne hmu0
  have h3 := ofReal_ne hk0
  have hL := curl_isLinear (n := 3) (m := 3) (backendK g k0)
  have hM := mulField_isLinear m.muInv
  have z1 : mulField m.chiHEBeta (getE k0 s) = 0 := by
    have : m.chiHEBeta = fun _ => 0 := by funext x; simp [Medium.chiHEBeta, hzeta]
    rw [this, mulField_zero]
  have z2 : ∀ F : Field 3 g.shape, Spec.Solver.act m.xi F = 0 := by
    intro F
    rw [spec_act, show m.xi = fun _ => 0 from funext hxi, mulField_zero]
  have e0 : (co.epsilon0 : ℂ) = 1 / ((co.c : ℂ) ^ 2 * (co.mu0 : ℂ)) := by
    have : (co.c : ℂ) ^ 2 * (co.mu0 : ℂ) * (co.epsilon0 : ℂ) = 1 := by exact_mod_cast hco
    field_simp
    linear_combination this
  unfold ElectricResponse WaveEquation
  refine forall_congr' fun c => forall_congr' fun x => ?_
  rw [getD_eq g hk0 hc hmu0 h hu, z1, hL.map_zero, z2, spec_curl, spec_curl, curl_scale _ _ k0 (C31_backend g hs hk0),
    curl_scale _ _ k0 (C31_backend g hs hk0), spec_act, spec_act, show (fun x => (m.mu x)⁻¹) = m.muInv from rfl, hM.map_smul, hL.map_smul, e0]
  simp only [Const.omega, angularFrequency, Pi.smul_apply, smul_eq_mul, Pi.sub_apply, sub_zero, Pi.zero_apply, zero_div, add_zero]
  push_cast
  have hden : (k0 : ℂ) ^ 2 * (co.c : ℂ) ^ 2 * (co.mu0 : ℂ) ≠ 0 := by positivity
  constructor
  · intro h
    field_simp at h
    linear_combination h
  · intro h
    field_simp
    linear_combination h

end

/-! ### C44 -/

/-- A state solves the preconditioned problem if and only if its field solves the equation of the represented medium, as composed by the code. -/
theorem Represents.preconditioned_iff {k : Fin d → Idx N → ℝ} (hk : ∀ x, origin x ↔ ∀ a, k a x = 0) (kind : Kind d n) {m : Medium n N} {mag : Bool}
    {S : Field n N} {s : State n N} (h : Represents m mag S s) (hc : Consistent m mag s.beta) :
    Preconditioned kind k s ↔ waveOp k s.beta kind m s.field = S := by
  have key := Solver.preconditioned_iff hk kind m mag h.alpha_ne h.beta_ne S s.field hc
  rw [prepare_eq m mag h.alpha_ne] at key
  rw [← key]
  conv_lhs => rw [h.eq]
  exact Iff.rfl

section
variable (g : Grid.Obj d ℝ) (hs : ∀ a, g.step a ≠ 0) {k0 : ℝ} (hk0 : k0 ≠ 0) (hd : d ≤ 3) {co : Const} (hco : co.c ^ 2 * co.mu0 * co.epsilon0 = 1)
  {m : Medium 3 g.shape} {S : Field 3 g.shape} {s : State 3 g.shape} (h : Represents m true S s)
  (hp : Preconditioned (.vectorial hd) (backendK g k0) s) (i0 : Fin 3) (x0 : Idx g.shape)
include hs hk0 hco h hp

/-- **C44 (what converged fields satisfy).** For all media with coupling tensors, a converged field satisfies `D = ε₀ ε E + ξ H / c` if and only if exchanging
`-i ξ μ⁻¹` and `i μ⁻¹ ζ` makes no difference for the field. -/
theorem C44_response :
    ElectricResponse co.c co.epsilon0 m.epsilon m.xi (getE k0 s) (getH co k0 (backendK g k0) i0 x0 s) (getD co k0 (backendK g k0) i0 x0 s) ↔
      curl 3 (backendK g k0) (mulField m.chiEHBeta (getE k0 s)) + mulField m.chiHEBeta (curl 3 (backendK g k0) (getE k0 s)) =
        curl 3 (backendK g k0) (mulField m.chiHEBeta (getE k0 s)) + mulField m.chiEHBeta (curl 3 (backendK g k0) (getE k0 s)) := by
  have hc : co.c ≠ 0 := by rintro e; rw [e] at hco; simp at hco
  have hmu0 : co.mu0 ≠ 0 := by rintro e; rw [e] at hco; simp at hco
  have h1 := ofReal_ne hc
  have h2 := ofReal_ne hmu0
  have h3 := ofReal_ne hk0
  have hu : Uniform m true := fun e => absurd e (by simp)
  have e0 : (co.epsilon0 : ℂ) = 1 / ((co.c : ℂ) ^ 2 * (co.mu0 : ℂ)) := by
    have : (co.c : ℂ) ^ 2 * (co.mu0 : ℂ) * (co.epsilon0 : ℂ) = 1 := by exact_mod_cast hco
    field_simp
    linear_combination this
  have hL := curl_isLinear (n := 3) (m := 3) (backendK g k0)
  have hw := (h.preconditioned_iff (backendK_origin g hs hk0) (.vectorial hd) (.inl rfl)).1 hp
  rw [field_getE hk0 s] at hw
  simp only [waveOp] at hw
  rw [hL.map_smul, (mulField_isLinear m.muInv).map_smul, (mulField_isLinear m.chiEHBeta).map_smul, (mulField_isLinear m.chiHEBeta).map_smul,
    (mulField_isLinear m.epsilonPrime).map_smul, hL.map_smul, hL.map_smul] at hw
  have e1 : mulField m.xi (mulField m.muInv (curl 3 (backendK g k0) (getE k0 s))) = I • mulField m.chiEHBeta (curl 3 (backendK g k0) (getE k0 s)) := by
    rw [← mulField_mul, ← mulField_smul_left]
    congr 1
    funext x
    rw [Medium.chiEHBeta, smul_smul, mul_neg, I_mul_I, neg_neg, one_smul]
  have e2 : mulField m.epsilonPrime (getE k0 s) = mulField m.epsilon (getE k0 s) + I • mulField m.xi (mulField m.chiHEBeta (getE k0 s)) := by
    rw [← mulField_mul, ← mulField_smul_left, ← mulField_add_left]
    congr 1
    funext x
    rw [Medium.epsilonPrime, mul_smul_comm, neg_smul, sub_neg_eq_add]
  have e3 : ElectricResponse co.c co.epsilon0 m.epsilon m.xi (getE k0 s) (getH co k0 (backendK g k0) i0 x0 s) (getD co k0 (backendK g k0) i0 x0 s) ↔
      ∀ c x, getD co k0 (backendK g k0) i0 x0 s c x = (1 / ((co.c : ℂ) ^ 2 * (co.mu0 : ℂ))) *
        (mulField m.epsilonPrime (getE k0 s) c x + mulField m.chiEHBeta (curl 3 (backendK g k0) (getE k0 s)) c x) := by
    unfold ElectricResponse
    refine forall_congr' fun c => forall_congr' fun x => ?_
    rw [getH_eq h hu, spec_act, spec_act, e0, (mulField_isLinear m.xi).map_smul, (mulField_isLinear m.xi).map_sub, e1, e2]
    simp only [Pi.add_apply, Pi.sub_apply, Pi.smul_apply, smul_eq_mul]
    refine Eq.congr_right ?_
    generalize mulField m.chiEHBeta (curl 3 (backendK g k0) (getE k0 s)) c x = z1
    generalize mulField m.xi (mulField m.chiHEBeta (getE k0 s)) c x = z2
    field_simp
    linear_combination -z1 * I_sq
  rw [e3, getD_eq g hk0 hc hmu0 h hu, ← hw]
  constructor
  · intro H
    funext c x
    have := H c x
    simp only [Const.omega, angularFrequency, Pi.add_apply, Pi.sub_apply, Pi.smul_apply, smul_eq_mul] at this ⊢
    push_cast at this
    field_simp at this
    linear_combination this
  · intro H c x
    have := congrFun (congrFun H c) x
    simp only [Const.omega, angularFrequency, Pi.add_apply, Pi.sub_apply, Pi.smul_apply, smul_eq_mul] at this ⊢
    push_cast
    field_simp
    linear_combination this

/-- **C44 (media for which it holds).** If `ξ μ⁻¹ = - μ⁻¹ ζ` everywhere, as for reciprocal isotropic chiral media, converged fields have the documented electric response.
Full claim: for all coupling tensors, see `C44_violates`. -/
theorem C44_reciprocal_partial (hx : ∀ x, m.xi x * (m.mu x)⁻¹ = - ((m.mu x)⁻¹ * m.zeta x)) :
    ElectricResponse co.c co.epsilon0 m.epsilon m.xi (getE k0 s) (getH co k0 (backendK g k0) i0 x0 s) (getD co k0 (backendK g k0) i0 x0 s) := by
  rw [C44_response g hs hk0 hd hco h hp]
  have : m.chiEHBeta = m.chiHEBeta := by
    funext x
    rw [Medium.chiEHBeta, Medium.chiHEBeta, Medium.muInv, hx x, neg_smul, smul_neg, neg_neg]
  rw [this]

/-- **C44 (media for which it holds).** The same for isotropic media with coupling and permeability that do not depend on the position. -/
theorem C44_uniform_partial {xi zeta mu : ℂ} (hmu : mu ≠ 0) (h1 : ∀ x, m.xi x = xi • 1) (h2 : ∀ x, m.zeta x = zeta • 1) (h3 : ∀ x, m.mu x = mu • 1) :
    ElectricResponse co.c co.epsilon0 m.epsilon m.xi (getE k0 s) (getH co k0 (backendK g k0) i0 x0 s) (getD co k0 (backendK g k0) i0 x0 s) := by
  rw [C44_response g hs hk0 hd hco h hp]
  have hL := curl_isLinear (n := 3) (m := 3) (backendK g k0)
  have e1 : m.chiEHBeta = fun _ => (-I * (xi * mu⁻¹)) • (1 : Matrix (Fin 3) (Fin 3) ℂ) := by
    funext x
    rw [Medium.chiEHBeta, Medium.muInv, h1, h3, smul_one_inv hmu, smul_mul_smul_comm, one_mul, smul_smul]
  have e2 : m.chiHEBeta = fun _ => (I * (mu⁻¹ * zeta)) • (1 : Matrix (Fin 3) (Fin 3) ℂ) := by
    funext x
    rw [Medium.chiHEBeta, Medium.muInv, h2, h3, smul_one_inv hmu, smul_mul_smul_comm, one_mul, smul_smul]
  rw [e1, e2]
  simp only [mulField_smul_left, mulField_one, hL.map_smul]
  rw [add_comm]

end

theorem ft_uniform (e : ℂ) (x : Idx N) (h : ¬ origin x) : ft (fun _ : Idx N => e) x = 0 := by
  have h1 : (fun _ : Idx N => e) = e • fun _ : Idx N => (1 : ℂ) := by funext; simp
  rw [h1, ft_isLinear.map_smul, Pi.smul_apply, ft_cst x h, smul_zero]

/-- The curl of a constant field is zero. -/
theorem curl_uniform {k : Fin d → Idx N → ℝ} (hk : ∀ x, origin x ↔ ∀ a, k a x = 0) (e : Fin 3 → ℂ) : curl 3 k (fun c (_ : Idx N) => e c) = 0 := by
  rw [← spec_curl]
  funext c
  unfold Spec.Solver.curl
  have : (fun x : Idx N => I * crossProduct (Spec.Backend.kVector k x) (fun c' => ft (fun _ : Idx N => e c') x) c) = 0 := by
    funext x
    by_cases h : origin x
    · have h0 : Spec.Backend.kVector k x = 0 := by
        funext c
        simp only [Spec.Backend.kVector, Pi.zero_apply]
        split_ifs with hc
        · rw [(hk x).1 h]; simp
        · rfl
      rw [h0, map_zero]
      simp
    · have h0 : (fun c' => ft (fun _ : Idx N => e c') x) = 0 := funext fun c' => ft_uniform _ x h
      rw [h0, map_zero]
      simp
  rw [this]
  exact ift_zero

/-- A Tellegen medium on the two points of `demoGrid`: `ξ = ζ` have opposite signs at the two points. -/
noncomputable def tellegen : Medium 3 demoGrid.shape := ⟨fun _ => 1, fun x => alternating x • 1, fun x => alternating x • 1, fun _ => 1⟩

/-- A constant field along the second axis. -/
noncomputable def constantY : Field 3 demoGrid.shape := fun c _ => if c = 1 then 1 else 0

theorem curl_alternating : curl 3 (backendK demoGrid 1) (fun c x => alternating x * constantY c x) ≠ 0 := by
  intro h
  rw [← spec_curl] at h
  have h1 := congrArg ft (congrFun h 2)
  unfold Spec.Solver.curl at h1
  rw [C23_ft_ift, Pi.zero_apply, ft_isLinear.map_zero] at h1
  have h2 := congrFun h1 nyquist
  have h3 : ft (fun x => alternating x * constantY 1 x) nyquist = 1 := by
    have : (fun x => alternating x * constantY 1 x) = alternating := by funext x; simp [constantY]
    rw [this, alternating, C23_ft_ift]
    exact if_pos rfl
  have h0 : ft (fun x => alternating x * constantY 0 x) nyquist = 0 := by
    have : (fun x => alternating x * constantY 0 x) = 0 := by funext x; simp [constantY]
    rw [this, ft_isLinear.map_zero]
    rfl
  rw [cross_apply] at h2
  simp only [Matrix.cons_val, Pi.zero_apply, h3, h0, mul_one, mul_zero, sub_zero, mul_eq_zero, I_ne_zero, false_or] at h2
  have hk : ¬ ∀ a, backendK demoGrid 1 a nyquist = 0 := by
    rw [← backendK_origin demoGrid demo_step one_ne_zero]
    intro h
    exact absurd (h 0) one_ne_zero
  refine hk fun a => ?_
  rw [Fin.fin_one_eq_zero a]
  simpa [Spec.Backend.kVector] using h2

/-- **C44 (coupling that depends on the position).** There is a medium, source and field, so that the field is converged, but D is not `ε₀ ε E + ξ H / c`:
the code applies the curl to the wrong one of the two coupling terms (solver.py 545–552). The bias and the constant beta are arbitrary. -/
theorem C44_violates {alpha : ℂ} (hα : alpha.im ≠ 0) {beta : ℝ} (hβ : beta ≠ 0) {co : Const} (hco : co.c ^ 2 * co.mu0 * co.epsilon0 = 1) (i0 : Fin 3)
    (x0 : Idx demoGrid.shape) :
    (∀ muScalar, tellegen.isMagnetic muScalar x0 = true) ∧ ∃ S F : Field 3 demoGrid.shape, Preconditioned (.vectorial (by norm_num)) (backendK demoGrid 1) (prepare tellegen true alpha beta S F) ∧
      ¬ ElectricResponse co.c co.epsilon0 tellegen.epsilon tellegen.xi (getE 1 (prepare tellegen true alpha beta S F))
        (getH co 1 (backendK demoGrid 1) i0 x0 (prepare tellegen true alpha beta S F))
        (getD co 1 (backendK demoGrid 1) i0 x0 (prepare tellegen true alpha beta S F)) := by
  have hk := backendK_origin demoGrid demo_step one_ne_zero
  refine ⟨fun ms => ?_, waveOp (backendK demoGrid 1) beta (.vectorial (by norm_num)) tellegen constantY, constantY, ?_, ?_⟩
  · simp only [Medium.isMagnetic, Bool.not_eq_true', decide_eq_false_iff_not]
    rintro ⟨h', -⟩
    apply curl_alternating
    have : (fun (c : Fin 3) x => alternating x * constantY c x) = 0 := by
      funext c x
      have := congrFun (congrFun (h' x) 0) 0
      simp only [tellegen, Matrix.smul_apply, Matrix.one_apply_eq, smul_eq_mul, mul_one, Matrix.zero_apply] at this
      simp [this]
    rw [this, (curl_isLinear _).map_zero]
  · exact (preconditioned_iff hk (.vectorial (by norm_num)) tellegen true hα hβ _ constantY (.inl rfl)).2 rfl
  · have hE : ∀ S, getE 1 (prepare tellegen true alpha beta S constantY) = constantY := by
      intro S
      rw [getE_prepare]
      funext c x
      simp
    have hr := represents_prepare tellegen true hα hβ (waveOp (backendK demoGrid 1) beta (.vectorial (by norm_num)) tellegen constantY) constantY
    rw [C44_response demoGrid demo_step one_ne_zero (by norm_num) hco hr
      ((preconditioned_iff hk (.vectorial (by norm_num)) tellegen true hα hβ _ constantY (.inl rfl)).2 rfl), hE]
    have h0 : curl 3 (backendK demoGrid 1) constantY = 0 := curl_uniform hk fun c => if c = 1 then 1 else 0
    have e1 : mulField tellegen.chiEHBeta constantY = -I • fun c x => alternating x * constantY c x := by
      funext c x
      simp [mulField, tellegen, Medium.chiEHBeta, Medium.muInv, Matrix.one_apply, mul_assoc]
    have e2 : mulField tellegen.chiHEBeta constantY = I • fun c x => alternating x * constantY c x := by
      funext c x
      simp [mulField, tellegen, Medium.chiHEBeta, Medium.muInv, Matrix.one_apply, mul_assoc]
    have hL := curl_isLinear (n := 3) (m := 3) (backendK demoGrid 1)
    rw [h0, e1, e2, (mulField_isLinear _).map_zero, (mulField_isLinear _).map_zero, add_zero, add_zero, hL.map_smul, hL.map_smul]
    intro h
    apply curl_alternating
    have h2 : (2 * I) • curl 3 (backendK demoGrid 1) (fun c x => alternating x * constantY c x) = 0 := by
      rw [two_mul, add_smul]
      nth_rewrite 1 [← h]
      rw [neg_smul, neg_add_cancel]
    exact (smul_eq_zero.1 h2).resolve_left (by simp)

/-! ### C45 -/

/-- **C45 (Poynting vector).** For all states, S is half the real part of `E × H*`. -/
theorem C45_poynting (co : Const) (k0 : ℝ) (k : Fin d → Idx N → ℝ) (i0 : Fin 3) (x0 : Idx N) (s : State 3 N) (c : Fin 3) (x : Idx N) :
    getS co k0 k i0 x0 s c x =
      1 / 2 * (crossProduct (fun c => getE k0 s c x) (fun c => (starRingEnd ℂ) (getH co k0 k i0 x0 s c x)) c).re := by
  unfold getS
  rw [← congrFun (C24_cross (getE k0 s) (fun c x => (starRingEnd ℂ) (getH co k0 k i0 x0 s c x)) x) c]

/-- **C45 (scalar calculations).** There is no Poynting vector in scalar calculations: S is 0, for all states. -/
theorem C45_scalar (co : Const) (k0 : ℝ) (k : Fin d → Idx N → ℝ) (i0 : Fin 1) (x0 : Idx N) (s : State 1 N) : getS co k0 k i0 x0 s = 0 := by
  have h0 : ∀ (A B : Fin 1 → Idx N → ℂ) (c : Fin 1) (x : Idx N), cross A B c x = 0 := by
    intro A B c x
    match c with
    | 0 => simp [cross, otherDims]
  funext c x
  rw [getS, h0]
  simp

/-- **C45 (divergence of S).** For all states, `divS` is the divergence of S divided by the wavenumber: the derivatives of the back end are in units of the
wavenumber, and the code does not multiply by it. -/
theorem C45_divergence_partial (g : Grid.Obj d ℝ) (hs : ∀ a, g.step a ≠ 0) {k0 : ℝ} (hk0 : k0 ≠ 0) (hd : d ≤ 3) (co : Const) (i0 : Fin 3) (x0 : Idx g.shape)
    (s : State 3 g.shape) :
    ∃ D, getDivS co k0 (backendK g k0) i0 x0 s = .ok D ∧
      ∀ x, Spec.Solver.divergence (kOf g) (fun c x => (getS co k0 (backendK g k0) i0 x0 s c x : ℂ)) x = k0 * D x := by
  refine ⟨_, by rw [getDivS, div, C24_div_ft _ hd]; rfl, fun x => ?_⟩
  unfold Spec.Solver.divergence
  rw [← smul_eq_mul, ← Pi.smul_apply, ← ift_isLinear.map_smul]
  congr 1
  funext x
  have : Spec.Backend.kVector (kOf g) x = (k0 : ℂ) • Spec.Backend.kVector (backendK g k0) x := by
    funext c
    simp only [Spec.Backend.kVector, Pi.smul_apply, smul_eq_mul]
    split_ifs
    · rw [C31_backend g hs hk0]; push_cast; rfl
    · simp
  rw [this, smul_dotProduct]
  simp only [Pi.smul_apply, smul_eq_mul]
  ring

/-- **C45 (force density).** For all states, `f` is the divergence of the stress tensor. -/
theorem C45_force (g : Grid.Obj d ℝ) (hs : ∀ a, g.step a ≠ 0) {k0 : ℝ} (hk0 : k0 ≠ 0) (hd : d ≤ 3) (co : Const) (i0 : Fin 3) (x0 : Idx g.shape)
    (s : State 3 g.shape) :
    getForce co k0 (backendK g k0) i0 x0 s =
      .ok fun j x => (Spec.Solver.divergence (kOf g) (fun c x => (getStress co k0 (backendK g k0) i0 x0 s c j x : ℂ)) x).re := by
  rw [getForce, divTensor, C24_div_ft _ hd]
  show Except.ok _ = Except.ok _
  congr 1
  funext j x
  have key : ∀ y, Spec.Solver.divergence (kOf g) (fun c x => (getStress co k0 (backendK g k0) i0 x0 s c j x : ℂ)) y =
      k0 * ift (fun x => I * (Spec.Backend.kVector (backendK g k0) x ⬝ᵥ
        fun c => ft (fun x => (getStress co k0 (backendK g k0) i0 x0 s c j x : ℂ)) x)) y := by
    intro y
    unfold Spec.Solver.divergence
    rw [← smul_eq_mul, ← Pi.smul_apply, ← ift_isLinear.map_smul]
    congr 1
    funext x
    have : Spec.Backend.kVector (kOf g) x = (k0 : ℂ) • Spec.Backend.kVector (backendK g k0) x := by
      funext c
      simp only [Spec.Backend.kVector, Pi.smul_apply, smul_eq_mul]
      split_ifs
      · rw [C31_backend g hs hk0]; push_cast; rfl
      · simp
    rw [this, smul_dotProduct]
    simp only [Pi.smul_apply, smul_eq_mul]
    ring
  rw [key, re_ofReal_mul, mul_comm]

/-- **C45 (stress tensor).** For all states and components, the stress tensor is that of Maxwell for vacuum, averaged over time. -/
theorem C45_stress (co : Const) (k0 : ℝ) (k : Fin d → Idx N → ℝ) (i0 : Fin n) (x0 : Idx N) (s : State n N) (i j : Fin n) (x : Idx N) :
    getStress co k0 k i0 x0 s i j x =
      (co.epsilon0 * (getE k0 s i x * (starRingEnd ℂ) (getE k0 s j x)).re +
        co.mu0 * (getH co k0 k i0 x0 s i x * (starRingEnd ℂ) (getH co k0 k i0 x0 s j x)).re) / 2 -
      (if i = j then (co.epsilon0 * ∑ c, ‖getE k0 s c x‖ ^ 2 + co.mu0 * ∑ c, ‖getH co k0 k i0 x0 s c x‖ ^ 2) / 4 else 0) := by
  unfold getStress outer
  simp only
  have e : ∀ z : ℂ, ((0.5 : ℂ) * z).re = z.re / 2 := by
    intro z
    rw [show (0.5 : ℂ) = ((0.5 : ℝ) : ℂ) by push_cast; norm_num, re_ofReal_mul]; ring
  rw [e, sub_re, add_re, re_ofReal_mul, mul_comm (getH co k0 k i0 x0 s i x * _) (co.mu0 : ℂ), re_ofReal_mul, mul_assoc (0.5 : ℂ), e]
  split_ifs
  · rw [one_mul, ofReal_re]; ring
  · rw [zero_mul, zero_re]; ring

/-- **C45 (symmetry).** -/
theorem C45_symmetric (co : Const) (k0 : ℝ) (k : Fin d → Idx N → ℝ) (i0 : Fin n) (x0 : Idx N) (s : State n N) (i j : Fin n) (x : Idx N) :
    getStress co k0 k i0 x0 s i j x = getStress co k0 k i0 x0 s j i x := by
  rw [C45_stress, C45_stress]
  have e : ∀ z w : ℂ, (z * (starRingEnd ℂ) w).re = (w * (starRingEnd ℂ) z).re := by
    intro z w
    simp only [mul_re, conj_re, conj_im]; ring
  rw [e, e (getH co k0 k i0 x0 s i x)]
  by_cases h : i = j
  · rw [h]
  · rw [if_neg h, if_neg (Ne.symm h)]

/-- **C45 (trace).** For vectorial calculations the trace is minus the energy density that the fields have in vacuum. -/
theorem C45_trace (co : Const) (k0 : ℝ) (k : Fin d → Idx N → ℝ) (i0 : Fin 3) (x0 : Idx N) (s : State 3 N) (x : Idx N) :
    ∑ i, getStress co k0 k i0 x0 s i i x = -(co.epsilon0 * ∑ c, ‖getE k0 s c x‖ ^ 2 + co.mu0 * ∑ c, ‖getH co k0 k i0 x0 s c x‖ ^ 2) / 4 := by
  simp only [C45_stress, if_true]
  have e : ∀ z : ℂ, (z * (starRingEnd ℂ) z).re = ‖z‖ ^ 2 := by
    intro z
    rw [mul_conj, ofReal_re, normSq_eq_norm_sq]
  simp only [e, Fin.sum_univ_three]
  ring

/-- **C45 (torque).** `torque` are the three elements of the stress tensor that are not on its diagonal. -/
theorem C45_torque (co : Const) (k0 : ℝ) (k : Fin d → Idx N → ℝ) (x0 : Idx N) (s : State 3 N) (x : Idx N) :
    getTorque co k0 k x0 s 0 x = getStress co k0 k 0 x0 s 1 2 x ∧ getTorque co k0 k x0 s 1 x = getStress co k0 k 0 x0 s 2 0 x ∧
      getTorque co k0 k x0 s 2 x = getStress co k0 k 0 x0 s 0 1 x :=
  ⟨rfl, C45_symmetric co k0 k 0 x0 s 0 2 x, rfl⟩

section
variable (g : Grid.Obj d ℝ) (hs : ∀ a, g.step a ≠ 0) {k0 : ℝ} (hk0 : k0 ≠ 0) {co : Const} (hco : co.c ^ 2 * co.mu0 * co.epsilon0 = 1)
  {m : Medium 3 g.shape} {mag : Bool} {S : Field 3 g.shape} {s : State 3 g.shape} (h : Represents m mag S s) (hu : Uniform m mag)
  (hinv : ∀ x, IsUnit (m.mu x).det) (hxi : ∀ x, m.xi x = 0) (hzeta : ∀ x, m.zeta x = 0)
  (hE : WaveEquation (kOf g) k0 m.epsilon m.mu S (getE k0 s)) (i0 : Fin 3) (x0 : Idx g.shape) (x : Idx g.shape)
include hs hk0 hco h hu hinv hxi hzeta hE

/-- **C45 (energy density).** For exact solutions in media without coupling: a quarter of the real parts of `ε₀ E* ε E` and `μ₀ H* μ H`. -/
theorem C45_energy :
    getEnergy co k0 (backendK g k0) i0 x0 s x =
      (co.epsilon0 * (star (fun c => getE k0 s c x) ⬝ᵥ (m.epsilon x).mulVec fun c => getE k0 s c x).re +
        co.mu0 * (star (fun c => getH co k0 (backendK g k0) i0 x0 s c x) ⬝ᵥ
          (m.mu x).mulVec fun c => getH co k0 (backendK g k0) i0 x0 s c x).re) / 4 := by
  have hc : co.c ≠ 0 := by rintro e; rw [e] at hco; simp at hco
  have hmu0 : co.mu0 ≠ 0 := by rintro e; rw [e] at hco; simp at hco
  have hD := (C43_electric g hs hk0 hc hmu0 h hu i0 x0 hco hxi hzeta).2 hE
  have hB := C43_magnetic g (k0 := k0) hc hmu0 h hu hinv i0 x0
  have a1 : ∀ c, getD co k0 (backendK g k0) i0 x0 s c x = co.epsilon0 * (m.epsilon x).mulVec (fun c => getE k0 s c x) c := by
    intro c
    rw [hD c x, spec_act, spec_act, show m.xi = fun _ => 0 from funext hxi, mulField_zero, Pi.zero_apply, Pi.zero_apply, zero_div, add_zero]
    rfl
  have a2 : ∀ c, getB co k0 (backendK g k0) s c x = co.mu0 * (m.mu x).mulVec (fun c => getH co k0 (backendK g k0) i0 x0 s c x) c := by
    intro c
    rw [hB c x, spec_act, spec_act, show m.zeta = fun _ => 0 from funext hzeta, mulField_zero, Pi.zero_apply, Pi.zero_apply, zero_div, zero_add]
    rfl
  unfold getEnergy
  simp only [a1, a2]
  generalize (m.epsilon x).mulVec (fun c => getE k0 s c x) = P
  generalize (m.mu x).mulVec (fun c => getH co k0 (backendK g k0) i0 x0 s c x) = Q
  simp only [dotProduct, re_sum, Pi.star_apply, RCLike.star_def, Finset.mul_sum]
  have e1 : ∀ (r : ℝ) (z w : ℂ), (z * (starRingEnd ℂ) (r * w)).re = r * ((starRingEnd ℂ) z * w).re := by
    intro r z w
    simp only [map_mul, conj_ofReal, mul_re, mul_im, conj_re, conj_im, ofReal_re, ofReal_im]
    ring
  have e2 : ∀ (r : ℝ) (z w : ℂ), (r * z * (starRingEnd ℂ) w).re = r * ((starRingEnd ℂ) w * z).re := by
    intro r z w
    simp only [mul_re, mul_im, conj_re, conj_im, ofReal_re, ofReal_im]
    ring
  simp only [e1, e2]
  norm_num
  ring

/-- **C45 (energy density).** For exact solutions in media without coupling, whose response stores energy, the energy density is not negative.
Full claim: for all fields, see `C45_energy_violates`. -/
theorem C45_energy_partial (h1 : 0 ≤ co.epsilon0) (h2 : 0 ≤ co.mu0) (he : NonNegative m.epsilon) (hm : NonNegative m.mu) :
    0 ≤ getEnergy co k0 (backendK g k0) i0 x0 s x := by
  rw [C45_energy g hs hk0 hco h hu hinv hxi hzeta hE i0 x0 x]
  have a := mul_nonneg h1 (he x fun c => getE k0 s c x)
  have b := mul_nonneg h2 (hm x fun c => getH co k0 (backendK g k0) i0 x0 s c x)
  linarith

end

/-- Vacuum. -/
noncomputable def vacuum (N : Fin d → ℕ) : Medium 3 N := ⟨fun _ => 1, fun _ => 0, fun _ => 0, fun _ => 1⟩

theorem vacuum_uniform (N : Fin d → ℕ) (mag : Bool) : Uniform (vacuum N) mag :=
  fun _ => ⟨fun _ => rfl, fun _ => rfl, 1, one_ne_zero, fun _ => (one_smul _ _).symm⟩

/-- **C45 (energy density of a field that has not converged).** Also in vacuum the energy density can be negative: D is computed from H and the source. -/
theorem C45_energy_violates {alpha : ℂ} (hα : alpha.im ≠ 0) {co : Const} (hc : co.c ≠ 0) (hmu0 : 0 < co.mu0) (i0 : Fin 3) (x0 x : Idx demoGrid.shape) :
    getEnergy co 1 (backendK demoGrid 1) i0 x0 (prepare (vacuum demoGrid.shape) false alpha 1 constantY constantY) x < 0 := by
  have hr := represents_prepare (vacuum demoGrid.shape) false hα (beta := 1) one_ne_zero constantY constantY
  have hk := backendK_origin demoGrid demo_step one_ne_zero
  have hE : getE 1 (prepare (vacuum demoGrid.shape) false alpha 1 constantY constantY) = constantY := by
    rw [getE_prepare]
    funext c x
    simp
  have h0 : curl 3 (backendK demoGrid 1) constantY = 0 := curl_uniform hk fun c => if c = 1 then 1 else 0
  have z1 : (vacuum demoGrid.shape).chiHEBeta = fun _ => 0 := by
    funext x
    simp [vacuum, Medium.chiHEBeta]
  have hD := getD_eq demoGrid one_ne_zero hc hmu0.ne' hr (vacuum_uniform _ _) i0 x0
  have hH := getH_eq hr (vacuum_uniform _ _) co 1 (backendK demoGrid 1) i0 x0
  have hL := curl_isLinear (n := 3) (m := 3) (backendK demoGrid 1)
  rw [hE, h0, z1, mulField_zero, (mulField_isLinear _).map_zero, hL.map_zero, sub_zero, smul_zero, zero_sub] at hD
  rw [hE, h0, z1, mulField_zero, (mulField_isLinear _).map_zero, sub_zero, smul_zero] at hH
  unfold getEnergy
  rw [hD, hH, hE]
  have hw : (0 : ℝ) < 1 / ((co.omega 1) ^ 2 * co.mu0) := by
    have : co.omega 1 ≠ 0 := by simpa [Const.omega, angularFrequency] using hc
    positivity
  have e : (1 / ((co.omega 1 : ℂ) ^ 2 * (co.mu0 : ℂ))) = ((1 / ((co.omega 1) ^ 2 * co.mu0) : ℝ) : ℂ) := by push_cast; rfl
  rw [e]
  generalize 1 / ((co.omega 1) ^ 2 * co.mu0) = w at hw ⊢
  have h21 : ¬ (2 : Fin 3) = 1 := by decide
  simp only [Fin.sum_univ_three, constantY, Pi.smul_apply, Pi.neg_apply, smul_eq_mul, map_mul, map_neg, conj_ofReal, Pi.zero_apply, map_zero, mul_zero, zero_re,
    add_zero, if_true, if_false, neg_zero, zero_ne_one, map_one, mul_neg, mul_one, one_mul, neg_re, ofReal_re, h21]
  linarith

theorem alternating_eq (x : Idx demoGrid.shape) : alternating x = if (x 0).val = 0 then 1 / 2 else -1 / 2 := by
  have h := C23_plane_wave (N := demoGrid.shape) nyquist
  have e : (fun x : Idx demoGrid.shape => if (x 0).val = 1 then (1 : ℂ) else 0) =
      (1 / 2 : ℂ) • fun k : Idx demoGrid.shape => if k = nyquist then ∏ a, (demoGrid.shape a : ℂ) else 0 := by
    funext k
    have h1 : k = nyquist ↔ (k 0).val = 1 := by
      constructor
      · rintro rfl; rfl
      · intro h; funext a; rw [Fin.fin_one_eq_zero a]; exact Fin.ext h
    simp only [Pi.smul_apply, smul_eq_mul, h1]
    split_ifs <;> simp [demoGrid]
  unfold alternating
  rw [e, ← h, ift_isLinear.map_smul, C23_ift_ft]
  simp only [Pi.smul_apply, smul_eq_mul, Finset.univ_unique, Finset.prod_singleton]
  have hn : ((nyquist default : Fin (demoGrid.shape default)) : ℕ) = 1 := rfl
  have hs : ((demoGrid.shape default : ℕ) : ℂ) = 2 := by simp [demoGrid]
  rw [hn, hs]
  have hx : ((x 0).val = 0 ∨ (x 0).val = 1) := by
    have : (x 0).val < 2 := (x 0).isLt
    omega
  have hd : (x default) = x 0 := rfl
  rw [hd]
  rcases hx with h | h
  · rw [h]; simp
  · rw [h, if_neg one_ne_zero]
    rw [show 2 * (Real.pi : ℂ) * I * (((1 : ℕ) : ℂ) / 2) * ((1 : ℕ) : ℂ) = Real.pi * I by push_cast; ring, exp_pi_mul_I]
    ring

theorem ft_alternating (x : Idx demoGrid.shape) : ft alternating x = if (x 0).val = 1 then 1 else 0 := by
  unfold alternating
  rw [C23_ft_ift]

theorem curl_alternating_eq (k : Fin 1 → Idx demoGrid.shape → ℝ) (c : Fin 3) (x : Idx demoGrid.shape) :
    curl 3 k (fun c x => alternating x * constantY c x) c x = if c = 2 then I * (k 0 nyquist : ℂ) * alternating x else 0 := by
  rw [← spec_curl]
  unfold Spec.Solver.curl
  have e1 : ∀ y, ft (fun x => alternating x * constantY 1 x) y = if (y 0).val = 1 then 1 else 0 := by
    intro y
    rw [show (fun x => alternating x * constantY 1 x) = alternating from funext fun x => by simp [constantY], ft_alternating]
  have e0 : ∀ c', c' ≠ 1 → ∀ y, ft (fun x => alternating x * constantY c' x) y = 0 := by
    intro c' hc y
    have : (fun x => alternating x * constantY c' x) = 0 := by funext x; simp [constantY, hc]
    rw [this, ft_isLinear.map_zero]
    rfl
  have k1 : ∀ y : Idx demoGrid.shape, Spec.Backend.kVector k y 0 = k 0 y := by intro y; simp [Spec.Backend.kVector]
  have k2 : ∀ y : Idx demoGrid.shape, Spec.Backend.kVector k y 1 = 0 := by intro y; simp [Spec.Backend.kVector]
  have k3 : ∀ y : Idx demoGrid.shape, Spec.Backend.kVector k y 2 = 0 := by intro y; simp [Spec.Backend.kVector]
  match c with
  | 0 =>
    rw [show (fun x_1 : Idx demoGrid.shape => I * crossProduct (Spec.Backend.kVector k x_1) (fun c' => ft (fun x => alternating x * constantY c' x) x_1) 0) = 0 by
      funext y; rw [cross_apply]; simp [k2, k3]]
    rw [if_neg (by decide)]
    exact congrFun ift_zero x
  | 1 =>
    rw [show (fun x_1 : Idx demoGrid.shape => I * crossProduct (Spec.Backend.kVector k x_1) (fun c' => ft (fun x => alternating x * constantY c' x) x_1) 1) = 0 by
      funext y; rw [cross_apply]; simp [k3, e0 2 (by decide)]]
    rw [if_neg (by decide)]
    exact congrFun ift_zero x
  | 2 =>
    have : (fun x_1 : Idx demoGrid.shape => I * crossProduct (Spec.Backend.kVector k x_1) (fun c' => ft (fun x => alternating x * constantY c' x) x_1) 2) =
        (I * (k 0 nyquist : ℂ)) • fun y : Idx demoGrid.shape => if (y 0).val = 1 then (1 : ℂ) else 0 := by
      funext y
      rw [cross_apply]
      simp only [Matrix.cons_val, k1, k2, e1, zero_mul, sub_zero, Pi.smul_apply, smul_eq_mul]
      split_ifs with hy
      · have : y = nyquist := by funext a; rw [Fin.fin_one_eq_zero a]; exact Fin.ext hy
        rw [this]; ring
      · simp
    rw [this, ift_isLinear.map_smul, if_pos rfl]
    rfl

/-- The field `1 + (1, -1)` along the second axis, in vacuum and in the units of the code for a wavenumber of 2. -/
noncomputable def standing (alpha : ℂ) : State 3 demoGrid.shape :=
  prepare (vacuum demoGrid.shape) false alpha 1 0 fun c x => 4 * ((1 + 2 * alternating x) * constantY c x)

theorem standing_S {alpha : ℂ} (hα : alpha.im ≠ 0) (co : Const) (i0 : Fin 3) (x0 x : Idx demoGrid.shape) :
    (getS co 2 (backendK demoGrid 2) i0 x0 (standing alpha) 0 x : ℂ) =
      ((backendK demoGrid 2 0 nyquist / (co.mu0 * co.c) : ℝ) : ℂ) * (alternating x + 1 / 2) := by
  have hr := represents_prepare (vacuum demoGrid.shape) false hα (beta := 1) one_ne_zero 0 fun c x => 4 * ((1 + 2 * alternating x) * constantY c x)
  have hk := backendK_origin demoGrid demo_step two_ne_zero
  have hE : getE 2 (standing alpha) = constantY + (2 : ℂ) • fun c x => alternating x * constantY c x := by
    rw [standing, getE_prepare]
    funext c x
    simp only [Pi.add_apply, Pi.smul_apply, smul_eq_mul]
    push_cast
    ring
  have hH := getH_eq hr (vacuum_uniform _ _) co 2 (backendK demoGrid 2) i0 x0
  have hL := curl_isLinear (n := 3) (m := 3) (backendK demoGrid 2)
  have h0 : curl 3 (backendK demoGrid 2) constantY = 0 := curl_uniform hk fun c => if c = 1 then 1 else 0
  have z1 : (vacuum demoGrid.shape).chiHEBeta = fun _ => 0 := by
    funext x
    simp [vacuum, Medium.chiHEBeta]
  have z2 : (vacuum demoGrid.shape).muInv = fun _ => 1 := by
    funext x
    simp [vacuum, Medium.muInv]
  rw [show (prepare (vacuum demoGrid.shape) false alpha 1 0 fun c x => 4 * ((1 + 2 * alternating x) * constantY c x)) = standing alpha from rfl, hE,
    z1, z2, mulField_zero, mulField_one, hL.map_add, hL.map_smul, h0, zero_add, zero_sub] at hH
  rw [C45_poynting, cross_apply, hE, hH]
  simp only [Matrix.cons_val, Pi.add_apply, Pi.smul_apply, Pi.neg_apply, smul_eq_mul, curl_alternating_eq, if_true]
  rw [if_neg (by decide : ¬ (1 : Fin 3) = 2)]
  have hy : constantY 1 x = 1 := by simp [constantY]
  have hz : constantY 2 x = 0 := by simp [constantY]
  rw [hy, hz, alternating_eq]
  generalize backendK demoGrid 2 0 nyquist = κ
  have e : I / ((co.mu0 : ℂ) * (co.c : ℂ)) = ((1 / (co.mu0 * co.c) : ℝ) : ℂ) * I := by push_cast; ring
  rw [e, div_eq_mul_one_div κ]
  generalize 1 / (co.mu0 * co.c) = w
  have e2 : ∀ a : ℝ, (starRingEnd ℂ) ((w : ℂ) * I * -(2 * (I * (κ : ℂ) * (a : ℂ)))) = ((w * (2 * κ * a) : ℝ) : ℂ) := by
    intro a
    have : (w : ℂ) * I * -(2 * (I * (κ : ℂ) * (a : ℂ))) = ((w * (2 * κ * a) : ℝ) : ℂ) := by
      push_cast
      linear_combination (-(w : ℂ) * 2 * κ * a) * I_sq
    rw [this, conj_ofReal]
  split_ifs with hx
  · have e3 : (1 / 2 : ℂ) = ((1 / 2 : ℝ) : ℂ) := by push_cast; rfl
    rw [e3, e2]
    simp only [← ofReal_mul, ← ofReal_add, ← ofReal_one, ← ofReal_ofNat, mul_zero, zero_mul, add_zero, sub_zero, ofReal_re]
    congr 1
    ring
  · have e3 : (-1 / 2 : ℂ) = ((-1 / 2 : ℝ) : ℂ) := by push_cast; rfl
    rw [e3, e2, show (1 / 2 : ℂ) = ((1 / 2 : ℝ) : ℂ) by push_cast; rfl]
    simp only [← ofReal_mul, ← ofReal_add, ← ofReal_one, ← ofReal_ofNat, mul_zero, zero_mul, add_zero, sub_zero, ofReal_re]
    congr 1
    ring

/-- **C45 (divergence of S).** `divS` is not the divergence of S if the wavenumber is not 1, also in vacuum. -/
theorem C45_divergence_violates {alpha : ℂ} (hα : alpha.im ≠ 0) {co : Const} (hc : co.c ≠ 0) (hmu0 : co.mu0 ≠ 0) (i0 : Fin 3) (x0 : Idx demoGrid.shape) :
    ∃ D, getDivS co 2 (backendK demoGrid 2) i0 x0 (standing alpha) = .ok D ∧
      Spec.Solver.divergence (kOf demoGrid) (fun c x => (getS co 2 (backendK demoGrid 2) i0 x0 (standing alpha) c x : ℂ)) ≠ D := by
  obtain ⟨D, h1, h2⟩ := C45_divergence_partial demoGrid demo_step two_ne_zero (by norm_num) co i0 x0 (standing alpha)
  refine ⟨D, h1, fun h => ?_⟩
  have hD : Spec.Solver.divergence (kOf demoGrid) (fun c x => (getS co 2 (backendK demoGrid 2) i0 x0 (standing alpha) c x : ℂ)) = 0 := by
    funext x
    have := h2 x
    rw [h] at this ⊢
    push_cast at this
    have : D x = 0 := by linear_combination -this
    rw [this]; rfl
  have h3 := congrArg ft hD
  unfold Spec.Solver.divergence at h3
  rw [C23_ft_ift, ft_isLinear.map_zero] at h3
  have h4 := congrFun h3 nyquist
  simp only [dotProduct, Fin.sum_univ_three, Spec.Backend.kVector] at h4
  have hS : ft (fun x => (getS co 2 (backendK demoGrid 2) i0 x0 (standing alpha) 0 x : ℂ)) nyquist =
      ((backendK demoGrid 2 0 nyquist / (co.mu0 * co.c) : ℝ) : ℂ) := by
    rw [show (fun x => (getS co 2 (backendK demoGrid 2) i0 x0 (standing alpha) 0 x : ℂ)) =
      ((backendK demoGrid 2 0 nyquist / (co.mu0 * co.c) : ℝ) : ℂ) • (alternating + fun _ => (1 / 2 : ℂ)) from
      funext fun x => by rw [standing_S hα]; rfl]
    rw [ft_isLinear.map_smul, ft_isLinear.map_add, Pi.smul_apply, Pi.add_apply, ft_uniform _ nyquist fun h => absurd (h 0) one_ne_zero, ft_alternating]
    have : ((nyquist 0 : Fin (demoGrid.shape 0)) : ℕ) = 1 := rfl
    rw [if_pos this]
    simp
  rw [hS] at h4
  have hk : ¬ ∀ a, backendK demoGrid 2 a nyquist = 0 := by
    rw [← backendK_origin demoGrid demo_step two_ne_zero]
    intro h
    exact absurd (h 0) one_ne_zero
  apply hk
  intro a
  rw [Fin.fin_one_eq_zero a]
  have hk2 := C31_backend demoGrid demo_step two_ne_zero 0 nyquist
  have c1 := ofReal_ne hc
  have c2 := ofReal_ne hmu0
  simp [hk2, c1, c2, I_ne_zero, hc, hmu0] at h4
  exact h4

end Verif.Solver
