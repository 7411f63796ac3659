import Verif.Model.Backend
import Mathlib.LinearAlgebra.Matrix.NonsingularInverse

/-!
# Model of python/macromax/solver.py: operators, iteration and accessors

The arrays of the solver are fields (`Field`) and fields of matrices (`Tensor`) on the sample points.  Scalar material properties are written as multiples of the
identity matrix; property C28 shows that the operations of the back end then have the meaning used here.  Arithmetic is exact.  All arrays have the
shape of the grid: sources with singleton axes are not modelled.  `k` are the wavenumbers of `self.grid * self.wavenumber`, the grid that
the back end uses (solver.py 212).
-/

namespace Verif.Solver

open Verif Verif.Fourier Verif.Backend Complex

variable {d n : ℕ} {N : Fin d → ℕ}

/-- A field with `n` components. -/
abbrev Field (n : ℕ) (N : Fin d → ℕ) : Type := Fin n → Idx N → ℂ

/-- A field of matrices. -/
abbrev Tensor (n : ℕ) (N : Fin d → ℕ) : Type := Idx N → Matrix (Fin n) (Fin n) ℂ

/-- `self.__BE.mul` of a matrix field and a vector field. -/
noncomputable def mulField (A : Tensor n N) (E : Field n N) : Field n N := fun c x => ∑ j, A x c j * E j x

/-- Scalar calculations have one component, vectorial calculations three (solver.py 212), and at most three axes. -/
inductive Kind (d : ℕ) : ℕ → Type
  | scalar : Kind d 1
  | vectorial (hd : d ≤ 3) : Kind d 3

/-- The attributes of a Solution object that change.  `prevNorm = ⊤` is `np.inf`. -/
structure State (n : ℕ) (N : Fin d → ℕ) where
  field : Field n N
  source : Field n N
  alpha : ℂ
  beta : ℝ
  chiEE : Tensor n N
  chiEH : Tensor n N
  chiHE : Tensor n N
  chiHH : Tensor n N
  magnetic : Bool
  prevNorm : WithTop ℝ
  iteration : ℤ
  residue : Option (WithTop ℝ)

/-! ### Frequency -/

/-- The arguments of the constructor that specify the frequency; `wavenumber` is 1 by default. -/
structure FreqArgs where
  wavenumber : ℝ
  angularFrequency : Option ℝ
  vacuumWavelength : Option ℝ

/-- solver.py 149–159: the attribute `__wavenumber`, for arguments other than 0. -/
noncomputable def FreqArgs.k0 (a : FreqArgs) (c : ℝ) : ℝ :=
  match a.angularFrequency with
  | some w => w / c
  | none => match a.vacuumWavelength with
    | some l => 2 * Real.pi / l
    | none => a.wavenumber

/-- solver.py 658–664: `angular_frequency`. -/
def angularFrequency (c k0 : ℝ) : ℝ := k0 * c

/-- solver.py 667–673: `wavelength`. -/
noncomputable def wavelength (k0 : ℝ) : ℝ := 2.0 * Real.pi / k0

/-- solver.py 212: the wavenumbers of the back end, which is made for `self.grid * self.wavenumber` (backend/__init__.py 651–656).
As for `kOf`, the exceptional cases are given the value 0. -/
noncomputable def backendK (g : Grid.Obj d ℝ) (k0 : ℝ) (a : Fin d) (x : Idx g.shape) : ℝ :=
  match Grid.mul g ⟨.float, fun _ => k0⟩ with
  | .error _ => 0
  | .ok g' => match Grid.kGrid (2 * Real.pi) g' with
    | .ok f => (f.coords a).getD (x a) 0
    | .error _ => 0

/-! ### Preconditioner and operators -/

/-- Permittivity, coupling tensors, and permeability, including those of the boundary. -/
structure Medium (n : ℕ) (N : Fin d → ℕ) where
  epsilon : Tensor n N
  xi : Tensor n N
  zeta : Tensor n N
  mu : Tensor n N

/-- solver.py 350: `mu_inv = self.__BE.inv(mu)`. -/
noncomputable def Medium.muInv (m : Medium n N) : Tensor n N := fun x => (m.mu x)⁻¹

/-- solver.py 381: `chiEH_beta`. -/
noncomputable def Medium.chiEHBeta (m : Medium n N) : Tensor n N := fun x => (-I) • (m.xi x * m.muInv x)

/-- solver.py 382: `chiHE_beta`. -/
noncomputable def Medium.chiHEBeta (m : Medium n N) : Tensor n N := fun x => I • (m.muInv x * m.zeta x)

/-- solver.py 385–387: `epsilon_xi_mu_inv_zeta`. -/
noncomputable def Medium.epsilonPrime (m : Medium n N) : Tensor n N := fun x => m.epsilon x - m.xi x * ((-I) • m.chiHEBeta x)

open Classical in
/-- solver.py 305–307: `self.__magnetic`.  `muScalar` tells whether `mu` has been specified without tensor axes; the comparison of a
tensor with its first element is only true for singular tensors.  `allclose` is taken to be exact. -/
noncomputable def Medium.isMagnetic (m : Medium n N) (muScalar : Bool) (x0 : Idx N) : Bool :=
  ! ((∀ x, m.xi x = 0) ∧ (∀ x, m.zeta x = 0) ∧ muScalar ∧ ∀ x, m.mu x = m.mu x0 : Prop)

/-- solver.py 446: `beta` for media that are not magnetic. -/
noncomputable def Medium.betaNonMagnetic (m : Medium n N) (i0 : Fin n) (x0 : Idx N) : ℝ := (m.muInv x0 i0 i0).re

/-- solver.py 591–627: `__increase_bias_to_limit_kernel_width`.  `thickness` are the non-zero thicknesses of the boundary. -/
noncomputable def increaseBias (k0 : ℝ) (thickness : List ℝ) (alpha : ℂ) : ℂ :=
  let offset := alpha.im + 0.05
  let offset := match thickness with
    | [] => offset
    | t :: ts =>
      let minKappa := Real.log 0.001 / (- k0 * ts.foldl min t)
      let n := Real.sqrt (max 0 (alpha.re + minKappa ^ 2))
      let minOffset := 2 * n * minKappa
      if offset < minOffset then minOffset else offset
  alpha.re + I * offset

/-- solver.py 713, 716: the factor `1.0j / self.__alpha.imag / self.__beta`. -/
noncomputable def factor (alpha : ℂ) (beta : ℝ) : ℂ := I / (alpha.im : ℂ) / (beta : ℂ)

/-- solver.py 473–487: the state after the preconditioner constants have been chosen, before `__update_operators`.  The source is set in 487 by the setter, 703–720. -/
noncomputable def prepared (m : Medium n N) (magnetic : Bool) (alpha : ℂ) (beta : ℝ) (source field : Field n N) : State n N where
  field := field
  source := fun c x => source c x * factor alpha beta
  alpha := alpha
  beta := beta
  chiEH := fun x => factor alpha beta • m.chiEHBeta x
  chiHE := fun x => factor alpha beta • m.chiHEBeta x
  chiHH := fun x => (I / (alpha.im : ℂ)) • (1 - (1 / (beta : ℂ)) • m.muInv x)
  chiEE := fun x => factor alpha beta • m.epsilonPrime x - (alpha * I / (alpha.im : ℂ)) • (1 : Matrix (Fin n) (Fin n) ℂ)
  magnetic := magnetic
  prevNorm := ⊤
  iteration := 0
  residue := none

/-- solver.py 517–528: the part of `__update_operators` that changes the stored arrays. -/
noncomputable def updateOperators (s : State n N) (alpha : ℂ) : State n N where
  field := s.field
  source := fun c x => s.source c x * ((s.alpha.im : ℂ) / (alpha.im : ℂ))
  alpha := alpha
  beta := s.beta
  chiEH := fun x => ((s.alpha.im : ℂ) / (alpha.im : ℂ)) • s.chiEH x
  chiHE := fun x => ((s.alpha.im : ℂ) / (alpha.im : ℂ)) • s.chiHE x
  chiHH := fun x => ((s.alpha.im : ℂ) / (alpha.im : ℂ)) • s.chiHH x
  chiEE := fun x => (I / (alpha.im : ℂ)) •
    ((I / (s.alpha.im : ℂ))⁻¹ • s.chiEE x + (s.alpha - alpha) • (1 : Matrix (Fin n) (Fin n) ℂ))
  magnetic := s.magnetic
  prevNorm := s.prevNorm
  iteration := s.iteration
  residue := s.residue

/-- solver.py 270–493: `__prepare_preconditioner`, after the choice of alpha and beta. -/
noncomputable def prepare (m : Medium n N) (magnetic : Bool) (alpha : ℂ) (beta : ℝ) (source field : Field n N) : State n N :=
  updateOperators (prepared m magnetic alpha beta source field) alpha

/-- solver.py 531–563: `chi_op`. -/
noncomputable def chiOp (k : Fin d → Idx N → ℝ) (s : State n N) (E : Field n N) : Field n N :=
  if s.magnetic then
    let ED := curl n k E
    let chiE := fun c x => mulField s.chiEE E c x + mulField s.chiHE ED c x
    let chiH := fun c x => mulField s.chiEH E c x + mulField s.chiHH ED c x
    fun c x => chiE c x + curl n k chiH c x
  else mulField s.chiEE E

/-- solver.py 565–568: `g_scalar_ft`. -/
noncomputable def gScalar (k : Fin d → Idx N → ℝ) (alpha : ℂ) (x : Idx N) : ℂ := -I * (alpha.im : ℂ) / ((k2 k x : ℂ) - alpha)

/-- solver.py 570–581: `g_ft_op`. -/
noncomputable def greenFt (k : Fin d → Idx N → ℝ) (alpha : ℂ) : {n : ℕ} → Kind d n → (Fin n → Idx N → ℂ) → (Fin n → Idx N → ℂ)
  | _, .vectorial hd, F =>
    let piL := longitudinalFt k origin hd F
    fun c x => (F c x - piL c x) * gScalar k alpha x + piL c x * (I * (alpha.im : ℂ) / alpha)
  | _, .scalar, F => fun c x => F c x * gScalar k alpha x

/-- solver.py 583–584: `dyadic_green_function_op`. -/
noncomputable def green (kind : Kind d n) (k : Fin d → Idx N → ℝ) (alpha : ℂ) : Field n N → Field n N := convolve (greenFt k alpha kind)

/-! ### The iteration -/

/-- solver.py 1070–1075: the change of the field. -/
noncomputable def update (kind : Kind d n) (k : Fin d → Idx N → ℝ) (s : State n N) : Field n N :=
  let dField := chiOp k s s.field
  let dField := fun c x => dField c x + s.source c x
  let dField := green kind k s.alpha dField
  let dField := fun c x => dField c x - s.field c x
  chiOp k s dField

/-- A division of Python floats by `prev`, which may be infinite. -/
noncomputable def divFloat (x : ℝ) : WithTop ℝ → Except PyErr ℝ
  | none => .ok 0
  | some p => if p = 0 then .error .zeroDivision else .ok (x / p)

/-- solver.py 1091–1092: `alpha_new`. -/
noncomputable def increased (alpha : ℂ) : ℂ := (alpha.re : ℂ) + 1.5 * I * (alpha.im : ℂ)

/-- solver.py 1064–1098: one pass of the loop of `__iter__`. -/
noncomputable def step (kind : Kind d n) (k : Fin d → Idx N → ℝ) (s : State n N) : Except PyErr (State n N) :=
  let s := { s with iteration := s.iteration + 1, residue := none }
  let dField := update kind k s
  let current := Backend.norm dField
  match divFloat current s.prevNorm with
  | .error e => .error e
  | .ok relative =>
    if relative < 1 then .ok { s with field := fun c x => s.field c x + dField c x, prevNorm := (current : ℝ) }
    else .ok (updateOperators s (increased s.alpha))

/-- solver.py 1063: what happens at the first `next()` of an iterator. -/
def start (s : State n N) : State n N := { s with iteration := 0 }

/-- solver.py 1027–1042: `relative_residue`: the result, and the state with the cached value. -/
noncomputable def relativeResidue (s : State n N) : Except PyErr (WithTop ℝ) × State n N :=
  match s.residue with
  | some r => (.ok r, s)
  | none =>
    let value : Except PyErr (WithTop ℝ) := match s.prevNorm with
      | none => if Backend.norm s.field = 0 then .error .zeroDivision else .ok ⊤
      | some p => if 0 < p then (if Backend.norm s.field = 0 then .error .zeroDivision else .ok ((p / Backend.norm s.field : ℝ) : WithTop ℝ)) else .ok ((0 : ℝ) : WithTop ℝ)
    match value with
    | .ok r => (.ok r, { s with residue := some r })
    | .error e => (.error e, s)

/-! ### Accessors -/

/-- The constants `scipy.constants.c`, `mu_0` and `epsilon_0`. -/
structure Const where
  c : ℝ
  mu0 : ℝ
  epsilon0 : ℝ

/-- solver.py 658–664: `angular_frequency`. -/
def Const.omega (co : Const) (k0 : ℝ) : ℝ := angularFrequency co.c k0

/-- solver.py 812–822: the getter of `E`. -/
noncomputable def getE (k0 : ℝ) (s : State n N) : Field n N := fun c x => s.field c x / (k0 ^ 2 : ℝ)

/-- solver.py 824–832: the setter of `E`. -/
noncomputable def setE (k0 : ℝ) (s : State n N) (E : Field n N) : State n N :=
  { s with field := fun c x => E c x * (k0 ^ 2 : ℝ), prevNorm := ⊤ }

/-- solver.py 691–701: the getter of `source_distribution`. -/
noncomputable def getSource (s : State n N) : Field n N := fun c x => s.source c x * ((s.beta : ℂ) / I * (s.alpha.im : ℂ))

/-- solver.py 703–720: the setter of `source_distribution`. -/
noncomputable def setSource (s : State n N) (S : Field n N) : State n N :=
  { s with source := fun c x => S c x * factor s.alpha s.beta, prevNorm := ⊤ }

/-- solver.py 789–798: the getter of `j`. -/
noncomputable def getJ (co : Const) (k0 : ℝ) (s : State n N) : Field n N :=
  fun c x => getSource s c x / (-I * (co.omega k0 : ℂ) * (co.mu0 : ℂ))

/-- solver.py 800–810: the setter of `j`. -/
noncomputable def setJ (co : Const) (k0 : ℝ) (s : State n N) (J : Field n N) : State n N :=
  setSource s fun c x => J c x * (-I * (co.omega k0 : ℂ) * (co.mu0 : ℂ))

/-- solver.py 182–183: the source for a given `current_density`. -/
noncomputable def sourceOfCurrent (co : Const) (k0 : ℝ) (J : Field n N) : Field n N :=
  fun c x => J c x * (-I * (co.omega k0 : ℂ) * (co.mu0 : ℂ))

/-- solver.py 834–845: `B`. -/
noncomputable def getB (co : Const) (k0 : ℝ) (k : Fin d → Idx N → ℝ) (s : State n N) : Field n N :=
  fun c x => curl n k (getE k0 s) c x / (I * (co.c : ℂ))

/-- solver.py 865–893: `H`.  `i0` and `x0` are the first component and the first point. -/
noncomputable def getH (co : Const) (k0 : ℝ) (k : Fin d → Idx N → ℝ) (i0 : Fin n) (x0 : Idx N) (s : State n N) : Field n N :=
  let E := getE k0 s
  if s.magnetic then
    let muInv : Tensor n N := fun x => (s.beta : ℂ) • (1 - (-I * (s.alpha.im : ℂ)) • s.chiHH x)
    let coupling : Tensor n N := fun x => (-I * (s.alpha.im : ℂ)) • s.chiHE x
    fun c x => I / ((co.mu0 : ℂ) * (co.c : ℂ)) *
      (-mulField muInv (curl n k E) c x + (s.beta : ℂ) * mulField coupling E c x)
  else
    let muInv : ℂ := (1 - s.chiHH x0 i0 i0 * (-I * (s.alpha.im : ℂ))) * (s.beta : ℂ)
    fun c x => muInv * (-I / ((co.mu0 : ℂ) * (co.c : ℂ)) * curl n k E c x)

/-- solver.py 847–863: `D`. -/
noncomputable def getD (co : Const) (k0 : ℝ) (k : Fin d → Idx N → ℝ) (i0 : Fin n) (x0 : Idx N) (s : State n N) : Field n N :=
  fun c x => (curl n k (getH co k0 k i0 x0 s) c x * (k0 : ℂ) -
    ((s.beta : ℂ) / (I * (co.omega k0 : ℂ) * (co.mu0 : ℂ))) * (s.source c x * ((s.alpha.im : ℂ) / I))) * (I / (co.omega k0 : ℂ))

/-- solver.py 895–909: `S`. -/
noncomputable def getS (co : Const) (k0 : ℝ) (k : Fin d → Idx N → ℝ) (i0 : Fin n) (x0 : Idx N) (s : State n N) : Fin n → Idx N → ℝ :=
  fun c x => 1 / 2 * (cross (getE k0 s) (fun c x => (starRingEnd ℂ) (getH co k0 k i0 x0 s c x)) c x).re

/-- solver.py 911–918: `divS`. -/
noncomputable def getDivS (co : Const) (k0 : ℝ) (k : Fin d → Idx N → ℝ) (i0 : Fin n) (x0 : Idx N) (s : State n N) :
    Except PyErr (Idx N → ℂ) := div k fun c x => (getS co k0 k i0 x0 s c x : ℂ)

/-- solver.py 920–936: `energy_density`. -/
noncomputable def getEnergy (co : Const) (k0 : ℝ) (k : Fin d → Idx N → ℝ) (i0 : Fin n) (x0 : Idx N) (s : State n N) (x : Idx N) : ℝ :=
  (∑ c, (getE k0 s c x * (starRingEnd ℂ) (getD co k0 k i0 x0 s c x)).re +
    ∑ c, (getB co k0 k s c x * (starRingEnd ℂ) (getH co k0 k i0 x0 s c x)).re) * (0.5 * 0.5)

/-- solver.py 938–958: `stress_tensor`. -/
noncomputable def getStress (co : Const) (k0 : ℝ) (k : Fin d → Idx N → ℝ) (i0 : Fin n) (x0 : Idx N) (s : State n N) (i j : Fin n)
    (x : Idx N) : ℝ :=
  let E := getE k0 s
  let H := getH co k0 k i0 x0 s
  let E2 : ℝ := ∑ c, ‖E c x‖ ^ 2
  let H2 : ℝ := ∑ c, ‖H c x‖ ^ 2
  (0.5 * ((co.epsilon0 : ℂ) * outer E E i j x + outer H H i j x * (co.mu0 : ℂ) -
    0.5 * (if i = j then 1 else 0) * ((co.epsilon0 * E2 + H2 * co.mu0 : ℝ) : ℂ))).re

/-- solver.py 960–975: `f`. -/
noncomputable def getForce (co : Const) (k0 : ℝ) (k : Fin d → Idx N → ℝ) (i0 : Fin n) (x0 : Idx N) (s : State n N) :
    Except PyErr (Fin n → Idx N → ℝ) :=
  (divTensor k fun i j x => (getStress co k0 k i0 x0 s i j x : ℂ)).map fun F j x => (F j x).re * k0

/-- solver.py 977–995: `torque`. -/
noncomputable def getTorque (co : Const) (k0 : ℝ) (k : Fin d → Idx N → ℝ) (x0 : Idx N) (s : State 3 N) : Fin 3 → Idx N → ℝ :=
  ![getStress co k0 k 0 x0 s 1 2, getStress co k0 k 0 x0 s 0 2, getStress co k0 k 0 x0 s 0 1]

/-- solver.py 732–753: the getter of `epsilon`; `boundChi` is the electric susceptibility of the boundary, 0 without. -/
noncomputable def getEpsilon (boundChi : Idx N → ℂ) (s : State n N) : Tensor n N := fun x =>
  let epsilon := ((s.alpha.im : ℂ) * (s.beta : ℂ) / I) • s.chiEE x
  let epsilon := if s.magnetic then
      let chiHH := ((s.alpha.im : ℂ) / I) • s.chiHH x
      let muInv := (s.beta : ℂ) • (1 - chiHH)
      let mu := muInv⁻¹
      let chiEHBeta := ((s.alpha.im : ℂ) * (s.beta : ℂ) / I) • s.chiEH x
      let xi := I • (chiEHBeta * mu)
      let chiHEBeta := ((s.alpha.im : ℂ) * (s.beta : ℂ) / I) • s.chiHE x
      epsilon + xi * ((-I) • chiHEBeta)
    else epsilon
  epsilon - boundChi x • (1 : Matrix (Fin n) (Fin n) ℂ)

/-- solver.py 755–786: the medium that the setter of `epsilon` hands to `__prepare_preconditioner`, for a boundary without magnetic properties. -/
noncomputable def assignedMedium (boundChi : Idx N → ℂ) (i0 : Fin n) (x0 : Idx N) (s : State n N) (epsilon : Tensor n N) : Medium n N where
  epsilon := fun x => epsilon x - boundChi x • (1 : Matrix (Fin n) (Fin n) ℂ)
  mu := fun x =>
    if s.magnetic then ((s.beta : ℂ) • (1 - ((s.alpha.im : ℂ) / I) • s.chiHH x))⁻¹
    else (((1 - (s.alpha.im : ℂ) / I * s.chiHH x0 i0 i0) * (s.beta : ℂ)) • (1 : Matrix (Fin n) (Fin n) ℂ))⁻¹
  xi := fun x =>
    if s.magnetic then I • ((((s.alpha.im : ℂ) * (s.beta : ℂ) / I) • s.chiEH x) * ((s.beta : ℂ) • (1 - ((s.alpha.im : ℂ) / I) • s.chiHH x))⁻¹)
    else 0
  zeta := fun x =>
    if s.magnetic then (-I) • (((s.beta : ℂ) • (1 - ((s.alpha.im : ℂ) / I) • s.chiHH x))⁻¹ * (((s.alpha.im : ℂ) * (s.beta : ℂ) / I) • s.chiHE x))
    else 0

end Verif.Solver
