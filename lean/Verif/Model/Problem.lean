import Verif.Model.Construct
import Verif.Model.Bias

/-!
# Model of the constructor of Solution as a whole (python/macromax/solver.py 93–268, 298–307, 440–490)

The arguments are arrays (`Construct`, `Assign`); the result is the state that the iteration starts with (`Solver`).  Callables are replaced by
their values.  The results of `scipy.optimize.fmin` are parameters of which nothing is assumed.  Arithmetic is exact.
-/

namespace Verif.Problem

open Verif Verif.Fourier Verif.Solver Verif.Construct Complex
open Verif.Assign (Arr toMatrixField full)

variable {d : ℕ}

/-- The arguments of the constructor, solver.py 94–103.  `electric` and `magnetic` are the susceptibilities of the boundary, `none` if it is not an
instance of `Electric` or `Magnetic`, and `thickness` its thicknesses that are not 0. -/
structure Args (d : ℕ) where
  grid : Grid.Obj d ℝ
  frequency : FreqArgs
  source : Construct.Args
  epsilon : Option (Arr ℂ)
  index : Option (Arr ℂ)
  xi : Arr ℂ
  zeta : Arr ℂ
  mu : Arr ℂ
  electric : Option (Arr ℂ)
  magnetic : Option (Arr ℂ)
  thickness : List ℝ
  initial : Arr ℂ

/-- What `scipy.optimize.fmin` returns: for media that are not magnetic, and for magnetic media. -/
structure Optimum where
  alphaR : ℝ
  vec : ℝ × ℝ

/-- An array in canonical form, as an array with any number of axes. -/
def toArr (f : Assign.Field d ℂ) : Arr ℂ := ⟨List.ofFn f.shape, fun i => f.val fun a => i.getD a 0⟩

/-- An index of an array with the given shape. -/
def InRange (shape i : Fin (d + 2) → ℕ) : Prop := ∀ a, i a < shape a

/-- backend/__init__.py 321–329: `is_scalar`. -/
def isScalar (f : Assign.Field d ℂ) : Bool := f.shape 0 == 1 && f.shape 1 == 1

/-- solver.py 230: `self.__BE.mul(refractive_index, refractive_index)`.  Matrices that are not square are not modelled: the result is an error. -/
noncomputable def squared (f : Assign.Field d ℂ) : Except PyErr (Assign.Field d ℂ) :=
  if isScalar f then .ok ⟨f.shape, fun i => f.val i * f.val i⟩
  else if f.shape 0 = f.shape 1 then
    .ok ⟨f.shape, fun i => ∑ j ∈ Finset.range (f.shape 1),
      f.val (Fin.cons (i 0) (Fin.cons j (Fin.tail (Fin.tail i)))) * f.val (Fin.cons j (Fin.cons (i 1) (Fin.tail (Fin.tail i))))⟩
  else .error .valueError

/-- solver.py 233–234: `1 - 2 * (self.__BE.real(refractive_index) < 0)` -/
noncomputable def signs (f : Assign.Field d ℂ) : Assign.Field d ℂ := ⟨f.shape, fun i => 1 - 2 * (if (f.val i).re < 0 then 1 else 0)⟩

open Classical in
/-- solver.py 224–239: `epsilon` and `mu` before those of the boundary are added. -/
noncomputable def Args.materials (p : Args d) : Except PyErr (Arr ℂ × Arr ℂ) :=
  match p.epsilon with
  | some epsilon => .ok (epsilon, p.mu)
  | none => do
    let index := toMatrixField d (p.index.getD ⟨[], fun _ => 1⟩)
    let epsilon ← squared index
    if isScalar index ∧ ∃ i, InRange index.shape i ∧ (index.val i).re < 0 then
      let mu ← bop (· * ·) p.mu (toArr (signs index))
      return (toArr ⟨epsilon.shape, fun i => epsilon.val i * (signs index).val i⟩, mu)
    else return (toArr epsilon, p.mu)

/-- solver.py 241–253: `epsilon` and `mu` with those of the boundary. -/
noncomputable def Args.bounded (p : Args d) (rows : ℕ) : Except PyErr (Arr ℂ × Arr ℂ) := do
  let (epsilon, mu) ← p.materials
  let epsilon ← match p.electric with
    | some chi => withElectric d rows epsilon chi
    | none => pure epsilon
  let mu ← match p.magnetic with
    | some chi => withMagnetic d rows mu chi
    | none => pure mu
  return (epsilon, mu)

/-- backend/__init__.py 222–224: `np.allclose` with its default tolerances. -/
def closeTo (f : Assign.Field d ℂ) (v : ℂ) : Prop := ∀ i, InRange f.shape i → ‖f.val i - v‖ ≤ 1e-8 + 1e-5 * ‖v‖

open Classical in
/-- solver.py 305–307: `self.__magnetic`. -/
noncomputable def foundMagnetic (xi zeta mu : Assign.Field d ℂ) : Bool := ! (closeTo xi 0 ∧ closeTo zeta 0 ∧ closeTo mu (mu.val fun _ => 0) : Prop)

/-- The matrices of a material in canonical form at the points of the grid.  Shapes other than those of a scalar or matrix for each point, or of one
that is broadcast, are not modelled: the result is an error. -/
noncomputable def toTensor (n : ℕ) (N : Fin d → ℕ) (f : Assign.Field d ℂ) : Except PyErr (Tensor n N) :=
  if (∀ b : Fin d, f.shape b.succ.succ = N b ∨ f.shape b.succ.succ = 1) ∧ ((f.shape 0 = 1 ∧ f.shape 1 = 1) ∨ (f.shape 0 = n ∧ f.shape 1 = n)) then
    .ok fun x => Matrix.of (tensorAt n f fun b => x b)
  else .error .valueError

/-- solver.py 224–307: the material, and whether it is taken to be magnetic. -/
noncomputable def Args.medium (p : Args d) (n : ℕ) : Except PyErr (Medium n p.grid.shape × Bool) := do
  let (epsilon, mu) ← p.bounded n
  let epsilon := toMatrixField d epsilon
  let xi := toMatrixField d p.xi
  let zeta := toMatrixField d p.zeta
  let mu := toMatrixField d mu
  let isMagnetic := foundMagnetic xi zeta mu
  let epsilon ← toTensor n p.grid.shape epsilon
  let xi ← toTensor n p.grid.shape xi
  let zeta ← toTensor n p.grid.shape zeta
  let mu ← toTensor n p.grid.shape mu
  return (⟨epsilon, xi, zeta, mu⟩, isMagnetic)

/-- A field in canonical form at the points of the grid. -/
def toField {n : ℕ} {N : Fin d → ℕ} (v : (Fin (d + 2) → ℕ) → ℂ) : Solver.Field n N := fun c x => v (Fin.cons (c : ℕ) (Fin.cons 0 fun b => x b))

/-- solver.py 183: the factor `-1j * self.angular_frequency * const.mu_0`. -/
noncomputable def Args.currentFactor (co : Const) (p : Args d) : ℂ := -I * (co.omega (p.frequency.k0 co.c) : ℂ) * (co.mu0 : ℂ)

/-- solver.py 187–195: `self.__vectorial`. -/
noncomputable def Args.vectorial (co : Const) (p : Args d) : Bool := p.source.isVectorial (List.ofFn p.grid.shape) (p.currentFactor co)

/-- solver.py 93–268: the state of the Solution object, with `n` components: 3 if `vectorial` and 1 otherwise.  `tol` is `max_allowed_gain`.  A source that can not be broadcast
raises an exception in the first iteration instead of in the constructor. -/
noncomputable def Args.construct (co : Const) (p : Args d) (n : ℕ) [NeZero n] (tol : ℝ) (o : Optimum) : Except PyErr (State n p.grid.shape) :=
  if h : ∀ a, 0 < p.grid.shape a then do
    let k0 := p.frequency.k0 co.c
    let field ← Assign.assign n p.grid.shape ⟨p.initial.shape, fun i => p.initial.val i * ((k0 ^ 2 : ℝ) : ℂ)⟩ (full n p.grid.shape)
    let (m, isMagnetic) ← p.medium n
    let (alpha, beta) := if isMagnetic then m.constantsMagnetic p.grid.step k0 p.thickness o.vec
      else m.constantsNonMagnetic tol k0 p.thickness 0 (fun a => ⟨0, h a⟩) o.alphaR
    let source ← addedSource n p.grid.shape (toMatrixField d (p.source.resolve (List.ofFn p.grid.shape) (p.currentFactor co)).2)
    return prepare m isMagnetic alpha beta (toField source) (toField field)
  else .error .valueError

/-- solver.py 187–200: the number of components follows from `vectorial`. -/
noncomputable def Args.start (co : Const) (p : Args d) (tol : ℝ) (o : Optimum) : Except PyErr (Σ n, State n p.grid.shape) :=
  if p.vectorial co then (p.construct co 3 tol o).map fun s => ⟨3, s⟩ else (p.construct co 1 tol o).map fun s => ⟨1, s⟩

end Verif.Problem
