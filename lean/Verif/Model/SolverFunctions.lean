import Verif.Model.Problem

/-!
# Model of functions as arguments of Solution (python/macromax/solver.py 166–185, 222–257)

A function has a fixed number of parameters.  It returns an array or a Python number.
-/

namespace Verif.Problem

open Verif Verif.Construct Verif.Solver
open Verif.Assign (Arr)

variable {d : ℕ}

/-- What a function returns. -/
inductive Value
  | array (a : Arr ℂ)
  | number (v : ℂ)

/-- `np.asarray(value)` -/
def Value.asarray : Value → Arr ℂ
  | .array a => a
  | .number v => ⟨[], fun _ => v⟩

/-- `value.astype(dtype)`: Python numbers do not have this attribute. -/
def Value.astype : Value → Except PyErr (Arr ℂ)
  | .array a => .ok a
  | .number _ => .error .attributeError

/-- A function, with the number of its parameters. -/
structure Fn where
  params : ℕ
  call : List (Arr ℂ) → Except PyErr Value

/-- `f(*args)` -/
def Fn.apply (f : Fn) (args : List (Arr ℂ)) : Except PyErr Value := if args.length = f.params then f.call args else .error .typeError

/-- solver.py 94–103: an argument that is an array, or a number, or a function. -/
inductive Arg
  | value (a : Arr ℂ)
  | function (f : Fn)

/-- ft/grid.py 532–565: `*grid`: the coordinates of each axis, with the axes of the grid unless the axis is flat; or all coordinates one by one for a grid that is made of numbers. -/
noncomputable def unpacked (g : Grid.Obj d ℝ) : Except PyErr (List (Arr ℂ)) :=
  if g.multidimensional then
    (List.finRange d).mapM fun a => if g.stepShort ∧ 0 < a.val then .error .indexError
      else .ok ⟨g.axisShape a, fun i => (((g.coords a).getD (i.getD (if g.flat a then 0 else a) 0) 0 : ℝ) : ℂ)⟩
  else if h : 0 < d then .ok ((g.coords ⟨0, h⟩).map fun x : ℝ => ⟨[], fun _ => (x : ℂ)⟩)
  else .ok []

/-- solver.py 168–172: `func2arr`. -/
noncomputable def func2arr (g : Grid.Obj d ℝ) : Arg → Except PyErr Value
  | .value a => .ok (.array a)
  | .function f => do f.apply (← unpacked g)

/-- The arguments of the constructor, solver.py 94–103, with functions: see `Args`. -/
structure FnArgs (d : ℕ) where
  grid : Grid.Obj d ℝ
  frequency : FreqArgs
  vectorial : Option Bool
  current : Option Arg
  source : Option Arg
  epsilon : Option Arg
  index : Option Arg
  xi : Arg
  zeta : Arg
  mu : Arg
  electric : Option (Arr ℂ)
  magnetic : Option (Arr ℂ)
  thickness : List ℝ
  initial : Arr ℂ

/-- solver.py 173–185: the source. -/
noncomputable def FnArgs.sourceValues (p : FnArgs d) : Except PyErr Construct.Args :=
  match p.source with
  | some s => do pure ⟨p.vectorial, none, some (← func2arr p.grid s).asarray⟩
  | none => match p.current with
    | some j => do pure ⟨p.vectorial, some (← func2arr p.grid j).asarray, none⟩
    | none => pure ⟨p.vectorial, none, none⟩

/-- solver.py 225–239: the permittivity, or else the refractive index. -/
noncomputable def FnArgs.electricValues (p : FnArgs d) : Except PyErr (Option (Arr ℂ) × Option (Arr ℂ)) :=
  match p.epsilon with
  | some e => do pure (some (← (← func2arr p.grid e).astype), none)
  | none => match p.index with
    | some m => do pure (none, some (← (← func2arr p.grid m).astype))
    | none => pure (none, none)

/-- solver.py 173–257: the arguments with the functions replaced by their values. -/
noncomputable def FnArgs.values (p : FnArgs d) : Except PyErr (Args d) := do
  let source ← p.sourceValues
  let mu ← (← func2arr p.grid p.mu).astype
  let (epsilon, index) ← p.electricValues
  let xi ← func2arr p.grid p.xi
  let zeta ← func2arr p.grid p.zeta
  pure ⟨p.grid, p.frequency, source, epsilon, index, xi.asarray, zeta.asarray, mu, p.electric, p.magnetic, p.thickness, p.initial⟩

end Verif.Problem
