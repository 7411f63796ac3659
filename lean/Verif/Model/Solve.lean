import Verif.Model.Solver

/-!
# Model of python/macromax/solver.py: `Solution.solve`, the function `solve`, and sequences of uses of a Solution object
-/

namespace Verif.Solver

open Verif Verif.Fourier Verif.Backend Complex

variable {d n : ℕ} {N : Fin d → ℕ}

/-- A callback function: it may have a state `σ` of its own, may use or change the Solution object that is its argument, and may raise an exception. -/
abbrev Callback (σ : Type) (n : ℕ) (N : Fin d → ℕ) : Type := σ → State n N → Except PyErr (Bool × σ × State n N)

/-- What `solve` has come to after a number of iterations. -/
inductive Outcome (σ : Type) (n : ℕ) (N : Fin d → ℕ)
  | running (u : σ) (s : State n N)
  | done (u : σ) (s : State n N)
  | raised (e : PyErr)

/-- solver.py 1116–1121: the first `i` iterations of the loop of `solve`. -/
noncomputable def solveLoop (kind : Kind d n) (k : Fin d → Idx N → ℝ) {σ : Type} (callback : Callback σ n N) : ℕ → σ → State n N → Outcome σ n N
  | 0, u, s => .running u s
  | i + 1, u, s => match step kind k s with
    | .error e => .raised e
    | .ok t => match callback u t with
      | .error e => .raised e
      | .ok (again, u', t') => if ! again then .done u' t' else solveLoop kind k callback i u' t'

/-- solver.py 1100, 1112–1114: the functions that test the number of iterations and the residue, `_.iteration < limit and _.residue > rtol`.
A limit of `⊤` is `inf`. -/
noncomputable def criterion (limit : WithTop ℝ) (rtol : ℝ) : Callback Unit n N := fun _ s =>
  if ((s.iteration : ℝ) : WithTop ℝ) < limit then
    match relativeResidue s with
    | (.error e, _) => .error e
    | (.ok r, s') => .ok (decide (((rtol : ℝ) : WithTop ℝ) < r), (), s')
  else .ok (false, (), s)

/-- solver.py 1100: the default value of the argument `callback`. -/
noncomputable def defaultCallback : Callback Unit n N := criterion ((1e4 : ℝ) : WithTop ℝ) 1e-4

/-- The argument `callback` of a call: not given, `None`, or a function that does not have a state. -/
inductive CallbackArg (n : ℕ) (N : Fin d → ℕ)
  | default
  | none
  | function (f : Callback Unit n N)

/-- solver.py 1100–1123: `solve(callback, rtol, maxiter)`, up to `i` iterations. -/
noncomputable def solve (kind : Kind d n) (k : Fin d → Idx N → ℝ) (callback : CallbackArg n N) (rtol : ℝ) (maxiter : WithTop ℝ) (s : State n N) (i : ℕ) :
    Outcome Unit n N :=
  solveLoop kind k (match callback with
    | .default => defaultCallback
    | .none => criterion maxiter rtol
    | .function f => f) i () (start s)

/-- solver.py 25–92: the function `solve`, for a Solution object that has been constructed in state `s`. -/
noncomputable def solveFunction (kind : Kind d n) (k : Fin d → Idx N → ℝ) (callback : CallbackArg n N) (rtol : ℝ) (maxiter : WithTop ℝ) (s : State n N)
    (i : ℕ) : Outcome Unit n N :=
  let callback := match callback with
    | .default => .function defaultCallback
    | .none => .function (criterion maxiter rtol)
    | .function f => .function f
  solve kind k callback 0 ⊤ s i

/-- The uses of a Solution object that change its state: an iteration, a new iterator, reading the residue, assigning the field, assigning the source. -/
inductive Op (n : ℕ) (N : Fin d → ℕ)
  | iterate
  | restart
  | residue
  | setE (E : Field n N)
  | setSource (S : Field n N)

/-- The state after one use; an exception leaves the state of before the statement that raises. -/
noncomputable def Op.apply (kind : Kind d n) (k : Fin d → Idx N → ℝ) (k0 : ℝ) (s : State n N) : Op n N → State n N
  | .iterate => match step kind k s with
    | .ok t => t
    | .error _ => { s with iteration := s.iteration + 1, residue := none }
  | .restart => start s
  | .residue => (relativeResidue s).2
  | .setE E => Solver.setE k0 s E
  | .setSource S => Solver.setSource s S

end Verif.Solver
