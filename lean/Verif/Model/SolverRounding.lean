import Verif.Model.Solve

/-!
# Model of python/macromax/solver.py: the iteration with rounding errors

The other models of the iteration calculate exactly.  Here every pass may make errors: in the change of the field (the Fourier transforms, the products with the susceptibilities and with the Green function), in
the sum of the field and its change, in the norm of the change, and in the norm of the field.  The errors are arbitrary; they may depend on anything.
Not modelled: errors in the operators, which would be those of a slightly different material; overflow.
The division and the comparison of `relative < 1` are exact: the quotient of two floating-point numbers rounds to a number less than 1 if and only if the first is less than the second.
-/

namespace Verif.Solver

open Verif Verif.Fourier Verif.Backend Complex

variable {d n : ℕ} {N : Fin d → ℕ}

/-- The rounding errors of one pass of the loop, and of the test of the residue after it: of the change of the field, of the sum of the field and its change, of the norm of the change, and of the norm of the
field. -/
structure Rounding (n : ℕ) (N : Fin d → ℕ) where
  change : Field n N
  sum : Field n N
  norm : ℝ
  fieldNorm : ℝ

/-- Exact arithmetic. -/
def Rounding.exact : Rounding n N := ⟨0, 0, 0, 0⟩

/-- solver.py 1064–1098: one pass of the loop of `__iter__`, with rounding errors. -/
noncomputable def stepRounded (kind : Kind d n) (k : Fin d → Idx N → ℝ) (r : Rounding n N) (s : State n N) : Except PyErr (State n N) :=
  let s := { s with iteration := s.iteration + 1, residue := none }
  let dField := fun c x => update kind k s c x + r.change c x
  let current := Backend.norm dField + r.norm
  match divFloat current s.prevNorm with
  | .error e => .error e
  | .ok relative =>
    if relative < 1 then .ok { s with field := fun c x => s.field c x + dField c x + r.sum c x, prevNorm := (current : ℝ) }
    else .ok (updateOperators s (increased s.alpha))

/-- solver.py 1027–1042: `relative_residue`, with a rounding error of the norm of the field. -/
noncomputable def relativeResidueRounded (r : Rounding n N) (s : State n N) : Except PyErr (WithTop ℝ) × State n N :=
  match s.residue with
  | some v => (.ok v, s)
  | none =>
    let fieldNorm := Backend.norm s.field + r.fieldNorm
    let value : Except PyErr (WithTop ℝ) := match s.prevNorm with
      | none => if fieldNorm = 0 then .error .zeroDivision else .ok ⊤
      | some p => if 0 < p then (if fieldNorm = 0 then .error .zeroDivision else .ok ((p / fieldNorm : ℝ) : WithTop ℝ)) else .ok ((0 : ℝ) : WithTop ℝ)
    match value with
    | .ok v => (.ok v, { s with residue := some v })
    | .error e => (.error e, s)

/-- solver.py 1100, 1112–1114: `_.iteration < limit and _.residue > rtol`, with the rounding error of the residue. -/
noncomputable def criterionRounded (r : Rounding n N) (limit : WithTop ℝ) (rtol : ℝ) : Callback Unit n N := fun _ s =>
  if ((s.iteration : ℝ) : WithTop ℝ) < limit then
    match relativeResidueRounded r s with
    | (.error e, _) => .error e
    | (.ok v, s') => .ok (decide (((rtol : ℝ) : WithTop ℝ) < v), (), s')
  else .ok (false, (), s)

/-- solver.py 1100–1123: `solve(None, rtol, maxiter)`, up to `i` iterations, where the `j`-th has the rounding errors `r j`. -/
noncomputable def solveRounded (kind : Kind d n) (k : Fin d → Idx N → ℝ) (r : ℕ → Rounding n N) (rtol : ℝ) (maxiter : WithTop ℝ) (s : State n N) : ℕ → Outcome Unit n N
  | 0 => .running () (start s)
  | i + 1 => match solveRounded kind k r rtol maxiter s i with
    | .running _ s => match stepRounded kind k (r i) s with
      | .error e => .raised e
      | .ok t => match criterionRounded (r i) maxiter rtol () t with
        | .error e => .raised e
        | .ok (again, u, t') => if ! again then .done u t' else .running u t'
    | .done u s => .done u s
    | .raised e => .raised e

end Verif.Solver
