import Verif.Num
import Mathlib.Analysis.SpecialFunctions.Log.Basic
import Mathlib.Analysis.SpecialFunctions.Pow.Real

/-!
# Model of `python/macromax/utils/stop_criterion.py`

Residues are real numbers.  Where the floating-point code computes an infinity or a not-a-number the case is spelled out,
including the exception that `int(...)` raises on it.
-/

namespace Verif.StopCriterion

/-- The attributes of an `Adaptive` object, stop_criterion.py lines 19–27. -/
structure State where
  it0 : ℤ
  it1 : ℤ
  res0 : ℝ
  res1 : ℝ
  previous : Option ℤ

/-- stop_criterion.py lines 22–27: the state after construction. -/
def fresh : State := { it0 := 1, it1 := 1, res0 := 1, res1 := 1, previous := none }

/-- `int(x)` of a finite float: truncation towards zero. -/
noncomputable def pyInt (x : ℝ) : ℤ := if 0 ≤ x then ⌊x⌋ else ⌈x⌉

/-- stop_criterion.py lines 46, 47 and the `int(... + 0.5)` of line 50, for the target `target`, the residues `r0` and `r1`
measured `d` iterations apart, when `target ≤ r1`.
* `target < 0`: the logarithm is not-a-number and `int` raises `ValueError`;
* `target == 0`: the logarithm is minus infinity (not-a-number if `r1 == 0` too, or the quotient is if `r0 == 0`) and `int` raises;
* `r0 == 0`: the rate is infinite and the estimate is minus zero;
* a rate of one: division by zero, `int` raises `OverflowError`, or `ValueError` for 0/0. -/
noncomputable def estimate (target r0 r1 : ℝ) (d : ℤ) : Except PyErr ℤ :=
  if target < 0 then .error .valueError
  else if target = 0 then (if r1 = 0 ∨ r0 = 0 then .error .valueError else .error .overflow)
  else if r0 = 0 then .ok 0
  else
    let convergenceRate := (r1 / r0) ^ (1 / (d : ℝ))
    if convergenceRate = 1 then (if target = r1 then .error .valueError else .error .overflow)
    else .ok (pyInt (Real.log (target / r1) / Real.log convergenceRate + 1 / 2))

/-- stop_criterion.py lines 34–36: reset when applied to a new problem. -/
def resetNew (s : State) (iteration : ℤ) : State :=
  match s.previous with
  | some p => if iteration < p then { s with it0 := 1, it1 := 1, previous := some iteration }
    else { s with previous := some iteration }
  | none => { s with previous := some iteration }

/-- stop_criterion.py lines 37–38: schedule the first two checks. -/
def schedule (s : State) (iteration : ℤ) : State :=
  if iteration > max s.it0 s.it1 then { s with it0 := iteration + 25, it1 := iteration + 50 } else s

/-- stop_criterion.py lines 39–52. -/
noncomputable def decide' (target : ℝ) (limit : ℤ) (s : State) (iteration : ℤ) (residue : ℝ) :
    Except PyErr (Bool × State) :=
  if iteration = s.it0 then .ok (true, { s with res0 := residue })
  else if iteration = s.it1 then
    let s := { s with res1 := residue }
    if residue < target then .ok (false, s)
    else do
      let left ← estimate target s.res0 residue (s.it1 - s.it0)
      .ok (true, { s with it0 := s.it1, res0 := residue, it1 := iteration + min (max 1 left) iteration })
  else if iteration ≥ limit then .ok (false, s)
  else .ok (true, s)

/-- stop_criterion.py lines 29–52: `Adaptive(residue=target, iteration=limit)` called with a solution that is at iteration
`iteration` and would report `residue`.  The result is whether to continue. -/
noncomputable def call (target : ℝ) (limit : ℤ) (s : State) (iteration : ℤ) (residue : ℝ) :
    Except PyErr (Bool × State) :=
  decide' target limit (schedule (resetNew s iteration) iteration) iteration residue

/-- The state before iteration `n + 1` when the criterion is called with iterations 1, 2, 3, ... and the residues
`res`, as `Solution.solve` does, and asked to continue every time. `none` if it stopped or raised before. -/
noncomputable def running (target : ℝ) (limit : ℤ) (res : ℕ → ℝ) (start : State) : ℕ → Option State
  | 0 => some start
  | n + 1 =>
    match running target limit res start n with
    | none => none
    | some s =>
      match call target limit s (n + 1 : ℕ) (res (n + 1)) with
      | .ok (true, s') => some s'
      | _ => none

end Verif.StopCriterion
