import Mathlib.Algebra.Order.Field.Basic
import Mathlib.Data.Int.Cast.Basic

/-!
# Specification of mutable grids, independent of the model

A record of attributes. Assigning to an attribute replaces it and keeps all others; assigning to `first` moves the centre only.
-/

namespace Verif.Spec.MutableGrid

structure State (n : ℕ) (K : Type) where
  shape : Fin n → ℤ
  step : Fin n → K
  center : Fin n → K
  flat : Fin n → Bool
  originAtCenter : Fin n → Bool
  centerAtIndex : Fin n → Bool

variable {n : ℕ} {K : Type} [Field K]

/-- The first sample: `shape // 2` steps before the centre if that is at an index, `(shape - 1) / 2` steps otherwise. -/
def State.first (s : State n K) (i : Fin n) : K :=
  s.center i - (if s.centerAtIndex i then ((s.shape i / 2 : ℤ) : K) else ((s.shape i : K) - 1) / 2) * s.step i

/-- Assignments to the attributes. -/
inductive Assign (n : ℕ) (K : Type)
  | shape (x : Fin n → ℤ)
  | step (x : Fin n → K)
  | center (x : Fin n → K)
  | first (x : Fin n → K)
  | flat (x : Fin n → Bool)
  | originAtCenter (x : Fin n → Bool)

def State.assign (s : State n K) : Assign n K → State n K
  | .shape x => { s with shape := x }
  | .step x => { s with step := x }
  | .center x => { s with center := x }
  | .first x => { s with center := fun i => s.center i + (x i - s.first i) }
  | .flat x => { s with flat := x }
  | .originAtCenter x => { s with originAtCenter := x }

end Verif.Spec.MutableGrid
