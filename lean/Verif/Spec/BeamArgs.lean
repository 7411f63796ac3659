import Verif.Model.Beam
import Verif.Model.Assign

/-!
# Specification of arrays that are given for a section of a beam
-/

namespace Verif.Beam

open Verif Verif.Fourier

variable {o : Optics}

/-- An array with the first shape can be broadcast to the second: its axes are the last ones, and those that have more than one element have as many. -/
def Fits (s t : List ℕ) : Prop := ∃ left right, t = left ++ right ∧ List.Forall₂ (fun l m => l = 1 ∨ l = m) s right

/-- The index of the element that is used for an index of the result. -/
def indexIn (s i : List ℕ) : List ℕ := List.zipWith (fun l j => if l = 1 then 0 else j) s (i.drop (i.length - s.length))

/-- The value of an array at a point of a section. -/
def atPoint (a : Assign.Arr ℂ) (x : Idx o.grid.shape) : ℂ := a.val (indexIn a.shape (0 :: List.ofFn fun b => (x b : ℕ)))

end Verif.Beam
