import Verif.Spec.Refinement

/-!
# Values between the samples (property C128)
-/

namespace Verif.Spec.Refinement

open Verif.Spec.Continuous Verif.Fourier

variable {d : ℕ}

/-- The values of a function of the position at the points of the grid after it is displaced.  Every point of space is a point of a displaced grid. -/
def DisplacedFrom {T : Type} (g : Grid.Obj d ℝ) (u : Point) (f : Point → T) (s : Idx g.shape → T) : Prop := ∀ x r, AtSample g x r → s x = f (r + u)

end Verif.Spec.Refinement
