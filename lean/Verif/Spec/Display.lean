import Mathlib.Algebra.Order.Field.Basic

/-!
# What the display functions should deliver (properties C16–C19)
-/

namespace Verif.Spec.Display

variable {K : Type} [Field K] [LinearOrder K]

/-- The centre of pixel `i` when `n` equal pixels are drawn side by side from `a` to `b`. -/
def pixelCentre (a b : K) (n i : ℕ) : K := a + (i + 1 / 2) * ((b - a) / n)

/-- The samples `x0, x0 + d, x0 + 2 d, ...` of a uniform range. -/
def uniform (x0 d : K) (n : ℕ) : List K := (List.range n).map fun (i : ℕ) => x0 + i * d

/-- `x` is one of the three channels and none is larger. -/
def IsBrightest (x r g b : K) : Prop := (x = r ∨ x = g ∨ x = b) ∧ r ≤ x ∧ g ≤ x ∧ b ≤ x

/-- `x` is one of the three channels and none is smaller. -/
def IsDarkest (x r g b : K) : Prop := (x = r ∨ x = g ∨ x = b) ∧ x ≤ r ∧ x ≤ g ∧ x ≤ b

/-- `y` is the channel `x` with the value mirrored in the middle between the darkest `lo` and brightest `hi`
channel, if it is neither of both; otherwise `y` is `x`. -/
def Mirrored (lo hi x y : K) : Prop := if x = lo ∨ x = hi then y = x else y = lo + hi - x

/-- The value at `x` of the line through `a` at `p` and `b` at `q`. -/
def onLine (p q a b x : K) : K := a + (x - p) / (q - p) * (b - a)

end Verif.Spec.Display
