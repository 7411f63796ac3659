import Verif.Model.Fourier
import Verif.Model.GridOps
import Mathlib.LinearAlgebra.CrossProduct

/-!
# Model of the vector calculus of the back end (python/macromax/backend/__init__.py)

A field with `m` components over the sample points `X` is a function `Fin m → X → ℂ`.  The second axis of the arrays of the code, of
length 1 for vector fields, is left out except where it matters (`divFt`).  Working arrays are values, their reuse is not modelled.
The operations in Fourier space have the components of the k-vectors, `k`, as an argument; `kOf` is its value for a grid.
-/

namespace Verif.Backend

open Verif Verif.Fourier Complex

variable {d : ℕ}

/-- backend/__init__.py 651–656: `self.k`, the coordinates of `self.grid.k`, at the sample point with the given indices.
The exceptional cases of `Grid.k` (an axis with zero step) are given the value 0. -/
noncomputable def kOf (g : Grid.Obj d ℝ) (a : Fin d) (x : Idx g.shape) : ℝ :=
  match Grid.kGrid (2 * Real.pi) g with
  | .ok f => (f.coords a).getD (x a) 0
  | .error _ => 0

section Pointwise
variable {X : Type} {m n : ℕ}

/-- backend/__init__.py 658–668: `k2`. -/
noncomputable def k2 (k : Fin d → X → ℝ) (x : X) : ℝ := ∑ a, k a x ^ 2

/-- backend/__init__.py 501, 524: `(dim_idx + np.array([-1, 1])) % vector_length`. -/
def otherDims (n dim : ℕ) : ℕ × ℕ := ((dim + (n - 1)) % n, (dim + 1) % n)

/-- backend/__init__.py 483–509: `curl_ft` for a back end with `vector_length = n` and a field with `m` components. -/
noncomputable def curlFt (n : ℕ) (k : Fin d → X → ℝ) (F : Fin m → X → ℂ) : Fin n → X → ℂ := fun dim x =>
  let other := otherDims n dim
  let value := if h : other.1 < m ∧ other.2 < d then (k ⟨other.2, h.2⟩ x : ℂ) * F ⟨other.1, h.1⟩ x else 0
  let value := if h : other.2 < m ∧ other.1 < d then value - (k ⟨other.1, h.2⟩ x : ℂ) * F ⟨other.2, h.1⟩ x else value
  I * value

/-- backend/__init__.py 511–529: `cross`. -/
noncomputable def cross (A B : Fin n → X → ℂ) : Fin n → X → ℂ := fun dim x =>
  have hn : 0 < n := Nat.pos_of_ne_zero fun h => (h ▸ dim).elim0
  let o0 : Fin n := ⟨(otherDims n dim).1, Nat.mod_lt _ hn⟩
  let o1 : Fin n := ⟨(otherDims n dim).2, Nat.mod_lt _ hn⟩
  A o1 x * B o0 x - A o0 x * B o1 x

/-- backend/__init__.py 531–542: `outer`. -/
noncomputable def outer (A B : Fin n → X → ℂ) : Fin n → Fin n → X → ℂ := fun i j x => A i x * (starRingEnd ℂ) (B j x)

/-- backend/__init__.py 555–569: `div_ft` for a field with `m × p` components; the loop is over the `d` axes of the grid, as
`min(self.grid.ndim, len(field_array_ft.shape))` always equals the former. -/
noncomputable def divFt {p : ℕ} (k : Fin d → X → ℝ) (F : Fin m → Fin p → X → ℂ) : Except PyErr (Fin p → X → ℂ) :=
  if h : d ≤ m then .ok fun j x => ∑ a : Fin d, I * (k a x : ℂ) * F (Fin.castLE h a) j x else .error .indexError

/-- backend/__init__.py 606–649: `longitudinal_projection_ft` for a field with at least as many components as the grid has axes;
otherwise the code raises an IndexError in line 633.  `origin x` tells whether `x` is the first point of the raveled array. -/
noncomputable def longitudinalFt (k : Fin d → X → ℝ) (origin : X → Prop) [DecidablePred origin] (h : d ≤ m) (F : Fin m → X → ℂ) :
    Fin m → X → ℂ := fun c x =>
  let projection := ∑ a : Fin d, (k a x : ℂ) * F (Fin.castLE h a) x
  let projection := if origin x then projection else projection / (k2 k x : ℂ)
  if hc : (c : ℕ) < d then
    if origin x then F c x else (k ⟨c, hc⟩ x : ℂ) * projection
  else 0

/-- backend/__init__.py 593–605: `transversal_projection_ft`. -/
noncomputable def transversalFt (k : Fin d → X → ℝ) (origin : X → Prop) [DecidablePred origin] (h : d ≤ m) (F : Fin m → X → ℂ) :
    Fin m → X → ℂ := fun c x => F c x - longitudinalFt k origin h F c x

end Pointwise

/-- The first point of an array. -/
def origin {N : Fin d → ℕ} (x : Idx N) : Prop := ∀ a, (x a : ℕ) = 0

instance {N : Fin d → ℕ} : DecidablePred (origin (N := N)) := fun x => by unfold origin; infer_instance

section Space
variable {N : Fin d → ℕ} {n m : ℕ}

/-- backend/__init__.py 472–481: `curl`. -/
noncomputable def curl (n : ℕ) (k : Fin d → Idx N → ℝ) : (Fin m → Idx N → ℂ) → (Fin n → Idx N → ℂ) := convolve (curlFt n k)

/-- backend/__init__.py 544–553: `div` of a vector field (`p = 1`). -/
noncomputable def div (k : Fin d → Idx N → ℝ) (F : Fin m → Idx N → ℂ) : Except PyErr (Idx N → ℂ) :=
  (divFt (p := 1) k fun c _ => ft (F c)).map fun D => ift (D 0)

/-- backend/__init__.py 544–553: `div` of a tensor field. -/
noncomputable def divTensor {p : ℕ} (k : Fin d → Idx N → ℝ) (F : Fin m → Fin p → Idx N → ℂ) : Except PyErr (Fin p → Idx N → ℂ) :=
  (divFt k fun c j => ft (F c j)).map fun D j => ift (D j)

/-- backend/__init__.py 582–591: `longitudinal_projection`. -/
noncomputable def longitudinal (k : Fin d → Idx N → ℝ) (h : d ≤ m) : (Fin m → Idx N → ℂ) → (Fin m → Idx N → ℂ) :=
  convolve (longitudinalFt k origin h)

/-- backend/__init__.py 571–580: `transversal_projection`. -/
noncomputable def transversal (k : Fin d → Idx N → ℝ) (h : d ≤ m) : (Fin m → Idx N → ℂ) → (Fin m → Idx N → ℂ) :=
  convolve (transversalFt k origin h)

/-- backend/__init__.py 872–874: `norm`. -/
noncomputable def norm (F : Fin m → Idx N → ℂ) : ℝ := Real.sqrt (∑ c, ∑ x, ‖F c x‖ ^ 2)

end Space

end Verif.Backend
