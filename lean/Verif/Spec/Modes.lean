import Mathlib.Analysis.SpecialFunctions.Complex.Log
import Mathlib.Data.Fintype.BigOperators
import Mathlib.LinearAlgebra.CrossProduct
import Mathlib.Analysis.Calculus.Deriv.Basic

/-!
# Plane waves: raster order, propagation, polarization and superposition
-/

namespace Verif.Spec.Modes

open Complex

variable {d : ℕ}

/-- Raster order of vectors: the first axis varies most slowly. -/
def RasterLT {α : Type} [LT α] (x y : Fin d → α) : Prop := ∃ a, (∀ b < a, x b = y b) ∧ x a < y a

/-- A plane wave with transverse wavevector `k` propagates into the sample. -/
def Propagating (k0 : ℝ) (k : Fin d → ℝ) : Prop := ∑ a, k a ^ 2 < k0 ^ 2

/-- The component of the wavevector along the propagation axis. -/
noncomputable def axial (k0 : ℝ) (k : Fin d → ℝ) : ℝ := Real.sqrt (k0 ^ 2 - ∑ a, k a ^ 2)

/-- Element `c` of a vector with `d` elements, or 0. -/
def component (k : Fin d → ℝ) (c : Fin 2) : ℝ := if h : (c : ℕ) < d then k ⟨c, h⟩ else 0

/-- The rotation along the shortest path that takes the propagation axis to the direction of the unit vector `k` (Rodrigues' formula). -/
noncomputable def rotation (k : Fin 3 → ℝ) (v : Fin 3 → ℂ) : Fin 3 → ℂ :=
  let axis : Fin 3 → ℂ := crossProduct ![1, 0, 0] fun c => (k c : ℂ)
  v + crossProduct axis v + (1 / (1 + (k 0 : ℂ))) • crossProduct axis (crossProduct axis v)

/-- The polarization of a mode with direction `k` and amplitudes `a` along the rotated transverse axes. -/
noncomputable def polarized (k : Fin 3 → ℝ) (a : Fin 2 → ℂ) : Fin 3 → ℂ := rotation k ![0, a 0, a 1]

/-- The phase of a plane wave with wavevector `(axial, k)` at the position `(x0, x)`. -/
noncomputable def planeWave (k0 : ℝ) (k : Fin d → ℝ) (x0 : ℝ) (x : Fin d → ℝ) : ℂ := exp (I * ((axial k0 k * x0 + ∑ a, k a * x a : ℝ) : ℂ))

/-- The superposition of `M` plane waves with the transverse wavevectors `k`, and amplitude vectors `A` (forward), and of those in the opposite directions (`B`); each is divided by the square
root of the cosine of the angle with the propagation axis. -/
noncomputable def superposition {M c : ℕ} (k0 : ℝ) (k : Fin M → Fin d → ℝ) (A B : Fin M → Fin c → ℂ) (i : Fin c) (x0 : ℝ) (x : Fin d → ℝ) : ℂ :=
  ∑ m, (A m i * planeWave k0 (k m) x0 x + B m i * planeWave k0 (fun a => -k m a) (-x0) x) / (Real.sqrt (axial k0 (k m) / k0) : ℝ)

/-- A source of strength `sigma` in one sample of width `step` emits waves of unit amplitude to both sides: that is, the wave `exp(i kz |x|)`, a solution of -E'' - kz² E = 0 on both sides,
solves -E'' - kz² E = `sigma` `step` δ(x), where the right-hand side is the jump of -E'. -/
def UnitSheet (step kz : ℝ) (sigma : ℂ) : Prop := ∃ r l : ℂ,
  HasDerivWithinAt (fun x : ℝ => exp (I * (kz * |x| : ℝ))) r (Set.Ici 0) 0 ∧ HasDerivWithinAt (fun x : ℝ => exp (I * (kz * |x| : ℝ))) l (Set.Iic 0) 0 ∧ -(r - l) = sigma * step

end Verif.Spec.Modes
