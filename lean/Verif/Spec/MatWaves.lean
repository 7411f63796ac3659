import Mathlib.Data.Matrix.Mul
import Mathlib.Analysis.Complex.Basic

/-!
# Specification of scattering and transfer matrices, and of regularized inverses
-/

namespace Verif.Spec.Mat

variable {n : ℕ}

/-- Waves propagating in the positive (`p`) and negative (`n`) direction, inwards (`i`) and outwards (`o`). -/
structure Waves (h : ℕ) where
  pi : Fin h → ℂ
  ni : Fin h → ℂ
  po : Fin h → ℂ
  no : Fin h → ℂ

/-- Both halves of a vector with an even number of elements, one after the other. -/
def joined {n : ℕ} (x y : Fin (n / 2) → ℂ) : Fin n → ℂ := fun i =>
  if hi : i.val < n / 2 then x ⟨i, hi⟩ else if hj : i.val - n / 2 < n / 2 then y ⟨i.val - n / 2, hj⟩ else 0

/-- The scattering matrix relates inward waves to outward waves: matrix.py 299–303. -/
def Scatters {n : ℕ} (S : Matrix (Fin n) (Fin n) ℂ) (w : Waves (n / 2)) : Prop := joined w.po w.no = S.mulVec (joined w.pi w.ni)

/-- The transfer matrix relates the waves on one side to those on the other side: matrix.py 305–309. -/
def Transfers {n : ℕ} (T : Matrix (Fin n) (Fin n) ℂ) (w : Waves (n / 2)) : Prop := joined w.po w.ni = T.mulVec (joined w.pi w.no)

/-- The quarter of the matrix for transmission in the negative direction. -/
def backward {n : ℕ} (S : Matrix (Fin n) (Fin n) ℂ) : Matrix (Fin (n / 2)) (Fin (n / 2)) ℂ :=
  .of fun i j => S ⟨n / 2 + i, by omega⟩ ⟨n / 2 + j, by omega⟩

/-- The power of a wave. -/
noncomputable def power (x : Fin n → ℂ) : ℝ := ∑ i, ‖x i‖ ^ 2

/-- The sum that a regularized solution of `A x = b` minimizes, when the noise level is `noise`. -/
noncomputable def tikhonov (A : Matrix (Fin n) (Fin n) ℂ) (noise : ℝ) (b x : Fin n → ℂ) : ℝ := power (fun i => A.mulVec x i - b i) + noise ^ 2 * power x

end Verif.Spec.Mat
