import Mathlib.Analysis.SpecialFunctions.Pow.Complex
import Mathlib.Analysis.SpecialFunctions.Complex.Log
import Mathlib.LinearAlgebra.Matrix.Notation

/-!
# Model of python/macromax/backend/__init__.py: the roots of polynomials of low order, and the eigenvalues of 3×3 matrices

One polynomial or matrix: the code treats all points in space independently.  `eps` is the machine precision of the data type (`BackEnd.eps`); all arithmetic
is exact, powers `** 0.5` and `** (1/3)` are principal powers of complex numbers, and NaN is `none`.
-/

namespace Verif.Roots

open Complex

/-- The exceptions that are raised. -/
inductive Err | notImplemented | valueError
  deriving DecidableEq

/-- 744–745: `sign`, without the zero. -/
noncomputable def sgn (x : ℝ) : ℂ := if 0 ≤ x then 1 else -1

/-- backend/__init__.py `BackEnd.sign`, i.e. `numpy.sign`: with the zero. -/
noncomputable def npSign (x : ℝ) : ℂ := if 0 < x then 1 else if x < 0 then -1 else 0

/-- 747–748: `is_significant`. -/
def Significant (eps : ℝ) (z : ℂ) : Prop := √eps < ‖z‖

open Classical in
/-- A Boolean array that is used as a number. -/
noncomputable def ind (p : Prop) : ℂ := if p then 1 else 0

open Classical in
/-- 762–768: the loop of `add_roots` over the coefficients from low to high order; the number of passes left, the number of roots that were added, and the value of
`lower_order` in the last pass. -/
noncomputable def addLoop (eps : ℝ) : ℕ → List ℂ → ℕ → Bool → List ℂ × ℕ × Bool
  | 0, C, r, l => (C, r, l)
  | i + 1, C, r, _ => if ‖C.getLastD 0‖ < 2 * eps then addLoop eps i (0 :: C.dropLast) (r + 1) true else addLoop eps i C r false

/-- 750–771: `add_roots`. -/
noncomputable def addRoots (eps : ℝ) (C : List ℂ) : List ℂ × ℕ :=
  let (C', r, l) := addLoop eps C.length C 0 false
  (if l then C'.dropLast ++ [1] else C', r)

open Classical in
/-- 786–791: the loop of `remove_roots`, from the last to the first root. -/
noncomputable def removeLoop (eps : ℝ) : List ℂ → ℕ → List (Option ℂ) × ℕ
  | [], r => ([], r)
  | x :: X, r =>
    let (Y, r') := removeLoop eps X r
    if ¬ Significant eps x ∧ 0 < r' then (none :: Y, r' - 1) else (some x :: Y, r')

/-- 230–232: `numpy.sort` orders complex numbers by real part and then by imaginary part, and puts NaN at the end. -/
noncomputable def sort (X : List (Option ℂ)) : List (Option ℂ) := by
  classical
  exact X.mergeSort fun x y => match x, y with
    | _, none => true
    | none, some _ => false
    | some z, some w => decide (z.re < w.re ∨ (z.re = w.re ∧ z.im ≤ w.im))

/-- 773–793: `remove_roots`. -/
noncomputable def removeRoots (eps : ℝ) (X : List ℂ) (r : ℕ) : List (Option ℂ) := sort (removeLoop eps X r).1

/-- 800: the root of a linear polynomial. -/
noncomputable def linear (c0 c1 : ℂ) : List ℂ := [-c0 / c1]

/-- 805–807: `q` for a quadratic polynomial. -/
noncomputable def quadraticQ (c0 c1 c2 : ℂ) : ℂ :=
  let d := c1 ^ 2 - 4 * c2 * c0
  let s := d ^ (1 / 2 : ℂ)
  (-1 / 2) * (c1 + sgn ((starRingEnd ℂ) c1 * s).re * s)

/-- 805–808: the roots of a quadratic polynomial. -/
noncomputable def quadratic (eps : ℝ) (c0 c1 c2 : ℂ) : List ℂ :=
  let q := quadraticQ c0 c1 c2
  [q / c2, c0 / (q + ind (¬ Significant eps c0) * ind (¬ Significant eps q))]

/-- 812–818: the normalized coefficients `a`, `Q` and `R` of a cubic polynomial. -/
noncomputable def cubicA (c2 c3 : ℂ) : ℂ := c2 / c3 / 3
noncomputable def cubicQ (c1 c2 c3 : ℂ) : ℂ := cubicA c2 c3 ^ 2 - c1 / c3 / 3
noncomputable def cubicR (c0 c1 c2 c3 : ℂ) : ℂ := cubicA c2 c3 ^ 3 + (-cubicA c2 c3 * (c1 / c3) + c0 / c3) / 2

/-- 820–839: `A` and `B`; `complex_root` is always True, so that the variables for the other case are not used. -/
noncomputable def cubicAB (eps : ℝ) (Q R : ℂ) : ℂ × ℂ :=
  let S := (R ^ 2 - Q ^ 3) ^ (1 / 2 : ℂ)
  let A := -(R + sgn ((starRingEnd ℂ) R * S).re * S) ^ (1 / 3 : ℂ)
  let B1 := Q / (A + ind (¬ Significant eps A))
  let B2 := -(R - npSign ((starRingEnd ℂ) R * S).re * S) ^ (1 / 3 : ℂ)
  (A, ind (Significant eps A) * B1 + ind (¬ Significant eps A) * B2)

/-- 840: the cube root of 1. -/
noncomputable def omega : ℂ := exp (2 * Real.pi * I / 3)

/-- 840–842: the roots of a cubic polynomial; the exponents of the cube root of 1 are -1, 0 and 1. -/
noncomputable def cubic (eps : ℝ) (c0 c1 c2 c3 : ℂ) : List ℂ :=
  let (A, B) := cubicAB eps (cubicQ c1 c2 c3) (cubicR c0 c1 c2 c3)
  [A * exp (2 * Real.pi * I * (-1) / 3) + B * (starRingEnd ℂ) (exp (2 * Real.pi * I * (-1) / 3)) - cubicA c2 c3,
   A * exp (2 * Real.pi * I * 0 / 3) + B * (starRingEnd ℂ) (exp (2 * Real.pi * I * 0 / 3)) - cubicA c2 c3,
   A * exp (2 * Real.pi * I * 1 / 3) + B * (starRingEnd ℂ) (exp (2 * Real.pi * I * 1 / 3)) - cubicA c2 c3]

/-- 725–850: `calc_roots_of_low_order_polynomial`, for coefficients from low to high order. -/
noncomputable def calcRoots (eps : ℝ) (C : List ℂ) : Except Err (List (Option ℂ)) :=
  if C.length < 2 then .ok []
  else if 4 < C.length then .error .notImplemented
  else
    let (C', r) := addRoots eps C
    match C' with
    | [c0, c1] => .ok (removeRoots eps (linear c0 c1) r)
    | [c0, c1, c2] => .ok (removeRoots eps (quadratic eps c0 c1 c2) r)
    | [c0, c1, c2, c3] => .ok (removeRoots eps (cubic eps c0 c1 c2 c3) r)
    | _ => .error .notImplemented

/-- backend/torch.py 179–181: the back end torch sorts the real parts and the imaginary parts separately, and returns the real parts only.  Here this is done after the
sorting by real part. -/
noncomputable def calcRootsTorch (eps : ℝ) (C : List ℂ) : Except Err (List (Option ℂ)) :=
  (calcRoots eps C).map fun X => sort (X.map (Option.map fun z => ((z.re : ℝ) : ℂ)))

/-- 852–866: `evaluate_polynomial`. -/
def evaluate (C : List ℂ) (x : ℂ) : ℂ := C.reverse.foldl (fun result c => result * x + c) 0

/-- 701–710: the coefficients of the characteristic polynomial. -/
def charCoefficients (a : Matrix (Fin 3) (Fin 3) ℂ) : List ℂ :=
  [a 0 0 * (a 1 1 * a 2 2 - a 1 2 * a 2 1) - a 0 1 * (a 1 0 * a 2 2 - a 1 2 * a 2 0) + a 0 2 * (a 1 0 * a 2 1 - a 1 1 * a 2 0),
   -a 0 0 * (a 1 1 + a 2 2) + a 0 1 * a 1 0 + a 0 2 * a 2 0 - a 1 1 * a 2 2 + a 1 2 * a 2 1,
   a 0 0 + a 1 1 + a 2 2,
   -1]

/-- The array of a matrix field at one point: a number of rows and columns. -/
structure MatrixValue where
  rows : ℕ
  cols : ℕ
  entry : Fin rows → Fin cols → ℂ

/-- 670–723: `mat3_eigh` for one point. -/
noncomputable def mat3Eigh (eps : ℝ) (a : MatrixValue) : Except Err (List (Option ℂ)) :=
  if h : a.rows = 3 ∧ a.cols = 3 then
    calcRoots eps (charCoefficients fun i j => a.entry (i.cast h.1.symm) (j.cast h.2.symm))
  else if h : a.rows = 1 then .ok (List.ofFn fun j => some (a.entry ⟨0, by omega⟩ j))
  else if h : a.cols = 1 then .ok (List.ofFn fun i => some (a.entry i ⟨0, by omega⟩))
  else .error .valueError

end Verif.Roots
