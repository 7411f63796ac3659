import Verif.Lemmas.Roots
import Mathlib.Analysis.Complex.Polynomial.Basic
import Mathlib.Algebra.Polynomial.Splits
import Mathlib.Algebra.Polynomial.Roots
import Mathlib.FieldTheory.IsAlgClosed.Basic

/-!
# Lemmas about the roots of polynomials of low order: the connection with polynomials
-/

namespace Verif.Roots

open Complex Verif.Spec.Roots Polynomial

/-- The polynomial with the given coefficients. -/
noncomputable def poly : List ℂ → ℂ[X]
  | [] => 0
  | c :: L => C c + X * poly L

theorem eval_poly (L : List ℂ) (x : ℂ) : (poly L).eval x = value L x := by
  induction L with
  | nil => simp [poly, value_nil]
  | cons c L ih => simp [poly, value_cons, ih]

theorem coeff_poly (L : List ℂ) (i : ℕ) : (poly L).coeff i = L.getD i 0 := by
  induction L generalizing i with
  | nil => simp [poly]
  | cons c L ih =>
    cases i with
    | zero => simp [poly]
    | succ i => simp [poly, ih, coeff_X_mul, coeff_C_succ]

theorem coeff_poly_append (L : List ℂ) (l : ℂ) : (poly (L ++ [l])).coeff L.length = l := by
  rw [coeff_poly]; simp

theorem natDegree_poly (L : List ℂ) {l : ℂ} (hl : l ≠ 0) : (poly (L ++ [l])).natDegree = L.length := by
  refine natDegree_eq_of_le_of_coeff_ne_zero ?_ (by rwa [coeff_poly_append])
  rw [natDegree_le_iff_coeff_eq_zero]
  intro i hi
  rw [coeff_poly, List.getD_eq_getElem?_getD, List.getElem?_eq_none (by simp; omega)]
  rfl

theorem leadingCoeff_poly (L : List ℂ) {l : ℂ} (hl : l ≠ 0) : (poly (L ++ [l])).leadingCoeff = l := by
  rw [leadingCoeff, natDegree_poly L hl, coeff_poly_append]

theorem poly_ne_zero (L : List ℂ) {l : ℂ} (hl : l ≠ 0) : poly (L ++ [l]) ≠ 0 := by
  rw [← leadingCoeff_ne_zero, leadingCoeff_poly L hl]; exact hl

/-- The specification, as the multiset of roots. -/
theorem allRoots_iff (L : List ℂ) {l : ℂ} (hl : l ≠ 0) (Y : List ℂ) : AllRoots (L ++ [l]) Y ↔ (poly (L ++ [l])).roots = (Y : Multiset ℂ) := by
  have hlast : (L ++ [l]).getLastD 0 = l := by simp
  constructor
  · intro h
    have : poly (L ++ [l]) = C l * ((Y : Multiset ℂ).map fun a => X - C a).prod := by
      refine Polynomial.funext fun x => ?_
      rw [eval_poly, h x, hlast, eval_mul, eval_C, eval_multiset_prod, Multiset.map_map, Multiset.map_coe, Multiset.prod_coe]
      congr 3
      funext a
      simp
    rw [this, roots_C_mul _ hl, roots_multiset_prod_X_sub_C]
  · intro h x
    rw [← eval_poly, (IsAlgClosed.splits (poly (L ++ [l]))).eval_eq_prod_roots, leadingCoeff_poly L hl, hlast, h]
    simp

theorem poly_zero_cons (L : List ℂ) : poly (0 :: L) = X * poly L := by simp [poly]

theorem poly_replicate (r : ℕ) (L : List ℂ) : poly (List.replicate r 0 ++ L) = X ^ r * poly L := by
  induction r with
  | zero => simp
  | succ r ih => rw [List.replicate_succ, List.cons_append, poly_zero_cons, ih, pow_succ']; ring

theorem roots_replicate (r : ℕ) (L : List ℂ) {l : ℂ} (hl : l ≠ 0) :
    (poly (List.replicate r 0 ++ (L ++ [l]))).roots = Multiset.replicate r 0 + (poly (L ++ [l])).roots := by
  rw [poly_replicate, roots_mul (mul_ne_zero (pow_ne_zero _ X_ne_zero) (poly_ne_zero L hl)), roots_X_pow, Multiset.nsmul_singleton]

end Verif.Roots
