import Verif.Lemmas.ExistenceMean
import Mathlib.Analysis.InnerProductSpace.PiL2
import Mathlib.LinearAlgebra.Matrix.NonsingularInverse
import Mathlib.Topology.Compactness.Compact
import Mathlib.Order.Filter.Ultrafilter.Basic
import Mathlib.Algebra.Order.Field.GeomSum

/-!
# Equations for Fourier coefficients: solutions for finitely many, bounds that do not depend on their number, and the limit (for property C130)
-/

namespace Verif.Existence

open Complex Filter Topology Matrix

variable {d : ℕ} {ι : Type} [Fintype ι]

/-- The root of the sum of squares, in a finite set. -/
noncomputable def size (F : Finset (Fin d → ℤ)) (x : (Fin d → ℤ) → ι → ℂ) : ℝ := ‖(WithLp.toLp 2 fun q : F × ι => x q.1 q.2 : EuclideanSpace ℂ (F × ι))‖

theorem size_nonneg (F : Finset (Fin d → ℤ)) (x : (Fin d → ℤ) → ι → ℂ) : 0 ≤ size F x := norm_nonneg _

theorem sum_pairs {R : Type} [AddCommMonoid R] (F : Finset (Fin d → ℤ)) (f : (Fin d → ℤ) → ι → R) : ∑ q : F × ι, f q.1 q.2 = ∑ j ∈ F, ∑ c, f j c := by
  rw [Fintype.sum_prod_type, ← Finset.sum_coe_sort F]

theorem size_sq (F : Finset (Fin d → ℤ)) (x : (Fin d → ℤ) → ι → ℂ) : size F x ^ 2 = ∑ j ∈ F, ∑ c, ‖x j c‖ ^ 2 := by
  unfold size
  rw [EuclideanSpace.norm_sq_eq, sum_pairs F fun j c => ‖x j c‖ ^ 2]

theorem size_add_le (F : Finset (Fin d → ℤ)) (x y : (Fin d → ℤ) → ι → ℂ) : size F (fun j c => x j c + y j c) ≤ size F x + size F y :=
  norm_add_le (WithLp.toLp 2 fun q : F × ι => x q.1 q.2 : EuclideanSpace ℂ (F × ι)) (WithLp.toLp 2 fun q : F × ι => y q.1 q.2)

theorem size_le {F : Finset (Fin d → ℤ)} {x y : (Fin d → ℤ) → ι → ℂ} (h : ∀ j ∈ F, ∀ c, ‖x j c‖ ≤ ‖y j c‖) : size F x ≤ size F y := by
  refine (pow_le_pow_iff_left₀ (size_nonneg _ _) (size_nonneg _ _) two_ne_zero).1 ?_
  rw [size_sq, size_sq]
  exact Finset.sum_le_sum fun j hj => Finset.sum_le_sum fun c _ => pow_le_pow_left₀ (norm_nonneg _) (h j hj c) 2

theorem size_mul (F : Finset (Fin d → ℤ)) (z : ℂ) (x : (Fin d → ℤ) → ι → ℂ) : size F (fun j c => z * x j c) = ‖z‖ * size F x :=
  norm_smul z (WithLp.toLp 2 fun q : F × ι => x q.1 q.2 : EuclideanSpace ℂ (F × ι))

theorem norm_le_size {F : Finset (Fin d → ℤ)} {j : Fin d → ℤ} (hj : j ∈ F) (x : (Fin d → ℤ) → ι → ℂ) (c : ι) : ‖x j c‖ ≤ size F x := by
  refine (pow_le_pow_iff_left₀ (norm_nonneg _) (size_nonneg _ _) two_ne_zero).1 ?_
  rw [size_sq]
  exact (Finset.single_le_sum (f := fun c => ‖x j c‖ ^ 2) (fun _ _ => sq_nonneg _) (Finset.mem_univ c)).trans
    (Finset.single_le_sum (f := fun j => ∑ c, ‖x j c‖ ^ 2) (fun _ _ => Finset.sum_nonneg fun _ _ => sq_nonneg _) hj)

theorem norm_form_le (F : Finset (Fin d → ℤ)) (x y : (Fin d → ℤ) → ι → ℂ) : ‖∑ j ∈ F, ∑ c, star (x j c) * y j c‖ ≤ size F x * size F y := by
  have h := norm_inner_le_norm (𝕜 := ℂ) (WithLp.toLp 2 fun q : F × ι => x q.1 q.2 : EuclideanSpace ℂ (F × ι)) (WithLp.toLp 2 fun q : F × ι => y q.1 q.2)
  rw [PiLp.inner_apply] at h
  rw [← sum_pairs F fun j c => star (x j c) * y j c]
  refine (le_of_eq ?_).trans h
  congr 1
  refine Finset.sum_congr rfl fun q _ => ?_
  rw [RCLike.inner_apply, mul_comm]
  rfl

/-- The product with a material, among the coefficients in a finite set. -/
def conv (m : (Fin d → ℤ) → Matrix (ι) (ι) ℂ) (F : Finset (Fin d → ℤ)) (x : (Fin d → ℤ) → ι → ℂ) (j : Fin d → ℤ) (c : ι) : ℂ := ∑ l ∈ F, ∑ c', m (j - l) c c' * x l c'

/-- The equation for the coefficients in a finite set. -/
def Solves (D m : (Fin d → ℤ) → Matrix (ι) (ι) ℂ) (F : Finset (Fin d → ℤ)) (s x : (Fin d → ℤ) → ι → ℂ) : Prop := ∀ j ∈ F, ∀ c, (D j).mulVec (x j) c - conv m F x j c = s j c

/-! ### Products are bounded -/

theorem schur {Q : Type} [Fintype Q] {a : Q → Q → ℝ} (ha : ∀ i k, 0 ≤ a i k) {A : ℝ} (hA : 0 ≤ A) (hrow : ∀ i, ∑ k, a i k ≤ A) (hcol : ∀ k, ∑ i, a i k ≤ A) (b : Q → ℝ) :
    ∑ i, (∑ k, a i k * b k) ^ 2 ≤ A ^ 2 * ∑ k, b k ^ 2 := by
  have h1 : ∀ i, (∑ k, a i k * b k) ^ 2 ≤ A * ∑ k, a i k * b k ^ 2 := fun i =>
    (Finset.sum_sq_le_sum_mul_sum_of_sq_le_mul Finset.univ (fun k _ => ha i k) (fun k _ => mul_nonneg (ha i k) (sq_nonneg (b k))) fun k _ => le_of_eq (by ring)).trans
      (mul_le_mul_of_nonneg_right (hrow i) (Finset.sum_nonneg fun k _ => mul_nonneg (ha i k) (sq_nonneg _)))
  refine (Finset.sum_le_sum fun i _ => h1 i).trans ?_
  rw [← Finset.mul_sum, Finset.sum_comm, sq, mul_assoc]
  refine mul_le_mul_of_nonneg_left ?_ hA
  rw [Finset.mul_sum]
  refine Finset.sum_le_sum fun k _ => ?_
  rw [← Finset.sum_mul]
  exact mul_le_mul_of_nonneg_right (hcol k) (sq_nonneg _)

/-- The size of a material. -/
noncomputable def total (m : (Fin d → ℤ) → Matrix (ι) (ι) ℂ) : ℝ := ∑ c, ∑ c', ∑' j, ‖m j c c'‖

theorem total_nonneg (m : (Fin d → ℤ) → Matrix (ι) (ι) ℂ) : 0 ≤ total m := Finset.sum_nonneg fun _ _ => Finset.sum_nonneg fun _ _ => tsum_nonneg fun _ => norm_nonneg _

theorem sum_shift_le {f : (Fin d → ℤ) → ℝ} (h0 : ∀ j, 0 ≤ f j) (hf : Summable f) (F : Finset (Fin d → ℤ)) (e : (Fin d → ℤ) ≃ (Fin d → ℤ)) : ∑ l ∈ F, f (e l) ≤ ∑' j, f j := by
  rw [← e.tsum_eq f]
  exact ((e.summable_iff).2 hf).sum_le_tsum F fun _ _ => h0 _

theorem size_conv_le {m : (Fin d → ℤ) → Matrix (ι) (ι) ℂ} (hm : ∀ c c', Summable fun j => ‖m j c c'‖) (F : Finset (Fin d → ℤ)) (x : (Fin d → ℤ) → ι → ℂ) :
    size F (conv m F x) ≤ total m * size F x := by
  refine (pow_le_pow_iff_left₀ (size_nonneg _ _) (mul_nonneg (total_nonneg _) (size_nonneg _ _)) two_ne_zero).1 ?_
  rw [mul_pow, size_sq, size_sq]
  have h := schur (Q := F × ι) (a := fun q p => ‖m ((q.1 : Fin d → ℤ) - p.1) q.2 p.2‖) (fun _ _ => norm_nonneg _) (total_nonneg m) (fun q => by
    rw [sum_pairs F fun l c' => ‖m ((q.1 : Fin d → ℤ) - l) q.2 c'‖, Finset.sum_comm]
    refine le_trans ?_ (Finset.single_le_sum (f := fun c => ∑ c', ∑' j, ‖m j c c'‖) (fun _ _ => Finset.sum_nonneg fun _ _ => tsum_nonneg fun _ => norm_nonneg _) (Finset.mem_univ q.2))
    exact Finset.sum_le_sum fun c' _ => sum_shift_le (fun _ => norm_nonneg _) (hm q.2 c') F (Equiv.subLeft (q.1 : Fin d → ℤ))) (fun p => by
    rw [sum_pairs F fun j c => ‖m (j - (p.1 : Fin d → ℤ)) c p.2‖, Finset.sum_comm]
    refine Finset.sum_le_sum fun c _ => le_trans ?_ (Finset.single_le_sum (f := fun c' => ∑' j, ‖m j c c'‖) (fun _ _ => tsum_nonneg fun _ => norm_nonneg _) (Finset.mem_univ p.2))
    exact sum_shift_le (fun _ => norm_nonneg _) (hm c p.2) F (Equiv.subRight (p.1 : Fin d → ℤ))) fun p => ‖x p.1 p.2‖
  rw [sum_pairs F fun j c => ‖x j c‖ ^ 2] at h
  refine le_trans ?_ h
  rw [← sum_pairs F fun j c => ‖conv m F x j c‖ ^ 2]
  refine Finset.sum_le_sum fun q _ => pow_le_pow_left₀ (norm_nonneg _) ?_ 2
  unfold conv
  rw [← sum_pairs F fun l c' => m ((q.1 : Fin d → ℤ) - l) q.2 c' * x l c']
  refine (norm_sum_le _ _).trans (le_of_eq (Finset.sum_congr rfl fun p _ => norm_mul _ _))

/-! ### The solution in a finite set -/

section
variable {D m : (Fin d → ℤ) → Matrix (ι) (ι) ℂ} {δ : ℝ} (hδ : 0 < δ) (hD : ∀ j v, (star v ⬝ᵥ (D j).mulVec v).im = 0) (habs : ∀ F x, δ * ∑ j ∈ F, ∑ c, ‖x j c‖ ^ 2 ≤ (form m F x).im)
include hδ hD habs

theorem solves_le {F : Finset (Fin d → ℤ)} {s x : (Fin d → ℤ) → ι → ℂ} (h : Solves D m F s x) : δ * size F x ≤ size F s := by
  have h1 : ∑ j ∈ F, ∑ c, star (x j c) * s j c = ∑ j ∈ F, star (x j) ⬝ᵥ (D j).mulVec (x j) - form m F x := by
    unfold form
    rw [← Finset.sum_sub_distrib]
    refine Finset.sum_congr rfl fun j hj => ?_
    rw [Finset.sum_congr rfl fun c _ => by rw [← h j hj c, mul_sub], Finset.sum_sub_distrib]
    congr 1
    rw [Finset.sum_comm]
    refine Finset.sum_congr rfl fun c _ => ?_
    unfold conv
    rw [Finset.mul_sum]
    refine Finset.sum_congr rfl fun l _ => ?_
    rw [Finset.mul_sum]
    refine Finset.sum_congr rfl fun c' _ => ?_
    ring
  have h2 := congrArg Complex.im h1
  rw [sub_im, im_sum F fun j => star (x j) ⬝ᵥ (D j).mulVec (x j), Finset.sum_congr rfl fun j _ => hD j (x j), Finset.sum_const_zero, zero_sub] at h2
  have h3 := habs F x
  rw [← size_sq] at h3
  have h4 := (abs_im_le_norm _).trans (norm_form_le F x s)
  have h5 := neg_le_abs (∑ j ∈ F, ∑ c, star (x j c) * s j c).im
  rcases (size_nonneg F x).eq_or_lt with h6 | h6
  · rw [← h6, mul_zero]
    exact size_nonneg _ _
  · nlinarith

theorem exists_solves (F : Finset (Fin d → ℤ)) (s : (Fin d → ℤ) → ι → ℂ) : ∃ x, (∀ j ∉ F, x j = 0) ∧ Solves D m F s x := by
  classical
  let B : Matrix (F × ι) (F × ι) ℂ := Matrix.of fun q p => (if q.1 = p.1 then D q.1 q.2 p.2 else 0) - m ((q.1 : Fin d → ℤ) - p.1) q.2 p.2
  let X : (F × ι → ℂ) → (Fin d → ℤ) → ι → ℂ := fun y j c => if hj : j ∈ F then y (⟨j, hj⟩, c) else 0
  have hX : ∀ y (q : F) c, X y q c = y (q, c) := fun y q c => dif_pos q.2
  have hB : ∀ y, Solves D m F (X (B.mulVec y)) (X y) := by
    intro y j hj c
    rw [hX (B.mulVec y) ⟨j, hj⟩ c]
    unfold Matrix.mulVec dotProduct
    simp only [B, Matrix.of_apply, sub_mul]
    rw [Finset.sum_sub_distrib]
    congr 1
    · change ∑ c', D j c c' * X y j c' = _
      rw [Fintype.sum_prod_type, Finset.sum_eq_single (⟨j, hj⟩ : F)]
      · refine Finset.sum_congr rfl fun c' _ => ?_
        rw [if_pos rfl, hX y ⟨j, hj⟩]
      · intro l _ hl
        refine Finset.sum_eq_zero fun c' _ => ?_
        rw [if_neg hl.symm, zero_mul]
      · exact fun h => absurd (Finset.mem_univ _) h
    · unfold conv
      rw [← sum_pairs F fun l c' => m (j - l) c c' * X y l c']
      refine Finset.sum_congr rfl fun p _ => ?_
      rw [hX]
  have hinj : Function.Injective B.mulVec := by
    intro y y' hy
    have h0 : B.mulVec (y - y') = 0 := by rw [Matrix.mulVec_sub, hy, sub_self]
    have h1 := solves_le hδ hD habs (hB (y - y'))
    have h2 : size F (X (B.mulVec (y - y'))) = 0 := by
      rw [← sq_eq_zero_iff, size_sq, h0]
      refine Finset.sum_eq_zero fun j _ => Finset.sum_eq_zero fun c _ => ?_
      simp [X]
    rw [h2] at h1
    have h3 : size F (X (y - y')) = 0 := le_antisymm (by nlinarith) (size_nonneg _ _)
    funext q
    have h4 := norm_le_size q.1.2 (X (y - y')) q.2
    rw [h3, hX, norm_le_zero_iff] at h4
    exact sub_eq_zero.1 h4
  have hsurj := Matrix.mulVec_surjective_iff_isUnit.2 (Matrix.mulVec_injective_iff_isUnit.1 hinj)
  obtain ⟨y, hy⟩ := hsurj fun q => s q.1 q.2
  refine ⟨X y, fun j hj => funext fun c => dif_neg hj, fun j hj c => ?_⟩
  rw [hB y j hj c, hX _ ⟨j, hj⟩, hy]

end

/-! ### Derivatives -/

theorem pow_sub_pow_le (a b : ℝ) (q : ℕ) : |a ^ (q + 1) - b ^ (q + 1)| ≤ (q + 1) * 2 ^ q * (|a - b| ^ (q + 1) + |a - b| * |b| ^ q) := by
  have h1 : |a| ≤ |a - b| + |b| := by
    have := abs_add_le (a - b) b
    rwa [sub_add_cancel] at this
  have h2 : |∑ i ∈ Finset.range (q + 1), a ^ i * b ^ (q + 1 - 1 - i)| ≤ (q + 1) * (|a - b| + |b|) ^ q := by
    refine (Finset.abs_sum_le_sum_abs _ _).trans ?_
    refine (Finset.sum_le_card_nsmul _ _ ((|a - b| + |b|) ^ q) fun i hi => ?_).trans (le_of_eq (by simp))
    have hi' : i ≤ q := by
      have := Finset.mem_range.1 hi
      omega
    rw [abs_mul, abs_pow, abs_pow, Nat.add_sub_cancel]
    calc |a| ^ i * |b| ^ (q - i) ≤ (|a - b| + |b|) ^ i * (|a - b| + |b|) ^ (q - i) :=
          mul_le_mul (pow_le_pow_left₀ (abs_nonneg _) h1 _) (pow_le_pow_left₀ (abs_nonneg _) (le_add_of_nonneg_left (abs_nonneg _)) _) (by positivity) (by positivity)
      _ = (|a - b| + |b|) ^ q := by rw [← pow_add, Nat.add_sub_cancel' hi']
  have h3 : (|a - b| + |b|) ^ q ≤ 2 ^ q * (|a - b| ^ q + |b| ^ q) := by
    refine (add_pow_le (abs_nonneg _) (abs_nonneg _) q).trans (mul_le_mul_of_nonneg_right ?_ (by positivity))
    exact pow_le_pow_right₀ one_le_two (Nat.sub_le _ _)
  rw [← geom_sum₂_mul, abs_mul]
  calc _ ≤ (q + 1) * (2 ^ q * (|a - b| ^ q + |b| ^ q)) * |a - b| := mul_le_mul_of_nonneg_right (h2.trans (mul_le_mul_of_nonneg_left h3 (by positivity))) (abs_nonneg _)
    _ = _ := by ring

section
variable {D m : (Fin d → ℤ) → Matrix (ι) (ι) ℂ} {δ : ℝ} (hδ : 0 < δ) (hD : ∀ j v, (star v ⬝ᵥ (D j).mulVec v).im = 0) (habs : ∀ F x, δ * ∑ j ∈ F, ∑ c, ‖x j c‖ ^ 2 ≤ (form m F x).im)
  {w : (Fin d → ℤ) → ℝ} (hw : ∀ j l, w (j - l) = w j - w l) {s : (Fin d → ℤ) → ι → ℂ}
include hδ hD habs hw

theorem derivative_le {q : ℕ} (h1 : ∀ c c', Summable fun j => |w j| * ‖m j c c'‖) (hq : ∀ c c', Summable fun j => |w j| ^ (q + 1) * ‖m j c c'‖) : ∃ K, 0 ≤ K ∧ ∀ F x, Solves D m F s x →
    δ * size F (fun j c => (w j : ℂ) ^ (q + 1) * x j c) ≤ size F (fun j c => (w j : ℂ) ^ (q + 1) * s j c) + K * (size F x + size F fun j c => (w j : ℂ) ^ q * x j c) := by
  set m1 : (Fin d → ℤ) → Matrix (ι) (ι) ℂ := fun j => Matrix.of fun c c' => ((|w j| * ‖m j c c'‖ : ℝ) : ℂ) with hm1
  set mq : (Fin d → ℤ) → Matrix (ι) (ι) ℂ := fun j => Matrix.of fun c c' => ((|w j| ^ (q + 1) * ‖m j c c'‖ : ℝ) : ℂ) with hmq
  set K : ℝ := (q + 1) * 2 ^ q with hK
  have hK0 : 0 ≤ K := by positivity
  refine ⟨K * (total mq + total m1), mul_nonneg hK0 (add_nonneg (total_nonneg _) (total_nonneg _)), fun F x h => ?_⟩
  set R : (Fin d → ℤ) → ι → ℂ := fun j c => ∑ l ∈ F, ∑ c', ((w j : ℂ) ^ (q + 1) - (w l : ℂ) ^ (q + 1)) * (m (j - l) c c' * x l c') with hR
  have h2 : Solves D m F (fun j c => (w j : ℂ) ^ (q + 1) * s j c + R j c) fun j c => (w j : ℂ) ^ (q + 1) * x j c := by
    intro j hj c
    dsimp only
    rw [← h j hj c, hR]
    unfold conv
    simp only [sub_mul, mul_sub, Finset.sum_sub_distrib, Finset.mul_sum]
    have e1 : (D j).mulVec (fun c => (w j : ℂ) ^ (q + 1) * x j c) c = (w j : ℂ) ^ (q + 1) * (D j).mulVec (x j) c := by
      unfold Matrix.mulVec dotProduct
      rw [Finset.mul_sum]
      refine Finset.sum_congr rfl fun c' _ => ?_
      ring
    have e2 : ∑ l ∈ F, ∑ c', m (j - l) c c' * ((w l : ℂ) ^ (q + 1) * x l c') = ∑ l ∈ F, ∑ c', (w l : ℂ) ^ (q + 1) * (m (j - l) c c' * x l c') := by
      refine Finset.sum_congr rfl fun l _ => Finset.sum_congr rfl fun c' _ => ?_
      ring
    rw [e1, e2]
    ring
  have h3 := (solves_le hδ hD habs h2).trans (size_add_le F _ _)
  have h4 : size F R ≤ K * (total mq + total m1) * (size F x + size F fun j c => (w j : ℂ) ^ q * x j c) := by
    set x0 : (Fin d → ℤ) → ι → ℂ := fun j c => ((‖x j c‖ : ℝ) : ℂ) with hx0
    set xq : (Fin d → ℤ) → ι → ℂ := fun j c => ((|w j| ^ q * ‖x j c‖ : ℝ) : ℂ) with hxq
    have b1 : size F R ≤ size F fun j c => (K : ℂ) * (conv mq F x0 j c + conv m1 F xq j c) := by
      refine size_le fun j _ c => ?_
      have e1 : (K : ℂ) * (conv mq F x0 j c + conv m1 F xq j c) =
          ((∑ l ∈ F, ∑ c', K * (|w (j - l)| ^ (q + 1) + |w (j - l)| * |w l| ^ q) * (‖m (j - l) c c'‖ * ‖x l c'‖) : ℝ) : ℂ) := by
        unfold conv
        push_cast
        rw [← Finset.sum_add_distrib, Finset.mul_sum]
        refine Finset.sum_congr rfl fun l _ => ?_
        rw [← Finset.sum_add_distrib, Finset.mul_sum]
        refine Finset.sum_congr rfl fun c' _ => ?_
        simp only [hmq, hm1, hx0, hxq, Matrix.of_apply]
        push_cast
        ring
      rw [e1, norm_real, Real.norm_of_nonneg (Finset.sum_nonneg fun _ _ => Finset.sum_nonneg fun _ _ => by positivity)]
      refine (norm_sum_le _ _).trans (Finset.sum_le_sum fun l _ => (norm_sum_le _ _).trans (Finset.sum_le_sum fun c' _ => ?_))
      rw [norm_mul, norm_mul, ← ofReal_pow, ← ofReal_pow, ← ofReal_sub, norm_real, Real.norm_eq_abs, hw]
      exact mul_le_mul_of_nonneg_right (pow_sub_pow_le _ _ _) (by positivity)
    have sx : size F x0 = size F x := by
      refine le_antisymm (size_le fun j _ c => ?_) (size_le fun j _ c => ?_) <;> simp [hx0]
    have sq' : size F xq = size F fun j c => (w j : ℂ) ^ q * x j c := by
      refine le_antisymm (size_le fun j _ c => ?_) (size_le fun j _ c => ?_) <;> simp [hxq]
    have b2 := size_conv_le (m := mq) (fun c c' => by
      refine (hq c c').congr fun j => ?_
      change _ = ‖((|w j| ^ (q + 1) * ‖m j c c'‖ : ℝ) : ℂ)‖
      rw [norm_real, Real.norm_of_nonneg (by positivity)]) F x0
    have b3 := size_conv_le (m := m1) (fun c c' => by
      refine (h1 c c').congr fun j => ?_
      change _ = ‖((|w j| * ‖m j c c'‖ : ℝ) : ℂ)‖
      rw [norm_real, Real.norm_of_nonneg (by positivity)]) F xq
    rw [sx] at b2
    rw [sq'] at b3
    refine b1.trans ?_
    rw [size_mul, norm_real, Real.norm_of_nonneg hK0, mul_assoc K]
    refine mul_le_mul_of_nonneg_left ((size_add_le F _ _).trans ((add_le_add b2 b3).trans ?_)) hK0
    have t1 := mul_nonneg (total_nonneg mq) (size_nonneg F fun j c => (w j : ℂ) ^ q * x j c)
    have t2 := mul_nonneg (total_nonneg m1) (size_nonneg F x)
    linarith
  linarith

theorem derivatives_bounded {P : ℕ} (hm : ∀ p ≤ P, ∀ c c', Summable fun j => |w j| ^ p * ‖m j c c'‖) (hs : ∀ p ≤ P, ∃ C, ∀ F, size F (fun j c => (w j : ℂ) ^ p * s j c) ≤ C) :
    ∀ p ≤ P, ∃ C, ∀ F x, Solves D m F s x → size F (fun j c => (w j : ℂ) ^ p * x j c) ≤ C := by
  have h0 : ∃ C, ∀ F x, Solves D m F s x → size F x ≤ C := by
    obtain ⟨C, hC⟩ := hs 0 (Nat.zero_le _)
    simp only [pow_zero, one_mul] at hC
    refine ⟨C / δ, fun F x h => ?_⟩
    rw [le_div_iff₀' hδ]
    exact (solves_le hδ hD habs h).trans (hC F)
  intro p
  induction p with
  | zero =>
    intro _
    simpa only [pow_zero, one_mul] using h0
  | succ q ih =>
    intro hq
    obtain ⟨C0, hC0⟩ := h0
    obtain ⟨C1, hC1⟩ := ih (by omega)
    obtain ⟨C2, hC2⟩ := hs (q + 1) hq
    obtain ⟨K, hK0, hK⟩ := derivative_le hδ hD habs hw (s := s) (q := q) (fun c c' => by simpa only [pow_one] using hm 1 (by omega) c c') (hm (q + 1) hq)
    refine ⟨(C2 + K * (C0 + C1)) / δ, fun F x h => ?_⟩
    rw [le_div_iff₀' hδ]
    exact (hK F x h).trans (add_le_add (hC2 F) (mul_le_mul_of_nonneg_left (add_le_add (hC0 F x h) (hC1 F x h)) hK0))

end

/-! ### The limit -/

theorem exists_coefficients {D m : (Fin d → ℤ) → Matrix (ι) (ι) ℂ} {δ : ℝ} (hδ : 0 < δ) (hD : ∀ j v, (star v ⬝ᵥ (D j).mulVec v).im = 0)
    (habs : ∀ F x, δ * ∑ j ∈ F, ∑ c, ‖x j c‖ ^ 2 ≤ (form m F x).im) {s : (Fin d → ℤ) → ι → ℂ} {Q : Type} [Nonempty Q] {w : Q → (Fin d → ℤ) → ℝ} (hw : ∀ i j l, w i (j - l) = w i j - w i l) {P : ℕ}
    (hm : ∀ i, ∀ p ≤ P, ∀ c c', Summable fun j => |w i j| ^ p * ‖m j c c'‖) (hs : ∀ i, ∀ p ≤ P, ∃ C, ∀ F, size F (fun j c => (w i j : ℂ) ^ p * s j c) ≤ C) :
    ∃ x : (Fin d → ℤ) → ι → ℂ, (∀ j c, (D j).mulVec (x j) c - ∑' l, ∑ c', m (j - l) c c' * x l c' = s j c) ∧ ∀ i, ∀ p ≤ P, ∃ C, ∀ F, size F (fun j c => (w i j : ℂ) ^ p * x j c) ≤ C := by
  choose X hX0 hX using fun F => exists_solves hδ hD habs F s
  have hb := fun i => derivatives_bounded hδ hD habs (hw i) (hm i) (hs i)
  obtain ⟨C0, hC0⟩ := hb (Classical.arbitrary Q) 0 (Nat.zero_le _)
  simp only [pow_zero, one_mul] at hC0
  have hC : 0 ≤ C0 := (size_nonneg _ _).trans (hC0 ∅ _ (hX ∅))
  have hle : ∀ F j c, ‖X F j c‖ ≤ C0 := by
    intro F j c
    by_cases hj : j ∈ F
    · exact (norm_le_size hj _ c).trans (hC0 F _ (hX F))
    · rw [hX0 F j hj, Pi.zero_apply, norm_zero]
      exact hC
  let U : Ultrafilter (Finset (Fin d → ℤ)) := Ultrafilter.of atTop
  have hlim : ∀ j c, ∃ z, Tendsto (fun F => X F j c) U (𝓝 z) := by
    intro j c
    obtain ⟨z, -, hz⟩ := (isCompact_closedBall (0 : ℂ) C0).ultrafilter_le_nhds (U.map fun F => X F j c) (by
      rw [le_principal_iff, Ultrafilter.mem_coe, Ultrafilter.mem_map]
      refine Filter.mem_of_superset Filter.univ_mem fun F _ => ?_
      change X F j c ∈ Metric.closedBall 0 C0
      rw [mem_closedBall_zero_iff]
      exact hle F j c)
    exact ⟨z, hz⟩
  choose x hx using hlim
  have hmem : ∀ j : Fin d → ℤ, ∀ᶠ F in (U : Filter (Finset (Fin d → ℤ))), j ∈ F := fun j =>
    Ultrafilter.of_le atTop ((eventually_ge_atTop {j}).mono fun F hF => hF (Finset.mem_singleton_self j))
  refine ⟨x, fun j c => ?_, fun i p hp => ?_⟩
  · have hsum : Summable fun l => ∑ c', ‖m (j - l) c c'‖ * C0 := by
      refine summable_sum fun c' _ => Summable.mul_right _ ?_
      have h0 := hm (Classical.arbitrary Q) 0 (Nat.zero_le _) c c'
      simp only [pow_zero, one_mul] at h0
      exact ((Equiv.subLeft j).summable_iff (f := fun l => ‖m l c c'‖)).2 h0
    have t1 : Tendsto (fun F => ∑' l, ∑ c', m (j - l) c c' * X F l c') U (𝓝 (∑' l, ∑ c', m (j - l) c c' * x l c')) :=
      tendsto_tsum_of_dominated_convergence hsum (fun l => tendsto_finsetSum _ fun c' _ => (hx l c').const_mul _) (Eventually.of_forall fun F l =>
        (norm_sum_le _ _).trans (Finset.sum_le_sum fun c' _ => by
          rw [norm_mul]
          exact mul_le_mul_of_nonneg_left (hle F l c') (norm_nonneg _)))
    have t2 : Tendsto (fun F => (D j).mulVec (X F j) c) U (𝓝 ((D j).mulVec (x j) c)) :=
      tendsto_finsetSum Finset.univ (f := fun c' F => D j c c' * X F j c') (a := fun c' => D j c c' * x j c') fun c' _ => (hx j c').const_mul _
    refine tendsto_nhds_unique (t2.sub t1) (Tendsto.congr' ?_ tendsto_const_nhds)
    filter_upwards [hmem j] with F hF
    rw [← hX F j hF c]
    congr 1
    unfold conv
    refine (tsum_eq_sum fun l hl => ?_).symm
    rw [hX0 F l hl]
    simp
  · obtain ⟨C, hC⟩ := hb i p hp
    have hC' : 0 ≤ C := (size_nonneg _ _).trans (hC ∅ _ (hX ∅))
    refine ⟨C, fun G => (pow_le_pow_iff_left₀ (size_nonneg _ _) hC' two_ne_zero).1 ?_⟩
    rw [size_sq]
    have t : Tendsto (fun F => ∑ j ∈ G, ∑ c, ‖(w i j : ℂ) ^ p * X F j c‖ ^ 2) U (𝓝 (∑ j ∈ G, ∑ c, ‖(w i j : ℂ) ^ p * x j c‖ ^ 2)) :=
      tendsto_finsetSum _ fun j _ => tendsto_finsetSum _ fun c _ => (((hx j c).const_mul _).norm).pow 2
    refine le_of_tendsto t ?_
    have hG : ∀ᶠ F in (U : Filter (Finset (Fin d → ℤ))), G ≤ F := Ultrafilter.of_le atTop (eventually_ge_atTop G)
    filter_upwards [hG] with F hF
    refine le_trans ?_ (pow_le_pow_left₀ (size_nonneg _ _) (hC F _ (hX F)) 2)
    rw [size_sq]
    exact Finset.sum_le_sum_of_subset_of_nonneg hF fun _ _ _ => Finset.sum_nonneg fun _ _ => sq_nonneg _

end Verif.Existence
