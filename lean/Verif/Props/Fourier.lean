import Verif.Model.Fourier
import Mathlib.Algebra.BigOperators.Field
import Mathlib.Tactic.FieldSimp
import Mathlib.Data.Fin.VecNotation

/-!
# C23: the Fourier transform pair of the back end
-/

namespace Verif.Fourier

open Complex Finset

variable {d : ℕ} {N : Fin d → ℕ}

/-! ### Orthogonality of the factors -/

theorem twiddle_untwiddle_one {n : ℕ} (k l : Fin n) :
    ∑ x : Fin n, twiddle n k x * untwiddle n l x = if k = l then (n : ℂ) else 0 := by
  have hn : (n : ℂ) ≠ 0 := by exact_mod_cast (Nat.pos_of_ne_zero (fun h => by subst h; exact k.elim0)).ne'
  set z : ℂ := exp (2 * Real.pi * I * (((l : ℕ) : ℂ) - ((k : ℕ) : ℂ)) / n) with hz
  have hterm : ∀ x : Fin n, twiddle n k x * untwiddle n l x = z ^ (x : ℕ) := by
    intro x
    unfold twiddle untwiddle
    rw [hz, ← exp_add, ← exp_nat_mul]
    congr 1
    field_simp
    ring
  simp_rw [hterm]
  rw [Fin.sum_univ_eq_sum_range (fun j => z ^ j) n]
  split_ifs with h
  · subst h; simp [hz]
  · have h1 : z ≠ 1 := by
      intro h1
      rw [hz, exp_eq_one_iff] at h1
      obtain ⟨m, hm⟩ := h1
      have hpi : (2 * Real.pi * I : ℂ) ≠ 0 := two_pi_I_ne_zero
      have h2 : (((l : ℕ) : ℂ) - ((k : ℕ) : ℂ)) = m * n := by
        field_simp at hm
        linear_combination hm
      have h3 : ((l : ℕ) : ℤ) - ((k : ℕ) : ℤ) = m * n := by exact_mod_cast h2
      have hk := k.isLt
      have hl := l.isLt
      have hm0 : m = 0 := by
        by_contra hm0
        have : 1 ≤ |m| := Int.one_le_abs hm0
        have h4 : |((l : ℕ) : ℤ) - ((k : ℕ) : ℤ)| = |m| * n := by rw [h3, abs_mul, Nat.abs_cast]
        have h5 : |((l : ℕ) : ℤ) - ((k : ℕ) : ℤ)| < n := by rw [abs_lt]; constructor <;> omega
        nlinarith
      rw [hm0] at h3
      exact h (Fin.ext (by omega))
    have h2 : z ^ n = 1 := by
      rw [hz, ← exp_nat_mul, exp_eq_one_iff]
      refine ⟨((l : ℕ) : ℤ) - ((k : ℕ) : ℤ), ?_⟩
      push_cast
      field_simp
    have := mul_geom_sum z n
    rw [h2, sub_self] at this
    exact (mul_eq_zero.1 this).resolve_left (sub_ne_zero.2 h1)

theorem twiddle_comm (n k x : ℕ) : twiddle n k x = twiddle n x k := by unfold twiddle; rw [mul_comm (k : ℂ)]
theorem untwiddle_comm (n k x : ℕ) : untwiddle n k x = untwiddle n x k := by unfold untwiddle; rw [mul_comm (k : ℂ)]

theorem conj_twiddle (n k x : ℕ) : (starRingEnd ℂ) (twiddle n k x) = untwiddle n k x := by
  unfold twiddle untwiddle
  rw [← exp_conj]
  congr 1
  simp [Complex.conj_ofNat]

theorem orthogonal (k l : Idx N) :
    ∑ x : Idx N, (∏ a, twiddle (N a) (k a) (x a)) * ∏ a, untwiddle (N a) (l a) (x a) =
      if k = l then ∏ a, (N a : ℂ) else 0 := by
  simp_rw [← Finset.prod_mul_distrib]
  rw [← Fintype.prod_sum (fun a (j : Fin (N a)) => twiddle (N a) (k a) j * untwiddle (N a) (l a) j)]
  simp_rw [twiddle_untwiddle_one]
  split_ifs with h
  · subst h; simp
  · obtain ⟨a, ha⟩ := Function.ne_iff.1 h
    exact Finset.prod_eq_zero (mem_univ a) (if_neg ha)

theorem prod_ne_zero_of_idx (k : Idx N) : ∏ a, (N a : ℂ) ≠ 0 :=
  Finset.prod_ne_zero_iff.2 fun a _ => by
    exact_mod_cast (Nat.pos_of_ne_zero (fun h => by have := k a; rw [h] at this; exact this.elim0)).ne'

/-! ### C23 -/

/-- **C23.** The inverse transform of the transform of a field is the field. -/
theorem C23_ift_ft (f : Idx N → ℂ) : ift (ft f) = f := by
  funext x
  unfold ift ft
  rw [div_eq_iff (prod_ne_zero_of_idx x)]
  simp_rw [Finset.sum_mul]
  rw [Finset.sum_comm]
  have : ∀ y : Idx N, ∑ k : Idx N, f y * (∏ a, twiddle (N a) (k a) (y a)) * ∏ a, untwiddle (N a) (k a) (x a) =
      f y * if y = x then ∏ a, (N a : ℂ) else 0 := by
    intro y
    rw [← orthogonal y x, Finset.mul_sum]
    refine Finset.sum_congr rfl fun k _ => ?_
    rw [mul_assoc]
    congr 2
    · exact Finset.prod_congr rfl fun a _ => twiddle_comm _ _ _
    · exact Finset.prod_congr rfl fun a _ => untwiddle_comm _ _ _
  simp_rw [this]
  simp

/-- **C23.** The transform of the inverse transform of a field is the field. -/
theorem C23_ft_ift (F : Idx N → ℂ) : ft (ift F) = F := by
  funext k
  unfold ift ft
  have h0 := prod_ne_zero_of_idx k
  simp_rw [div_mul_eq_mul_div, ← Finset.sum_div]
  rw [div_eq_iff h0]
  simp_rw [Finset.sum_mul]
  rw [Finset.sum_comm]
  have : ∀ l : Idx N, ∑ x : Idx N, F l * (∏ a, untwiddle (N a) (l a) (x a)) * ∏ a, twiddle (N a) (k a) (x a) =
      F l * if k = l then ∏ a, (N a : ℂ) else 0 := by
    intro l
    rw [← orthogonal k l, Finset.mul_sum]
    refine Finset.sum_congr rfl fun x _ => ?_
    ring
  simp_rw [this]
  simp

/-- **C23.** The transform is linear. -/
theorem C23_ft_linear (a b : ℂ) (f g : Idx N → ℂ) :
    ft (fun x => a * f x + b * g x) = fun k => a * ft f k + b * ft g k := by
  funext k
  unfold ft
  rw [Finset.mul_sum, Finset.mul_sum, ← Finset.sum_add_distrib]
  exact Finset.sum_congr rfl fun x _ => by ring

/-- **C23.** The inverse transform is linear. -/
theorem C23_ift_linear (a b : ℂ) (F G : Idx N → ℂ) :
    ift (fun k => a * F k + b * G k) = fun x => a * ift F x + b * ift G x := by
  funext x
  unfold ift
  rw [← mul_div_assoc, ← mul_div_assoc, ← add_div, Finset.mul_sum, Finset.mul_sum, ← Finset.sum_add_distrib]
  exact congrArg (· / _) (Finset.sum_congr rfl fun x _ => by ring)

/-- **C23.** The transform preserves inner products up to the number of points. -/
theorem C23_inner (f g : Idx N → ℂ) :
    ∑ k, (starRingEnd ℂ) (ft f k) * ft g k = (∏ a, (N a : ℂ)) * ∑ x, (starRingEnd ℂ) (f x) * g x := by
  have h1 : ∀ k : Idx N, (starRingEnd ℂ) (ft f k) * ft g k = ∑ x, (starRingEnd ℂ) (f x) *
      ((∏ a, untwiddle (N a) (k a) (x a)) * ft g k) := by
    intro k
    conv_lhs => unfold ft
    rw [map_sum, Finset.sum_mul]
    refine Finset.sum_congr rfl fun x _ => ?_
    rw [map_mul, map_prod]
    simp_rw [conj_twiddle]
    rw [mul_assoc]; rfl
  simp_rw [h1]
  rw [Finset.sum_comm, Finset.mul_sum]
  refine Finset.sum_congr rfl fun x _ => ?_
  rw [← Finset.mul_sum]
  have h2 : ∑ k, (∏ a, untwiddle (N a) (k a) (x a)) * ft g k = (∏ a, (N a : ℂ)) * g x := by
    conv_rhs => rw [← congrFun (C23_ift_ft g) x]
    unfold ift
    rw [mul_div_cancel₀ _ (prod_ne_zero_of_idx x)]
    exact Finset.sum_congr rfl fun k _ => mul_comm _ _
  rw [h2]; ring

/-- **C23.** The transform preserves energy up to the number of points. -/
theorem C23_energy (f : Idx N → ℂ) : ∑ k, ‖ft f k‖ ^ 2 = (∏ a, (N a : ℝ)) * ∑ x, ‖f x‖ ^ 2 := by
  have h := C23_inner f f
  have e : ∀ z : ℂ, (starRingEnd ℂ) z * z = ((‖z‖ ^ 2 : ℝ) : ℂ) := fun z => by
    rw [mul_comm, mul_conj, normSq_eq_norm_sq]
  simp_rw [e] at h
  exact_mod_cast h

/-- **C23.** The transform is the one that the frequency coordinates of the grid refer to: the transform of a plane wave with the frequency of
index `l` is concentrated at that index. -/
theorem C23_plane_wave (l : Idx N) :
    ft (fun x => ∏ a, exp (2 * Real.pi * I * ((l a : ℕ) / (N a : ℂ)) * ((x a : ℕ) : ℂ))) =
      fun k => if k = l then ∏ a, (N a : ℂ) else 0 := by
  funext k
  rw [← orthogonal k l]
  unfold ft
  refine Finset.sum_congr rfl fun x _ => ?_
  rw [mul_comm]
  congr 1
  refine Finset.prod_congr rfl fun a _ => ?_
  unfold untwiddle
  congr 1; ring

/-- A non-trivial case: the transform of a constant field on a grid of 2 × 3 points is six times a unit impulse at the origin. -/
example (z : Idx ![2, 3]) (hz : ∀ a, ((z a : ℕ) : ℂ) = 0) :
    ft (N := ![2, 3]) (fun _ => 1) = fun k => if k = z then 6 else 0 := by
  have h := C23_plane_wave (N := ![2, 3]) z
  simp only [hz, zero_div, mul_zero, zero_mul, exp_zero, Finset.prod_const_one] at h
  rw [h]
  have : ∏ a, ((![2, 3] a : ℕ) : ℂ) = 6 := by simp [Fin.prod_univ_two]; norm_num
  simp_rw [this]

end Verif.Fourier
