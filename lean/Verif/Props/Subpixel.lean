import Verif.Lemmas.Subpixel

/-!
# Property C59: circular shifts with sub-pixel precision
-/

namespace Verif.Subpixel

open Verif.Fourier Verif.Spec.Subpixel Complex

variable {d : ℕ} {N : Fin d → ℕ}

theorem ft_roll (f : Idx N → ℂ) (s : Fin d → ℝ) : ft (roll f s) = fun k => ft f k * phase (kept N s) k := by
  unfold roll
  rw [C23_ft_ift]
  funext k
  exact rollFt_eq _ _ _

theorem ft_injective {f g : Idx N → ℂ} (h : ft f = ft g) : f = g := by rw [← C23_ift_ft f, h, C23_ift_ft]

theorem wrap_injective (n : ℕ) (hn : 0 < n) (m : ℤ) (x y : Fin n) (h : wrap n hn ((x : ℕ) - m) = wrap n hn ((y : ℕ) - m)) : x = y := by
  have h1 := congrArg (fun z : Fin n => ((z : ℕ) : ℤ)) h
  have key : ∀ i : ℤ, ((wrap n hn i : ℕ) : ℤ) = i % n := fun i => by
    show (((i % n).toNat : ℕ) : ℤ) = _
    rw [Int.toNat_of_nonneg (Int.emod_nonneg i (by omega))]
  simp only [key] at h1
  have h2 : ((x : ℕ) : ℤ) % n = ((y : ℕ) : ℤ) % n := by
    have := congrArg (fun z => (z + m) % (n : ℤ)) h1
    simpa using this
  have hx := x.isLt
  have hy := y.isLt
  rw [Int.emod_eq_of_lt (by omega) (by omega), Int.emod_eq_of_lt (by omega) (by omega)] at h2
  exact Fin.ext (by omega)

theorem ft_circular (hN : ∀ a, 0 < N a) (f : Idx N → ℂ) (m : Fin d → ℤ) : ft (circular f m) = fun k => ft f k * phase (fun a => (m a : ℝ)) k := by
  funext k
  let e : Idx N → Idx N := fun x a => wrap (N a) (hN a) (((x a : ℕ) : ℤ) - m a)
  have he : Function.Bijective e := Finite.injective_iff_bijective.1 fun x y h => funext fun a => wrap_injective _ _ _ _ _ (congrFun h a)
  unfold ft
  rw [Finset.sum_mul, ← he.sum_comp (fun y => f y * (∏ a, twiddle (N a) (k a) (y a)) * phase (fun a => (m a : ℝ)) k)]
  refine Finset.sum_congr rfl fun x _ => ?_
  rw [phase_int hN, mul_assoc, ← Finset.prod_mul_distrib]
  refine congrArg (f (e x) * ·) (Finset.prod_congr rfl fun a _ => ?_)
  show _ = twiddle (N a) (k a) (wrap (N a) (hN a) (((x a : ℕ) : ℤ) - m a)) * _
  rw [← exp_wrap, ← exp_wrap, ← exp_add]
  unfold twiddle
  congr 1
  push_cast
  ring

/-- **C59 (exact).** For all shifts: the value at `x` is that of the Fourier interpolation of the array at `x` minus the shift, without the part of the shift that is neglected. -/
theorem C59_exact (f : Idx N → ℂ) (s : Fin d → ℝ) (x : Idx N) : roll f s x = interpolate (ft f) fun a => (x a : ℕ) - kept N s a := by
  unfold roll interpolate ift
  congr 1
  refine Finset.sum_congr rfl fun k _ => ?_
  rw [rollFt_eq, mul_assoc]
  congr 1
  rw [phase_prod, ← Finset.prod_mul_distrib]
  push_cast
  rw [Finset.mul_sum, exp_sum]
  refine Finset.prod_congr rfl fun a _ => ?_
  unfold untwiddle
  rw [← exp_add]
  have hn : (N a : ℂ) ≠ 0 := by exact_mod_cast (pos_of_idx x a).ne'
  have h := exp_cycles (N a) (k a) (pos_of_idx x a) (-((x a : ℕ) : ℤ))
  push_cast at h
  have e1 : (2 * Real.pi * I * (((k a : ℕ) : ℂ) * ((x a : ℕ) : ℂ) / N a)) = -(2 * Real.pi * I * (((k a : ℕ) : ℂ) * -((x a : ℕ) : ℂ) / N a)) := by ring
  rw [exp_add, e1, ← h, ← exp_add]
  congr 1
  ring

/-- **C59 (whole pixels, partial).** Rolling by whole pixels is the circular shift.  Missing: axes with 6 10⁸ or more pixels, see `C59_large_violates`. -/
theorem C59_integer_partial (hN : ∀ a, 0 < N a) (f : Idx N → ℂ) (m : Fin d → ℤ) (hm : ∀ a, m a = 0 ∨ N a < 600000000) : roll f (fun a => (m a : ℝ)) = circular f m := by
  apply ft_injective
  rw [ft_roll, ft_circular hN, effective_int hN m hm]

/-- The hypotheses can be met: a row and a column. -/
example (f : Idx ![4, 6] → ℂ) : roll f (fun a => ((![1, -2] : Fin 2 → ℤ) a : ℝ)) = circular f ![1, -2] :=
  C59_integer_partial (fun a => by fin_cases a <;> decide) f _ fun a => .inr (by fin_cases a <;> decide)

/-- **C59 (group, partial).** Rolling by `s` and by `t` is rolling by `s + t`, for all shifts that are not neglected (see `effective_of`). -/
theorem C59_add_partial (f : Idx N → ℂ) (s t : Fin d → ℝ) (hs : Effective N s) (ht : Effective N t) (hst : Effective N (s + t)) : roll (roll f s) t = roll f (s + t) := by
  apply ft_injective
  rw [ft_roll, ft_roll, ft_roll, hs, ht, hst]
  funext k
  rw [phase_add, mul_assoc]

/-- The hypotheses can be met: by a third of a pixel, and by a quarter of a pixel. -/
example (f : Idx ![4] → ℂ) : roll (roll f fun _ => 1 / 3) (fun _ => 1 / 4) = roll f ((fun _ => 1 / 3) + fun _ => 1 / 4) := by
  have key : ∀ r : ℝ, 1 / 4 ≤ r → Effective (![4] : Fin 1 → ℕ) fun _ => r := fun r hr => by
    refine effective_of (fun a => .inr ?_) fun a => .inr ?_
    · rw [abs_of_pos (by linarith)]; norm_num; linarith
    · have : ((![4] : Fin 1 → ℕ) a : ℝ) = 4 := by fin_cases a; rfl
      rw [this, abs_of_pos (by have := Real.pi_pos; positivity)]
      have := Real.pi_gt_three
      norm_num
      nlinarith
  exact C59_add_partial f _ _ (key _ (by norm_num)) (key _ (by norm_num)) (key (1 / 3 + 1 / 4) (by norm_num))

/-- **C59 (inverse).** Rolling back restores the array, for all shifts. -/
theorem C59_inverse (f : Idx N → ℂ) (s : Fin d → ℝ) : roll (roll f s) (-s) = f := by
  apply ft_injective
  rw [ft_roll, ft_roll, kept_neg]
  funext k
  rw [mul_assoc, mul_comm (phase _ k), phase_neg_mul, mul_one]

/-- **C59 (zero).** -/
theorem C59_zero (f : Idx N → ℂ) : roll f (fun _ => 0) = f := by
  apply ft_injective
  rw [ft_roll, effective_zero]
  funext k
  rw [phase_zero, mul_one]

/-- **C59 (period).** Rolling by the size of the array is the identity, along any number of axes, for all sizes. -/
theorem C59_period (f : Idx N → ℂ) (axes : Fin d → Bool) : roll f (fun a => if axes a then (N a : ℝ) else 0) = f := by
  by_cases hN : ∀ a, 0 < N a
  · have he : Effective N fun a => if axes a then (N a : ℝ) else 0 := by
      refine effective_of (fun a => ?_) fun a => ?_
      · by_cases h : axes a
        · right
          rw [if_pos h, abs_of_nonneg (Nat.cast_nonneg _)]
          have : (1 : ℝ) ≤ N a := by exact_mod_cast hN a
          norm_num; linarith
        · left; rw [if_neg h]
      · by_cases h : axes a
        · right
          rw [if_pos h]
          have : (N a : ℝ) ≠ 0 := by exact_mod_cast (hN a).ne'
          rw [mul_div_cancel_right₀ _ this, abs_of_pos (by have := Real.pi_pos; positivity)]
          have := Real.pi_gt_three
          norm_num; linarith
        · left; rw [if_neg h]
    apply ft_injective
    rw [ft_roll, he]
    have : (fun a => if axes a then (N a : ℝ) else 0) = fun a => (((if axes a then (N a : ℤ) else 0) : ℤ) : ℝ) := funext fun a => by split_ifs <;> simp
    rw [this, ← ft_circular hN]
    congr 1
    funext x
    unfold circular
    congr 1
    funext a
    apply Fin.ext
    show ((((x a : ℕ) : ℤ) - if axes a then (N a : ℤ) else 0) % (N a : ℤ)).toNat = _
    have hx := (x a).isLt
    have : (((x a : ℕ) : ℤ) - if axes a then (N a : ℤ) else 0) % (N a : ℤ) = (x a : ℕ) := by
      split_ifs
      · rw [Int.sub_emod_right, Int.emod_eq_of_lt (by omega) (by omega)]
      · rw [sub_zero, Int.emod_eq_of_lt (by omega) (by omega)]
    rw [this, Int.toNat_natCast]
  · funext x
    exact absurd (fun a => pos_of_idx x a) hN

/-- **C59 (linear).** -/
theorem C59_linear (a b : ℂ) (f g : Idx N → ℂ) (s : Fin d → ℝ) : roll (fun x => a * f x + b * g x) s = fun x => a * roll f s x + b * roll g s x := by
  apply ft_injective
  rw [ft_roll, C23_ft_linear, C23_ft_linear, ft_roll, ft_roll]
  funext k
  ring

/-- **C59 (energy).** -/
theorem C59_energy (f : Idx N → ℂ) (s : Fin d → ℝ) : energy (roll f s) = energy f := by
  by_cases hN : ∀ a, 0 < N a
  · have h1 := C23_energy (roll f s)
    have h2 := C23_energy f
    rw [ft_roll] at h1
    simp_rw [norm_mul, norm_phase, mul_one] at h1
    rw [h1] at h2
    have : (∏ a, (N a : ℝ)) ≠ 0 := Finset.prod_ne_zero_iff.2 fun a _ => by exact_mod_cast (hN a).ne'
    exact mul_left_cancel₀ this h2
  · unfold energy
    have : ∀ x : Idx N, False := fun x => hN fun a => pos_of_idx x a
    rw [Finset.sum_eq_zero fun x _ => (this x).elim, Finset.sum_eq_zero fun x _ => (this x).elim]

/-- A point. -/
def point : Idx (![2] : Fin 1 → ℕ) → ℂ := fun x => if (x 0).val = 0 then 1 else 0

/-- **C59** is violated for tiny shifts: rolling by 10⁻⁸ pixels does nothing, any number of times, but rolling by 2 10⁻⁸ pixels does. -/
theorem C59_violates : roll point (fun _ => 1e-8) = point ∧ roll (roll point fun _ => 1e-8) (fun _ => 1e-8) ≠ roll point ((fun _ => 1e-8) + fun _ => 1e-8) := by
  have h1 : roll point (fun _ => 1e-8) = point := by
    apply ft_injective
    rw [ft_roll, show kept (![2] : Fin 1 → ℕ) (fun _ => 1e-8) = fun _ => 0 from funext fun a => if_pos (.inl fun b => by rw [abs_of_pos] <;> norm_num)]
    funext k
    rw [phase_zero, mul_one]
  refine ⟨h1, fun h => ?_⟩
  rw [h1, h1] at h
  have hk : Effective (![2] : Fin 1 → ℕ) ((fun _ => 1e-8) + fun _ => 1e-8) := by
    refine effective_of (fun a => .inr ?_) fun a => .inr ?_
    · simp only [Pi.add_apply]; rw [abs_of_pos] <;> norm_num
    · have h2 : ((![2] : Fin 1 → ℕ) a : ℝ) = 2 := by fin_cases a; rfl
      simp only [Pi.add_apply, h2]
      rw [abs_of_pos (by have := Real.pi_pos; positivity)]
      have := Real.pi_gt_three
      norm_num
      linarith
  have h2 := congrArg ft h
  rw [ft_roll, hk] at h2
  let q : Idx (![2] : Fin 1 → ℕ) := fun a => ⟨1, by fin_cases a; decide⟩
  have h3 := congrFun h2 q
  have hq : ft point q ≠ 0 := by
    unfold ft
    let e : Idx (![2] : Fin 1 → ℕ) := fun a => ⟨0, by fin_cases a; decide⟩
    rw [Finset.sum_eq_single e]
    · simp [point, e, twiddle]
    · intro x _ hx
      have : (x 0).val ≠ 0 := fun h0 => hx (funext fun a => by
        have := Subsingleton.elim a 0
        subst this
        exact Fin.ext h0)
      simp [point, this]
    · intro h; exact absurd (Finset.mem_univ _) h
  have h4 : (1 : ℂ) = phase ((fun _ => 1e-8) + fun _ => 1e-8) q := mul_left_cancel₀ hq ((mul_one _).trans h3)
  have h5 : phase ((fun _ => (1e-8 : ℝ)) + fun _ => 1e-8) q = exp (((2e-8 * Real.pi : ℝ) : ℂ) * I) := by
    unfold phase
    congr 1
    rw [show (∑ a, cycles ((![2] : Fin 1 → ℕ) a) (q a) * ((fun _ => (1e-8 : ℝ)) + fun _ => 1e-8 : Fin 1 → ℝ) a / ((![2] : Fin 1 → ℕ) a) : ℝ) = -1e-8 by
      rw [Fin.sum_univ_one]
      have : cycles ((![2] : Fin 1 → ℕ) 0) (q 0) = -1 := rfl
      rw [this]
      simp only [Pi.add_apply, Matrix.cons_val_zero]
      norm_num]
    push_cast
    ring
  rw [h5] at h4
  have h6 := congrArg Complex.im h4
  rw [exp_ofReal_mul_I_im, one_im] at h6
  have hp := Real.pi_pos
  have := Real.sin_pos_of_pos_of_lt_pi (x := 2e-8 * Real.pi) (by positivity) (by nlinarith)
  linarith

/-- **C59** is violated for large arrays: along an axis with 10⁹ pixels rolling by one pixel does nothing. -/
theorem C59_large_violates (f : Idx (![1000000000] : Fin 1 → ℕ) → ℂ) : roll f (fun _ => 1) = f := by
  apply ft_injective
  rw [ft_roll, show kept (![1000000000] : Fin 1 → ℕ) (fun _ => 1) = fun _ => 0 from funext fun a => if_pos (.inr (by
    have : ((![1000000000] : Fin 1 → ℕ) a : ℝ) = 1000000000 := by fin_cases a; norm_num
    rw [this, abs_of_pos (by have := Real.pi_pos; positivity)]
    have := Real.pi_lt_four
    norm_num
    linarith))]
  funext k
  rw [phase_zero, mul_one]

/-- **C59 (axes)** is violated: the documentation says that the left-most axes are rolled by default; with fewer shifts than axes the right-most are. -/
theorem C59_axes_violates (size ndim : ℕ) (h0 : 0 < size) (h : size < ndim) : (defaultAxes size).map (fun a => a % (ndim : ℤ)) = (List.range size).map (fun i : ℕ => ((i + (ndim - size) : ℕ) : ℤ)) ∧
    (defaultAxes size).map (fun a => a % (ndim : ℤ)) ≠ (List.range size).map fun i : ℕ => (i : ℤ) := by
  have h1 : (defaultAxes size).map (fun a => a % (ndim : ℤ)) = (List.range size).map (fun i : ℕ => ((i + (ndim - size) : ℕ) : ℤ)) := by
    unfold defaultAxes
    rw [List.map_map]
    refine List.map_congr_left fun i hi => ?_
    have := List.mem_range.1 hi
    show ((i : ℤ) - size) % ndim = _
    rw [← Int.add_emod_right, Int.emod_eq_of_lt (by omega) (by omega)]
    omega
  refine ⟨h1, ?_⟩
  rw [h1]
  intro h2
  have h3 := congrArg (·[0]?) h2
  simp [h0] at h3
  omega

end Verif.Subpixel
