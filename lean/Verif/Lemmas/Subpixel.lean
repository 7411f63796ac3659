import Verif.Model.Subpixel
import Verif.Spec.Subpixel
import Verif.Props.Fourier
import Verif.Props.Backend
import Mathlib.Analysis.Real.Pi.Bounds

/-!
# Phases of shifts
-/

namespace Verif.Subpixel

open Verif.Fourier Verif.Backend Verif.Spec.Subpixel Complex

variable {d : ℕ} {N : Fin d → ℕ}

/-- The phase of component `k` after a shift by `s`. -/
noncomputable def phase (s : Fin d → ℝ) (k : Idx N) : ℂ := exp (-(2 * Real.pi * I * ((∑ a, cycles (N a) (k a) * s a / N a : ℝ) : ℂ)))

theorem phase_zero (k : Idx N) : phase (fun _ => 0) k = 1 := by simp [phase]

theorem phase_add (s t : Fin d → ℝ) (k : Idx N) : phase (s + t) k = phase s k * phase t k := by
  unfold phase
  rw [← exp_add]
  congr 1
  rw [show (∑ a, cycles (N a) (k a) * (s + t) a / N a : ℝ) = ∑ a, cycles (N a) (k a) * s a / N a + ∑ a, cycles (N a) (k a) * t a / N a by
    rw [← Finset.sum_add_distrib]; exact Finset.sum_congr rfl fun a _ => by simp only [Pi.add_apply]; ring]
  push_cast
  ring

theorem phase_neg (s : Fin d → ℝ) (k : Idx N) : phase (-s) k = (starRingEnd ℂ) (phase s k) := by
  unfold phase
  rw [← exp_conj]
  congr 1
  rw [show (∑ a, cycles (N a) (k a) * (-s) a / N a : ℝ) = -∑ a, cycles (N a) (k a) * s a / N a by
    rw [← Finset.sum_neg_distrib]; exact Finset.sum_congr rfl fun a _ => by simp only [Pi.neg_apply]; ring]
  simp only [map_neg, map_mul, conj_ofReal, conj_I, map_ofNat]
  push_cast
  ring

theorem norm_phase (s : Fin d → ℝ) (k : Idx N) : ‖phase s k‖ = 1 := by
  unfold phase
  rw [show -(2 * Real.pi * I * ((∑ a, cycles (N a) (k a) * s a / N a : ℝ) : ℂ)) = ((-(2 * Real.pi * (∑ a, cycles (N a) (k a) * s a / N a)) : ℝ) : ℂ) * I by push_cast; ring]
  exact norm_exp_ofReal_mul_I _

theorem phase_ne_zero (s : Fin d → ℝ) (k : Idx N) : phase s k ≠ 0 := exp_ne_zero _

theorem phase_neg_mul (s : Fin d → ℝ) (k : Idx N) : phase (-s) k * phase s k = 1 := by
  rw [← phase_add, neg_add_cancel]
  exact phase_zero k

theorem phase_prod (s : Fin d → ℝ) (k : Idx N) : phase s k = ∏ a, exp (-(2 * Real.pi * I * ((cycles (N a) (k a) * s a / N a : ℝ) : ℂ))) := by
  unfold phase
  rw [← exp_sum]
  congr 1
  push_cast
  rw [Finset.mul_sum, Finset.sum_neg_distrib]

theorem exp_cycles (n k : ℕ) (hn : 0 < n) (m : ℤ) : exp (-(2 * Real.pi * I * ((cycles n k * m / n : ℝ) : ℂ))) = exp (-(2 * Real.pi * I * ((k : ℂ) * m / n))) := by
  have hn' : (n : ℂ) ≠ 0 := by exact_mod_cast hn.ne'
  unfold cycles
  split_ifs
  · push_cast; rfl
  · rw [exp_eq_exp_iff_exists_int]
    refine ⟨m, ?_⟩
    push_cast
    field_simp
    ring

/-- Only the remainder of a number of pixels matters. -/
theorem exp_wrap (n k : ℕ) (hn : 0 < n) (m : ℤ) : exp (-(2 * Real.pi * I * ((k : ℂ) * m / n))) = twiddle n k (wrap n hn m) := by
  have hn' : (n : ℂ) ≠ 0 := by exact_mod_cast hn.ne'
  unfold twiddle
  rw [exp_eq_exp_iff_exists_int]
  refine ⟨-(k * (m / n)), ?_⟩
  have h : ((wrap n hn m : ℕ) : ℤ) = m - n * (m / n) := by
    have := Int.emod_add_mul_ediv m n
    have := Int.emod_nonneg m (by omega : (n : ℤ) ≠ 0)
    show (((m % n).toNat : ℕ) : ℤ) = _
    rw [Int.toNat_of_nonneg this]
    linarith
  have h' : ((wrap n hn m : ℕ) : ℂ) = m - n * ((m / n : ℤ) : ℂ) := by
    have := congrArg (fun z : ℤ => (z : ℂ)) h
    simpa using this
  rw [h']
  push_cast
  field_simp
  ring

theorem phase_int (hN : ∀ a, 0 < N a) (m : Fin d → ℤ) (k : Idx N) : phase (fun a => (m a : ℝ)) k = ∏ a, twiddle (N a) (k a) (wrap (N a) (hN a) (m a)) := by
  rw [phase_prod]
  refine Finset.prod_congr rfl fun a _ => ?_
  rw [← exp_wrap, ← exp_cycles _ _ (hN a)]

theorem pos_of_idx (k : Idx N) (a : Fin d) : 0 < N a := Nat.zero_lt_of_lt (k a).isLt

/-! ### The phase of the code -/

theorem rollGrid_eq (hN : ∀ a, 1 ≤ N a) (s : Fin d → ℝ) : rollGrid N s = .ok
    { shape := N, step := fun a => 2 * Real.pi * s a / N a, center := fun _ => 0, dt := .float, flat := fun _ => false, originAtCenter := fun _ => false, centerAtIndex := fun _ => true,
      multidimensional := true, stepShort := false } := by
  unfold rollGrid
  refine (Grid.init_eq (s1 := ⟨fun a => (N a : ℝ), some (Grid.arrStep ⟨.float, fun a => 2 * Real.pi * s a / N a⟩), none, none, none⟩)
    (center := Grid.constInt 0) rfl (Grid.roundShape_nat N hN) (.inl rfl) rfl (by simp [Grid.failsChecks]) rfl).trans ?_
  simp [Grid.arrStep, Grid.promote_float_left, Grid.constInt]

theorem phaseRange_eq (k : Idx N) (s : Fin d → ℝ) (a : Fin d) : phaseRange N s a (k a) = 2 * Real.pi * (cycles (N a) (k a) * s a / N a) := by
  have hk : (k a : ℕ) < N a := (k a).isLt
  unfold phaseRange
  rw [rollGrid_eq fun a => pos_of_idx k a]
  dsimp only
  rw [Grid.coords_eq]
  simp only [Bool.false_eq_true, if_false, Spec.Grid.fftOrder, List.map_map]
  rw [List.getD_eq_getElem?_getD, List.getElem?_map, List.getElem?_range hk]
  simp only [Option.map_some, Option.getD_some, Function.comp_apply, Spec.Grid.firstSample, Spec.Grid.centerPos, if_true]
  have h : (((k a : ℕ) + N a / 2) % N a : ℕ) = (cycles (N a) (k a) + ((N a / 2 : ℕ) : ℤ) : ℤ) := by
    unfold cycles
    split_ifs with h
    · rw [Nat.mod_eq_of_lt (by omega)]; push_cast; ring
    · have : ((k a : ℕ) + N a / 2) % N a = (k a : ℕ) + N a / 2 - N a := by
        rw [Nat.mod_eq_sub_mod (by omega), Nat.mod_eq_of_lt (by omega)]
      rw [this]
      omega
  have h' : ((((k a : ℕ) + N a / 2) % N a : ℕ) : ℝ) = (cycles (N a) (k a) : ℝ) + ((N a / 2 : ℕ) : ℝ) := by
    have := congrArg (fun z : ℤ => (z : ℝ)) h
    rw [← Int.cast_natCast (R := ℝ), this, Int.cast_add, Int.cast_natCast]
  rw [h']
  ring

open Classical in
/-- The part of a shift that is not neglected. -/
noncomputable def kept (N : Fin d → ℕ) (s : Fin d → ℝ) : Fin d → ℝ := fun a => if (∀ b, |s b| ≤ 1e-8) ∨ |2 * Real.pi * s a / N a| ≤ 1e-8 then 0 else s a

theorem kept_neg (s : Fin d → ℝ) : kept N (-s) = -kept N s := by
  funext a
  unfold kept
  simp only [Pi.neg_apply, abs_neg, mul_neg, neg_div]
  split_ifs <;> simp

/-- `roll_ft` multiplies with the phase of the part of the shift that is not neglected. -/
theorem rollFt_eq (F : Idx N → ℂ) (s : Fin d → ℝ) (k : Idx N) : rollFt F s k = F k * phase (kept N s) k := by
  unfold rollFt
  split_ifs with h
  · rw [show kept N s = fun _ => 0 from funext fun a => if_pos (.inl h), phase_zero, mul_one]
  · rw [phase_prod]
    refine congrArg (F k * ·) (Finset.prod_congr rfl fun a _ => ?_)
    unfold kept
    by_cases h2 : |2 * Real.pi * s a / N a| ≤ 1e-8
    · rw [if_pos h2, if_pos (.inr h2)]; simp
    · rw [if_neg h2, if_neg (not_or.2 ⟨h, h2⟩), phaseRange_eq]
      congr 1
      push_cast
      ring

/-- The shift is not neglected along any axis. -/
def Effective (N : Fin d → ℕ) (s : Fin d → ℝ) : Prop := kept N s = s

theorem effective_neg {s : Fin d → ℝ} (h : Effective N s) : Effective N (-s) := by
  unfold Effective at *
  rw [kept_neg, h]

theorem effective_zero : Effective N fun _ => 0 := by
  funext a
  unfold kept
  split_ifs <;> rfl

/-- A shift is effective if each element is 0 or large enough. -/
theorem effective_of {s : Fin d → ℝ} (h1 : ∀ a, s a = 0 ∨ 1e-8 < |s a|) (h2 : ∀ a, s a = 0 ∨ 1e-8 < |2 * Real.pi * s a / N a|) : Effective N s := by
  funext a
  unfold kept
  split_ifs with h
  · rcases h2 a with h0 | h0
    · exact h0.symm
    · rcases h with h | h
      · rcases h1 a with h3 | h3
        · exact h3.symm
        · exact absurd (h a) (not_le.2 h3)
      · exact absurd h (not_le.2 h0)
  · rfl

/-- Whole pixels are effective for arrays with fewer than 6 10⁸ pixels along each axis. -/
theorem effective_int (hN : ∀ a, 0 < N a) (m : Fin d → ℤ) (hm : ∀ a, m a = 0 ∨ N a < 600000000) : Effective N fun a => (m a : ℝ) := by
  have h1 : ∀ a, m a ≠ 0 → (1 : ℝ) ≤ |(m a : ℝ)| := fun a h => by exact_mod_cast Int.one_le_abs h
  refine effective_of (fun a => ?_) fun a => ?_
  · by_cases h : m a = 0
    · left; exact_mod_cast h
    · right; have := h1 a h; norm_num; linarith
  · rcases hm a with h | h
    · left; exact_mod_cast h
    · by_cases h0 : m a = 0
      · left; exact_mod_cast h0
      right
      have h3 := h1 a h0
      have hN : (0 : ℝ) < N a := by exact_mod_cast hN a
      have hN' : (N a : ℝ) < 600000000 := by exact_mod_cast h
      rw [abs_div, abs_mul, abs_of_pos (by positivity : 0 < 2 * Real.pi), abs_of_pos hN, lt_div_iff₀ hN]
      have := Real.pi_gt_three
      nlinarith

end Verif.Subpixel
