import Verif.Lemmas.ScatteringModes
import Verif.Props.Fourier
import Mathlib.Tactic.LinearCombination

namespace Verif.Scattering

open Verif.Fourier Verif.Spec.Modes Complex

variable {d : ℕ}

/-! ### Assignment at the modes -/

section Fold

variable {A : Type} [DecidableEq A] {n : ℕ} (key : Fin n → A) (val : Fin n → ℂ)

theorem fold_other (q : A) : ∀ (l : List (Fin n)) (f : A → ℂ), (∀ m ∈ l, key m ≠ q) → l.foldl (fun f m => Function.update f (key m) (val m)) f q = f q := by
  intro l
  induction l with
  | nil => intro f _; rfl
  | cons m l ih =>
    intro f h
    rw [List.foldl_cons, ih _ fun m' hm' => h m' (List.mem_cons_of_mem _ hm'), Function.update_of_ne]
    exact (h m (List.mem_cons_self ..)).symm

theorem fold_key (hkey : Function.Injective key) (m : Fin n) : ∀ (l : List (Fin n)) (f : A → ℂ), m ∈ l → l.Nodup →
    l.foldl (fun f m => Function.update f (key m) (val m)) f (key m) = val m := by
  intro l
  induction l with
  | nil => intro f h; simp at h
  | cons m' l ih =>
    intro f h hnd
    rw [List.nodup_cons] at hnd
    rw [List.foldl_cons]
    rcases List.mem_cons.mp h with rfl | h
    · rw [fold_other key val _ _ _ fun m' hm' he => hnd.1 (by rw [← hkey he]; exact hm'), Function.update_self]
    · exact ih _ h hnd.2

theorem sum_fold [Fintype A] (hkey : Function.Injective key) (g : A → ℂ) :
    ∑ q, (List.finRange n).foldl (fun (f : A → ℂ) m => Function.update f (key m) (val m)) (fun _ => (0 : ℂ)) q * g q = ∑ m, val m * g (key m) := by
  rw [← Finset.sum_subset (Finset.subset_univ (Finset.univ.image key)), Finset.sum_image fun a _ b _ h => hkey h]
  · exact Finset.sum_congr rfl fun m _ => by rw [fold_key key val hkey m _ _ (List.mem_finRange m) (List.nodup_finRange n)]
  · intro q _ hq
    rw [fold_other key val q _ _ fun m _ he => hq (Finset.mem_image.mpr ⟨m, Finset.mem_univ _, he⟩), zero_mul]

end Fold

theorem rev_injective (s : Setup d) : Function.Injective fun m => s.mode (Fin.rev m) := fun _ _ h => Fin.rev_injective (mode_injective s h)

/-- The field at an index of k-space before the transform. -/
theorem ift_oneSide (s : Setup d) (P : Polarization) (v : Fin s.count → Fin P.p → ℂ) (c : Fin P.c) (i : Fin s.shape0) (m : Fin s.count) :
    ift (s.oneSide P v c i) (s.mode (Fin.rev m)) = P.rotate (s.dir m) (v m) c * s.phase m * s.axialPhase m (s.position i) := by
  unfold Setup.oneSide
  dsimp only
  rw [C23_ift_ft]
  exact fold_key (fun m => s.mode (Fin.rev m)) _ (rev_injective s) m _ _ (List.mem_finRange m) (List.nodup_finRange _)

/-! ### Phases -/

theorem twiddle_opposite (n x q : ℕ) (hq : q < n) : twiddle n x ((n - q) % n) = untwiddle n x q := by
  have hn : (n : ℂ) ≠ 0 := by exact_mod_cast (by omega : n ≠ 0)
  by_cases h0 : q = 0
  · subst h0
    rw [Nat.sub_zero, Nat.mod_self]
    simp [twiddle, untwiddle]
  · rw [Nat.mod_eq_of_lt (by omega)]
    unfold twiddle untwiddle
    rw [exp_eq_exp_iff_exists_int]
    refine ⟨-(x : ℤ), ?_⟩
    rw [Nat.cast_sub (by omega)]
    push_cast
    field_simp
    ring

theorem untwiddle_kFft (s : Setup d) (a : Fin d) (hstep : s.step a ≠ 0) (x q : Fin (s.shape a)) :
    untwiddle (s.shape a) x q = exp (I * ((s.kFft a q * ((x : ℕ) * s.step a) : ℝ) : ℂ)) := by
  have hn : (s.shape a : ℂ) ≠ 0 := by exact_mod_cast (by have := x.2; omega : s.shape a ≠ 0)
  have hst : (s.step a : ℂ) ≠ 0 := by exact_mod_cast hstep
  unfold untwiddle Setup.kFft centred
  rw [exp_eq_exp_iff_exists_int]
  split_ifs with h
  · refine ⟨0, ?_⟩
    push_cast
    field_simp
    ring
  · refine ⟨((x : ℕ) : ℤ), ?_⟩
    push_cast
    field_simp
    ring

/-- The transverse position of a sample. -/
def Setup.transverse (s : Setup d) (x : Idx s.shape) : Fin d → ℝ := fun a => s.first a + (x a : ℕ) * s.step a

theorem prod_untwiddle (s : Setup d) (hstep : ∀ a, s.step a ≠ 0) (hk : s.k0 ≠ 0) (m : Fin s.count) (x : Idx s.shape) :
    s.phase m * ∏ a, untwiddle (s.shape a) (x a) (s.mode m a) = exp (I * ((∑ a, s.wavevector (s.mode m) a * s.transverse x a : ℝ) : ℂ)) := by
  unfold Setup.phase
  rw [Finset.prod_congr rfl fun a _ => untwiddle_kFft s a (hstep a) (x a) (s.mode m a), ← exp_sum, ← exp_add, ← Finset.mul_sum, ← mul_add]
  congr 2
  rw [← ofReal_sum, ← ofReal_add, ← Finset.sum_add_distrib]
  congr 1
  refine Finset.sum_congr rfl fun a _ => ?_
  unfold Setup.wavevector Setup.transverse
  field_simp

theorem sum_transverseDir (s : Setup d) (hd : d ≤ 2) (q : Idx s.shape) : ∑ c, s.transverseDir q c ^ 2 = (∑ a, s.wavevector q a ^ 2) / s.k0 ^ 2 := by
  rw [Finset.sum_div]
  unfold Setup.transverseDir Setup.wavevector
  match d, hd with
  | 0, _ => simp
  | 1, _ => simp [Fin.sum_univ_two, div_pow]
  | 2, _ => simp [Fin.sum_univ_two, div_pow]

theorem axialDir_eq (s : Setup d) (hd : d ≤ 2) (hk : 0 < s.k0) (q : Idx s.shape) (h : Propagating s.k0 (s.wavevector q)) :
    s.axialDir q = axial s.k0 (s.wavevector q) / s.k0 ∧ 0 < s.axialDir q := by
  have h0 : 0 < s.k0 ^ 2 - ∑ a, s.wavevector q a ^ 2 := by unfold Propagating at h; linarith
  have h1 : 1 - ∑ c, s.transverseDir q c ^ 2 = (s.k0 ^ 2 - ∑ a, s.wavevector q a ^ 2) / s.k0 ^ 2 := by
    rw [sum_transverseDir s hd]
    field_simp
  have h2 : 0 < (s.k0 ^ 2 - ∑ a, s.wavevector q a ^ 2) / s.k0 ^ 2 := by positivity
  unfold Setup.axialDir axial
  rw [h1, max_eq_left h2.le]
  refine ⟨?_, Real.sqrt_pos.mpr h2⟩
  rw [Real.sqrt_div h0.le, Real.sqrt_sq hk.le]

theorem mode_mem (s : Setup d) (m : Fin s.count) : s.mode m ∈ s.modes := List.get_mem ..

/-- The direction of a mode is a unit vector with a positive axial component. -/
theorem dir_unit (s : Setup d) (hd : d ≤ 2) (htol : 0 ≤ s.tol) (hk : 0 < s.k0) (m : Fin s.count) :
    0 < s.dir m 0 ∧ s.dir m 0 ^ 2 + s.dir m 1 ^ 2 + s.dir m 2 ^ 2 = 1 := by
  have h := propagating_of_mem s htol hk (mode_mem s m)
  obtain ⟨h1, h2⟩ := axialDir_eq s hd hk _ h
  refine ⟨h2, ?_⟩
  have h3 : s.dir m 1 ^ 2 + s.dir m 2 ^ 2 = ∑ c, s.transverseDir (s.mode m) c ^ 2 := by rw [Fin.sum_univ_two]; rfl
  have h4 : s.dir m 0 ^ 2 = 1 - ∑ c, s.transverseDir (s.mode m) c ^ 2 := by
    show s.axialDir (s.mode m) ^ 2 = _
    unfold Setup.axialDir at h2 ⊢
    rw [Real.sqrt_pos] at h2
    rw [Real.sq_sqrt h2.le]
    rcases max_choice (1 - ∑ c, s.transverseDir (s.mode m) c ^ 2) 0 with h | h
    · exact h
    · rw [h] at h2; exact absurd h2 (lt_irrefl _)
  linarith

/-! ### Polarization -/

/-- What is needed of the conversion between amplitudes and components. -/
structure Polarization.Lawful (P : Polarization) : Prop where
  rotate_mul : ∀ k (a : Fin P.p → ℂ) (z : ℂ), P.rotate k (fun q => a q * z) = fun c => P.rotate k a c * z
  rotate_conj : ∀ k (a : Fin P.p → ℂ) c, (starRingEnd ℂ) (P.rotate k (fun q => (starRingEnd ℂ) (a q)) c) = P.rotate k a c
  unrotate_mul : ∀ k (f : Fin P.c → ℂ) (z : ℂ), P.unrotate k (fun c => f c * z) = fun q => P.unrotate k f q * z
  unrotate_rotate : ∀ k a, 0 < k 0 → k 0 ^ 2 + k 1 ^ 2 + k 2 ^ 2 = 1 → P.unrotate k (P.rotate k a) = a

theorem scalar_lawful : scalar.Lawful := ⟨fun _ _ _ => rfl, fun _ _ _ => Complex.conj_conj _, fun _ _ _ => rfl, fun _ _ _ _ => rfl⟩

/-- The transverse directions: `radial_mode_dir` and `radial_dir` for a unit vector. -/
theorem radial_dirs (k : Fin 3 → ℝ) (h0 : 0 < k 0) (h1 : k 0 ^ 2 + k 1 ^ 2 + k 2 ^ 2 = 1) :
    (k 1 = 0 ∧ k 2 = 0 ∧ k 0 = 1 ∧ radialModeDir k = 0 ∧ radialDir k = 0) ∨
    ∃ t, 0 < t ∧ t ^ 2 = k 1 ^ 2 + k 2 ^ 2 ∧ radialModeDir k 0 = k 1 / t ∧ radialModeDir k 1 = k 2 / t ∧
      radialDir k 0 = -t ∧ radialDir k 1 = k 0 * (k 1 / t) ∧ radialDir k 2 = k 0 * (k 2 / t) := by
  by_cases hz : k 1 ^ 2 + k 2 ^ 2 = 0
  · left
    have hk1 : k 1 = 0 := by nlinarith [sq_nonneg (k 1), sq_nonneg (k 2)]
    have hk2 : k 2 = 0 := by nlinarith [sq_nonneg (k 1), sq_nonneg (k 2)]
    have hk0 : k 0 = 1 := by
      rw [hk1, hk2] at h1
      have : (k 0 - 1) * (k 0 + 1) = 0 := by linear_combination h1
      rcases mul_eq_zero.mp this with h | h <;> linarith
    refine ⟨hk1, hk2, hk0, ?_, ?_⟩
    · funext c
      simp only [radialModeDir, norm2, Pi.zero_apply]
      rw [div_eq_zero_iff]
      left
      fin_cases c
      · exact hk1
      · exact hk2
    · funext c
      simp only [radialDir, norm3, Pi.zero_apply]
      rw [div_eq_zero_iff]
      left
      fin_cases c <;> simp [hk0, hk1, hk2]
  · right
    have hpos : 0 < k 1 ^ 2 + k 2 ^ 2 := lt_of_le_of_ne (by positivity) (Ne.symm hz)
    set t := Real.sqrt (k 1 ^ 2 + k 2 ^ 2) with ht
    have ht0 : 0 < t := Real.sqrt_pos.mpr hpos
    have ht2 : t ^ 2 = k 1 ^ 2 + k 2 ^ 2 := Real.sq_sqrt hpos.le
    have hm : ∀ c, radialModeDir k c = k c.succ / t := by
      intro c
      simp only [radialModeDir, norm2]
      show k c.succ / (Real.sqrt (k 1 ^ 2 + k 2 ^ 2) + if Real.sqrt (k 1 ^ 2 + k 2 ^ 2) = 0 then 1 else 0) = _
      rw [← ht, if_neg ht0.ne', add_zero]
    have hn3 : Real.sqrt (((k 0 * 1 + k 1 * 0 + k 2 * 0) * k 0 - 1) ^ 2 + ((k 0 * 1 + k 1 * 0 + k 2 * 0) * k 1 - 0) ^ 2 + ((k 0 * 1 + k 1 * 0 + k 2 * 0) * k 2 - 0) ^ 2) = t := by
      rw [ht]
      congr 1
      have h2 : k 1 ^ 2 + k 2 ^ 2 = 1 - k 0 ^ 2 := by linarith
      linear_combination (k 0 ^ 2) * h1 - h1
    have hr : ∀ c, radialDir k c = ((k 0 * 1 + k 1 * 0 + k 2 * 0) * k c - if c = 0 then 1 else 0) / t := by
      intro c
      simp only [radialDir, norm3]
      have e1 : (if (1 : Fin 3) = 0 then (1 : ℝ) else 0) = 0 := if_neg (by decide)
      have e2 : (if (2 : Fin 3) = 0 then (1 : ℝ) else 0) = 0 := if_neg (by decide)
      rw [e1, e2, if_pos trivial, hn3, if_neg ht0.ne', add_zero]
    refine ⟨t, ht0, ht2, hm 0, hm 1, ?_, ?_, ?_⟩
    · rw [hr, if_pos rfl, div_eq_iff ht0.ne']
      linear_combination h1 + ht2
    · rw [hr, if_neg (by decide)]; ring
    · rw [hr, if_neg (by decide)]; ring

/-- The polarization of the code is that of the rotation along the shortest path. -/
theorem vectorial_rotate (k : Fin 3 → ℝ) (h0 : 0 < k 0) (h1 : k 0 ^ 2 + k 1 ^ 2 + k 2 ^ 2 = 1) (a : Fin 2 → ℂ) : rotateVectorial k a = polarized k a := by
  have hc : (1 + (k 0 : ℂ)) ≠ 0 := by exact_mod_cast (by linarith : (1 + k 0 : ℝ) ≠ 0)
  have h1c : (k 0 : ℂ) ^ 2 + (k 1 : ℂ) ^ 2 + (k 2 : ℂ) ^ 2 = 1 := by exact_mod_cast h1
  have hp0 : polarized k a 0 = -(k 1 * a 0 + k 2 * a 1) := by
    simp [polarized, rotation, cross_apply]; ring
  have hp1 : polarized k a 1 = a 0 - k 1 * (k 1 * a 0 + k 2 * a 1) / (1 + k 0) := by
    simp [polarized, rotation, cross_apply]; field_simp; ring
  have hp2 : polarized k a 2 = a 1 - k 2 * (k 1 * a 0 + k 2 * a 1) / (1 + k 0) := by
    simp [polarized, rotation, cross_apply]; field_simp; ring
  have hr0 : rotateVectorial k a 0 = (a 0 * radialModeDir k 0 + a 1 * radialModeDir k 1) * radialDir k 0 := rfl
  have hr1 : rotateVectorial k a 1 = (a 0 * radialModeDir k 0 + a 1 * radialModeDir k 1) * radialDir k 1 + (a 0 - (a 0 * radialModeDir k 0 + a 1 * radialModeDir k 1) * radialModeDir k 0) := rfl
  have hr2 : rotateVectorial k a 2 = (a 0 * radialModeDir k 0 + a 1 * radialModeDir k 1) * radialDir k 2 + (a 1 - (a 0 * radialModeDir k 0 + a 1 * radialModeDir k 1) * radialModeDir k 1) := rfl
  have e : ∀ f g : Fin 3 → ℂ, f 0 = g 0 → f 1 = g 1 → f 2 = g 2 → f = g := by
    intro f g h0 h1 h2
    funext c
    fin_cases c
    · exact h0
    · exact h1
    · exact h2
  refine e _ _ ?_ ?_ ?_
  all_goals
    rcases radial_dirs k h0 h1 with ⟨hk1, hk2, hk0, hm, hr⟩ | ⟨t, ht0, ht2, hm0, hm1, hd0, hd1, hd2⟩
  · rw [hr0, hp0, hm, hr, hk1, hk2]; simp
  · have htc : (t : ℂ) ≠ 0 := by exact_mod_cast ht0.ne'
    rw [hr0, hp0, hm0, hm1, hd0]; push_cast; field_simp
  · rw [hr1, hp1, hm, hr, hk1]; simp
  · have htc : (t : ℂ) ≠ 0 := by exact_mod_cast ht0.ne'
    have ht2c : (t : ℂ) ^ 2 = (1 - k 0) * (1 + k 0) := by
      have : t ^ 2 = (1 - k 0) * (1 + k 0) := by linear_combination ht2 + h1
      exact_mod_cast this
    have hne : (1 - (k 0 : ℂ)) ≠ 0 := fun h => by rw [h, zero_mul] at ht2c; exact htc (pow_eq_zero_iff (two_ne_zero) |>.mp ht2c)
    rw [hr1, hp1, hm0, hm1, hd1]
    have : (a 0 * ((k 1 / t : ℝ) : ℂ) + a 1 * ((k 2 / t : ℝ) : ℂ)) * ((k 0 * (k 1 / t) : ℝ) : ℂ) + (a 0 - (a 0 * ((k 1 / t : ℝ) : ℂ) + a 1 * ((k 2 / t : ℝ) : ℂ)) * ((k 1 / t : ℝ) : ℂ)) =
        a 0 - (k 1 * a 0 + k 2 * a 1) * k 1 * (1 - k 0) / t ^ 2 := by
      push_cast; field_simp; ring
    rw [this, ht2c]
    field_simp
  · rw [hr2, hp2, hm, hr, hk2]; simp
  · have htc : (t : ℂ) ≠ 0 := by exact_mod_cast ht0.ne'
    have ht2c : (t : ℂ) ^ 2 = (1 - k 0) * (1 + k 0) := by
      have : t ^ 2 = (1 - k 0) * (1 + k 0) := by linear_combination ht2 + h1
      exact_mod_cast this
    have hne : (1 - (k 0 : ℂ)) ≠ 0 := fun h => by rw [h, zero_mul] at ht2c; exact htc (pow_eq_zero_iff (two_ne_zero) |>.mp ht2c)
    rw [hr2, hp2, hm0, hm1, hd2]
    have : (a 0 * ((k 1 / t : ℝ) : ℂ) + a 1 * ((k 2 / t : ℝ) : ℂ)) * ((k 0 * (k 2 / t) : ℝ) : ℂ) + (a 1 - (a 0 * ((k 1 / t : ℝ) : ℂ) + a 1 * ((k 2 / t : ℝ) : ℂ)) * ((k 2 / t : ℝ) : ℂ)) =
        a 1 - (k 1 * a 0 + k 2 * a 1) * k 2 * (1 - k 0) / t ^ 2 := by
      push_cast; field_simp; ring
    rw [this, ht2c]
    field_simp

theorem rotateVectorial_mul (k : Fin 3 → ℝ) (a : Fin 2 → ℂ) (z : ℂ) : rotateVectorial k (fun q => a q * z) = fun c => rotateVectorial k a c * z := by
  funext c
  refine Fin.cases ?_ (fun c => ?_) c
  · simp only [rotateVectorial, Fin.cons_zero]; ring
  · simp only [rotateVectorial, Fin.cons_succ]; ring

theorem unrotate_rotateVectorial (k : Fin 3 → ℝ) (a : Fin 2 → ℂ) (h0 : 0 < k 0) (h1 : k 0 ^ 2 + k 1 ^ 2 + k 2 ^ 2 = 1) : unrotateVectorial k (rotateVectorial k a) = a := by
  have h1c : (k 0 : ℂ) ^ 2 + (k 1 : ℂ) ^ 2 + (k 2 : ℂ) ^ 2 = 1 := by exact_mod_cast h1
  have hr0 : rotateVectorial k a 0 = (a 0 * radialModeDir k 0 + a 1 * radialModeDir k 1) * radialDir k 0 := rfl
  have hr1 : rotateVectorial k a 1 = (a 0 * radialModeDir k 0 + a 1 * radialModeDir k 1) * radialDir k 1 + (a 0 - (a 0 * radialModeDir k 0 + a 1 * radialModeDir k 1) * radialModeDir k 0) := rfl
  have hr2 : rotateVectorial k a 2 = (a 0 * radialModeDir k 0 + a 1 * radialModeDir k 1) * radialDir k 2 + (a 1 - (a 0 * radialModeDir k 0 + a 1 * radialModeDir k 1) * radialModeDir k 1) := rfl
  rcases radial_dirs k h0 h1 with ⟨hk1, hk2, hk0, hm, hr⟩ | ⟨t, ht0, ht2, hm0, hm1, hd0, hd1, hd2⟩
  · have e0 : rotateVectorial k a 0 = 0 := by rw [hr0, hm, hr]; simp
    have e1 : rotateVectorial k a 1 = a 0 := by rw [hr1, hm, hr]; simp
    have e2 : rotateVectorial k a 2 = a 1 := by rw [hr2, hm, hr]; simp
    funext q
    simp only [unrotateVectorial, hm, hr, e0, hk1, hk2]
    fin_cases q
    · simp [e1, hk1]
    · simp [e2, hk2]
  · have htc : (t : ℂ) ≠ 0 := by exact_mod_cast ht0.ne'
    have ht2c : (t : ℂ) ^ 2 = (k 1 : ℂ) ^ 2 + (k 2 : ℂ) ^ 2 := by exact_mod_cast ht2
    have hk2 : (k 2 : ℂ) ^ 2 = t ^ 2 - k 1 ^ 2 := by linear_combination -ht2c
    have hk0 : (k 0 : ℂ) ^ 2 = 1 - t ^ 2 := by linear_combination h1c + ht2c
    set rho : ℂ := a 0 * (k 1 / t) + a 1 * (k 2 / t) with hrho
    have e0 : rotateVectorial k a 0 = -rho * t := by rw [hr0, hm0, hm1, hd0]; push_cast; ring
    have e1 : rotateVectorial k a 1 = rho * (k 0 * (k 1 / t)) + (a 0 - rho * (k 1 / t)) := by rw [hr1, hm0, hm1, hd1]; push_cast; ring
    have e2 : rotateVectorial k a 2 = rho * (k 0 * (k 2 / t)) + (a 1 - rho * (k 2 / t)) := by rw [hr2, hm0, hm1, hd2]; push_cast; ring
    have hu : ((k 1 : ℂ) / t) ^ 2 + ((k 2 : ℂ) / t) ^ 2 = 1 := by field_simp; linear_combination -ht2c
    have halong : rotateVectorial k a 0 * k 0 + rotateVectorial k a 1 * k 1 + rotateVectorial k a 2 * k 2 = 0 := by
      have hk1t : (k 1 : ℂ) = t * (k 1 / t) := by field_simp
      have hk2t : (k 2 : ℂ) = t * (k 2 / t) := by field_simp
      rw [e0, e1, e2]
      generalize (k 1 : ℂ) / t = u at *
      generalize (k 2 : ℂ) / t = w at *
      rw [hk1t, hk2t]
      linear_combination (rho * k 0 * t - rho * t) * hu - t * hrho
    have hnorm : rotateVectorial k a 0 * radialDir k 0 + rotateVectorial k a 1 * radialDir k 1 + rotateVectorial k a 2 * radialDir k 2 = rho := by
      rw [e0, e1, e2, hd0, hd1, hd2]
      push_cast
      generalize (k 1 : ℂ) / t = u at *
      generalize (k 2 : ℂ) / t = w at *
      linear_combination (rho * (k 0) ^ 2 - rho * k 0) * hu - k 0 * hrho + rho * hk0
    funext q
    simp only [unrotateVectorial, halong, zero_mul, sub_zero, hnorm]
    fin_cases q
    · show (rotateVectorial k a 1 - rho * radialDir k 1) + rho * radialModeDir k 0 = a 0
      rw [e1, hd1, hm0]; push_cast; ring
    · show (rotateVectorial k a 2 - rho * radialDir k 2) + rho * radialModeDir k 1 = a 1
      rw [e2, hd2, hm1]; push_cast; ring


theorem vectorial_lawful : vectorial.Lawful where
  rotate_mul := rotateVectorial_mul
  rotate_conj := by
    intro k a c
    show (starRingEnd ℂ) (rotateVectorial k (fun q => (starRingEnd ℂ) (a q)) c) = rotateVectorial k a c
    refine Fin.cases ?_ (fun c => ?_) (c : Fin 3)
    · simp only [rotateVectorial, Fin.cons_zero, map_mul, map_add, Complex.conj_conj, Complex.conj_ofReal]
    · simp only [rotateVectorial, Fin.cons_succ, map_mul, map_add, map_sub, Complex.conj_conj, Complex.conj_ofReal]
  unrotate_mul := by
    intro k f z
    funext q
    show unrotateVectorial k (fun c => f c * z) q = unrotateVectorial k f q * z
    simp only [unrotateVectorial]
    ring
  unrotate_rotate := unrotate_rotateVectorial

end Verif.Scattering
