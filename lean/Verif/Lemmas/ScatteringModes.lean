import Verif.Model.Scattering
import Verif.Spec.Modes
import Mathlib.Data.List.Sort
import Mathlib.Tactic.Ring
import Mathlib.Tactic.Linarith
import Mathlib.Tactic.Positivity
import Mathlib.Tactic.FieldSimp

namespace Verif.Scattering

open Verif.Fourier Verif.Spec.Modes

variable {d : ℕ}

/-! ### Raster order -/

theorem mem_raster : ∀ {d : ℕ} (n : Fin d → ℕ) (x : Idx n), x ∈ raster d n
  | 0, n, x => by
    rw [raster, List.mem_singleton]
    funext a
    exact a.elim0
  | d + 1, n, x => by
    rw [raster, List.mem_flatMap]
    refine ⟨x 0, List.mem_finRange _, List.mem_map.mpr ⟨fun a => x a.succ, mem_raster _ _, ?_⟩⟩
    funext a
    refine Fin.cases ?_ (fun b => ?_) a <;> rfl

/-- The values of a multi-index. -/
def values {n : Fin d → ℕ} (x : Idx n) : Fin d → ℕ := fun a => x a

theorem raster_sorted : ∀ {d : ℕ} (n : Fin d → ℕ), (raster d n).Pairwise fun x y => RasterLT (values x) (values y)
  | 0, n => by simp [raster]
  | d + 1, n => by
    rw [raster, List.pairwise_flatMap]
    constructor
    · intro i _
      rw [List.pairwise_map]
      refine (raster_sorted fun a => n a.succ).imp ?_
      rintro x y ⟨a, h1, h2⟩
      refine ⟨a.succ, fun b hb => ?_, h2⟩
      refine Fin.cases ?_ (fun b' => ?_) b hb
      · intro _; rfl
      · intro hb'; exact h1 b' (Fin.succ_lt_succ_iff.mp hb')
    · refine (List.pairwise_lt_finRange (n 0)).imp ?_
      intro i j hij x hx y hy
      obtain ⟨x', -, rfl⟩ := List.mem_map.mp hx
      obtain ⟨y', -, rfl⟩ := List.mem_map.mp hy
      exact ⟨0, fun b hb => absurd hb (Fin.not_lt_zero b), hij⟩

theorem rasterLT_irrefl {α : Type} [Preorder α] (x : Fin d → α) : ¬ RasterLT x x := by
  rintro ⟨a, -, h⟩
  exact lt_irrefl _ h

theorem rasterLT_asymm {α : Type} [Preorder α] {x y : Fin d → α} (h : RasterLT x y) : ¬ RasterLT y x := by
  obtain ⟨a, h1, h2⟩ := h
  rintro ⟨b, h3, h4⟩
  rcases lt_trichotomy a b with hab | hab | hab
  · rw [h3 a hab] at h2; exact lt_irrefl _ h2
  · subst hab; exact lt_irrefl _ (h2.trans h4)
  · rw [h1 b hab] at h4; exact lt_irrefl _ h4

/-! ### Indices -/

theorem centred_unshift {n : Fin d → ℕ} (j : Idx n) (a : Fin d) : centred (n a) (unshift j a) = ((j a : ℕ) : ℤ) - ((n a / 2 : ℕ) : ℤ) := by
  have hj := (j a).2
  have hv : ((unshift j a : ℕ) : ℤ) = (((j a : ℕ) : ℤ) - ((n a / 2 : ℕ) : ℤ)) % ((n a : ℕ) : ℤ) := by
    have h2 := Int.emod_nonneg (((j a : ℕ) : ℤ) - ((n a / 2 : ℕ) : ℤ)) (by omega : ((n a : ℕ) : ℤ) ≠ 0)
    simp only [unshift, Int.toNat_of_nonneg h2]
  unfold centred
  by_cases h : n a / 2 ≤ (j a : ℕ)
  · rw [Int.emod_eq_of_lt (by omega) (by omega)] at hv
    rw [if_pos (by omega)]
    omega
  · have : (((j a : ℕ) : ℤ) - ((n a / 2 : ℕ) : ℤ)) % ((n a : ℕ) : ℤ) = ((j a : ℕ) : ℤ) - ((n a / 2 : ℕ) : ℤ) + n a := by
      rw [← Int.add_emod_right]
      exact Int.emod_eq_of_lt (by omega) (by omega)
    rw [this] at hv
    rw [if_neg (by omega)]
    omega

theorem centred_injective {n : ℕ} {p q : ℕ} (hp : p < n) (hq : q < n) (h : centred n p = centred n q) : p = q := by
  unfold centred at h
  split_ifs at h <;> omega

theorem kFft_unshift (s : Setup d) (j : Idx s.shape) (a : Fin d) : s.kFft a (unshift j a) = s.kShifted a (j a) := by
  unfold Setup.kFft Setup.kShifted
  rw [centred_unshift]

/-- Each index is that of a shifted one. -/
theorem unshift_surjective {n : Fin d → ℕ} (q : Idx n) : ∃ j : Idx n, unshift j = q := by
  have h : ∀ a, (((q a : ℕ) + n a / 2) % n a) < n a := fun a => Nat.mod_lt _ ((Nat.zero_le _).trans_lt (q a).2)
  refine ⟨fun a => ⟨((q a : ℕ) + n a / 2) % n a, h a⟩, ?_⟩
  funext a
  have hq := (q a).2
  apply Fin.ext
  apply centred_injective (n := n a) (Fin.is_lt _) hq
  rw [centred_unshift]
  simp only
  unfold centred
  by_cases hlt : (q a : ℕ) + n a / 2 < n a
  · rw [Nat.mod_eq_of_lt hlt]
    split_ifs <;> omega
  · have : ((q a : ℕ) + n a / 2) % n a = (q a : ℕ) + n a / 2 - n a := by
      rw [Nat.mod_eq_sub_mod (by omega), Nat.mod_eq_of_lt (by omega)]
    rw [this]
    split_ifs <;> omega

/-- The wavevector of an index. -/
noncomputable def Setup.wavevector (s : Setup d) (q : Idx s.shape) : Fin d → ℝ := fun a => s.kFft a (q a)

theorem mem_modes (s : Setup d) (q : Idx s.shape) : q ∈ s.modes ↔ propagatesFrom s.tol s.k0 (List.ofFn (s.wavevector q)) := by
  unfold Setup.modes
  rw [List.mem_map]
  have key : ∀ j : Idx s.shape, (List.ofFn fun a => s.kShifted a (j a)) = List.ofFn (s.wavevector (unshift j)) := by
    intro j
    congr 1
    funext a
    exact (kFft_unshift s j a).symm
  constructor
  · rintro ⟨j, hj, rfl⟩
    rw [List.mem_filter] at hj
    rw [← key]
    simpa using hj.2
  · intro h
    obtain ⟨j, rfl⟩ := unshift_surjective q
    refine ⟨j, List.mem_filter.mpr ⟨mem_raster _ j, ?_⟩, rfl⟩
    rw [← key] at h
    simpa using h

/-- The number of periods on each axis. -/
def periods {n : Fin d → ℕ} (q : Idx n) : Fin d → ℤ := fun a => centred (n a) (q a)

theorem modes_sorted (s : Setup d) : s.modes.Pairwise fun p q => RasterLT (periods p) (periods q) := by
  unfold Setup.modes
  rw [List.pairwise_map]
  refine ((raster_sorted s.shape).filter _).imp ?_
  rintro x y ⟨a, h1, h2⟩
  refine ⟨a, fun b hb => ?_, ?_⟩
  · show centred _ _ = centred _ _
    rw [centred_unshift, centred_unshift]
    have := h1 b hb
    simp only [values] at this
    rw [this]
  · show centred _ _ < centred _ _
    rw [centred_unshift, centred_unshift]
    simp only [values] at h2
    omega

theorem modes_nodup (s : Setup d) : s.modes.Nodup :=
  (modes_sorted s).imp fun {x y} h hxy => by
    subst hxy
    exact rasterLT_irrefl _ h

theorem mode_injective (s : Setup d) : Function.Injective s.mode := fun i j h => (List.Nodup.injective_get (modes_nodup s)) h

/-! ### Propagation -/

theorem propagatesFrom_lt (tol : ℝ) (htol : 0 ≤ tol) : ∀ (ks : List ℝ) (kAbs : ℝ), propagatesFrom tol kAbs ks → 0 < kAbs → (ks.map (· ^ 2)).sum < kAbs ^ 2 := by
  intro ks
  induction ks with
  | nil => intro kAbs _ hk; simpa using pow_pos hk 2
  | cons k ks ih =>
    intro kAbs h hk
    obtain ⟨h1, h2⟩ := h
    have h3 : k ^ 2 < kAbs ^ 2 := sq_lt_sq' (by linarith [neg_abs_le k]) (by linarith [le_abs_self k])
    have h4 : 0 < kAbs ^ 2 - k ^ 2 := by linarith
    rw [max_eq_left h4.le] at h2
    have h5 := ih _ h2 (Real.sqrt_pos.mpr h4)
    rw [Real.sq_sqrt h4.le] at h5
    simp only [List.map_cons, List.sum_cons]
    linarith

theorem propagatesFrom_zero (ks : List ℝ) : ∀ kAbs : ℝ, 0 < kAbs → (propagatesFrom 0 kAbs ks ↔ (ks.map (· ^ 2)).sum < kAbs ^ 2) := by
  induction ks with
  | nil => intro kAbs hk; simpa [propagatesFrom] using pow_pos hk 2
  | cons k ks ih =>
    intro kAbs hk
    refine ⟨fun h => propagatesFrom_lt 0 (le_refl _) _ _ h hk, fun h => ?_⟩
    simp only [List.map_cons, List.sum_cons] at h
    have hn : 0 ≤ (ks.map (· ^ 2)).sum := List.sum_nonneg fun x hx => by
      obtain ⟨y, -, rfl⟩ := List.mem_map.mp hx
      positivity
    have h4 : 0 < kAbs ^ 2 - k ^ 2 := by linarith
    refine ⟨?_, ?_⟩
    · rw [sub_zero]
      exact abs_lt_of_sq_lt_sq (by linarith) hk.le
    · rw [max_eq_left h4.le, ih _ (Real.sqrt_pos.mpr h4), Real.sq_sqrt h4.le]
      linarith

theorem propagatesFrom_neg (tol : ℝ) : ∀ (ks : List ℝ) (kAbs : ℝ), propagatesFrom tol kAbs (ks.map fun k => -k) ↔ propagatesFrom tol kAbs ks := by
  intro ks
  induction ks with
  | nil => intro kAbs; rfl
  | cons k ks ih =>
    intro kAbs
    simp only [List.map_cons, propagatesFrom, abs_neg, neg_sq, ih]

theorem propagating_of_mem (s : Setup d) (htol : 0 ≤ s.tol) (hk : 0 < s.k0) {q : Idx s.shape} (h : q ∈ s.modes) : Propagating s.k0 (s.wavevector q) := by
  have := propagatesFrom_lt _ htol _ _ ((mem_modes s q).mp h) hk
  rw [List.map_ofFn, List.sum_ofFn] at this
  exact this

/-! ### Reversal -/

/-- The index of the opposite wavevector. -/
def opposite {n : Fin d → ℕ} (q : Idx n) : Idx n := fun a => ⟨(n a - q a) % n a, Nat.mod_lt _ ((Nat.zero_le _).trans_lt (q a).2)⟩

theorem centred_opposite {n : Fin d → ℕ} (q : Idx n) (a : Fin d) (h : 2 * (q a : ℕ) ≠ n a) : centred (n a) (opposite q a) = -centred (n a) (q a) := by
  have hq := (q a).2
  unfold centred opposite
  simp only
  by_cases h0 : (q a : ℕ) = 0
  · rw [h0, Nat.sub_zero, Nat.mod_self]; simp; omega
  · rw [Nat.mod_eq_of_lt (by omega)]
    split_ifs <;> omega

/-- The grid is fine enough for the wavenumber, or odd, along each axis. -/
def Setup.Sampled (s : Setup d) : Prop := ∀ a, s.shape a % 2 = 1 ∨ s.k0 * |s.step a| ≤ Real.pi

theorem not_nyquist (s : Setup d) (htol : 0 ≤ s.tol) (hk : 0 < s.k0) (hstep : ∀ a, s.step a ≠ 0) (hs : s.Sampled) {q : Idx s.shape} (h : q ∈ s.modes) (a : Fin d) :
    2 * (q a : ℕ) ≠ s.shape a := by
  intro hq
  rcases hs a with hodd | hs
  · omega
  · have hp := propagating_of_mem s htol hk h
    have h1 : s.wavevector q a ^ 2 < s.k0 ^ 2 := lt_of_le_of_lt (Finset.single_le_sum (f := fun a => s.wavevector q a ^ 2) (fun i _ => sq_nonneg _) (Finset.mem_univ a)) hp
    have hlt := (q a).2
    have h2 : s.wavevector q a = -(Real.pi / s.step a) := by
      unfold Setup.wavevector Setup.kFft centred
      rw [if_neg (by omega)]
      have hn : (s.shape a : ℝ) ≠ 0 := by exact_mod_cast (by omega : s.shape a ≠ 0)
      have hst := hstep a
      have hq2 : ((q a : ℕ) : ℝ) = s.shape a / 2 := by
        have : (2 : ℝ) * ((q a : ℕ) : ℝ) = s.shape a := by exact_mod_cast hq
        linarith
      push_cast
      rw [hq2]
      field_simp
      ring
    have h3 : |s.step a| ≠ 0 := abs_ne_zero.mpr (hstep a)
    have h4 : 0 < |s.step a| := abs_pos.mpr (hstep a)
    have h5 : s.k0 ≤ Real.pi / |s.step a| := by rw [le_div_iff₀ h4]; exact hs
    have h6 : s.wavevector q a ^ 2 = (Real.pi / |s.step a|) ^ 2 := by rw [h2, neg_sq, div_pow, div_pow, sq_abs]
    rw [h6] at h1
    have h7 := pow_le_pow_left₀ hk.le h5 2
    linarith

theorem wavevector_opposite (s : Setup d) (q : Idx s.shape) (h : ∀ a, 2 * (q a : ℕ) ≠ s.shape a) : s.wavevector (opposite q) = fun a => -s.wavevector q a := by
  funext a
  unfold Setup.wavevector Setup.kFft
  rw [centred_opposite q a (h a)]
  push_cast
  ring

theorem opposite_mem (s : Setup d) (q : Idx s.shape) (h : ∀ a, 2 * (q a : ℕ) ≠ s.shape a) : opposite q ∈ s.modes ↔ q ∈ s.modes := by
  rw [mem_modes, mem_modes, wavevector_opposite s q h, ← propagatesFrom_neg, List.map_ofFn]
  simp [Function.comp_def]

theorem opposite_opposite {n : Fin d → ℕ} (q : Idx n) : opposite (opposite q) = q := by
  funext a
  have hq := (q a).2
  apply Fin.ext
  simp only [opposite]
  by_cases h0 : (q a : ℕ) = 0
  · simp [h0]
  · rw [Nat.mod_eq_of_lt (by omega : n a - (q a : ℕ) < n a), Nat.mod_eq_of_lt (by omega)]; omega

theorem modes_reverse (s : Setup d) (hn : ∀ q ∈ s.modes, ∀ a, 2 * (q a : ℕ) ≠ s.shape a) : s.modes.reverse = s.modes.map opposite := by
  have h1 : (s.modes.map opposite).Pairwise fun p q => RasterLT (periods q) (periods p) := by
    rw [List.pairwise_map]
    refine (List.Pairwise.imp_of_mem ?_ (modes_sorted s))
    rintro p q hp hq ⟨a, h1, h2⟩
    refine ⟨a, fun b hb => ?_, ?_⟩
    · show centred _ _ = centred _ _
      rw [centred_opposite _ _ (hn p hp b), centred_opposite _ _ (hn q hq b)]
      have := h1 b hb
      simp only [periods] at this
      rw [this]
    · show centred _ _ < centred _ _
      rw [centred_opposite _ _ (hn p hp a), centred_opposite _ _ (hn q hq a)]
      simp only [periods] at h2
      omega
  have h2 : s.modes.reverse.Pairwise fun p q => RasterLT (periods q) (periods p) := List.pairwise_reverse.mpr (modes_sorted s)
  have hnd : (s.modes.map opposite).Nodup := h1.imp fun {x y} h hxy => by
    subst hxy
    exact rasterLT_irrefl _ h
  refine List.Perm.eq_of_pairwise (le := fun p q => RasterLT (periods q) (periods p)) (fun a b _ _ hab hba => absurd hba (rasterLT_asymm hab)) h2 h1 ?_
  rw [List.perm_ext_iff_of_nodup (List.nodup_reverse.mpr (modes_nodup s)) hnd]
  intro q
  rw [List.mem_reverse, List.mem_map]
  constructor
  · intro hq
    exact ⟨opposite q, (opposite_mem s q (hn q hq)).mpr hq, opposite_opposite q⟩
  · rintro ⟨p, hp, rfl⟩
    exact (opposite_mem s p (hn p hp)).mpr hp

theorem mode_rev (s : Setup d) (hn : ∀ q ∈ s.modes, ∀ a, 2 * (q a : ℕ) ≠ s.shape a) (m : Fin s.count) : s.mode (Fin.rev m) = opposite (s.mode m) := by
  have h := modes_reverse s hn
  have h1 : s.modes.reverse[(m : ℕ)]'(by simp) = (s.modes.map opposite)[(m : ℕ)]'(by simp) := by simp only [h]
  rw [List.getElem_reverse, List.getElem_map] at h1
  simp only [Setup.mode, List.get_eq_getElem]
  rw [← h1]
  congr 1
  rw [Fin.val_rev]
  omega

end Verif.Scattering
