import Verif.Model.Display
import Verif.Spec.Display
import Mathlib.Tactic.IntervalCases
import Mathlib.Tactic.FinCases

/-!
# C16–C19: colours and image extent
-/

set_option linter.unusedSectionVars false

namespace Verif.Display

open Verif Verif.Spec.Display

section
variable {K : Type} [Field K] [LinearOrder K] [IsStrictOrderedRing K] [FloorRing K]

/-! ### Lemmas -/

theorem b2k_true : (b2k true : K) = 1 := rfl
theorem b2k_false : (b2k false : K) = 0 := rfl

/-- The colour in one sixth of the colour circle, at the fraction `f`. -/
def sextant (j : ℤ) (f s v : K) : Pixel K :=
  if j = 0 then ⟨v, v * (1 - s * (1 - f)), v * (1 - s)⟩
  else if j = 1 then ⟨v * (1 - s * f), v, v * (1 - s)⟩
  else if j = 2 then ⟨v * (1 - s), v, v * (1 - s * (1 - f))⟩
  else if j = 3 then ⟨v * (1 - s), v * (1 - s * f), v⟩
  else if j = 4 then ⟨v * (1 - s * (1 - f)), v * (1 - s), v⟩
  else ⟨v, v * (1 - s), v * (1 - s * f)⟩

theorem hsv2rgb_of_floor {h : K} {i : ℤ} (hi : 0 ≤ i) (hi' : i ≤ 127) (h0 : (i : K) ≤ 6 * h) (h1 : 6 * h < i + 1) (s v : K) :
    hsv2rgb h s v = some (sextant (i % 6) (6 * h - i) s v) := by
  have hf : ⌊6 * h⌋ = i := Int.floor_eq_iff.2 ⟨h0, h1⟩
  have hn : (0 : K) ≤ 6 * h := le_trans (by exact_mod_cast hi) h0
  have e : toInt8 (6 * h) = some i := by
    unfold toInt8
    simp only [hn, if_true, hf]
    rw [if_pos ⟨by omega, hi'⟩]
  unfold hsv2rgb
  rw [e, Option.map_some]
  congr 1
  have hj0 := Int.emod_nonneg i (by norm_num : (6 : ℤ) ≠ 0)
  have hj1 := Int.emod_lt_of_pos i (by norm_num : (0 : ℤ) < 6)
  generalize i % 6 = j at hj0 hj1 ⊢
  interval_cases j <;> simp [sextant, b2k]

theorem floor_range {h : K} (h0 : 0 ≤ h) (h1 : h < 21) :
    0 ≤ ⌊6 * h⌋ ∧ ⌊6 * h⌋ ≤ 127 ∧ ((⌊6 * h⌋ : ℤ) : K) ≤ 6 * h ∧ 6 * h < ⌊6 * h⌋ + 1 := by
  refine ⟨Int.floor_nonneg.2 (by linarith), ?_, Int.floor_le _, Int.lt_floor_add_one _⟩
  have : ⌊6 * h⌋ < 128 := Int.floor_lt.2 (by push_cast; linarith)
  omega

/-! ### C16 -/

/-- **C16 (defined).** The hues for which the result does not depend on the platform: six times the hue fits in a signed byte. -/
theorem C16_defined (h s v : K) : (hsv2rgb h s v).isSome = true ↔ -129 < 6 * h ∧ 6 * h < 128 := by
  have key : (hsv2rgb h s v).isSome = (toInt8 (6 * h)).isSome := by
    unfold hsv2rgb
    rw [Option.isSome_map]
  rw [key]
  unfold toInt8
  dsimp only
  by_cases h0 : 0 ≤ 6 * h
  · rw [if_pos h0]
    have h1 : ⌊6 * h⌋ ≤ 127 ↔ 6 * h < 128 := by
      rw [← Int.lt_add_one_iff, Int.floor_lt]
      norm_num
    have h2 : -128 ≤ ⌊6 * h⌋ := by
      have := Int.floor_nonneg.2 h0
      omega
    have h3 : -129 < 6 * h := by linarith
    split_ifs with h4
    · simp [h3, h1.1 h4.2]
    · simp only [Option.isSome_none, Bool.false_eq_true, h3, true_and, false_iff]
      exact fun h5 => h4 ⟨h2, h1.2 h5⟩
  · rw [if_neg h0]
    have hneg : 6 * h < 0 := not_le.1 h0
    have h1 : -128 ≤ ⌈6 * h⌉ ↔ -129 < 6 * h := by
      rw [show (-128 : ℤ) = -129 + 1 by norm_num, Int.add_one_le_iff, Int.lt_ceil]
      norm_num
    have h2 : ⌈6 * h⌉ ≤ 127 := by
      have : ⌈6 * h⌉ ≤ 0 := Int.ceil_le.2 (by push_cast; exact hneg.le)
      omega
    have h3 : 6 * h < 128 := by linarith
    split_ifs with h4
    · simp [h3, h1.1 h4.1]
    · simp only [Option.isSome_none, Bool.false_eq_true, h3, and_true, false_iff]
      exact fun h5 => h4 ⟨h1.2 h5, h2⟩

/-- For every non-negative hue below 21, all channels are between `value * (1 - saturation)` and `value`, and both are
attained. -/
theorem C16_range {h s v : K} (h0 : 0 ≤ h) (h1 : h < 21) (hs0 : 0 ≤ s) (hs1 : s ≤ 1) (hv : 0 ≤ v) :
    ∃ x, hsv2rgb h s v = some x ∧ IsBrightest v x.c0 x.c1 x.c2 ∧ IsDarkest (v * (1 - s)) x.c0 x.c1 x.c2 ∧
      0 ≤ v * (1 - s) := by
  obtain ⟨a, b, c, d⟩ := floor_range h0 h1
  refine ⟨_, hsv2rgb_of_floor a b c d s v, ?_⟩
  set f := 6 * h - (⌊6 * h⌋ : ℤ) with hf
  have f0 : 0 ≤ f := by rw [hf]; linarith
  have f1 : f ≤ 1 := by rw [hf]; linarith
  have hp : 0 ≤ v * (1 - s) := mul_nonneg hv (by linarith)
  have hvs : 0 ≤ v * s := mul_nonneg hv hs0
  have hvsf : 0 ≤ v * s * f := mul_nonneg hvs f0
  have hvsf' : 0 ≤ v * s * (1 - f) := mul_nonneg hvs (by linarith)
  have hj0 := Int.emod_nonneg ⌊6 * h⌋ (by norm_num : (6 : ℤ) ≠ 0)
  have hj1 := Int.emod_lt_of_pos ⌊6 * h⌋ (by norm_num : (0 : ℤ) < 6)
  generalize ⌊6 * h⌋ % 6 = j at hj0 hj1 ⊢
  have q1 : v * (1 - s * f) ≤ v := by nlinarith
  have q2 : v * (1 - s) ≤ v * (1 - s * f) := by nlinarith
  have t1 : v * (1 - s * (1 - f)) ≤ v := by nlinarith
  have t2 : v * (1 - s) ≤ v * (1 - s * (1 - f)) := by nlinarith
  have pv : v * (1 - s) ≤ v := q2.trans q1
  unfold sextant IsBrightest IsDarkest
  generalize v * (1 - s * (1 - f)) = t at t1 t2 ⊢
  generalize v * (1 - s * f) = q at q1 q2 ⊢
  generalize v * (1 - s) = p at hp q2 t2 pv ⊢
  interval_cases j <;> simp [*]

/-- The hue is periodic with period one. -/
theorem C16_periodic {h : K} (h0 : 0 ≤ h) (h1 : h < 20) (s v : K) : hsv2rgb (h + 1) s v = hsv2rgb h s v := by
  obtain ⟨a, b, c, d⟩ := floor_range h0 (by linarith : h < 21)
  obtain ⟨a', b', c', d'⟩ := floor_range (by linarith : 0 ≤ h + 1) (by linarith : h + 1 < 21)
  have e : ⌊6 * (h + 1)⌋ = ⌊6 * h⌋ + 6 := by
    rw [show 6 * (h + 1) = 6 * h + ((6 : ℤ) : K) by push_cast; ring, Int.floor_add_intCast]
  rw [hsv2rgb_of_floor a b c d, hsv2rgb_of_floor a' b' c' d', e]
  congr 2
  · omega
  · push_cast; ring

/-- The hue circle: the primary and secondary colours are at the multiples of one sixth. -/
theorem C16_principal (s v : K) :
    hsv2rgb 0 s v = some ⟨v, v * (1 - s), v * (1 - s)⟩ ∧
    hsv2rgb (1 / 6) s v = some ⟨v, v, v * (1 - s)⟩ ∧
    hsv2rgb (2 / 6) s v = some ⟨v * (1 - s), v, v * (1 - s)⟩ ∧
    hsv2rgb (3 / 6) s v = some ⟨v * (1 - s), v, v⟩ ∧
    hsv2rgb (4 / 6) s v = some ⟨v * (1 - s), v * (1 - s), v⟩ ∧
    hsv2rgb (5 / 6) s v = some ⟨v, v * (1 - s), v⟩ := by
  refine ⟨?_, ?_, ?_, ?_, ?_, ?_⟩
  · rw [hsv2rgb_of_floor (i := 0) (by norm_num) (by norm_num) (by norm_num) (by norm_num)]; norm_num [sextant]
  · rw [hsv2rgb_of_floor (i := 1) (by norm_num) (by norm_num) (by norm_num) (by norm_num)]; norm_num [sextant]
  · rw [hsv2rgb_of_floor (i := 2) (by norm_num) (by norm_num) (by norm_num) (by norm_num)]; norm_num [sextant]
  · rw [hsv2rgb_of_floor (i := 3) (by norm_num) (by norm_num) (by norm_num) (by norm_num)]; norm_num [sextant]
  · rw [hsv2rgb_of_floor (i := 4) (by norm_num) (by norm_num) (by norm_num) (by norm_num)]; norm_num [sextant]
  · rw [hsv2rgb_of_floor (i := 5) (by norm_num) (by norm_num) (by norm_num) (by norm_num)]; norm_num [sextant]

/-- A negative hue can give a colour that cannot be displayed: the hue -1/12 gives a negative channel. -/
theorem C16_negative_hue_violates : hsv2rgb (-1 / 12 : K) 1 1 = some ⟨1, -1 / 2, 0⟩ := by
  have hc : ⌈(6 * (-1 / 12) : K)⌉ = 0 := by rw [Int.ceil_eq_iff]; norm_num
  have hn : ¬ (0 : K) ≤ 6 * (-1 / 12) := by norm_num
  have e : toInt8 (6 * (-1 / 12) : K) = some 0 := by
    unfold toInt8; simp only [hn, if_false, hc]; rfl
  unfold hsv2rgb
  rw [e, Option.map_some]
  norm_num [b2k]

example : (0 : ℚ) ≤ 5 / 7 ∧ (5 / 7 : ℚ) < 21 ∧ hsv2rgb (5 / 7 : ℚ) (1 / 2) 1 = some ⟨9 / 14, 1 / 2, 1⟩ := by
  refine ⟨by norm_num, by norm_num, ?_⟩
  rw [hsv2rgb_of_floor (i := 4) (by norm_num) (by norm_num) (by norm_num) (by norm_num)]; norm_num [sextant]

/-! ### C17 -/

theorem pyMod_of_range {x : K} (h0 : 0 ≤ x) (h1 : x < 1) : pyMod x 1 = x := by
  have : ⌊x⌋ = 0 := Int.floor_eq_zero_iff.2 ⟨h0, h1⟩
  simp [pyMod, this]

theorem pyMod_one : pyMod (1 : K) 1 = 0 := by simp [pyMod]

theorem pyMod_of_neg {x : K} (h0 : -1 ≤ x) (h1 : x < 0) : pyMod x 1 = x + 1 := by
  have : ⌊x⌋ = -1 := Int.floor_eq_iff.2 ⟨by push_cast; exact h0, by push_cast; linarith⟩
  simp [pyMod, this]

/-- Grey is unchanged by a conversion to HSV and back. -/
theorem C17_grey (v : K) :
    hsv2rgb (rgb2hsv ⟨v, v, v⟩).c0 (rgb2hsv ⟨v, v, v⟩).c1 (rgb2hsv ⟨v, v, v⟩).c2 = some ⟨v, v, v⟩ := by
  have hc : isclose v v := by
    unfold isclose
    rw [sub_self, abs_zero]
    positivity
  have e : rgb2hsv (⟨v, v, v⟩ : Pixel K) = ⟨0, 0, v⟩ := by
    simp [rgb2hsv, selectChannel, b2k, hc, pyMod]
  rw [e]
  have := (C16_principal (0 : K) v).1
  simpa using this

/-- A pixel with the darkest channel `m`, preceded by the channel `a`, preceded by the channel `d`, cyclically. -/
def arrange (ch : Fin 3) (d a m : K) : Pixel K :=
  match ch with
  | 0 => ⟨d, a, m⟩
  | 1 => ⟨m, d, a⟩
  | 2 => ⟨a, m, d⟩

theorem exists_arrange (x : Pixel K) :
    (x.c0 = x.c1 ∧ x.c1 = x.c2) ∨ ∃ ch d a m, x = arrange ch d a m ∧ m < d ∧ m ≤ a := by
  obtain ⟨r, g, b⟩ := x
  simp only
  by_cases h0 : b < r ∧ b ≤ g
  · exact .inr ⟨0, r, g, b, rfl, h0.1, h0.2⟩
  · by_cases h1 : r < g ∧ r ≤ b
    · exact .inr ⟨1, g, b, r, rfl, h1.1, h1.2⟩
    · by_cases h2 : g < b ∧ g ≤ r
      · exact .inr ⟨2, b, r, g, rfl, h2.1, h2.2⟩
      · left
        rcases lt_trichotomy r g with h | h | h <;> rcases lt_trichotomy g b with h' | h' | h' <;>
          rcases lt_trichotomy b r with h'' | h'' | h'' <;> first
          | exact ⟨h, h'⟩
          | (exfalso; first
              | exact h0 ⟨by linarith, by linarith⟩
              | exact h1 ⟨by linarith, by linarith⟩
              | exact h2 ⟨by linarith, by linarith⟩
              | linarith)

theorem max_arrange (ch : Fin 3) {d a m : K} (hd : m < d) (ha : m ≤ a) :
    max (max (arrange ch d a m).c0 (arrange ch d a m).c1) (arrange ch d a m).c2 = max d a ∧
    min (min (arrange ch d a m).c0 (arrange ch d a m).c1) (arrange ch d a m).c2 = m := by
  fin_cases ch <;> simp only [arrange]
  · exact ⟨max_eq_left (le_max_of_le_left hd.le), min_eq_right (le_min hd.le ha)⟩
  · rw [max_eq_right hd.le, min_eq_left hd.le]; exact ⟨rfl, min_eq_left ha⟩
  · rw [max_eq_left ha, min_eq_right ha]; exact ⟨max_comm _ _, min_eq_left hd.le⟩

theorem channel_arrange (ch : Fin 3) {d a m : K} (hd : m < d) (ha : m ≤ a) :
    ((if (arrange ch d a m).c0 < (arrange ch d a m).c1 ∧ (arrange ch d a m).c0 ≤ (arrange ch d a m).c2 then 1 else 0) +
      2 * (if (arrange ch d a m).c1 < (arrange ch d a m).c2 ∧ (arrange ch d a m).c1 ≤ (arrange ch d a m).c0 then 1
        else 0) : ℤ) = ch.val := by
  match ch with
  | 0 => rw [if_neg (fun h => absurd h.2 hd.not_ge), if_neg (fun h => absurd h.1 ha.not_gt)]; rfl
  | 1 => rw [if_pos ⟨hd, ha⟩, if_neg (fun h => absurd h.2 hd.not_ge)]; rfl
  | 2 => rw [if_neg (fun h => absurd h.1 ha.not_gt), if_pos ⟨hd, ha⟩]; rfl

theorem select_arrange (ch : Fin 3) (d a m : K) :
    selectChannel (arrange ch d a m) ch.val = d ∧ selectChannel (arrange ch d a m) ((ch.val + 1) % 3) = a ∧
    selectChannel (arrange ch d a m) ((ch.val - 1) % 3) = m := by
  fin_cases ch <;> simp [arrange, selectChannel, b2k]

theorem rgb2hsv_arrange (ch : Fin 3) {d a m : K} (hd : m < d) (ha : m ≤ a) :
    rgb2hsv (arrange ch d a m) =
      { c0 := ((2 * ch.val + (if d ≤ a then 1 else 0) * (1 - (if isclose a m then 1 else 0)) : ℤ) +
          pyMod ((d - a) / (max d a - m + b2k (decide (isclose (max d a - m) 0)))) 1) / 6
        c1 := (max d a - m) / (max d a + b2k (decide (isclose (max d a) 0)))
        c2 := max d a } := by
  unfold rgb2hsv
  simp only
  obtain ⟨h1, h2⟩ := max_arrange ch hd ha
  obtain ⟨h3, h4, h5⟩ := select_arrange ch d a m
  rw [h1, h2, channel_arrange ch hd ha, h3, h4, h5]

/-- What a conversion to HSV and back does: the darkest and the brightest channel are preserved, but the third channel
is *mirrored* between both. `tolerance` excludes colours so close to grey that the code treats them as grey. -/
theorem C17_mirror {x : Pixel K} (h0 : 0 ≤ min (min x.c0 x.c1) x.c2)
    (tolerance : min (min x.c0 x.c1) x.c2 + (1 / 10 ^ 8 + 1 / 10 ^ 5 * min (min x.c0 x.c1) x.c2) <
      max (max x.c0 x.c1) x.c2) :
    ∃ y, hsv2rgb (rgb2hsv x).c0 (rgb2hsv x).c1 (rgb2hsv x).c2 = some y ∧
      Mirrored (min (min x.c0 x.c1) x.c2) (max (max x.c0 x.c1) x.c2) x.c0 y.c0 ∧
      Mirrored (min (min x.c0 x.c1) x.c2) (max (max x.c0 x.c1) x.c2) x.c1 y.c1 ∧
      Mirrored (min (min x.c0 x.c1) x.c2) (max (max x.c0 x.c1) x.c2) x.c2 y.c2 := by
  rcases exists_arrange x with ⟨he1, he2⟩ | ⟨ch, d, a, m, rfl, hd, ha⟩
  · exfalso
    rw [he1, he2] at tolerance h0
    simp only [min_self, max_self] at tolerance h0
    have : (0 : K) ≤ 1 / 10 ^ 5 * x.c2 := by positivity
    have : (0 : K) < 1 / 10 ^ 8 := by positivity
    linarith
  obtain ⟨hmax, hmin⟩ := max_arrange ch hd ha
  rw [hmin] at h0
  rw [hmax, hmin] at tolerance ⊢
  have h8 : (0 : K) < 1 / 10 ^ 8 := by positivity
  have h5 : (0 : K) ≤ 1 / 10 ^ 5 * m := by positivity
  have hw0 : 0 < max d a - m := by linarith
  have hvpos : 0 < max d a := by linarith
  have nc1 : ¬ isclose (max d a - m) 0 := by
    unfold isclose; rw [sub_zero, abs_zero, mul_zero, add_zero, abs_of_pos hw0, not_le]; linarith
  have nc2 : ¬ isclose (max d a) 0 := by
    unfold isclose; rw [sub_zero, abs_zero, mul_zero, add_zero, abs_of_pos hvpos, not_le]; linarith
  rw [rgb2hsv_arrange ch hd ha]
  simp only [nc1, nc2, decide_false, b2k_false, add_zero]
  -- the colour from its sixth of the circle
  have back : ∀ (k : ℤ) (f s v : K), (k = 0 ∨ k = 1) → 0 ≤ f → f < 1 →
      hsv2rgb ((((2 * ch.val + k : ℤ) : K) + f) / 6) s v = some (sextant (2 * ch.val + k) f s v) := by
    intro k f s v hk f0 f1
    have hc := ch.isLt
    rw [hsv2rgb_of_floor (i := 2 * ch.val + k) (by omega) (by omega)]
    · congr 2
      · omega
      · ring
    · rw [mul_div_cancel₀ _ (by norm_num)]; linarith
    · rw [mul_div_cancel₀ _ (by norm_num)]; linarith
  -- the darkest and brightest channels, and the third
  have fin : ∀ (k : ℤ) (f s v : K), (k = 0 ∨ k = 1) → v * (1 - s) = m → v ≠ m →
      (k = 0 → d = v ∧ Mirrored m v a (v * (1 - s * (1 - f)))) →
      (k = 1 → a = v ∧ Mirrored m v d (v * (1 - s * f))) →
      Mirrored m v (arrange ch d a m).c0 (sextant (2 * ch.val + k) f s v).c0 ∧
      Mirrored m v (arrange ch d a m).c1 (sextant (2 * ch.val + k) f s v).c1 ∧
      Mirrored m v (arrange ch d a m).c2 (sextant (2 * ch.val + k) f s v).c2 := by
    intro k f s v hk hp hv hk0 hk1
    have hMm : Mirrored m v m m := by simp [Mirrored]
    have hMv : Mirrored m v v v := by simp [Mirrored]
    rcases hk with rfl | rfl
    · obtain ⟨rfl, hM⟩ := hk0 rfl
      fin_cases ch <;> simp only [arrange, sextant] <;> norm_num <;> rw [hp] <;> exact ⟨by assumption, by assumption, by assumption⟩
    · obtain ⟨rfl, hM⟩ := hk1 rfl
      fin_cases ch <;> simp only [arrange, sextant] <;> norm_num <;> rw [hp] <;> exact ⟨by assumption, by assumption, by assumption⟩
  rcases le_or_gt d a with hda | hda
  · -- the channel after is brightest
    rw [max_eq_right hda] at *
    have nc3 : ¬ isclose a m := by
      unfold isclose; rw [abs_of_pos hw0, abs_of_nonneg h0, not_le]; linarith
    simp only [hda, nc3, if_true, if_false, sub_zero, mul_one]
    rcases hda.eq_or_lt with rfl | hlt
    · rw [sub_self, zero_div, pyMod_of_range le_rfl zero_lt_one]
      refine ⟨_, back 1 _ _ _ (.inr rfl) le_rfl zero_lt_one, ?_⟩
      exact fin 1 _ _ _ (.inr rfl) (by field_simp; ring) hd.ne' (by norm_num)
        fun _ => ⟨rfl, by simp [Mirrored]⟩
    · have hx1 : (d - a) / (a - m) < 0 := div_neg_of_neg_of_pos (by linarith) hw0
      have hx0 : -1 < (d - a) / (a - m) := by rw [lt_div_iff₀ hw0]; linarith
      rw [pyMod_of_neg hx0.le hx1]
      refine ⟨_, back 1 _ _ _ (.inr rfl) (by linarith) (by linarith), ?_⟩
      refine fin 1 _ _ _ (.inr rfl) (by field_simp; ring) (by linarith) (by norm_num) fun _ => ⟨rfl, ?_⟩
      unfold Mirrored
      rw [if_neg (by push Not; exact ⟨hd.ne', hlt.ne⟩)]
      field_simp; ring
  · -- the channel before is brightest
    rw [max_eq_left hda.le] at *
    simp only [not_le.2 hda, if_false, zero_mul, add_zero]
    rcases ha.eq_or_lt with rfl | hlt
    · rw [div_self hw0.ne', pyMod_one]
      have := back 0 0 ((d - m) / d) d (.inl rfl) le_rfl zero_lt_one
      simp only [add_zero] at this ⊢
      refine ⟨_, this, ?_⟩
      have := fin 0 0 ((d - m) / d) d (.inl rfl) (by field_simp; ring) hda.ne'
        (fun _ => ⟨rfl, by rw [Mirrored, if_pos (.inl rfl)]; field_simp; ring⟩) (by norm_num)
      simpa using this
    · have hx1 : (d - a) / (d - m) < 1 := by rw [div_lt_one hw0]; linarith
      have hx0 : 0 < (d - a) / (d - m) := div_pos (by linarith) hw0
      rw [pyMod_of_range hx0.le hx1]
      have := back 0 ((d - a) / (d - m)) ((d - m) / d) d (.inl rfl) hx0.le hx1
      rw [add_zero] at this
      refine ⟨_, this, ?_⟩
      have := fin 0 ((d - a) / (d - m)) ((d - m) / d) d (.inl rfl) (by field_simp; ring) hd.ne'
        (fun _ => ⟨rfl, by
          rw [Mirrored, if_neg (by push Not; exact ⟨hlt.ne', hda.ne⟩)]; field_simp; ring⟩) (by norm_num)
      simpa using this

/-- Hence the conversion to HSV and back is right for the colours with at most two different channel values. -/
theorem C17_roundtrip_partial {x : Pixel K} (h0 : 0 ≤ min (min x.c0 x.c1) x.c2)
    (tolerance : min (min x.c0 x.c1) x.c2 + (1 / 10 ^ 8 + 1 / 10 ^ 5 * min (min x.c0 x.c1) x.c2) <
      max (max x.c0 x.c1) x.c2) (h2 : x.c0 = x.c1 ∨ x.c1 = x.c2 ∨ x.c2 = x.c0) :
    hsv2rgb (rgb2hsv x).c0 (rgb2hsv x).c1 (rgb2hsv x).c2 = some x := by
  obtain ⟨y, hy, m0, m1, m2⟩ := C17_mirror h0 tolerance
  rw [hy]
  obtain ⟨r, g, b⟩ := x
  obtain ⟨r', g', b'⟩ := y
  simp only at *
  have key : ∀ z z', (z = r ∨ z = g ∨ z = b) →
      Mirrored (min (min r g) b) (max (max r g) b) z z' → z' = z := by
    intro z z' hz hM
    unfold Mirrored at hM
    split_ifs at hM with hc
    · exact hM
    · exfalso
      apply hc
      rcases h2 with rfl | rfl | rfl
      · simp only [min_self, max_self]
        rcases le_total r b with h | h
        · rw [min_eq_left h, max_eq_right h]; rcases hz with h | h | h <;> simp [h]
        · rw [min_eq_right h, max_eq_left h]; rcases hz with h | h | h <;> simp [h]
      · simp only [min_assoc, min_self, max_assoc, max_self]
        rcases le_total r g with h | h
        · rw [min_eq_left h, max_eq_right h]; rcases hz with h | h | h <;> simp [h]
        · rw [min_eq_right h, max_eq_left h]; rcases hz with h | h | h <;> simp [h]
      · rcases le_total b g with h | h
        · rw [min_eq_left h, max_eq_right h, min_self, max_eq_left h]; rcases hz with h | h | h <;> simp [h]
        · rw [min_eq_right h, max_eq_left h, max_self, min_eq_left h]; rcases hz with h | h | h <;> simp [h]
  rw [key r r' (by simp) m0, key g g' (by simp) m1, key b b' (by simp) m2]

/-- The property is violated by every colour with a third channel that is not half way: orange becomes a yellowish green. -/
theorem C17_violates :
    hsv2rgb (rgb2hsv (⟨1, 1 / 4, 0⟩ : Pixel K)).c0 (rgb2hsv (⟨1, 1 / 4, 0⟩ : Pixel K)).c1
      (rgb2hsv (⟨1, 1 / 4, 0⟩ : Pixel K)).c2 = some ⟨1, 3 / 4, 0⟩ := by
  have hmin : min (min (1 : K) (1 / 4)) 0 = 0 := by norm_num
  have hmax : max (max (1 : K) (1 / 4)) 0 = 1 := by norm_num
  obtain ⟨y, hy, m0, m1, m2⟩ := C17_mirror (x := (⟨1, 1 / 4, 0⟩ : Pixel K)) (by simp only [hmin]; exact le_rfl)
    (by simp only [hmin, hmax]; norm_num)
  simp only [hmin, hmax, Mirrored] at m0 m1 m2
  rw [hy]
  obtain ⟨r, g, b⟩ := y
  norm_num at m0 m1 m2
  rw [m0, m1, m2]

example : hsv2rgb (rgb2hsv (⟨1 / 4, 1, 1⟩ : Pixel ℚ)).c0 (rgb2hsv (⟨1 / 4, 1, 1⟩ : Pixel ℚ)).c1
    (rgb2hsv (⟨1 / 4, 1, 1⟩ : Pixel ℚ)).c2 = some ⟨1 / 4, 1, 1⟩ :=
  C17_roundtrip_partial (by norm_num) (by norm_num) (by simp)

/-! ### C19 -/

theorem limits_uniform (x0 d : K) {n : ℕ} (hn : 2 ≤ n) :
    limits (uniform x0 d n) = .ok (x0 - 1 / 2 * d, x0 + (n - 1) * d + 1 / 2 * d) := by
  obtain ⟨m, rfl⟩ : ∃ m, n = m + 2 := ⟨n - 2, by omega⟩
  have h1 : uniform x0 d (m + 2) = x0 :: (x0 + d) :: (List.range m).map fun (i : ℕ) => x0 + ((i + 1 + 1 : ℕ) : K) * d := by
    simp only [uniform, List.range_succ_eq_map, List.map_cons, List.map_map, Nat.cast_zero, zero_mul, add_zero,
      Nat.succ_eq_add_one, zero_add, Nat.cast_one, one_mul]
    rfl
  have h2 : (uniform x0 d (m + 2)).getLast? = some (x0 + ((m + 1 : ℕ) : K) * d) := by
    simp [uniform, List.range_succ]
  unfold limits
  rw [h2, h1]
  simp only
  congr 2
  · ring
  · push_cast; ring

theorem centre_uniform (x0 d : K) {n i : ℕ} (hn : 0 < n) :
    pixelCentre (x0 - 1 / 2 * d) (x0 + (n - 1) * d + 1 / 2 * d) n i = x0 + i * d ∧
    pixelCentre (x0 + (n - 1) * d + 1 / 2 * d) (x0 - 1 / 2 * d) n i = x0 + (n - 1 - i) * d := by
  have : (n : K) ≠ 0 := by exact_mod_cast hn.ne'
  unfold pixelCentre
  constructor <;> field_simp <;> ring

/-- The extent `[left, right, bottom, top]` of uniform ranges, the vertical one and the horizontal one being the last
two: column `i` of the `n` columns is centred at the horizontal coordinate `i`, and row `j` of the `m` rows, counted from the top,
or from the bottom with `origin_lower`, is centred at the vertical coordinate `j`. -/
theorem C19_extent (more : List (List K)) (y0 dy x0 dx : K) {m n : ℕ} (hm : 2 ≤ m) (hn : 2 ≤ n) (originLower : Bool) :
    ∃ left right bottom top,
      grid2extent (more ++ [uniform y0 dy m, uniform x0 dx n]) originLower = .ok [left, right, bottom, top] ∧
      (∀ i : ℕ, pixelCentre left right n i = x0 + i * dx) ∧
      (∀ j : ℕ, (if originLower then pixelCentre bottom top m j else pixelCentre top bottom m j) = y0 + j * dy) := by
  have hx := fun i => centre_uniform x0 dx (n := n) (i := i) (by omega)
  have hy := fun i => centre_uniform y0 dy (n := m) (i := i) (by omega)
  cases originLower with
  | true =>
    refine ⟨_, _, _, _, ?_, fun i => (hx i).1, fun j => (hy j).1⟩
    simp [grid2extent, extentLoop, limits_uniform _ _ hm, limits_uniform _ _ hn, bind, Except.bind]
  | false =>
    refine ⟨x0 - 1 / 2 * dx, x0 + (n - 1) * dx + 1 / 2 * dx, y0 + (m - 1) * dy + 1 / 2 * dy, y0 - 1 / 2 * dy, ?_,
      fun i => (hx i).1, fun j => (hy j).1⟩
    simp [grid2extent, extentLoop, limits_uniform _ _ hm, limits_uniform _ _ hn, bind, Except.bind]

/-- One range gives the two limits of the horizontal axis only. -/
theorem C19_single (x0 dx : K) {n : ℕ} (hn : 2 ≤ n) (originLower : Bool) :
    ∃ left right, grid2extent [uniform x0 dx n] originLower = .ok [left, right] ∧
      ∀ i : ℕ, pixelCentre left right n i = x0 + i * dx := by
  refine ⟨_, _, ?_, fun i => (centre_uniform x0 dx (n := n) (i := i) (by omega)).1⟩
  simp [grid2extent, extentLoop, limits_uniform _ _ hn, bind, Except.bind]

/-- A range of fewer than two points, among the last two, raises `ValueError`. -/
theorem C19_short (more : List (List K)) {v h : List K} (hs : v.length < 2 ∨ h.length < 2) (originLower : Bool) :
    grid2extent (more ++ [v, h]) originLower = .error .valueError := by
  have short : ∀ l : List K, l.length < 2 → limits l = .error .valueError := by
    intro l hl
    match l, hl with
    | [], _ => rfl
    | [_], _ => rfl
  have any : ∀ l : List K, limits l = .error .valueError ∨ ∃ p, limits l = .ok p := by
    intro l
    unfold limits
    split
    · exact .inr ⟨_, rfl⟩
    · exact .inl rfl
  simp only [grid2extent, List.reverse_append, List.reverse_cons, List.reverse_nil, List.nil_append, List.cons_append,
    List.take_succ_cons, List.take_zero, extentLoop]
  rcases any h with hh | ⟨p, hp⟩
  · simp [hh, bind, Except.bind]
  · rcases hs with hv | hv
    · simp [hp, short v hv, bind, Except.bind]
    · rw [short h hv] at hp; cases hp

example : grid2extent [[0, 1, 2, 3], [10, 20, 30]] false = .ok [5, 35, (7 / 2 : ℚ), -1 / 2] := by decide +kernel

end
end Verif.Display
