import Verif.Props.Display
import Mathlib.Analysis.SpecialFunctions.Complex.Log

/-!
# C18: complex numbers as colours
-/

namespace Verif.Display

open Verif Verif.Spec.Display

/-- All channels are between 0 and 1. -/
def Displayable (x : Pixel ℝ) : Prop := (0 ≤ x.c0 ∧ x.c0 ≤ 1) ∧ (0 ≤ x.c1 ∧ x.c1 ≤ 1) ∧ (0 ≤ x.c2 ∧ x.c2 ≤ 1)

theorem hue_range (z : ℂ) : 0 < z.arg / (2 * Real.pi) + 1 / 2 ∧ z.arg / (2 * Real.pi) + 1 / 2 ≤ 1 := by
  have hpi := Real.pi_pos
  have h1 := Complex.neg_pi_lt_arg z
  have h2 := Complex.arg_le_pi z
  constructor
  · have : -(1 / 2) < z.arg / (2 * Real.pi) := by rw [lt_div_iff₀ (by positivity)]; linarith
    linarith
  · have : z.arg / (2 * Real.pi) ≤ 1 / 2 := by rw [div_le_iff₀ (by positivity)]; linarith
    linarith

theorem clip01_range (x : ℝ) : 0 ≤ clip01 x ∧ clip01 x ≤ 1 :=
  ⟨le_min (le_max_right _ _) zero_le_one, min_le_right _ _⟩

theorem displayable_of {x : Pixel ℝ} {v p : ℝ} (hv : v ≤ 1) (hp : 0 ≤ p) (hb : IsBrightest v x.c0 x.c1 x.c2)
    (hd : IsDarkest p x.c0 x.c1 x.c2) : Displayable x := by
  obtain ⟨-, b0, b1, b2⟩ := hb
  obtain ⟨-, d0, d1, d2⟩ := hd
  exact ⟨⟨by linarith, by linarith⟩, ⟨by linarith, by linarith⟩, ⟨by linarith, by linarith⟩⟩

theorem pixel_range (inverted : Bool) (z : ℂ) {a : ℝ} (ha : 0 ≤ a) :
    ∃ x, pixel inverted z.arg a = some x ∧ Displayable x := by
  obtain ⟨h0, h1⟩ := hue_range z
  cases inverted with
  | true =>
    obtain ⟨s0, s1⟩ := clip01_range a
    obtain ⟨x, hx, hb, hd, hp⟩ := C16_range (h := z.arg / (2 * Real.pi) + 1 / 2) (s := clip01 a)
      (v := max 0 (1 - 1 / 2 * a)) h0.le (by linarith) s0 s1 (le_max_left _ _)
    exact ⟨x, by simpa [pixel] using hx, displayable_of (max_le zero_le_one (by linarith)) hp hb hd⟩
  | false =>
    obtain ⟨s0, s1⟩ := clip01_range (2 - a)
    obtain ⟨x, hx, hb, hd, hp⟩ := C16_range (h := z.arg / (2 * Real.pi) + 1 / 2) (s := clip01 (2 - a))
      (v := min a 1) h0.le (by linarith) s0 s1 (le_min ha zero_le_one)
    exact ⟨x, by simpa [pixel] using hx, displayable_of (min_le_right _ _) hp hb hd⟩

theorem foldr_max_nonneg (l : List ℝ) : 0 ≤ l.foldr max 0 := by
  induction l with
  | nil => exact le_rfl
  | cons x xs ih => exact le_max_of_le_right ih

theorem le_foldr_max {l : List ℝ} {x : ℝ} (hx : x ∈ l) : x ≤ l.foldr max 0 := by
  induction l with
  | nil => simp at hx
  | cons y ys ih =>
    rcases List.mem_cons.1 hx with rfl | h
    · exact le_max_left _ _
    · exact (ih h).trans (le_max_right _ _)

theorem foldr_max_mem {l : List ℝ} (h : 0 < l.foldr max 0) : l.foldr max 0 ∈ l := by
  induction l with
  | nil => simp at h
  | cons y ys ih =>
    simp only [List.foldr_cons] at h ⊢
    rcases le_total y (ys.foldr max 0) with hy | hy
    · rw [max_eq_right hy] at h ⊢; exact List.mem_cons_of_mem _ (ih h)
    · rw [max_eq_left hy]; exact List.mem_cons_self

theorem amplitudes_spec {ty : ImageType} {image : List ℂ} {normalization : Option ℝ} {amps : List ℝ}
    (h : amplitudes ty image normalization = .ok amps) :
    ∃ c, 0 < c ∧ amps = image.map fun z => ‖z‖ * c := by
  unfold amplitudes at h
  simp only at h
  cases normalization with
  | none => cases h; exact ⟨1, one_pos, by simp⟩
  | some nrm =>
    simp only at h
    split_ifs at h with h1 h2 h3
    · cases h; exact ⟨_, div_pos h1 h2, by simp [List.map_map, Function.comp_def]⟩
    · cases h; exact ⟨1, one_pos, by simp⟩
    · cases h; exact ⟨1, one_pos, by simp⟩

/-- All pixels are displayable: whatever the image, the normalization, and whether or not inverted. -/
theorem C18_range {ty : ImageType} {image : List ℂ} {normalization : Option ℝ} {inverted : Bool}
    {out : List (Option (Pixel ℝ))} (h : complex2rgb ty image normalization inverted = .ok out) :
    out.length = image.length ∧ ∀ o ∈ out, ∃ x, o = some x ∧ Displayable x := by
  unfold complex2rgb at h
  cases ha : amplitudes ty image normalization with
  | error e => rw [ha] at h; cases h
  | ok amps =>
    rw [ha] at h
    simp only [bind, Except.bind, Except.ok.injEq] at h
    subst h
    obtain ⟨c, hc, rfl⟩ := amplitudes_spec ha
    refine ⟨by simp, fun o ho => ?_⟩
    rw [List.zipWith_map_right, List.zipWith_self, List.mem_map] at ho
    obtain ⟨z, -, rfl⟩ := ho
    exact pixel_range inverted z (mul_nonneg (norm_nonneg _) hc.le)

/-- Without normalization the pixels are a function of the complex number, and no image raises. -/
theorem C18_total (ty : ImageType) (image : List ℂ) (inverted : Bool) :
    complex2rgb ty image none inverted = .ok (image.map fun z => pixel inverted z.arg ‖z‖) := by
  simp [complex2rgb, amplitudes, bind, Except.bind, List.zipWith_map_right, List.zipWith_self]

/-- With normalization the image is displayed as if all numbers had been multiplied by the positive number that makes the
largest amplitude equal to the normalization. -/
theorem C18_normalization {ty : ImageType} (hty : ty ≠ .int) {image : List ℂ} {nrm : ℝ} (hn : 0 < nrm)
    (hne : ∃ z ∈ image, z ≠ 0) (inverted : Bool) :
    ∃ c : ℝ, 0 < c ∧ (∀ z ∈ image, ‖(c : ℂ) * z‖ ≤ nrm) ∧ (∃ z ∈ image, ‖(c : ℂ) * z‖ = nrm) ∧
      complex2rgb ty image (some nrm) inverted = complex2rgb ty (image.map fun z => (c : ℂ) * z) none inverted := by
  obtain ⟨z, hz, hz0⟩ := hne
  have hM : 0 < (image.map fun z => ‖z‖).foldr max 0 :=
    lt_of_lt_of_le (norm_pos_iff.2 hz0) (le_foldr_max (List.mem_map.2 ⟨z, hz, rfl⟩))
  have hmem := foldr_max_mem hM
  have hle : ∀ z ∈ image, ‖z‖ ≤ (image.map fun z => ‖z‖).foldr max 0 :=
    fun z hz => le_foldr_max (List.mem_map.2 ⟨z, hz, rfl⟩)
  have hamp : amplitudes ty image (some nrm) = .ok (image.map fun z => ‖z‖ * (nrm / (image.map fun z => ‖z‖).foldr max 0)) := by
    unfold amplitudes
    simp only [gt_iff_lt, hn, hM, hty, if_true, if_false, List.map_map, Function.comp_def]
  revert hM hmem hle hamp
  generalize (image.map fun z => ‖z‖).foldr max 0 = M
  intro hM hmem hle hamp
  have hc : 0 < nrm / M := div_pos hn hM
  have hnorm : ∀ z : ℂ, ‖((nrm / M : ℝ) : ℂ) * z‖ = ‖z‖ * (nrm / M) := by
    intro z; rw [norm_mul, Complex.norm_real, Real.norm_of_nonneg hc.le, mul_comm]
  refine ⟨nrm / M, hc, fun z hz => ?_, ?_, ?_⟩
  · rw [hnorm, ← mul_div_assoc, div_le_iff₀ hM, mul_comm nrm]
    exact mul_le_mul_of_nonneg_right (hle z hz) hn.le
  · obtain ⟨w, hw, hwM⟩ := List.mem_map.1 hmem
    refine ⟨w, hw, ?_⟩
    rw [hnorm, hwM]; field_simp
  · rw [C18_total]
    unfold complex2rgb
    rw [hamp]
    simp only [bind, Except.bind, List.map_map, List.zipWith_map_right, List.zipWith_self]
    congr 1
    apply List.map_congr_left
    intro z _
    simp only [Function.comp_apply, hnorm]
    rw [Complex.arg_real_mul z hc]

/-- An array of integers cannot be normalized: `complex2rgb(np.array([1, 2]), normalization=1)` raises `TypeError`. -/
theorem C18_integer_violates : complex2rgb .int [1, 2] (some 1) false = .error .typeError := by
  have : (0 : ℝ) < ([(1 : ℂ), 2].map fun z => ‖z‖).foldr max 0 :=
    lt_of_lt_of_le (by simp) (le_foldr_max (List.mem_map.2 ⟨1, by simp, rfl⟩) : ‖(1 : ℂ)‖ ≤ _)
  unfold complex2rgb amplitudes
  simp only [gt_iff_lt, zero_lt_one, this, if_true, bind, Except.bind]

/-- Zero is black, or white when inverted. -/
theorem C18_zero : pixel false (Complex.arg 0) ‖(0 : ℂ)‖ = some ⟨0, 0, 0⟩ ∧
    pixel true (Complex.arg 0) ‖(0 : ℂ)‖ = some ⟨1, 1, 1⟩ := by
  have h := fun s v : ℝ => (C16_principal s v).2.2.2.1
  rw [show (3 / 6 : ℝ) = 1 / 2 by norm_num] at h
  constructor <;> simp [pixel, clip01, h, -one_div]

/-- The brightest channel is the amplitude, clipped at one. -/
theorem C18_brightness (z : ℂ) : ∃ x, pixel false z.arg ‖z‖ = some x ∧ IsBrightest (min ‖z‖ 1) x.c0 x.c1 x.c2 := by
  obtain ⟨h0, h1⟩ := hue_range z
  obtain ⟨s0, s1⟩ := clip01_range (2 - ‖z‖)
  obtain ⟨x, hx, hb, -, -⟩ := C16_range (h := z.arg / (2 * Real.pi) + 1 / 2) (s := clip01 (2 - ‖z‖))
    (v := min ‖z‖ 1) h0.le (by linarith) s0 s1 (le_min (norm_nonneg _) zero_le_one)
  exact ⟨x, by simpa [pixel] using hx, hb⟩

/-- Up to the amplitude 1 the colour is fully saturated: the darkest channel is 0.  Above, it fades to white at the amplitude 2. -/
theorem C18_saturation (z : ℂ) : ∃ x, pixel false z.arg ‖z‖ = some x ∧
    (‖z‖ ≤ 1 → IsDarkest 0 x.c0 x.c1 x.c2) ∧ (2 ≤ ‖z‖ → x = ⟨1, 1, 1⟩) := by
  obtain ⟨h0, h1⟩ := hue_range z
  obtain ⟨s0, s1⟩ := clip01_range (2 - ‖z‖)
  obtain ⟨x, hx, hb, hd, -⟩ := C16_range (h := z.arg / (2 * Real.pi) + 1 / 2) (s := clip01 (2 - ‖z‖))
    (v := min ‖z‖ 1) h0.le (by linarith) s0 s1 (le_min (norm_nonneg _) zero_le_one)
  refine ⟨x, by simpa [pixel] using hx, fun h => ?_, fun h => ?_⟩
  · have : clip01 (2 - ‖z‖) = 1 := by
      unfold clip01; rw [max_eq_left (by linarith), min_eq_right (by linarith)]
    rw [this, sub_self, mul_zero] at hd
    exact hd
  · have : clip01 (2 - ‖z‖) = 0 := by
      unfold clip01; rw [max_eq_right (by linarith), min_eq_left zero_le_one]
    rw [this, sub_zero, mul_one] at hd
    rw [min_eq_right (by linarith)] at hb hd
    obtain ⟨-, b0, b1, b2⟩ := hb
    obtain ⟨-, d0, d1, d2⟩ := hd
    obtain ⟨r, g, b⟩ := x
    simp only at *
    rw [le_antisymm b0 d0, le_antisymm b1 d1, le_antisymm b2 d2]

/-- Multiplication by a positive number multiplies all channels, as long as the amplitudes are at most one. -/
theorem C18_scaling (z : ℂ) {c : ℝ} (hc : 0 < c) (h1 : ‖z‖ ≤ 1) (h2 : ‖(c : ℂ) * z‖ ≤ 1) :
    ∃ x, pixel false z.arg ‖z‖ = some x ∧
      pixel false ((c : ℂ) * z).arg ‖(c : ℂ) * z‖ = some ⟨c * x.c0, c * x.c1, c * x.c2⟩ := by
  have hn : ‖(c : ℂ) * z‖ = c * ‖z‖ := by rw [norm_mul, Complex.norm_real, Real.norm_of_nonneg hc.le]
  have hs : ∀ a : ℝ, a ≤ 1 → clip01 (2 - a) = 1 := by
    intro a ha
    unfold clip01; rw [max_eq_left (by linarith), min_eq_right (by linarith)]
  obtain ⟨h0, hh⟩ := hue_range z
  obtain ⟨a, b, c', d⟩ := floor_range h0.le (by linarith : z.arg / (2 * Real.pi) + 1 / 2 < 21)
  rw [Complex.arg_real_mul z hc]
  simp only [pixel, Bool.false_eq_true, if_false]
  rw [hs _ h1, hs _ h2, min_eq_left h1, min_eq_left h2, hn, hsv2rgb_of_floor a b c' d, hsv2rgb_of_floor a b c' d]
  refine ⟨_, rfl, ?_⟩
  congr 1
  unfold sextant
  split_ifs <;> simp only [Pixel.mk.injEq] <;> refine ⟨?_, ?_, ?_⟩ <;> first | trivial | ring

/-- A fully saturated colour, with `g` the value times the fraction. -/
def saturated (i : ℤ) (g v : ℝ) : Pixel ℝ :=
  if i = 0 then ⟨v, g, 0⟩
  else if i = 1 then ⟨v - g, v, 0⟩
  else if i = 2 then ⟨0, v, g⟩
  else if i = 3 then ⟨0, v - g, v⟩
  else if i = 4 then ⟨g, 0, v⟩
  else ⟨v, 0, v - g⟩

theorem sextant_saturated (i : ℤ) (f v : ℝ) : sextant i f 1 v = saturated i (v * f) v := by
  unfold sextant saturated
  split_ifs <;> simp only [Pixel.mk.injEq] <;> refine ⟨?_, ?_, ?_⟩ <;> first | trivial | ring

theorem saturated_injective {i i' : ℤ} {g g' v v' : ℝ} (hi : 0 ≤ i) (hi6 : i < 6) (hi' : 0 ≤ i') (hi6' : i' < 6) (hg : 0 ≤ g)
    (hg1 : g < v) (hg' : 0 ≤ g') (hg1' : g' < v') (h : saturated i g v = saturated i' g' v') :
    i = i' ∧ g = g' ∧ v = v' := by
  interval_cases i <;> interval_cases i' <;> simp only [saturated, Pixel.mk.injEq] at h <;> norm_num at h <;>
    first
    | exact ⟨rfl, by linarith [h.1, h.2], by linarith [h.1, h.2]⟩
    | (exfalso; linarith [h.1, h.2])
    | (exfalso; linarith [h.1, h.2.1, h.2.2])

/-- Different complex numbers of an amplitude of at most one have different colours: the display encodes both the phase and the
amplitude. -/
theorem C18_injective {z w : ℂ} (hz : ‖z‖ ≤ 1) (hw : ‖w‖ ≤ 1)
    (h : pixel false z.arg ‖z‖ = pixel false w.arg ‖w‖) : z = w := by
  -- zero is the only black
  have black : ∀ u : ℂ, pixel false u.arg ‖u‖ = some ⟨0, 0, 0⟩ → ‖u‖ ≤ 1 → u = 0 := by
    intro u hu h1
    obtain ⟨x, hx, hb⟩ := C18_brightness u
    rw [hu] at hx
    cases hx
    rw [min_eq_left h1] at hb
    simpa [IsBrightest] using hb.1
  rcases eq_or_ne z 0 with rfl | hz0
  · rw [C18_zero.1] at h; exact (black w h.symm hw).symm
  rcases eq_or_ne w 0 with rfl | hw0
  · rw [C18_zero.1] at h; exact black z h hz
  have hs : ∀ a : ℝ, a ≤ 1 → clip01 (2 - a) = 1 := by
    intro a ha
    unfold clip01; rw [max_eq_left (by linarith), min_eq_right (by linarith)]
  simp only [pixel, Bool.false_eq_true, if_false] at h
  rw [hs _ hz, hs _ hw, min_eq_left hz, min_eq_left hw] at h
  -- the hue as number of sixths and fraction
  have key : ∀ u : ℂ, u ≠ 0 → ∃ i : ℤ, ∃ f : ℝ, 0 ≤ i ∧ i < 6 ∧ 0 ≤ f ∧ f < 1 ∧
      hsv2rgb (u.arg / (2 * Real.pi) + 1 / 2) 1 ‖u‖ = some (saturated i (‖u‖ * f) ‖u‖) ∧
      (6 * (u.arg / (2 * Real.pi) + 1 / 2) = i + f ∨ (6 * (u.arg / (2 * Real.pi) + 1 / 2) = 6 ∧ (i : ℝ) + f = 0)) := by
    intro u _
    obtain ⟨h0, h1⟩ := hue_range u
    generalize u.arg / (2 * Real.pi) + 1 / 2 = t at h0 h1
    obtain ⟨a, b, c, d⟩ := floor_range h0.le (by linarith : t < 21)
    refine ⟨⌊6 * t⌋ % 6, 6 * t - ⌊6 * t⌋, Int.emod_nonneg _ (by norm_num), Int.emod_lt_of_pos _ (by norm_num),
      by linarith, by linarith, by rw [hsv2rgb_of_floor a b c d, sextant_saturated], ?_⟩
    rcases h1.eq_or_lt with rfl | hlt
    · right; norm_num
    · left
      have : ⌊6 * t⌋ < 6 := Int.floor_lt.2 (by push_cast; linarith)
      rw [Int.emod_eq_of_lt a this]; ring
  obtain ⟨i, f, i0, i6, f0, f1, hp, ht⟩ := key z hz0
  obtain ⟨i', f', i0', i6', f0', f1', hp', ht'⟩ := key w hw0
  rw [hp, hp', Option.some.injEq] at h
  have nz := norm_pos_iff.2 hz0
  have nw := norm_pos_iff.2 hw0
  obtain ⟨hii, hff, hvv⟩ := saturated_injective i0 i6 i0' i6' (by positivity) (by nlinarith) (by positivity) (by nlinarith) h
  rw [hvv] at hff
  have hff' : f = f' := mul_left_cancel₀ nw.ne' hff
  have hgt : ∀ u : ℂ, 0 < 6 * (u.arg / (2 * Real.pi) + 1 / 2) := fun u => by linarith [(hue_range u).1]
  have harg : 6 * (z.arg / (2 * Real.pi) + 1 / 2) = 6 * (w.arg / (2 * Real.pi) + 1 / 2) := by
    rw [hii, hff'] at ht
    have a := hgt z
    have b := hgt w
    rcases ht with h1 | ⟨h1, h2⟩ <;> rcases ht' with h3 | ⟨h3, h4⟩ <;> linarith
  have harg' : z.arg = w.arg := by
    have hpi := Real.pi_pos
    have : z.arg / (2 * Real.pi) = w.arg / (2 * Real.pi) := by linarith
    field_simp at this
    exact this
  exact Complex.ext_norm_arg hvv harg'

/-- Integer output covers the range of the integer type, from 0 to its maximum, is monotonic, and is exact to half a unit. -/
theorem C18_integer {maxInt : ℕ} {c : ℝ} (h0 : 0 ≤ c) (h1 : c ≤ 1) :
    0 ≤ toInteger maxInt c ∧ toInteger maxInt c ≤ maxInt ∧ |(toInteger maxInt c : ℝ) - c * maxInt| ≤ 1 / 2 := by
  have hm : (0 : ℝ) ≤ maxInt := Nat.cast_nonneg _
  have hcm : c * maxInt ≤ maxInt := by nlinarith
  refine ⟨Int.floor_nonneg.2 (by positivity), ?_, ?_⟩
  · have : toInteger maxInt c < maxInt + 1 := Int.floor_lt.2 (by push_cast; linarith)
    omega
  · have a := Int.floor_le (c * maxInt + 1 / 2)
    have b := Int.lt_floor_add_one (c * maxInt + 1 / 2)
    rw [abs_le]; unfold toInteger; constructor <;> linarith

example : ∃ z ∈ [(0 : ℂ), 3], z ≠ 0 := ⟨3, by simp, by norm_num⟩
example : ‖(Complex.I / 2)‖ ≤ 1 ∧ ‖((3 / 2 : ℝ) : ℂ) * (Complex.I / 2)‖ ≤ 1 := by
  constructor <;> simp <;> norm_num

end Verif.Display
