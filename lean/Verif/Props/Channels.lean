import Verif.Model.Channels
import Verif.Props.Complex2rgb

/-!
# C131: opacity and stacks of channels in the colour conversions
-/

namespace Verif.Display

section
variable {K : Type} [Field K] [LinearOrder K] [IsStrictOrderedRing K] [FloorRing K]

/-- **C131.** `hsv2rgb` passes the opacity on, and the colour does not depend on it. -/
theorem C131_hsv2rgb (h s v : K) (alpha : Option K) {p : Pixel K} (hp : hsv2rgb h s v = some p) :
    hsvToRgb (.separate h s v alpha) = .ok (some ([p.c0, p.c1, p.c2] ++ alpha.toList)) := by
  rw [hsvToRgb, hp]
  rfl

/-- **C131.** Stacked channels are the same as separate ones, with the fourth as the opacity. -/
theorem C131_hsv2rgb_stack (h s v : K) (alpha : Option K) :
    hsvToRgb (.stack ([h, s, v] ++ alpha.toList) none) = hsvToRgb (.separate h s v alpha) := by
  cases alpha <;> rfl

/-- **C131.** The opacity argument takes precedence over a fourth channel. -/
theorem C131_hsv2rgb_alpha (h s v a : K) (rest : List K) :
    hsvToRgb (.stack (h :: s :: v :: rest) (some a)) = hsvToRgb (.separate h s v (some a)) := rfl

theorem perPixelSelect_three (r g b : K) (rest : List K) {idx : ℤ} (h : idx < 3) :
    perPixelSelect (r :: g :: b :: rest) idx = selectChannel ⟨r, g, b⟩ idx := by
  have key : ∀ (l : List K) (k : ℕ) (x : K), 3 ≤ k →
      (l.zipIdx k).foldl (fun selection c => selection + c.1 * b2k (idx == (c.2 : ℤ))) x = x := by
    intro l
    induction l with
    | nil => intros; rfl
    | cons y l ih =>
      intro k x hk
      rw [List.zipIdx_cons, List.foldl_cons]
      have : (idx == (k : ℤ)) = false := by simp; omega
      rw [show (idx == ((y, k).2 : ℤ)) = false from this]
      simp only [b2k_false, mul_zero, add_zero]
      exact ih _ _ (by omega)
  unfold perPixelSelect selectChannel
  simp only [List.zipIdx_cons, List.foldl_cons, zero_add]
  rw [key _ _ _ (by omega)]
  simp

theorem channel_lt (r g b : K) : ((if r < g ∧ r ≤ b then 1 else 0) + 2 * (if g < b ∧ g ≤ r then 1 else 0) : ℤ) < 3 := by
  split_ifs with h1 h2
  · exact absurd (h1.1.trans_le h2.2) (lt_irrefl _)
  all_goals decide

/-- Without opacity the conversion is that of the three channels. -/
theorem C131_rgb2hsv (r g b : K) : rgbToHsv (.separate r g b none) =
      .ok [(rgb2hsv ⟨r, g, b⟩).c0, (rgb2hsv ⟨r, g, b⟩).c1, (rgb2hsv ⟨r, g, b⟩).c2] ∧
    rgbToHsv (.stack [r, g, b] none) = rgbToHsv (.separate r g b none) := by
  refine ⟨?_, rfl⟩
  simp only [rgbToHsv, Option.toList, List.append_nil, hueSaturationValue]
  rw [perPixelSelect_three r g b [] (channel_lt r g b), perPixelSelect_three r g b [] (Int.emod_lt_of_pos _ (by norm_num)),
    perPixelSelect_three r g b [] (Int.emod_lt_of_pos _ (by norm_num))]
  rfl

/-- **C131.** With the colour as a stack of three channels and the opacity as a separate argument, `rgb2hsv` passes it on, and the colour does not depend on it. -/
theorem C131_rgb2hsv_alpha (r g b a : K) : rgbToHsv (.stack [r, g, b] (some a)) =
      .ok [(rgb2hsv ⟨r, g, b⟩).c0, (rgb2hsv ⟨r, g, b⟩).c1, (rgb2hsv ⟨r, g, b⟩).c2, a] := by
  have h := (C131_rgb2hsv r g b).2.trans (C131_rgb2hsv r g b).1
  simp only [rgbToHsv, Option.toList, List.append_nil] at h ⊢
  cases e : hueSaturationValue [r, g, b] with
  | error e' => rw [e] at h; cases h
  | ok p =>
    rw [e] at h
    simp only [Except.map, Except.ok.injEq, List.cons.injEq, and_true] at h ⊢
    rw [h.1, h.2.1, h.2.2]
    rfl

/-- **C131 (partial).** With an opacity between the darkest and the brightest channel, `rgb2hsv` passes it on, and the colour does not depend on it.  What is missing
is any other opacity, in particular 1. -/
theorem C131_rgb2hsv_partial (r g b a : K) (h0 : min (min r g) b ≤ a) (h1 : a ≤ max (max r g) b) : rgbToHsv (.separate r g b (some a)) =
      .ok [(rgb2hsv ⟨r, g, b⟩).c0, (rgb2hsv ⟨r, g, b⟩).c1, (rgb2hsv ⟨r, g, b⟩).c2, a] := by
  simp only [rgbToHsv, Option.toList, List.cons_append, List.nil_append, hueSaturationValue]
  rw [perPixelSelect_three r g b [a] (channel_lt r g b), perPixelSelect_three r g b [a] (Int.emod_lt_of_pos _ (by norm_num)),
    perPixelSelect_three r g b [a] (Int.emod_lt_of_pos _ (by norm_num))]
  simp only [List.foldl_cons, List.foldl_nil, max_eq_left h1, min_eq_left h0]
  rfl

/-- The value that is returned by `rgb2hsv` is the largest of the channels and the opacity: it is that of the colour if and only if the opacity is not larger. -/
theorem C131_value (r g b a : K) : ∃ h s, rgbToHsv (.separate r g b (some a)) = .ok [h, s, max (max (max r g) b) a, a] ∧
    (max (max (max r g) b) a = (rgb2hsv ⟨r, g, b⟩).c2 ↔ a ≤ max (max r g) b) := by
  refine ⟨_, _, rfl, ?_⟩
  rw [show (rgb2hsv ⟨r, g, b⟩).c2 = max (max r g) b from rfl]
  exact max_eq_left_iff

/-- **C131 is violated** by opaque images: the value of every colour is then one, so all colours become bright. -/
theorem C131_opaque_violates {r g b : K} (hr : r ≤ 1) (hg : g ≤ 1) (hb : b ≤ 1) :
    ∃ h s, rgbToHsv (.separate r g b (some 1)) = .ok [h, s, 1, 1] := by
  obtain ⟨h, s, e, -⟩ := C131_value r g b 1
  rw [max_eq_right (max_le (max_le hr hg) hb)] at e
  exact ⟨h, s, e⟩

/-- **C131 is violated**: every transparent colour gets a saturation of 1, also grey. -/
theorem C131_transparent_violates {r g b : K} (hr : 0 ≤ r) (hg : 0 ≤ g) (hb : 0 ≤ b) (hv : ¬ isclose (max (max r g) b) 0) :
    ∃ h, rgbToHsv (.separate r g b (some 0)) = .ok [h, 1, max (max r g) b, 0] := by
  have h1 : max (max (max r g) b) 0 = max (max r g) b := max_eq_left (le_max_of_le_right hb)
  have h2 : min (min (min r g) b) 0 = 0 := min_eq_right (le_min (le_min hr hg) hb)
  have hne : max (max r g) b ≠ 0 := fun h => hv (by rw [h]; simp [isclose])
  simp only [rgbToHsv, Option.toList, List.cons_append, List.nil_append, hueSaturationValue, List.foldl_cons, List.foldl_nil, h1, h2, hv, decide_false, sub_zero]
  refine ⟨_, congrArg Except.ok (congrArg (_ :: ·) (congrArg (· :: [max (max r g) b, 0]) ?_))⟩
  show max (max r g) b / (max (max r g) b + b2k false) = 1
  rw [show (b2k false : K) = 0 by simp [b2k], add_zero, div_self hne]

/-- **C131 is violated**: stacked channels are not the same as separate ones; the opacity is lost. -/
theorem C131_rgb2hsv_stack_violates (r g b a : K) : ∃ h s v, rgbToHsv (.stack [r, g, b, a] none) = .ok [h, s, v] ∧
    rgbToHsv (.separate r g b (some a)) = .ok [h, s, v, a] :=
  ⟨_, _, _, rfl, rfl⟩

end

/-- The hue changes too: opaque dark red has a hue of 1/12, orange. -/
example : rgbToHsv (.separate (1 / 2 : ℚ) 0 0 (some 1)) = .ok [1 / 12, 1, 1, 1] ∧ rgbToHsv (.separate (1 / 2 : ℚ) 0 0 none) = .ok [0, 1, 1 / 2] := by
  decide +kernel

/-- `C131_transparent_violates` for grey, which is not saturated. -/
example := C131_transparent_violates (r := (1 / 2 : ℚ)) (g := 1 / 2) (b := 1 / 2) (by norm_num) (by norm_num) (by norm_num) (by decide +kernel)

/-- `C131_rgb2hsv_alpha` for transparent grey. -/
example := C131_rgb2hsv_alpha (1 / 2 : ℚ) (1 / 2) (1 / 2) 0

/-- Two conversions turn it into opaque orange. -/
example : hsvToRgb (.stack [1 / 12, 1, 1, 1] none) = .ok (some [(1 : ℚ), 1 / 2, 0, 1]) := by decide +kernel

example : rgbToHsv (.separate (1 / 2 : ℚ) 0 0 (some (1 / 4))) = .ok [0, 1, 1 / 2, 1 / 4] := by decide +kernel

example : rgbToHsv (.stack [(1 : ℚ), 2] none) = .error .indexError ∧ hsvToRgb (.stack [(1 : ℚ), 2] none) = .error .indexError ∧
    rgbToHsv (.stack ([] : List ℚ) none) = .error .valueError ∧ hsvToRgb (.incomplete : ColorArgs ℚ) = .error .typeError := by decide +kernel

/-! ### Complex images -/

theorem brightest_eq {x r g b : ℝ} (h : Spec.Display.IsBrightest x r g b) : max (max r g) b = x := by
  obtain ⟨h, h1, h2, h3⟩ := h
  refine le_antisymm (max_le (max_le h1 h2) h3) ?_
  rcases h with rfl | rfl | rfl <;> simp

/-- **C131.** The opacity of a pixel of `complex2rgb` is its intensity times the maximum; the colour does not depend on it. -/
theorem C131_complex2rgb (inverted : Bool) (z : ℂ) (alpha : Option ℝ) : ∃ p : Pixel ℝ, pixel inverted z.arg ‖z‖ = some p ∧
    pixelChannels inverted z.arg ‖z‖ alpha = .ok (some ([p.c0, p.c1, p.c2] ++ (alpha.map fun a => max (max p.c0 p.c1) p.c2 * a).toList)) := by
  obtain ⟨h0, h1⟩ := hue_range z
  cases inverted
  · obtain ⟨s0, s1⟩ := clip01_range (2 - ‖z‖)
    obtain ⟨x, hx, hb, -, -⟩ := C16_range (h := z.arg / (2 * Real.pi) + 1 / 2) (s := clip01 (2 - ‖z‖))
      (v := min ‖z‖ 1) h0.le (by linarith) s0 s1 (le_min (norm_nonneg _) zero_le_one)
    have hm : max (max x.c0 x.c1) x.c2 = min ‖z‖ 1 := brightest_eq hb
    refine ⟨x, by simpa [pixel] using hx, ?_⟩
    rw [pixelChannels]
    simp only [Bool.false_eq_true, if_false]
    rw [C131_hsv2rgb _ _ _ _ hx, hm]
  · obtain ⟨s0, s1⟩ := clip01_range ‖z‖
    obtain ⟨x, hx, hb, -, -⟩ := C16_range (h := z.arg / (2 * Real.pi) + 1 / 2) (s := clip01 ‖z‖)
      (v := max 0 (1 - 1 / 2 * ‖z‖)) h0.le (by linarith) s0 s1 (le_max_left _ _)
    have hm : max (max x.c0 x.c1) x.c2 = max 0 (1 - 1 / 2 * ‖z‖) := brightest_eq hb
    refine ⟨x, by simpa [pixel] using hx, ?_⟩
    rw [pixelChannels]
    simp only [if_true]
    rw [C131_hsv2rgb _ _ _ _ hx, hm]

/-! ### The axis of the channels -/

/-- **C131.** An image that is returned with its channels along some axis is read correctly when the same axis is given. -/
theorem C131_axis {K : Type} (channels : List ℕ → List K) {ax : ℕ} {rest : List ℕ} (h : ax ≤ rest.length) (c : ℕ) :
    toFront ax (fromFront ax (stackChannels channels)) (c :: rest) = (channels rest)[c]? := by
  unfold toFront fromFront
  have h1 : (rest.insertIdx ax c).getD ax 0 = c := by
    rw [List.getD_eq_getElem?_getD, List.getElem?_insertIdx_self, if_pos h]
    rfl
  simp only [h1, List.eraseIdx_insertIdx_self]
  rfl

/-- **C131.** The number of axes is one more than that of the separate channels: the default is the last axis. -/
theorem C131_last_axis (ndim : ℕ) : frontAxis (ndim + 1) (-1) = some ndim ∧
    ∀ axis ax, frontAxis (ndim + 1) axis = some ax → ax ≤ ndim ∧ ((ax : ℤ) = axis ∨ (ax : ℤ) = axis + (ndim + 1)) := by
  constructor
  · unfold frontAxis
    rw [if_neg (by omega), if_pos (by omega)]
    congr 1
    omega
  · intro axis ax h
    unfold frontAxis at h
    split_ifs at h with h1 h2 <;> (cases h; omega)

example : toFront 1 (fromFront 1 (stackChannels fun p : List ℕ => p.map fun i => 10 * i)) [1, 3, 4] = some 40 := by decide +kernel

example : fromFront 2 (stackChannels fun p : List ℕ => p.map fun i => 10 * i) [3, 4, 1] = some 40 := by decide +kernel

end Verif.Display
