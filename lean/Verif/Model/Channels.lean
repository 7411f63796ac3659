import Verif.Model.Display

/-!
# Model of the channels in `python/macromax/utils/display/hsv.py` and `complex2rgb.py`: opacity, stacks of channels, and their axis

`Model/Display.lean` has the arithmetic for the three channels of a pixel.
-/

namespace Verif.Display

/-- The arguments of `hsv2rgb` and `rgb2hsv` at one pixel: all channels in one array, three channels, or just two of them (the other is `None`);
and the opacity. -/
inductive ColorArgs (K : Type)
  | stack (channels : List K) (alpha : Option K)
  | separate (c0 c1 c2 : K) (alpha : Option K)
  | incomplete

section
variable {K : Type} [Field K] [LinearOrder K] [FloorRing K]

/-- hsv.py 24–51: the channels of one pixel that are returned by `hsv2rgb`; `none` if the conversion to `int8` is undefined.  `None` is not a number:
`TypeError`. -/
def hsvToRgb : ColorArgs K → Except PyErr (Option (List K))
  | .stack (hue :: saturation :: value :: rest) alpha =>
    let alpha := match alpha with
      | some a => some a
      | none => rest.head?
    .ok ((hsv2rgb hue saturation value).map fun p => [p.c0, p.c1, p.c2] ++ alpha.toList)
  | .stack _ _ => .error .indexError
  | .separate hue saturation value alpha => .ok ((hsv2rgb hue saturation value).map fun p => [p.c0, p.c1, p.c2] ++ alpha.toList)
  | .incomplete => .error .typeError

/-- hsv.py 84–88: `per_pixel_select` for any number of channels. -/
def perPixelSelect (channels : List K) (idx : ℤ) : K :=
  channels.zipIdx.foldl (fun selection c => selection + c.1 * b2k (idx == (c.2 : ℤ))) 0

/-- hsv.py 81–107: hue, saturation, and value, of the channels in `rgb_image`.  All channels take part in the maximum and in the minimum; `np.amax` of none
raises `ValueError`. -/
def hueSaturationValue : List K → Except PyErr (Pixel K)
  | [] => .error .valueError
  | channels@(r :: g :: b :: rest) =>
    let v := (g :: b :: rest).foldl max r
    let sxv := v - (g :: b :: rest).foldl min r
    let ch1 : ℤ := if r < g ∧ r ≤ b then 1 else 0
    let ch2 : ℤ := if g < b ∧ g ≤ r then 1 else 0
    let channel := ch1 + 2 * ch2
    let dominant := perPixelSelect channels channel
    let after := perPixelSelect channels ((channel + 1) % 3)
    let before := perPixelSelect channels ((channel - 1) % 3)
    let i : ℤ := 2 * channel + (if dominant ≤ after then 1 else 0) * (1 - (if isclose after before then 1 else 0))
    let f := pyMod ((dominant - after) / (sxv + b2k (decide (isclose sxv 0)))) 1
    .ok { c0 := (i + f) / 6, c1 := sxv / (v + b2k (decide (isclose v 0))), c2 := v }
  | _ => .error .indexError

/-- hsv.py 74–114: the channels of one pixel that are returned by `rgb2hsv`. -/
def rgbToHsv : ColorArgs K → Except PyErr (List K)
  | .stack channels alpha => (hueSaturationValue channels).map fun p => [p.c0, p.c1, p.c2] ++ alpha.toList
  | .separate r g b alpha => (hueSaturationValue ([r, g, b] ++ alpha.toList)).map fun p => [p.c0, p.c1, p.c2] ++ alpha.toList
  | .incomplete => .error .typeError

end

/-- complex2rgb.py 44–56: one pixel of `complex2rgb` with the phase, the normalized amplitude, and the maximum opacity `alpha`, for `dtype=float`. -/
noncomputable def pixelChannels (inverted : Bool) (phase amplitude : ℝ) (alpha : Option ℝ) : Except PyErr (Option (List ℝ)) :=
  let hue := phase / (2 * Real.pi) + 1 / 2
  let intensity := if inverted then max 0 (1 - 1 / 2 * amplitude) else min amplitude 1
  let saturation := if inverted then clip01 amplitude else clip01 (2 - amplitude)
  hsvToRgb (.separate hue saturation intensity (alpha.map fun a => intensity * a))

/-! ### The axis of the channels

An array is a function of its list of indices. -/

/-- The axis as counted from the front, for an array with `ndim` axes; `none` stands for an `AxisError`. -/
def frontAxis (ndim : ℕ) (axis : ℤ) : Option ℕ :=
  if 0 ≤ axis ∧ axis < ndim then some axis.toNat
  else if -(ndim : ℤ) ≤ axis ∧ axis < 0 then some (axis + ndim).toNat
  else none

/-- `np.moveaxis(image, axis, 0)` (hsv.py 25, 75). -/
def toFront {α : Type} (ax : ℕ) (image : List ℕ → α) : List ℕ → α
  | [] => image []
  | c :: rest => image (rest.insertIdx ax c)

/-- `np.moveaxis(image, 0, axis)` (hsv.py 53, 114). -/
def fromFront {α : Type} (ax : ℕ) (image : List ℕ → α) : List ℕ → α := fun idx =>
  image (idx.getD ax 0 :: idx.eraseIdx ax)

/-- `np.stack` of channels that depend on the position. -/
def stackChannels {K : Type} (channels : List ℕ → List K) : List ℕ → Option K
  | [] => none
  | c :: rest => (channels rest)[c]?

end Verif.Display
