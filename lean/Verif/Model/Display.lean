import Verif.Num
import Mathlib.Analysis.SpecialFunctions.Complex.Arg

/-!
# Model of `python/macromax/utils/display/hsv.py`, `complex2rgb.py` and `grid2extent.py`

The image functions work pixel by pixel: one pixel is modelled.  Channels are elements of an ordered field.
-/

namespace Verif.Display

/-- Three channels of one pixel: red, green, blue or hue, saturation, value. -/
structure Pixel (K : Type) where
  c0 : K
  c1 : K
  c2 : K
deriving DecidableEq

section
variable {K : Type} [Field K] [LinearOrder K] [FloorRing K]

/-- `arr.astype(np.int8)` of a float: truncation towards zero.  Outside the range of `int8` the result is undefined
(platform dependent): `none`. -/
def toInt8 (x : K) : Option ℤ :=
  let i : ℤ := if 0 ≤ x then ⌊x⌋ else ⌈x⌉
  if -128 ≤ i ∧ i ≤ 127 then some i else none

/-- hsv.py lines 36–46: one pixel of `hsv2rgb`.  Booleans multiply as 0 and 1. -/
def hsv2rgb (hue saturation value : K) : Option (Pixel K) :=
  (toInt8 (6 * hue)).map fun (i0 : ℤ) =>
    let f := 6 * hue - i0
    let i := i0 % 6
    let p := value * (1 - saturation)
    let q := value * (1 - saturation * f)
    let t := value * (1 - (saturation * (1 - f)))
    { c0 := b2k (i == 0 || i == 5) * value + b2k (i == 1) * q + b2k (i == 2 || i == 3) * p + b2k (i == 4) * t
      c1 := b2k (i == 0) * t + b2k (i == 1 || i == 2) * value + b2k (i == 3) * q + b2k (decide (i ≥ 4)) * p
      c2 := b2k (decide (i ≤ 1)) * p + b2k (i == 2) * t + b2k (i == 3 || i == 4) * value + b2k (i == 5) * q }

/-- hsv.py lines 84–88: `per_pixel_select`. -/
def selectChannel (x : Pixel K) (idx : ℤ) : K :=
  0 + x.c0 * b2k (idx == 0) + x.c1 * b2k (idx == 1) + x.c2 * b2k (idx == 2)

/-- hsv.py lines 81–107: one pixel of `rgb2hsv` (three channels). -/
def rgb2hsv (x : Pixel K) : Pixel K :=
  let v := max (max x.c0 x.c1) x.c2
  let sxv := v - min (min x.c0 x.c1) x.c2
  let ch1 : ℤ := if x.c0 < x.c1 ∧ x.c0 ≤ x.c2 then 1 else 0
  let ch2 : ℤ := if x.c1 < x.c2 ∧ x.c1 ≤ x.c0 then 1 else 0
  let channel := ch1 + 2 * ch2
  let dominant := selectChannel x channel
  let after := selectChannel x ((channel + 1) % 3)
  let before := selectChannel x ((channel - 1) % 3)
  let i : ℤ := 2 * channel + (if dominant ≤ after then 1 else 0) * (1 - (if isclose after before then 1 else 0))
  let f := pyMod ((dominant - after) / (sxv + b2k (decide (isclose sxv 0)))) 1
  { c0 := (i + f) / 6, c1 := sxv / (v + b2k (decide (isclose v 0))), c2 := v }

/-- grid2extent.py lines 27–31: the two limits for one range, as (first, last). -/
def limits (rng : List K) : Except PyErr (K × K) :=
  match rng, rng.getLast? with
  | x0 :: x1 :: _, some last =>
    let step := x1 - x0
    .ok (x0 - 1 / 2 * step, last + 1 / 2 * step)
  | _, _ => .error .valueError

/-- grid2extent.py lines 25–35: the loop over `enumerate(ranges[:-3:-1])` for the reversed ranges, starting at `idx`. -/
def extentLoop (originLower : Bool) : ℕ → List (List K) → Except PyErr (List K)
  | _, [] => .ok []
  | idx, rng :: rest => do
    let fl ← limits rng
    let fl := if !originLower && idx == 1 then (fl.2, fl.1) else fl
    let more ← extentLoop originLower (idx + 1) rest
    .ok (fl.1 :: fl.2 :: more)

/-- grid2extent.py lines 9–37: `grid2extent(*ranges, origin_lower)`.  A `Grid` argument behaves as the sequence of its ranges.
`ranges[:-3:-1]` are the last two in reverse order. -/
def grid2extent (ranges : List (List K)) (originLower : Bool) : Except PyErr (List K) :=
  extentLoop originLower 0 (ranges.reverse.take 2)

end

/-! ### `complex2rgb` -/

/-- The type of the numbers in the input array: a real or complex floating-point type, `bool`, or an integer type. -/
inductive ImageType
  | float | bool | int
deriving DecidableEq

/-- complex2rgb.py lines 33–42: the normalized amplitudes of all pixels.  In-place multiplication of an integer array
by a float raises `TypeError` (numpy's `UFuncTypeError`).  The image is a non-empty array, not a scalar. -/
noncomputable def amplitudes (ty : ImageType) (image : List ℂ) (normalization : Option ℝ) : Except PyErr (List ℝ) :=
  let amplitude := image.map fun z => ‖z‖
  match normalization with
  | none => .ok amplitude
  | some nrm =>
    if nrm > 0 then
      let maxValue := amplitude.foldr max 0
      if maxValue > 0 then
        if ty = .int then .error .typeError
        else .ok (amplitude.map fun a => a * (nrm / maxValue))
      else .ok amplitude
    else .ok amplitude

/-- `np.clip(x, 0.0, 1.0)` -/
noncomputable def clip01 (x : ℝ) : ℝ := min (max x 0) 1

/-- complex2rgb.py lines 36 and 44–56: one pixel with the given phase (`np.angle`) and normalized amplitude, for `dtype=float`. -/
noncomputable def pixel (inverted : Bool) (phase amplitude : ℝ) : Option (Pixel ℝ) :=
  let hue := phase / (2 * Real.pi) + 1 / 2
  if inverted then hsv2rgb hue (clip01 amplitude) (max 0 (1 - 1 / 2 * amplitude))
  else hsv2rgb hue (clip01 (2 - amplitude)) (min amplitude 1)

/-- complex2rgb.py lines 9–61: `complex2rgb(image, normalization, inverted)` with `dtype=float` and no alpha channel. -/
noncomputable def complex2rgb (ty : ImageType) (image : List ℂ) (normalization : Option ℝ) (inverted : Bool) :
    Except PyErr (List (Option (Pixel ℝ))) := do
  let amps ← amplitudes ty image normalization
  .ok (List.zipWith (fun z a => pixel inverted (Complex.arg z) a) image amps)

/-- complex2rgb.py lines 58–61: conversion of a channel to an integer type with the given maximum. -/
noncomputable def toInteger (maxInt : ℕ) (c : ℝ) : ℤ := ⌊c * maxInt + 1 / 2⌋

end Verif.Display
