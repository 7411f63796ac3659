import Verif.Lemmas.SubpixelAxes

/-!
# C106: the axes that a `Reference` operates on

Documentation of `Reference`: "axes: (optional) The axes to operate on.  If not specified, all dimensions of the reference image or its Fourier transform are used."
-/

namespace Verif.Subpixel

open Verif

/-- **C106 (all axes).** Images that are not empty can be registered over all their axes, and the shift has one element per axis; for precisions of less than half a pixel this is so if
`__zoom_ft` accepts the shape, see `C60_zoom` and `C60_volume_violates`.  The same holds for a point reference with the number of axes of the image. -/
theorem C106_all (s : List ℕ) (h : s.prod ≠ 0) (p : Precision) :
    let result := match p with
      | .fine M => (zoomShape M s).map List.length
      | _ => .ok s.length
    registerArgs (some s) none none s p = result ∧ registerArgs (some s) (some (defaultAxes s.length)) none s p = result ∧
      registerArgs (some s) none (some s.length) s p = result ∧ registerArgs none none (some s.length) s p = result := by
  intro result
  have key : registerShape ⟨defaultAxes s.length, s⟩ s p = result := by
    unfold registerShape
    dsimp only
    rw [axisPositions_default]
    dsimp only
    rw [broadcastShapes_self]
    dsimp only
    rw [peakShape_default s h]
    cases p with
    | fine M =>
      show _ = (zoomShape M s).map List.length
      cases hz : zoomShape M s <;> simp [hz, meanShape_default, Except.map]
    | _ => simp only [meanShape_default, List.prod_nil, if_true]; rfl
  have key' : registerShape ⟨defaultAxes s.length, List.replicate s.length 1⟩ s p = result := by
    rw [← key]
    unfold registerShape
    dsimp only
    rw [broadcastShapes_ones, broadcastShapes_self]
  have href : ∀ u : List ℕ, u.length = s.length → broadcastShapes u [] = .ok u := fun u _ => broadcastShapes_nil u
  refine ⟨?_, ?_, ?_, ?_⟩
  · rw [← key]
    simp [registerArgs, newReference, meanShape_default, broadcastShapes_nil]
  · rw [← key]
    simp [registerArgs, newReference, meanShape_default, broadcastShapes_nil, defaultAxes_length]
  · rw [← key]
    simp [registerArgs, newReference, meanShape_default, broadcastShapes_nil]
  · rw [← key']
    have := meanShape_default (List.replicate s.length 1)
    rw [List.length_replicate] at this
    simp [registerArgs, newReference, this, broadcastShapes_nil]

example : registerArgs (some [4, 6]) none none [4, 6] (.fine 192) = .ok 2 := by decide +kernel

/-- **C106 (violation).** Over some of the axes of an image, registration always raises an error, unless the precision is 0: whatever the reference, the image, and the axes. -/
theorem C106_violates (image : Option (List ℕ)) (axes : Option (List ℤ)) (ndim : Option ℕ) (r : RefShape) (hr : newReference image axes ndim = .ok r) (subject : List ℕ)
    (h : r.axes.length < subject.length) (p : Precision) (hp : p ≠ .zero) : ∃ e, registerArgs image axes ndim subject p = .error e := by
  unfold registerArgs
  rw [hr]
  dsimp only
  unfold registerShape
  split
  · exact ⟨_, rfl⟩
  · split
    · exact ⟨_, rfl⟩
    · rename_i cross hc
      have hl : cross.length ≠ r.axes.length := by
        have := broadcastShapes_length hc
        omega
      have : ∃ e, peakShape r.axes cross p = .error e := by
        unfold peakShape
        split
        · exact ⟨_, rfl⟩
        · cases p with
          | zero => exact absurd rfl hp
          | _ =>
            dsimp only
            by_cases h0 : cross.prod = 0
            · exact ⟨_, if_pos h0⟩
            · rw [if_neg h0, if_pos hl]
              exact ⟨_, rfl⟩
      obtain ⟨e, he⟩ := this
      rw [he]
      exact ⟨e, rfl⟩

/-- A colour image: three channels of 32 by 32 pixels, with the axes of the pixels, cannot be constructed; as the last axis has three elements it can, but registration raises. -/
example : newReference (some [3, 32, 32]) (some [-2, -1]) none = .error .valueError ∧ newReference (some [3, 32, 3]) (some [-2, -1]) none = .ok ⟨[-2, -1], [3, 32, 3]⟩ ∧
    registerArgs (some [3, 32, 3]) (some [-2, -1]) none [3, 32, 3] .half = .error .valueError := by decide +kernel

/-- **C106 (precision 0).** With precision 0, which only calculates the error, an image with channels as its first axis is accepted only when there is a single channel. -/
theorem C106_channels (c : ℕ) (rest : List ℕ) (n : ℕ) :
    registerArgs (some (c :: rest)) (some (defaultAxes rest.length)) none (c :: rest) .zero = .ok n ↔ c = 1 ∧ n = rest.length := by
  have hpos : axisPositions (c :: rest).length (defaultAxes rest.length) = .ok ((List.range rest.length).map (1 + ·)) := by
    rw [List.length_cons, Nat.add_comm]
    exact axisPositions_tail 1 rest.length
  have hone : broadcastShapes (1 :: rest) [1] = .ok (1 :: rest) := by
    unfold broadcastShapes
    have : ∀ s : List ℕ, s ≠ [] → broadcastRev s [1] = .ok s := by
      intro s hs
      cases s with
      | nil => exact absurd rfl hs
      | cons a s =>
        rw [broadcastRev, if_pos (Or.inr rfl), broadcastRev_nil]
        rfl
    rw [List.reverse_singleton, this _ (by simp)]
    simp [Except.map]
  constructor
  · intro h
    simp only [registerArgs, newReference, Option.map_some, Option.getD_some, meanShape_tail] at h
    split at h
    · exact nomatch h
    · rename_i r hr
      split at hr
      · exact nomatch hr
      · rename_i s hs
        cases hr
        unfold registerShape at h
        dsimp only at h
        rw [hpos] at h
        dsimp only at h
        split at h
        · exact nomatch h
        · rename_i cross hcross
          have hl : cross.length = 1 + rest.length := by
            have h1 := broadcastShapes_length hs
            have h2 := broadcastShapes_length hcross
            simp only [List.length_cons, List.length_nil] at h1 h2
            omega
          obtain ⟨c', rest', rfl⟩ : ∃ c' rest', cross = c' :: rest' := by
            cases cross with
            | nil => simp at hl; omega
            | cons a b => exact ⟨a, b, rfl⟩
          have hl' : rest'.length = rest.length := by simpa [Nat.add_comm] using hl
          have hpk : peakShape (defaultAxes rest.length) (c' :: rest') .zero = .ok (rest.length, [c']) := by
            unfold peakShape
            rw [← hl', show axisPositions (c' :: rest').length (defaultAxes rest'.length) = .ok ((List.range rest'.length).map (1 + ·)) by
              rw [List.length_cons, Nat.add_comm]; exact axisPositions_tail 1 rest'.length]
            simp [meanShape_tail, Except.map, defaultAxes_length]
          rw [hpk] at h
          simp only [meanShape_tail, List.prod_cons, List.prod_nil, mul_one] at h
          split at h
          · rename_i hc
            cases h
            refine ⟨?_, rfl⟩
            subst hc
            by_contra hne
            -- the first axis of the correlation is at least that of the subject
            have hfirst : ∀ (s t u : List ℕ), broadcastShapes s (c :: t) = .ok (1 :: u) → u.length = t.length → s.length ≤ t.length + 1 → c = 1 := by
              intro s t u hb hu hs
              unfold broadcastShapes at hb
              have aux : ∀ (t s v : List ℕ), broadcastRev s (t ++ [c]) = .ok v → s.length ≤ t.length + 1 → v.getLast? = some 1 → c = 1 := by
                intro t
                induction t with
                | nil =>
                  intro s v hb hs hv
                  cases s with
                  | nil => rw [broadcastRev] at hb; cases hb; simpa using hv
                  | cons a s =>
                    have : s = [] := by
                      cases s with
                      | nil => rfl
                      | cons _ _ => simp at hs
                    subst this
                    simp only [List.nil_append, broadcastRev] at hb
                    split at hb
                    · rename_i hac
                      cases hb
                      have : a = 1 := by simpa using hv
                      omega
                    · split at hb
                      · cases hb; simpa using hv
                      · exact nomatch hb
                | cons b t ih =>
                  intro s v hb hs hv
                  cases s with
                  | nil => rw [broadcastRev] at hb; cases hb; rw [List.getLast?_append] at hv; simpa using hv
                  | cons a s =>
                    rw [List.cons_append, broadcastRev] at hb
                    have hlen : s.length ≤ t.length + 1 := by simpa using hs
                    have step : ∀ x : ℕ, (broadcastRev s (t ++ [c])).map (x :: ·) = .ok v → c = 1 := by
                      intro x hx
                      cases hw : broadcastRev s (t ++ [c]) with
                      | error e => rw [hw] at hx; exact nomatch hx
                      | ok w =>
                        rw [hw] at hx
                        cases hx
                        refine ih s w hw hlen ?_
                        have hwl := broadcastRev_length _ _ _ hw
                        have hne : w ≠ [] := by
                          intro h0; rw [h0] at hwl; simp only [List.length_nil, List.length_append, List.length_cons] at hwl; omega
                        rw [List.getLast?_cons_of_ne_nil hne] at hv
                        exact hv
                    split at hb
                    · exact step a hb
                    · split at hb
                      · exact step b hb
                      · exact nomatch hb
              cases hw : broadcastRev s.reverse (c :: t).reverse with
              | error e => rw [hw] at hb; exact nomatch hb
              | ok w =>
                rw [hw] at hb
                have : w.reverse = 1 :: u := by injection hb
                refine aux t.reverse s.reverse w (by rw [← List.reverse_cons]; exact hw) (by simpa using hs) ?_
                rw [List.getLast?_eq_head?_reverse, this]
                rfl
            have h1 := broadcastShapes_length hs
            refine hne (hfirst s rest rest' hcross hl' ?_)
            simp only [List.length_cons, List.length_nil] at h1
            omega
          · exact nomatch h
  · rintro ⟨rfl, rfl⟩
    have hpk : peakShape (defaultAxes rest.length) (1 :: rest) .zero = .ok (rest.length, [1]) := by
      unfold peakShape
      rw [hpos]
      simp [meanShape_tail, Except.map, defaultAxes_length]
    simp only [registerArgs, newReference, Option.map_some, Option.getD_some, meanShape_tail, hone]
    unfold registerShape
    dsimp only
    rw [hpos]
    dsimp only
    rw [broadcastShapes_self]
    dsimp only
    rw [hpk]
    simp [meanShape_tail]

/-- **C106 (violation: order of the axes).** With the axes of an image in another order, the sizes of the axes are mixed up: for an image of 10 by 2 pixels registration raises an error; for one of 4 by 8
pixels, the last pixel of the first axis is not taken for a negative shift, and a shift of five pixels along the second axis gets the size of the first axis. -/
theorem C106_order_violates : registerArgs (some [10, 2]) (some [1, 0]) none [10, 2] .half = .error .indexError ∧ registerArgs (some [10, 2]) (some [0, 1]) none [10, 2] .half = .ok 2 ∧
    wholeShift [0, 1] [4, 8] [3, 5] = .ok [7, 13] ∧ wholeShift [1, 0] [4, 8] [3, 5] = .ok [3, 9] := by
  decide +kernel

/-- **C106 (which axes).** A reference operates on the axes that are given; otherwise on the last `ndim` axes; otherwise on all axes of the image.  Without image it has one pixel along each of them, whatever
`ndim` is. -/
theorem C106_axes {image : Option (List ℕ)} {axes : Option (List ℤ)} {ndim : Option ℕ} {r : RefShape} (h : newReference image axes ndim = .ok r) :
    (∀ a, axes = some a → r.axes = a) ∧ (axes = none → ∀ n, ndim = some n → r.axes = defaultAxes n) ∧
      (axes = none → ndim = none → ∀ s, image = some s → r.axes = defaultAxes s.length) ∧ (image = none → r.shape.length = r.axes.length) := by
  have hl : ∀ {shape axes s norm}, meanShape shape axes = .ok norm → broadcastShapes shape norm = .ok s → s.length = shape.length := by
    intro shape axes s norm h1 h2
    have h3 : norm.length ≤ shape.length := by
      unfold meanShape at h1
      split at h1
      · exact nomatch h1
      · split_ifs at h1
        cases h1
        rw [List.length_map]
        exact (List.length_filter_le _ _).trans (by simp)
    have := broadcastShapes_length h2
    omega
  unfold newReference at h
  split at h
  · exact nomatch h
  · dsimp only at h
    split at h
    · exact nomatch h
    · rename_i norm hm
      split at h
      · exact nomatch h
      · rename_i s hb
        cases h
        have h4 := hl hm hb
        refine ⟨?_, ?_, ?_, ?_⟩
        · rintro a rfl
          rfl
        · rintro rfl n rfl
          rfl
        · rintro rfl rfl s rfl
          rfl
        · rintro rfl
          rw [h4]
          cases axes with
          | some a => simp
          | none => simp [defaultAxes_length]

example : newReference (some [5, 6, 7]) none (some 3) = .ok ⟨[-3, -2, -1], [5, 6, 7]⟩ ∧ newReference none (some [-1]) (some 3) = .ok ⟨[-1], [1]⟩ := by decide +kernel

/-- **C106 (indices).** The test of the model is that of the indices: `s` samples around sample `w` of an axis with `2 w` samples, with negative indices from the end. -/
theorem C106_indices (w s : ℕ) : indexFits w s ↔ ∀ j < s, - (2 * w : ℤ) ≤ w - (s / 2 : ℕ) + j ∧ (w : ℤ) - (s / 2 : ℕ) + j < 2 * w := by
  unfold indexFits
  constructor
  · intro h j hj
    omega
  · intro h
    rcases Nat.eq_zero_or_pos s with rfl | h0
    · simp
    · have h1 := h 0 h0
      have h2 := h (s - 1) (by omega)
      omega

/-- **C106 (whole pixels).** Over all axes, a peak in the first half of an axis is the shift along that axis; for other peaks the size is added (instead of subtracted). -/
theorem C106_whole (cross location : List ℕ) (h : location.length = cross.length) : ∃ shift, wholeShift (defaultAxes cross.length) cross location = .ok shift ∧ shift.length = cross.length ∧
    ∀ i < cross.length, (2 * location.getD i 0 ≤ cross.getD i 0 → shift.getD i 0 = location.getD i 0) ∧
      (cross.getD i 0 < 2 * location.getD i 0 → shift.getD i 0 = location.getD i 0 + cross.getD i 0) := by
  unfold wholeShift
  rw [axisPositions_default]
  refine ⟨_, rfl, by simp [h], fun i hi => ?_⟩
  have e : (List.zipWith (fun l i => if cross.getD i 0 / 2 < l then l + cross.getD i 0 else l) location (List.range cross.length)).getD i 0 =
      if cross.getD i 0 / 2 < location.getD i 0 then location.getD i 0 + cross.getD i 0 else location.getD i 0 := by
    simp only [List.getD_eq_getElem?_getD, List.getElem?_zipWith, List.getElem?_range hi, List.getElem?_eq_getElem (show i < location.length by omega), Option.getD_some]
  rw [e]
  constructor
  · intro h1
    rw [if_neg (by omega)]
  · intro h1
    rw [if_pos (by omega)]

example : wholeShift (defaultAxes 2) [4, 8] [2, 5] = .ok [2, 13] := by decide +kernel

/-- **C106 (nothing given).** Without image, axes and number of axes, a reference cannot be constructed. -/
theorem C106_nothing : newReference none none none = .error .typeError := rfl

/-- **C106 (colours).** With the channels along the first axis, a `Reference` for the last two axes raises a ValueError, unless the last axis has as many elements
as there are channels, or one of these numbers is 1. -/
theorem C106_colours {c a b : ℕ} (hc : c ≠ 1) (hb : b ≠ 1) (h : b ≠ c) (subject : List ℕ) (p : Precision) : registerArgs (some [c, a, b]) (some [-2, -1]) none subject p = .error .valueError := by
  have h1 : meanShape [c, a, b] [-2, -1] = .ok [c] := rfl
  have h2 : broadcastShapes [c, a, b] [c] = .error .valueError := by simp [broadcastShapes, broadcastRev, hc, hb, h]; rfl
  simp only [registerArgs, newReference, Option.map_some, Option.getD_some, h1, h2]

/-- `C106_colours` for 3 channels of 20 by 30 pixels. -/
example := C106_colours (c := 3) (a := 20) (b := 30) (by decide) (by decide) (by decide) [3, 20, 30] .whole

end Verif.Subpixel
