import Verif.Props.Subpixel

/-!
# Property C61: the images of a registration, for all histories
-/

namespace Verif.Subpixel

open Verif.Fourier Verif.Spec.Subpixel Complex

variable {d : ℕ} {N : Fin d → ℕ}

/-- What can be done with a registration. -/
inductive Op (N : Fin d → ℕ)
  | readImageFt
  | readImage
  | readOriginalFt
  | readOriginal
  | setShift (s : Fin d → ℝ)

noncomputable def Op.run (r : Registration N) : Op N → Registration N
  | .readImageFt => r.readImageFt.2
  | .readImage => r.readImage.2
  | .readOriginalFt => r.readOriginalFt.2
  | .readOriginal => r.readOriginal.2
  | .setShift s => (r.setShift s).2

/-- The shift that was assigned last. -/
def lastShift (s : Fin d → ℝ) : List (Op N) → Fin d → ℝ := List.foldl (fun s op => match op with | .setShift t => t | _ => s) s

theorem rollFt_rollFt_neg (F : Idx N → ℂ) (s : Fin d → ℝ) (k : Idx N) (z : ℂ) (hz : z ≠ 0) : rollFt (fun k => rollFt F (-s) k / z) s k * z = F k := by
  rw [rollFt_eq, rollFt_eq, kept_neg]
  have := phase_neg_mul (kept N s) k
  field_simp
  rw [mul_assoc, this, mul_one]

theorem rollFt_neg_rollFt (F : Idx N → ℂ) (s : Fin d → ℝ) (k : Idx N) (z : ℂ) (hz : z ≠ 0) : rollFt (fun k => rollFt F s k * z) (-s) k / z = F k := by
  rw [rollFt_eq, rollFt_eq, kept_neg]
  have := phase_neg_mul (kept N s) k
  field_simp
  rw [mul_assoc, mul_comm (phase _ k), this, mul_one]

/-- The invariant: the registration is one of an original with Fourier transform `O`, scaled by `z`. -/
structure Holds (r : Registration N) (O : Idx N → ℂ) (z : ℂ) : Prop where
  factor : r.factor = .finite z
  original : ∀ O', r.originalFt = some O' → O' = O
  image : ∀ F, r.registeredFt = some F → F = fun k => rollFt O (-r.shift) k / z
  known : r.originalFt = none → ∃ F, r.registeredFt = some F

theorem holds_readImageFt {r : Registration N} {O : Idx N → ℂ} {z : ℂ} (hz : 1e-8 < ‖z‖) (h : Holds r O z) :
    r.readImageFt.1 = .ok (fun k => rollFt O (-r.shift) k / z) ∧ Holds r.readImageFt.2 O z ∧ r.readImageFt.2.shift = r.shift := by
  obtain ⟨s, f, e, oo, ii⟩ := r
  obtain ⟨hf, ho, hi, hk⟩ := h
  dsimp only at hf ho hi hk ⊢
  subst hf
  cases ii with
  | some F =>
    have := hi F rfl
    subst this
    exact ⟨rfl, ⟨rfl, ho, hi, hk⟩, rfl⟩
  | none =>
    cases oo with
    | none => obtain ⟨F, hF⟩ := hk rfl; cases hF
    | some O' =>
      have := ho O' rfl
      subst this
      have hr : registered O' s (.finite z) = fun k => rollFt O' (-s) k / z := by
        unfold registered
        exact if_neg (not_le.2 hz)
      refine ⟨?_, ⟨rfl, fun O'' h => (Option.some.inj h).symm, fun F h => ?_, fun h => by cases h⟩, rfl⟩
      · show Except.ok (registered O' s (.finite z)) = _
        rw [hr]
      · have : registered O' s (.finite z) = F := Option.some.inj h
        rw [← this, hr]
        rfl

theorem holds_readOriginalFt {r : Registration N} {O : Idx N → ℂ} {z : ℂ} (hz : 1e-8 < ‖z‖) (h : Holds r O z) :
    r.readOriginalFt.1 = .ok O ∧ Holds r.readOriginalFt.2 O z ∧ r.readOriginalFt.2.shift = r.shift := by
  have hz0 : z ≠ 0 := fun h0 => by rw [h0, norm_zero] at hz; norm_num at hz
  obtain ⟨s, f, e, oo, ii⟩ := r
  obtain ⟨hf, ho, hi, hk⟩ := h
  dsimp only at hf ho hi hk ⊢
  subst hf
  cases oo with
  | some O' =>
    have := ho O' rfl
    subst this
    exact ⟨rfl, ⟨rfl, ho, hi, hk⟩, rfl⟩
  | none =>
    obtain ⟨F, rfl⟩ := hk rfl
    have hF := hi F rfl
    subst hF
    have e : (fun k => rollFt (fun k => rollFt O (-s) k / z) s k * z) = O := funext fun k => rollFt_rollFt_neg O s k z hz0
    refine ⟨?_, ⟨rfl, fun O' h => ?_, hi, fun h => by cases h⟩, rfl⟩
    · show Except.ok (fun k => rollFt (fun k => rollFt O (-s) k / z) s k * z) = _
      rw [e]
    · rw [← Option.some.inj h]
      exact e

theorem holds_run {r : Registration N} {O : Idx N → ℂ} {z : ℂ} (hz : 1e-8 < ‖z‖) (h : Holds r O z) (op : Op N) : Holds (op.run r) O z ∧ (op.run r).shift = lastShift r.shift [op] := by
  cases op with
  | readImageFt => exact (holds_readImageFt hz h).2
  | readImage => exact (holds_readImageFt hz h).2
  | readOriginalFt => exact (holds_readOriginalFt hz h).2
  | readOriginal => exact (holds_readOriginalFt hz h).2
  | setShift t =>
    show Holds (r.setShift t).2 O z ∧ (r.setShift t).2.shift = t
    unfold Registration.setShift
    cases hr : r.registeredFt with
    | none =>
      have hk := h.known
      rw [hr] at hk
      exact ⟨⟨h.factor, h.original, fun F hF => (nomatch hF), hk⟩, rfl⟩
    | some F =>
      have h2 := holds_readOriginalFt hz h
      have e : r.readOriginalFt = (.ok O, r.readOriginalFt.2) := by rw [← h2.1]
      dsimp only
      rw [e]
      exact ⟨⟨h2.2.1.factor, fun O' h => (Option.some.inj h).symm, fun F h => (by cases h), fun h => by cases h⟩, rfl⟩

theorem holds_history {O : Idx N → ℂ} {z : ℂ} (hz : 1e-8 < ‖z‖) (ops : List (Op N)) : ∀ {r : Registration N}, Holds r O z → Holds (ops.foldl Op.run r) O z ∧ (ops.foldl Op.run r).shift = lastShift r.shift ops := by
  induction ops with
  | nil => exact fun h => ⟨h, rfl⟩
  | cons op ops ih =>
    intro r h
    have h1 := holds_run hz h op
    have h2 := ih h1.1
    refine ⟨h2.1, h2.2.trans ?_⟩
    rw [h1.2]
    rfl

/-- The registration is constructed from an original image. -/
noncomputable def ofOriginal (shift : Fin d → ℝ) (z : ℂ) (error : ℝ) (f : Idx N → ℂ) : Registration N := .init shift (.finite z) error none (some f) none none

/-- The registration is constructed from a registered image. -/
noncomputable def ofRegistered (shift : Fin d → ℝ) (z : ℂ) (error : ℝ) (g : Idx N → ℂ) : Registration N := .init shift (.finite z) error none none none (some g)

theorem holds_ofOriginal (shift : Fin d → ℝ) (z : ℂ) (error : ℝ) (f : Idx N → ℂ) : Holds (ofOriginal shift z error f) (ft f) z :=
  ⟨rfl, fun O h => (Option.some.inj h).symm, fun F h => (nomatch h), fun h => nomatch h⟩

theorem holds_ofRegistered (shift : Fin d → ℝ) (z : ℂ) (hz : z ≠ 0) (error : ℝ) (g : Idx N → ℂ) : Holds (ofRegistered shift z error g) (ft fun x => z * roll g shift x) z := by
  refine ⟨rfl, fun O h => (nomatch h), fun F h => ?_, fun _ => ⟨_, rfl⟩⟩
  have : ft g = F := Option.some.inj h
  subst this
  have e : (ft fun x => z * roll g shift x) = fun k => rollFt (ft g) shift k * z := by
    have := C23_ft_linear z 0 (roll g shift) (roll g shift)
    simp only [zero_mul, add_zero] at this
    rw [this, ft_roll]
    funext k
    rw [rollFt_eq, mul_comm]
  rw [e]
  funext k
  exact (rollFt_neg_rollFt (ft g) shift k z hz).symm

theorem images_of_holds {r : Registration N} {f : Idx N → ℂ} {z : ℂ} (hz : 1e-8 < ‖z‖) (h : Holds r (ft f) z) :
    r.readOriginal.1 = .ok f ∧ r.readImage.1 = .ok (fun x => roll f (-r.shift) x / z) := by
  have h1 := (holds_readImageFt hz h).1
  have h2 := (holds_readOriginalFt hz h).1
  unfold Registration.readOriginal Registration.readImage
  rw [h1, h2]
  refine ⟨?_, ?_⟩
  · show Except.ok (ift (ft f)) = _
    rw [C23_ift_ft]
  · show Except.ok (ift fun k => rollFt (ft f) (-r.shift) k / z) = _
    congr 1
    have := C23_ift_linear z⁻¹ 0 (rollFt (ft f) (-r.shift)) (rollFt (ft f) (-r.shift))
    simp only [zero_mul, add_zero] at this
    simp only [div_eq_inv_mul]
    rw [this]
    rfl

/-- **C61 (partial).** For all histories of reading images and assigning shifts: the original stays, and the image is the original shifted back by the last shift and divided by the factor.
Missing: factors of at most 10⁻⁸, see `C61_violates`. -/
theorem C61_partial (shift : Fin d → ℝ) (z : ℂ) (hz : 1e-8 < ‖z‖) (error : ℝ) (f : Idx N → ℂ) (ops : List (Op N)) :
    let r := ops.foldl Op.run (ofOriginal shift z error f)
    r.readOriginal.1 = .ok f ∧ r.readImage.1 = .ok (fun x => roll f (-lastShift shift ops) x / z) := by
  have h := holds_history hz ops (holds_ofOriginal shift z error f)
  have h2 := images_of_holds hz h.1
  rw [h.2] at h2
  exact h2

/-- **C61 (registered, partial).** The same for a registration that is constructed from the registered image `g`; the original is that image, shifted by the first shift and multiplied by the
factor. -/
theorem C61_registered_partial (shift : Fin d → ℝ) (z : ℂ) (hz : 1e-8 < ‖z‖) (error : ℝ) (g : Idx N → ℂ) (ops : List (Op N)) :
    let r := ops.foldl Op.run (ofRegistered shift z error g)
    r.readOriginal.1 = .ok (fun x => z * roll g shift x) ∧ r.readImage.1 = .ok (fun x => roll (fun x => z * roll g shift x) (-lastShift shift ops) x / z) := by
  have hz0 : z ≠ 0 := fun h0 => by rw [h0, norm_zero] at hz; norm_num at hz
  have h := holds_history hz ops (holds_ofRegistered shift z hz0 error g)
  have h2 := images_of_holds hz h.1
  rw [h.2] at h2
  exact h2

theorem roll_scale (z : ℂ) (f : Idx N → ℂ) (s : Fin d → ℝ) : roll (fun x => z * f x) s = fun x => z * roll f s x := by
  have := C59_linear z 0 f f s
  simpa using this

/-- **C61 (consistent, partial).** After all histories the original is the image that is read, shifted and scaled; before a shift is assigned the image is the one that was given. -/
theorem C61_consistent_partial (shift : Fin d → ℝ) (z : ℂ) (hz : 1e-8 < ‖z‖) (error : ℝ) (f : Idx N → ℂ) (ops : List (Op N)) :
    ∃ g, (ops.foldl Op.run (ofOriginal shift z error f)).readImage.1 = .ok g ∧
      (ops.foldl Op.run (ofOriginal shift z error f)).readOriginal.1 = .ok (fun x => z * roll g (ops.foldl Op.run (ofOriginal shift z error f)).shift x) := by
  have hz0 : z ≠ 0 := fun h0 => by rw [h0, norm_zero] at hz; norm_num at hz
  obtain ⟨h1, h2⟩ := C61_partial shift z hz error f ops
  refine ⟨_, h2, h1.trans (congrArg _ ?_)⟩
  rw [(holds_history hz ops (holds_ofOriginal shift z error f)).2]
  have e : (fun x => roll f (-lastShift shift ops) x / z) = fun x => z⁻¹ * roll f (-lastShift shift ops) x := funext fun x => div_eq_inv_mul _ _
  show f = fun x => z * roll (fun x => roll f (-lastShift shift ops) x / z) (lastShift shift ops) x
  rw [e, roll_scale]
  have := C59_inverse f (-lastShift shift ops)
  rw [neg_neg] at this
  funext x
  rw [this, mul_inv_cancel_left₀ hz0]

/-- The hypothesis can be met: after reading, and assigning a shift twice. -/
example (f : Idx (![4] : Fin 1 → ℕ) → ℂ) (s t : Fin 1 → ℝ) :
    (([.readImage, .setShift t, .readOriginalFt, .setShift s] : List (Op _)).foldl Op.run (ofOriginal (fun _ => 1) 2 0 f)).readImage.1 = .ok (fun x => roll f (-s) x / 2) :=
  (C61_partial _ _ (by norm_num) _ _ _).2

/-- **C61** is violated for small factors: when the shift that it has is assigned to a registration with a factor of 10⁻⁹, its image becomes zero. -/
theorem C61_violates (shift : Fin d → ℝ) (error : ℝ) (g : Idx N → ℂ) :
    (ofRegistered shift 1e-9 error g).readImage.1 = .ok g ∧ ((ofRegistered shift 1e-9 error g).setShift shift).2.readImage.1 = .ok (fun _ => 0) := by
  constructor
  · show Except.ok (ift (ft g)) = _
    rw [C23_ift_ft]
  · show Except.ok (ift (registered (fun k => rollFt (ft g) shift k * 1e-9) shift (.finite 1e-9))) = _
    rw [show registered (fun k => rollFt (ft g) shift k * 1e-9) shift (.finite 1e-9) = fun _ => 0 from if_pos (by norm_num)]
    congr 1
    funext x
    unfold ift
    simp

/-- **C61 (no image)** A registration without images, which its documentation permits, has no image to read: the properties recurse without end. -/
theorem C61_none_violates (shift : Fin d → ℝ) (factor : Factor) (error : ℝ) : let r : Registration N := .init shift factor error none none none none
    r.readImageFt.1 = .error .recursion ∧ r.readImage.1 = .error .recursion ∧ r.readOriginalFt.1 = .error .recursion ∧ r.readOriginal.1 = .error .recursion := ⟨rfl, rfl, rfl, rfl⟩

end Verif.Subpixel
