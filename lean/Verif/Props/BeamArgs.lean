import Verif.Lemmas.BeamArgs
import Verif.Props.BeamPermittivity
import Verif.Props.BeamPair
import Verif.Model.Construct

/-!
# C103–C105: The arguments of `BeamSection` and `Beam` (python/macromax/utils/beam.py)
-/

namespace Verif.Beam

open Verif Verif.Fourier Verif.Backend Verif.Spec.Modes Complex

variable {o : Optics} {P : Projection}

/-! ### C103 -/

/-- What the accessors of a section must return for the arguments that it is given. -/
structure Light.Described (l : Light) (ch : Chosen) : Prop where
  /-- A given wavelength is used, even if a wavenumber is given as well. -/
  vacuumWavelength : ∀ w, l.wavelength = some w → ch.vacuumWavelength = w
  vacuumWavenumber : l.wavelength = none → ch.k0 = l.wavenumber
  /-- A given index is used, even if a permittivity is given as well. -/
  index : ∀ n, l.index = some n → ch.index = n
  permittivity : l.index = none → ch.permittivity = l.permittivity ∧ 0 ≤ ch.index.re
  /-- A wavelength is a period. -/
  vacuum : ch.k0 ≠ 0 → ch.k0 * ch.vacuumWavelength = 2 * Real.pi
  material : ch.k0 ≠ 0 → ch.index ≠ 0 → ch.wavenumber * ch.wavelength = 2 * Real.pi
  /-- The material shortens the wavelength by its index. -/
  ratio : ch.index ≠ 0 → ch.vacuumWavelength = ch.wavelength * ch.index ∧ ch.wavenumber = ch.k0 * ch.index
  square : ch.permittivity = ch.index ^ 2

/-- **C103.** Sections are constructed for all arguments but a wavelength 0, and what their accessors return is consistent with the arguments and with each other. -/
theorem C103_light (l : Light) : (l.wavelength = some 0 ∧ l.choose = .error .zeroDivision) ∨ (l.wavelength ≠ some 0 ∧ ∃ ch, l.choose = .ok ch ∧ l.Described ch) := by
  obtain ⟨k, w, e, n⟩ := l
  have hpi : (Real.pi : ℂ) ≠ 0 := by exact_mod_cast Real.pi_ne_zero
  have main : ∀ k0 : ℂ, (∀ v, w = some v → v ≠ 0 ∧ k0 = 2 * Real.pi / v) → (w = none → k0 = k) → Light.Described ⟨k, w, e, n⟩ ⟨k0, n.getD (e ^ (1 / 2 : ℂ))⟩ := by
    intro k0 hw hk
    refine ⟨fun v hv => ?_, hk, fun m hm => ?_, fun hn => ?_, fun h0 => ?_, fun h0 h1 => ?_, fun h1 => ⟨?_, rfl⟩, rfl⟩
    · obtain ⟨h0, rfl⟩ := hw v hv
      show 2 * (Real.pi : ℂ) / (2 * Real.pi / v) = v
      field_simp
    · obtain rfl : n = some m := hm
      rfl
    · obtain rfl : n = none := hn
      exact ⟨sqrt_sq e, sqrt_re e⟩
    · have h0 : k0 ≠ 0 := h0
      show k0 * (2 * Real.pi / k0) = _
      field_simp
    · have h0 : k0 ≠ 0 := h0
      have h1 : n.getD (e ^ (1 / 2 : ℂ)) ≠ 0 := h1
      show k0 * n.getD (e ^ (1 / 2 : ℂ)) * (2 * Real.pi / k0 / n.getD (e ^ (1 / 2 : ℂ))) = _
      field_simp
    · exact (div_mul_cancel₀ _ h1).symm
  cases w with
  | none => exact .inr ⟨by simp, _, rfl, main k (fun v hv => (nomatch hv)) fun _ => rfl⟩
  | some v =>
    by_cases hv : v = 0
    · refine .inl ⟨by rw [hv], ?_⟩
      unfold Light.choose
      dsimp only
      rw [if_pos hv]
      rfl
    · refine .inr ⟨by simpa using hv, ⟨2 * Real.pi / v, n.getD (e ^ (1 / 2 : ℂ))⟩, ?_, main _ ?_ (fun h => (nomatch h))⟩
      · unfold Light.choose
        dsimp only
        rw [if_neg hv]
        rfl
      · intro v' hv'
        obtain rfl := Option.some.inj hv'
        exact ⟨hv, rfl⟩

/-- **C103 (alternatives).** A wavelength or the corresponding wavenumber, and an index or the corresponding permittivity, give the same section. -/
theorem C103_alternatives (k e : ℂ) {w n : ℂ} (hw : w ≠ 0) (hn : 0 < n.re ∨ (n.re = 0 ∧ 0 ≤ n.im)) :
    Light.choose ⟨k, some w, e, some n⟩ = Light.choose ⟨2 * Real.pi / w, none, n ^ 2, none⟩ := by
  unfold Light.choose
  dsimp only
  rw [if_neg hw]
  show Except.ok _ = Except.ok _
  congr 2
  show n = (n ^ 2) ^ (1 / 2 : ℂ)
  have h : (1 / 2 : ℂ) = ((2 : ℕ) : ℂ)⁻¹ := by norm_num
  have harg : -(Real.pi / 2) < n.arg ∧ n.arg ≤ Real.pi / 2 := by
    rcases hn with h0 | ⟨h0, h1⟩
    · have := abs_lt.1 (abs_arg_lt_pi_div_two_iff.2 (.inl h0))
      exact ⟨this.1, this.2.le⟩
    · rcases h1.lt_or_eq with h2 | h2
      · rw [arg_eq_pi_div_two_iff.2 ⟨h0, h2⟩]
        exact ⟨by linarith [Real.pi_pos], le_rfl⟩
      · rw [Complex.ext (show n.re = (0 : ℂ).re from h0) (show n.im = (0 : ℂ).im from h2.symm), arg_zero]
        exact ⟨by linarith [Real.pi_pos], by linarith [Real.pi_pos]⟩
  rw [h]
  exact (pow_cpow_nat_inv (n := 2) two_ne_zero (by exact_mod_cast harg.1) (by exact_mod_cast harg.2)).symm

/-- **C103 (axis).** The propagation axis is a negative index of the given axis. -/
theorem C103_axis (axis : ℤ) : -3 ≤ sectionAxis (some axis) ∧ sectionAxis (some axis) < 0 ∧ (3 : ℤ) ∣ axis - sectionAxis (some axis) := by
  unfold sectionAxis
  simp only [Option.getD_some]
  omega

/-- **C103 (axis of a beam).** The propagation axis of a beam is a negative index of the given axis of its grid, by default of the first, and does not change when the grid gets more axes on the left. -/
theorem C103_beam_axis {n : ℕ} (h0 : 0 < n) (h3 : n ≤ 3) (axis : Option ℤ) :
    -(n : ℤ) ≤ beamAxis n axis ∧ beamAxis n axis < 0 ∧ (n : ℤ) ∣ axis.getD 0 - beamAxis n axis ∧ sectionAxis (some (beamAxis n axis)) = beamAxis n axis := by
  have key : -(n : ℤ) ≤ beamAxis n axis ∧ beamAxis n axis < 0 ∧ (n : ℤ) ∣ axis.getD 0 - beamAxis n axis := by
    unfold beamAxis
    cases axis with
    | none => simp [h0]
    | some a =>
      have h1 := Int.emod_nonneg a (show (n : ℤ) ≠ 0 by omega)
      have h2 := Int.emod_lt_of_pos a (show (0 : ℤ) < n by omega)
      refine ⟨?_, ?_, ?_⟩
      · simp only [Option.map_some, Option.getD_some]; omega
      · simp only [Option.map_some, Option.getD_some]; omega
      · simp only [Option.map_some, Option.getD_some]
        have := Int.dvd_self_sub_emod (x := a) (m := (n : ℤ))
        have e : a - (a % n - n) = (a - a % n) + n := by ring
        rw [e]
        exact dvd_add this (dvd_refl _)
  refine ⟨key.1, key.2.1, key.2.2, ?_⟩
  unfold sectionAxis
  simp only [Option.getD_some]
  omega

/-- **C103 (period).** The field of light that propagates along the axis is the same after the wavelength that the accessor returns. -/
theorem C103_period (ho : o.Proper) (h : ∀ a, 0 < o.grid.shape a) {l : Light} {ch : Chosen} (hl : l.choose = .ok ch) (hk : ch.k0 = o.k0) (hi : ch.index = o.index) (s : Section o P)
    (hs : ∀ c q, s.fieldFt c q ≠ 0 → o.kappa q = 0) : current (propagate h s ch.wavelength.re none) = current s := by
  have hk1 : o.k0 ≠ 0 := fun h0 => by have := ho.k; unfold Optics.k at this; rw [h0, zero_mul] at this; exact lt_irrefl _ this
  have hi1 : o.index ≠ 0 := fun h0 => by have := ho.k; unfold Optics.k at this; rw [h0, mul_zero] at this; exact lt_irrefl _ this
  have hre : ch.wavelength.re = 2 * Real.pi / o.k := by
    have e : ch.wavelength = ((2 * Real.pi / o.k : ℝ) : ℂ) := by
      show 2 * (Real.pi : ℂ) / ch.k0 / ch.index = _
      rw [hk, hi]
      unfold Optics.k
      push_cast
      rw [div_div]
    rw [e, ofReal_re]
  rw [current_propagate_none, hre]
  funext c q
  show current s c q * _ = _
  by_cases hq : s.fieldFt c q = 0
  · have : current s c q = 0 := by
      show s.fieldFt c q * _ = 0
      rw [hq, zero_mul]
    rw [this, zero_mul]
  · have h1 := k_kDir ho q
    rw [hs c q hq] at h1
    have h2 : axial o.k (0 : Fin 3 → ℝ) = o.k := by
      unfold axial
      simp [Real.sqrt_sq ho.k.le]
    rw [h2] at h1
    have h3 : 2 * Real.pi / o.k * o.k * o.kDir q o.axis = 2 * Real.pi := by
      rw [mul_assoc, h1, div_mul_cancel₀ _ ho.k.ne']
    rw [h3]
    have h4 : exp (I * ((2 * Real.pi : ℝ) : ℂ)) = 1 := by
      push_cast
      rw [mul_comm, exp_two_pi_mul_I]
    rw [h4, mul_one]

/-- The hypotheses of `C103_light` and `C103_alternatives` can be met. -/
example : ∃ ch, Light.choose ⟨1, some 2, 1, some 3⟩ = .ok ch ∧ ch.vacuumWavelength = 2 ∧ ch.permittivity = 9 ∧
    Light.choose ⟨1, some 2, 1, some 3⟩ = Light.choose ⟨2 * Real.pi / 2, none, 3 ^ 2, none⟩ := by
  rcases C103_light ⟨1, some 2, 1, some 3⟩ with ⟨h, _⟩ | ⟨_, ch, h, d⟩
  · exact absurd (Option.some.inj h) (by norm_num)
  · refine ⟨ch, h, d.vacuumWavelength 2 rfl, ?_, C103_alternatives 1 1 (by norm_num) (.inl (by norm_num))⟩
    rw [d.square, d.index 3 rfl]
    norm_num

/-! ### C104 -/

/-- The number of components of a field that is given as an array: that of the fourth axis from the right. -/
def componentsOf (a : Assign.Arr ℂ) : ℕ := if a.shape.length < 4 then 1 else a.shape.headD 1

theorem polarization_shape {a : Assign.Arr ℂ} (h4 : a.shape.length ≤ 4) : ∃ t, (withPolarization a).shape = componentsOf a :: t ∧ t.length = 3 := by
  unfold withPolarization componentsOf
  dsimp only
  split_ifs with h
  · refine ⟨List.replicate (3 - a.shape.length) 1 ++ a.shape, ?_, ?_⟩
    · rw [show 4 - a.shape.length = (3 - a.shape.length) + 1 by omega, List.replicate_succ]; rfl
    · rw [List.length_append, List.length_replicate]; omega
  · rw [show 4 - a.shape.length = 0 by omega]
    cases ha : a.shape with
    | nil => rw [ha] at h; exact absurd (by simp) h
    | cons c t =>
      refine ⟨t, rfl, ?_⟩
      rw [ha] at h h4
      simp only [List.length_cons] at h h4
      omega

theorem fits_withPolarization {a : Assign.Arr ℂ} (h4 : a.shape.length ≤ 4) {t : List ℕ} (ht : t.length = 3) :
    Fits (withPolarization a).shape (componentsOf a :: t) ↔ Fits a.shape (componentsOf a :: t) := by
  unfold withPolarization componentsOf
  dsimp only
  split_ifs with h
  · constructor
    · rintro ⟨l, r, e, h2⟩
      have hl : l = [] := by
        have h5 := h2.length_eq
        have h6 := congrArg List.length e
        simp only [List.length_cons, List.length_append, List.length_replicate] at h5 h6
        exact List.eq_nil_of_length_eq_zero (by omega)
      subst hl
      obtain rfl : 1 :: t = r := e
      refine ⟨(1 :: t).take (4 - a.shape.length), (1 :: t).drop (4 - a.shape.length), (List.take_append_drop _ _).symm, ?_⟩
      have := List.forall₂_drop (4 - a.shape.length) h2
      rwa [List.drop_left' (by simp)] at this
    · rintro ⟨l, r, e, h2⟩
      refine ⟨[], 1 :: t, rfl, ?_⟩
      rw [e]
      have hl : l.length = 4 - a.shape.length := by
        have h5 := h2.length_eq
        have h6 := congrArg List.length e
        simp only [List.length_cons, List.length_append] at h6
        omega
      refine List.rel_append ?_ h2
      rw [← hl]
      clear e hl
      induction l with
      | nil => exact .nil
      | cons x l ih => exact .cons (.inl rfl) ih
  · rw [show 4 - a.shape.length = 0 by omega]
    exact Iff.rfl

theorem value_withPolarization {a : Assign.Arr ℂ} {i : List ℕ} (hi : i.length = 4) (h4 : a.shape.length ≤ 4) :
    (withPolarization a).val (indexIn (withPolarization a).shape i) = a.val (indexIn a.shape i) := by
  unfold withPolarization indexIn
  dsimp only
  congr 1
  rw [List.length_append, List.length_replicate, show i.length - (4 - a.shape.length + a.shape.length) = 0 by omega, List.drop_zero]
  conv_lhs => rw [← List.take_append_drop (4 - a.shape.length) i, List.zipWith_append (by rw [List.length_replicate, List.length_take]; omega)]
  rw [hi, List.drop_append_of_le_length (by rw [List.length_zipWith, List.length_replicate, List.length_take]; omega)]
  rw [List.drop_of_length_le (by rw [List.length_zipWith, List.length_replicate, List.length_take]; omega), List.nil_append]

/-- The array for a section that what is assigned to `field` or `field_ft` stands for: it is repeated along the axes on which it does not depend. -/
def repeated (o : Optics) (P : Projection) (a : Assign.Arr ℂ) : Arr o P := fun c x => a.val (indexIn a.shape ((c : ℕ) :: List.ofFn fun b => (x b : ℕ)))

theorem sectionArray_eq {a : Assign.Arr ℂ} (h4 : a.shape.length ≤ 4) : sectionArray o a =
    (do let v ← broadcastTo (withPolarization a) (componentsOf a :: List.ofFn o.grid.shape)
        let P ← projectionOf (componentsOf a)
        pure ⟨P, fun c x => v ((c : ℕ) :: List.ofFn fun b => (x b : ℕ))⟩) := by
  obtain ⟨t, ht, h3⟩ := polarization_shape h4
  unfold sectionArray
  dsimp only
  rw [ht]
  simp [h3]

theorem sectionArray_ok {a : Assign.Arr ℂ} (h4 : a.shape.length ≤ 4) (hf : Fits a.shape (componentsOf a :: List.ofFn o.grid.shape)) {P : Projection} (hP : projectionOf (componentsOf a) = .ok P) :
    sectionArray o a = .ok ⟨P, repeated o P a⟩ := by
  rw [sectionArray_eq h4]
  obtain ⟨v, hv, hx⟩ := broadcastTo_ok (a := withPolarization a) ((fits_withPolarization h4 (by simp)).2 hf)
  rw [hv, hP]
  show Except.ok _ = _
  congr 2
  funext c x
  rw [hx _ (by simp), value_withPolarization (by simp) h4]
  rfl

theorem sectionArray_misfit {a : Assign.Arr ℂ} (h4 : a.shape.length ≤ 4) (hf : ¬ Fits a.shape (componentsOf a :: List.ofFn o.grid.shape)) : sectionArray o a = .error .valueError := by
  rw [sectionArray_eq h4, broadcastTo_error (mt (fits_withPolarization h4 (by simp)).1 hf)]
  rfl

theorem projectionOf_error {c : ℕ} (h0 : c ≠ 0) (h1 : c ≠ 1) (h3 : c ≠ 3) : projectionOf c = .error .valueError := by
  unfold projectionOf
  split <;> first | rfl | contradiction

/-- **C104 (arrays).** A field, or its Fourier transform, can be given as an array with up to four axes.  It is scalar without an axis for the polarization or when that has one component, and vectorial
when it has three components.  It is repeated along the axes on which it does not depend.  Any other shape raises a `ValueError`. -/
theorem C104_arrays (a : Assign.Arr ℂ) (h4 : a.shape.length ≤ 4) (hc : componentsOf a ≠ 0) :
    (Fits a.shape (componentsOf a :: List.ofFn o.grid.shape) ∧ componentsOf a = 1 ∧ setField o (.array a) = .ok ⟨scalar, write (repeated o scalar a)⟩ ∧ setFieldFt o (.array a) = .ok ⟨scalar, writeFt (repeated o scalar a)⟩) ∨
    (Fits a.shape (componentsOf a :: List.ofFn o.grid.shape) ∧ componentsOf a = 3 ∧ setField o (.array a) = .ok ⟨vectorial, write (repeated o vectorial a)⟩ ∧ setFieldFt o (.array a) = .ok ⟨vectorial, writeFt (repeated o vectorial a)⟩) ∨
    (¬ (Fits a.shape (componentsOf a :: List.ofFn o.grid.shape) ∧ (componentsOf a = 1 ∨ componentsOf a = 3)) ∧ setField o (.array a) = .error .valueError ∧ setFieldFt o (.array a) = .error .valueError) := by
  have e1 : setField o (.array a) = (sectionArray o a).bind fun v => .ok ⟨v.1, write v.2⟩ := rfl
  have e2 : setFieldFt o (.array a) = (sectionArray o a).bind fun v => .ok ⟨v.1, writeFt v.2⟩ := rfl
  rw [e1, e2]
  by_cases hf : Fits a.shape (componentsOf a :: List.ofFn o.grid.shape)
  · by_cases h1 : componentsOf a = 1
    · rw [sectionArray_ok h4 hf (P := scalar) (by rw [h1]; rfl)]
      exact .inl ⟨hf, h1, rfl, rfl⟩
    · by_cases h3 : componentsOf a = 3
      · rw [sectionArray_ok h4 hf (P := vectorial) (by rw [h3]; rfl)]
        exact .inr (.inl ⟨hf, h3, rfl, rfl⟩)
      · have e : sectionArray o a = .error .valueError := by
          rw [sectionArray_eq h4, projectionOf_error hc h1 h3]
          obtain ⟨v, hv, _⟩ := broadcastTo_ok (a := withPolarization a) ((fits_withPolarization h4 (by simp)).2 hf)
          rw [hv]
          rfl
        rw [e]
        exact .inr (.inr ⟨fun h => h.2.elim h1 h3, rfl, rfl⟩)
  · rw [sectionArray_misfit h4 hf]
    exact .inr (.inr ⟨fun h => hf h.1, rfl, rfl⟩)

/-- The same function of all three coordinates. -/
def Fn.ofThree (f : Fn) : Fn := ⟨3, fun args => f.call (args.drop (3 - f.params))⟩

/-- **C104 (functions).** A field can be given as a function of the last one, two, or three coordinates, and its Fourier transform as one of the last wavenumbers: it is used as the function of all
three that does not depend on the first.  Other functions raise a `TypeError`. -/
theorem C104_functions (h : ∀ a, 0 < o.grid.shape a) (f : Fn) :
    (1 ≤ f.params → f.params ≤ 3 → setField o (.function f) = setField o (.function f.ofThree) ∧ setFieldFt o (.function f) = setFieldFt o (.function f.ofThree)) ∧
    (¬ (1 ≤ f.params ∧ f.params ≤ 3) → setField o (.function f) = .error .typeError ∧ (o.Stepped → setFieldFt o (.function f) = .error .typeError)) := by
  have hl : ∀ g : Grid.Obj 3 ℝ, (coordinates g).length = 3 := fun g => by simp [coordinates]
  have key : ∀ g : Grid.Obj 3 ℝ, 1 ≤ f.params → f.params ≤ 3 → f.apply (lastOf f.params (coordinates g)) = f.ofThree.apply (lastOf f.ofThree.params (coordinates g)) := by
    intro g h1 h3
    unfold Fn.apply lastOf Fn.ofThree
    dsimp only
    rw [if_neg (show f.params ≠ 0 by omega), if_pos (by rw [List.length_drop, hl]; omega), if_neg (show 3 ≠ 0 by omega), hl, Nat.sub_self, List.drop_zero, if_pos (hl g)]
  have key2 : ∀ g : Grid.Obj 3 ℝ, ¬ (1 ≤ f.params ∧ f.params ≤ 3) → f.apply (lastOf f.params (coordinates g)) = .error .typeError := by
    intro g hn
    unfold Fn.apply lastOf
    refine if_neg ?_
    split_ifs with h0
    · rw [hl]; omega
    · rw [List.length_drop, hl]; omega
  constructor
  · intro h1 h3
    constructor
    · unfold setField
      dsimp only
      rw [key _ h1 h3]
    · unfold setFieldFt
      dsimp only
      cases Grid.kGrid (2 * Real.pi) o.grid with
      | error e => rfl
      | ok g =>
        have := key g h1 h3
        show (f.apply (lastOf f.params (coordinates g))).bind _ = (f.ofThree.apply (lastOf f.ofThree.params (coordinates g))).bind _
        rw [this]
  · intro hn
    constructor
    · unfold setField
      dsimp only
      rw [key2 _ hn]
      rfl
    · intro hs
      unfold setFieldFt
      dsimp only
      obtain ⟨g, hg, -⟩ := Grid.C05_k (2 * Real.pi) o.grid h hs
      rw [hg]
      show (f.apply (lastOf f.params (coordinates g))).bind _ = _
      rw [key2 _ hn]
      rfl

/-- A function of two coordinates with an elementwise operation of NumPy. -/
def Fn.ofTwo (F : ℂ → ℂ → ℂ) : Fn := ⟨2, fun
  | [y, x] => Construct.bop F y x
  | _ => .error .typeError⟩

/-- **C104 (pointwise).** The field that is given as a function of `y` and `x` is its value at the coordinates of the points. -/
theorem C104_pointwise (F : ℂ → ℂ → ℂ) :
    setField o (.function (Fn.ofTwo F)) = .ok ⟨scalar, write fun _ x => F (((o.grid.coords 1).getD (x 1) 0 : ℝ) : ℂ) (((o.grid.coords 2).getD (x 2) 0 : ℝ) : ℂ)⟩ := by
  have hN : ∀ m : ℕ, (if m = 1 then 1 else m) = m := fun m => by split_ifs with hm <;> omega
  have h1 : (coordinate o.grid 1).shape = [1, o.grid.shape 1, 1] := rfl
  have h2 : (coordinate o.grid 2).shape = [1, 1, o.grid.shape 2] := rfl
  have hb : ∃ a, Construct.bop F (coordinate o.grid 1) (coordinate o.grid 2) = .ok a ∧ a.shape = [1, o.grid.shape 1, o.grid.shape 2] ∧
      ∀ i j k, a.val [i, j, k] = F (((o.grid.coords 1).getD (if o.grid.shape 1 = 1 then 0 else j) 0 : ℝ) : ℂ) (((o.grid.coords 2).getD (if o.grid.shape 2 = 1 then 0 else k) 0 : ℝ) : ℂ) := by
    refine ⟨⟨[1, o.grid.shape 1, o.grid.shape 2], fun i => F (Construct.bval (coordinate o.grid 1) i) (Construct.bval (coordinate o.grid 2) i)⟩, ?_, rfl, fun i j k => ?_⟩
    · have e : Construct.bshapeRev (coordinate o.grid 1).shape.reverse (coordinate o.grid 2).shape.reverse = some [o.grid.shape 2, o.grid.shape 1, 1] := by
        rw [h1, h2]
        simp [Construct.bshapeRev, hN]
      unfold Construct.bop
      rw [e]
      rfl
    · show F (Construct.bval (coordinate o.grid 1) [i, j, k]) (Construct.bval (coordinate o.grid 2) [i, j, k]) = _
      unfold Construct.bval
      rw [h1, h2]
      rfl
  obtain ⟨a, ha, hs, hv⟩ := hb
  have hc : componentsOf a = 1 := by
    unfold componentsOf
    rw [hs]
    rfl
  have e : setField o (.function (Fn.ofTwo F)) = (sectionArray o a).bind fun v => .ok ⟨v.1, write v.2⟩ := by
    unfold setField
    dsimp only
    have : (Fn.ofTwo F).apply (lastOf (Fn.ofTwo F).params (coordinates o.grid)) = .ok a := ha
    rw [this]
    rfl
  have hof : List.ofFn o.grid.shape = [o.grid.shape 0, o.grid.shape 1, o.grid.shape 2] := rfl
  rw [e, sectionArray_ok (P := scalar) (by rw [hs]; simp) (by
    rw [hs, hc, hof]
    exact ⟨[1], _, rfl, .cons (.inl rfl) (.cons (.inr rfl) (.cons (.inr rfl) .nil))⟩) (by rw [hc]; rfl)]
  show Except.ok _ = _
  congr 3
  funext c x
  unfold repeated
  rw [hs]
  show a.val [_, _, _] = _
  rw [hv]
  have hx : ∀ b, (if o.grid.shape b = 1 then 0 else (x b : ℕ)) = (x b : ℕ) := fun b => by
    split_ifs with h1
    · have := (x b).isLt
      omega
    · rfl
  have hx' : ∀ b, (if o.grid.shape b = 1 then 0 else (if o.grid.shape b = 1 then 0 else (x b : ℕ))) = (x b : ℕ) := fun b => by rw [hx, hx]
  exact congrArg₂ F (by rw [← hx' 1]; rfl) (by rw [← hx' 2]; rfl)

/-- **C104 (zero)** is violated: a section that is constructed without a field, scalar or vectorial, is a field of zeros, which cannot be propagated unless a complex data type is given. -/
theorem C104_zero_violates (v : Bool) : ∃ s, newSection o none none (some v) false = .ok s ∧ (∀ c q, s.state.fieldFt c q = 0) ∧ ∀ d : ℝ, 1e-8 < |d| → s.readFt d = .error .typeError := by
  have key : ∀ P : Projection, ∀ d : ℝ, 1e-8 < |d| → New.readFt (o := o) ⟨P, ⟨fun _ _ => 0, 0⟩, false⟩ d = .error .typeError := by
    intro P d hd
    unfold New.readFt
    dsimp only
    rw [zero_add, if_neg (not_le.2 hd)]
    rfl
  cases v with
  | true => exact ⟨_, rfl, fun _ _ => rfl, key vectorial⟩
  | false => exact ⟨_, rfl, fun _ _ => rfl, key scalar⟩

/-- **C104 (start).** A new section has the Fourier transform that is given, else the field that is given, else zeros; if nothing is given, then a `TypeError` is raised. -/
theorem C104_start (field fieldFt : Option Arg) (v : Option Bool) (t : Bool) :
    (∀ f, fieldFt = some f → newSection o field fieldFt v t = (setFieldFt o f).bind fun s => .ok ⟨s.1, s.2, true⟩) ∧
    (∀ f, fieldFt = none → field = some f → newSection o field fieldFt v t = (setField o f).bind fun s => .ok ⟨s.1, s.2, true⟩) ∧
    (fieldFt = none → field = none → v = some false → newSection o field fieldFt v t = .ok ⟨scalar, ⟨fun _ _ => 0, 0⟩, t⟩) ∧
    (fieldFt = none → field = none → v = some true → newSection o field fieldFt v t = .ok ⟨vectorial, ⟨fun _ _ => 0, 0⟩, t⟩) ∧
    (fieldFt = none → field = none → v = none → newSection o field fieldFt v t = .error .typeError) := by
  refine ⟨?_, ?_, ?_, ?_, ?_⟩
  · rintro f rfl; rfl
  · rintro f rfl rfl; rfl
  · rintro rfl rfl rfl; rfl
  · rintro rfl rfl rfl; rfl
  · rintro rfl rfl rfl; rfl

/-- **C104 (reading).** A new section with a field or a complex data type is propagated, and read, as the sections of the beam. -/
theorem C104_read (h : ∀ a, 0 < o.grid.shape a) (s : New o) (hs : s.isComplex = true) (d : ℝ) : s.readFt d = .ok (readFt (propagate h s.state d none)).1 := by
  have hp : propagate h s.state d none = { s.state with distance := s.state.distance + d } := by
    unfold propagate
    rcases lt_trichotomy d 0 with hd | hd | hd
    · simp [hd, hd.le]
    · simp [hd]
    · simp [hd, not_lt.2 hd.le]
  rw [hp]
  unfold New.readFt readFt
  rw [hs]
  split_ifs <;> first | rfl | contradiction

/-! ### C105 -/

/-- An array gives the material of a section: it fits the grid, and does not depend on the polarization. -/
def Fills (o : Optics) (a : Assign.Arr ℂ) : Prop := Fits a.shape (1 :: List.ofFn o.grid.shape)

theorem propagateArgs_index (h : ∀ a, 0 < o.grid.shape a) (s : Section o P) (d : ℝ) {eps n : Option Arg} {a : Assign.Arr ℂ} (hi : indexOf o.grid eps n = .ok (some a)) (ha : Fills o a) :
    propagateArgs s d eps n = .ok (propagate h s d (some (atPoint (o := o) a))) := by
  unfold propagateArgs
  rw [hi]
  show (interactArray _ d a).bind _ = _
  rw [interactArray_eq h _ d ha]
  rfl

theorem atPoint_sqrt (a : Assign.Arr ℂ) : atPoint (o := o) (sqrtOf a) = fun x => atPoint (o := o) a x ^ (1 / 2 : ℂ) := rfl

/-- **C105 (slice).** The material of a section can be given as an array with its refractive index, or with its permittivity, that is repeated along the axes on which it does not depend.
The refractive index is used if both are given. -/
theorem C105_slice (h : ∀ a, 0 < o.grid.shape a) (s : Section o P) (d : ℝ) {a : Assign.Arr ℂ} (ha : Fills o a) :
    (∀ eps, propagateArgs s d eps (some (.array a)) = .ok (propagate h s d (some (atPoint (o := o) a)))) ∧
    propagateArgs s d (some (.array a)) none = .ok (propagatePermittivity h s d (atPoint (o := o) a)) ∧
    propagateArgs s d none none = .ok (propagate h s d none) := by
  refine ⟨fun eps => propagateArgs_index h s d rfl ha, ?_, rfl⟩
  rw [propagateArgs_index h s d (a := sqrtOf a) rfl ha, atPoint_sqrt]
  rfl

/-- **C105 (constants).** A material that is an array without axes, which cannot be iterated over, raises a `TypeError`. -/
theorem C105_constant (N : ℕ) (step : ℝ) (s : Section o P) (a : Assign.Arr ℂ) (ha : a.shape = []) (n : Option (Assign.Arr ℂ)) :
    beamFieldArrays N step s (some a) n = .error .typeError ∧ beamFieldArrays N step s none (some a) = .error .typeError := by
  have hi : iterate a = .error .typeError := by unfold iterate; rw [ha]
  have h1 : (some a).mapM iterate = .error .typeError := by show (iterate a).map some = _; rw [hi]; rfl
  constructor
  · unfold beamFieldArrays
    rw [h1]
    rfl
  · unfold beamFieldArrays
    rw [h1]
    rfl

/-- **C105 (misfits).** An array that is not uniform, and cannot be broadcast to the shape of the field, raises a `ValueError`; an array without elements an `IndexError`. -/
theorem C105_misfit (s : Section o P) (d : ℝ) (a : Assign.Arr ℂ) (eps : Option Arg) :
    (a.shape.prod = 0 → propagateArgs s d eps (some (.array a)) = .error .indexError) ∧
    (a.shape.prod ≠ 0 → ¬ NearUniform (a.val (a.shape.map fun _ => 0)) (fun i : Within a.shape => a.val i.1) → ¬ Fits a.shape (P.c :: List.ofFn o.grid.shape) →
      propagateArgs s d eps (some (.array a)) = .error .valueError) := by
  have e : propagateArgs s d eps (some (.array a)) =
      (interactArray (if d < 0 then { s with distance := s.distance + d } else s) d a).bind fun s => .ok (if 0 < d then { s with distance := s.distance + d } else s) := rfl
  rw [e]
  unfold interactArray
  constructor
  · intro h0
    rw [if_pos h0]
    rfl
  · intro h0 hu hf
    rw [if_neg h0]
    dsimp only
    rw [if_neg hu, broadcastTo_error hf]
    rfl

/-- **C104 (materials, partial).** The material of a section can be given as a function of all three coordinates.  Missing: functions of `(y, x)`, as documented. -/
theorem C104_material_partial (h : ∀ a, 0 < o.grid.shape a) (s : Section o P) (d : ℝ) (f : Fn) (h3 : f.params = 3) {a : Assign.Arr ℂ} (hf : f.call (coordinates o.grid) = .ok a) (ha : Fills o a) :
    (∀ eps, propagateArgs s d eps (some (.function f)) = .ok (propagate h s d (some (atPoint (o := o) a)))) ∧
    propagateArgs s d (some (.function f)) none = .ok (propagatePermittivity h s d (atPoint (o := o) a)) := by
  have hc : f.apply (coordinates o.grid) = .ok a := by
    unfold Fn.apply
    rw [if_pos (by rw [h3]; simp [coordinates]), hf]
  constructor
  · intro eps
    refine propagateArgs_index h s d ?_ ha
    show (f.apply (coordinates o.grid)).bind _ = _
    rw [hc]
    rfl
  · rw [propagateArgs_index h s d (a := sqrtOf a) (by
      show (f.apply (coordinates o.grid)).bind _ = _
      rw [hc]
      rfl) ha, atPoint_sqrt]
    rfl

/-- **C104 (materials)** is violated: the documented functions of `(y, x)` raise a `TypeError`, for all sections. -/
theorem C104_material_violates (s : Section o P) (d : ℝ) (f : Fn) (h2 : f.params = 2) :
    propagateArgs s d (some (.function f)) none = .error .typeError ∧ ∀ eps, propagateArgs s d eps (some (.function f)) = .error .typeError := by
  have hc : f.apply (coordinates o.grid) = .error .typeError := by
    unfold Fn.apply
    rw [if_neg (by rw [h2]; simp [coordinates])]
  constructor
  · unfold propagateArgs indexOf
    dsimp only
    rw [hc]
    rfl
  · intro eps
    unfold propagateArgs indexOf
    cases eps with
    | none => dsimp only; rw [hc]; rfl
    | some e => cases e <;> (dsimp only; rw [hc]; rfl)

end Verif.Beam
