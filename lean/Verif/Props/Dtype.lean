import Verif.Spec.Dtype
import Verif.Props.BeamMaterial

/-!
# C118 and C119: the data types of arrays
-/

namespace Verif.Dtype

open Verif Verif.Spec.Dtype Complex

/-! ### C118: the solver, the back ends, and the matrices -/

/-- **C118 (partial).** `Solution.dtype` is `np.complex64` when the argument `dtype`, or else the array with the source, is of half or single precision, and `np.complex128` in all other cases, for
both back ends.  Missing: extended precision. -/
theorem C118_documented_partial (e : Engine) (dtype : Option NumType) (s : Source) (h : dtype ≠ some .clongdouble) (hd : dtype = none → s ≠ .distribution .clongdouble)
    (hc : dtype = none → s ≠ .current .clongdouble ∧ s ≠ .current .longdouble) :
    ((requested dtype s = some .float16 ∨ requested dtype s = some .float32 ∨ requested dtype s = some .complex64) ∧ solutionType e dtype s = .ok .complex64) ∨
      (¬ (requested dtype s = some .float16 ∨ requested dtype s = some .float32 ∨ requested dtype s = some .complex64) ∧ solutionType e dtype s = .ok .complex128) := by
  rcases dtype with _ | t
  · rcases s with _ | t | t
    · cases e <;> right <;> exact ⟨by simp [requested], rfl⟩
    · have h1 := (hc rfl).1
      have h2 := (hc rfl).2
      cases t <;> cases e <;> first | exact absurd rfl h1 | exact absurd rfl h2 | exact .inl ⟨by decide, rfl⟩ | exact .inr ⟨by decide, rfl⟩
    · have h1 := hd rfl
      cases t <;> cases e <;> first | exact absurd rfl h1 | exact .inl ⟨by decide, rfl⟩ | exact .inr ⟨by decide, rfl⟩
  · rcases s with _ | u | u <;> cases t <;> cases e <;> first | exact absurd rfl h | exact .inl ⟨by simp [requested], rfl⟩ | exact .inr ⟨by simp [requested], rfl⟩

/-- **C118 (extended)** is violated: a source, or argument, with complex numbers of extended precision is neither rejected nor converted by the back end with NumPy, so that `dtype` is another type
than documented, while that with PyTorch raises a `TypeError`.  Real current densities of extended precision have the same effect, real source distributions do not. -/
theorem C118_extended_violates (s : Source) (hs : s = .distribution .clongdouble ∨ s = .current .clongdouble ∨ s = .current .longdouble) :
    solutionType .numpy none s = .ok .clongdouble ∧ solutionType .torch none s = .error .typeError ∧
      (∀ u, solutionType .numpy (some .clongdouble) u = .ok .clongdouble ∧ solutionType .torch (some .clongdouble) u = .error .typeError) ∧
      ∀ e, solutionType e none (.distribution .longdouble) = .ok .complex128 := by
  refine ⟨?_, ?_, fun u => ⟨?_, ?_⟩, fun e => by cases e <;> rfl⟩
  · rcases hs with rfl | rfl | rfl <;> rfl
  · rcases hs with rfl | rfl | rfl <;> rfl
  · cases u <;> rfl
  · cases u <;> rfl

theorem hasDigits_mono {p q : ℕ} (h : p ≤ q) {x : ℝ} (hx : HasDigits p x) : HasDigits q x := by
  obtain ⟨m, e, hm, rfl⟩ := hx
  exact ⟨m, e, hm.trans_le (pow_le_pow_right₀ (by norm_num) h), rfl⟩

theorem hasDigits_zero (p : ℕ) : HasDigits p 0 := ⟨0, 0, by simp, by simp⟩

theorem hasDigits_one {p : ℕ} (h : 0 < p) : HasDigits p 1 := ⟨1, 0, by simpa using one_lt_pow₀ (by norm_num : (1 : ℤ) < 2) (by omega), by simp⟩

/-- **C118 (source, partial).** Without an argument `dtype`, the calculation is done with a type that has all values of the source: nothing is rounded.  Missing: integers and extended precision. -/
theorem C118_keeps_partial (t : NumType) (ht : t ≠ .int) (hl : t ≠ .longdouble) (z : ℂ) (hz : IsValue t z) : IsValue (calculation none (.distribution t)) z := by
  cases t
  · rcases hz with rfl | rfl
    · exact ⟨hasDigits_zero _, hasDigits_zero _⟩
    · exact ⟨hasDigits_one (by norm_num), hasDigits_zero _⟩
  · exact absurd rfl ht
  · exact ⟨hasDigits_mono (by norm_num) hz.2, by rw [hz.1]; exact hasDigits_zero _⟩
  · exact ⟨hz.2, by rw [hz.1]; exact hasDigits_zero _⟩
  · exact ⟨hz.2, by rw [hz.1]; exact hasDigits_zero _⟩
  · exact absurd rfl hl
  · exact hz
  · exact hz
  · exact hz

theorem not_hasDigits : ¬ HasDigits 53 9007199254740993 := by
  rintro ⟨m, e, hm, he⟩
  rcases le_or_gt 0 e with h0 | h0
  · obtain ⟨k, rfl⟩ := Int.eq_ofNat_of_zero_le h0
    have he' : (9007199254740993 : ℤ) = m * 2 ^ k := by
      have : ((9007199254740993 : ℤ) : ℝ) = ((m * 2 ^ k : ℤ) : ℝ) := by push_cast; simpa using he
      exact_mod_cast this
    rcases Nat.eq_zero_or_pos k with rfl | hk
    · rw [pow_zero, mul_one] at he'
      rw [← he'] at hm
      norm_num at hm
    · obtain ⟨j, rfl⟩ : ∃ j, k = j + 1 := ⟨k - 1, by omega⟩
      rw [pow_succ, ← mul_assoc] at he'
      omega
  · obtain ⟨k, hk⟩ := Int.eq_ofNat_of_zero_le (show 0 ≤ -e by omega)
    have h2 : (2 : ℝ) ^ e * 2 ^ k = 1 := by
      rw [show (2 : ℝ) ^ k = (2 : ℝ) ^ (-e) by rw [hk]; simp, ← zpow_add₀ (by norm_num)]
      simp
    have he' : (9007199254740993 : ℤ) * 2 ^ k = m := by
      have : ((9007199254740993 * 2 ^ k : ℤ) : ℝ) = (m : ℝ) := by
        push_cast
        rw [he, mul_assoc, h2, mul_one]
      exact_mod_cast this
    have h1 : (1 : ℤ) ≤ 2 ^ k := one_le_pow₀ (by norm_num)
    have := le_abs_self m
    norm_num at hm
    nlinarith

/-- **C118 (source)** is violated for sources of integers and of real numbers with extended precision: these are converted to `np.complex128`, which does not have all values. -/
theorem C118_keeps_violates (t : NumType) (ht : t = .int ∨ t = .longdouble) : ∃ z, IsValue t z ∧ ¬ IsValue (calculation none (.distribution t)) z := by
  refine ⟨((9007199254740993 : ℤ) : ℂ), ?_, ?_⟩
  · rcases ht with rfl | rfl
    · exact ⟨9007199254740993, by norm_num, rfl⟩
    · exact ⟨Complex.intCast_im _, 9007199254740993, 0, by norm_num, by rw [Complex.intCast_re]; simp⟩
  · intro h
    have h' : HasDigits 53 ((9007199254740993 : ℤ) : ℂ).re := by rcases ht with rfl | rfl <;> exact h.1
    rw [Complex.intCast_re] at h'
    refine not_hasDigits ?_
    simpa using h'

/-- A value of a kind is stored as it is. -/
theorem store_of_isKind {t : NumType} {z : ℂ} (h : IsKind t z) : store t z = z := by
  cases t
  · rcases h with rfl | rfl <;> simp [store, NumType.kind]
  · obtain ⟨m, rfl⟩ := h
    simp only [store, NumType.kind, truncK, Complex.intCast_re, Int.floor_intCast, Int.ceil_intCast, ite_self]
    simp
  all_goals first | rfl | exact Complex.ext rfl (by simpa [store, NumType.kind] using h.symm)

theorem isKind_mul {a b : NumType} (hb : b.kind ≤ a.kind) (h1 : 0 < a.kind) {z w : ℂ} (hz : IsKind a z) (hw : IsKind b w) : IsKind a (z * w) := by
  cases a <;> cases b <;> first
    | exact absurd hb (by decide)
    | exact absurd h1 (by decide)
    | trivial
    | (obtain ⟨m, rfl⟩ := hz; rcases hw with rfl | rfl; exacts [⟨0, by simp⟩, ⟨m, by simp⟩])
    | (obtain ⟨m, rfl⟩ := hz; obtain ⟨k, rfl⟩ := hw; exact ⟨m * k, by push_cast; rfl⟩)
    | (have hz' : z.im = 0 := hz
       have hw' : w.im = 0 := by
         first | exact hw | (rcases hw with rfl | rfl <;> simp) | (obtain ⟨k, rfl⟩ := hw; simp)
       show (z * w).im = 0
       simp [Complex.mul_im, hz', hw'])

theorem isKind_sub {a : NumType} (h1 : 0 < a.kind) {z w : ℂ} (hz : IsKind a z) (hw : IsKind a w) : IsKind a (z - w) := by
  cases a <;> first
    | exact absurd h1 (by decide)
    | trivial
    | (obtain ⟨m, rfl⟩ := hz; obtain ⟨k, rfl⟩ := hw; exact ⟨m - k, by push_cast; rfl⟩)
    | (have hz' : z.im = 0 := hz
       have hw' : w.im = 0 := hw
       show (z - w).im = 0
       simp [hz', hw'])

theorem canCast_promote (a b : NumType) : canCast (promote a b) a ↔ b.kind ≤ a.kind := by
  cases a <;> cases b <;> decide

/-- **C118 (cross product, partial).** `cross(A, B)` is the cross product when the type of its first argument is at least as general as that of its second: integers, reals, or complex numbers. -/
theorem C118_cross_partial {n : ℕ} {X : Type} {a b : NumType} (h : b.kind ≤ a.kind) (h1 : a ≠ .bool) {A B : Fin n → X → ℂ} (hA : ∀ i x, IsKind a (A i x)) (hB : ∀ i x, IsKind b (B i x)) :
    crossTyped a b A B = .ok (Backend.cross A B) := by
  have h0 : 0 < a.kind := by cases a <;> first | exact absurd rfl h1 | decide
  unfold crossTyped
  rw [if_neg (by rw [canCast_promote]; tauto)]
  congr 1
  funext dim x
  dsimp only
  rw [store_of_isKind (isKind_mul h h0 (hA _ x) (hB _ x)), store_of_isKind (isKind_sub h0 (isKind_mul h h0 (hA _ x) (hB _ x)) (isKind_mul h h0 (hA _ x) (hB _ x)))]
  rfl

/-- **C118 (cross product)** is violated when the second argument is of a more general type, in particular for a real and a complex vector field: a `TypeError` is raised. -/
theorem C118_cross_violates {n : ℕ} (hn : n ≠ 0) {X : Type} {a b : NumType} (h : a.kind < b.kind) (A B : Fin n → X → ℂ) : crossTyped a b A B = .error .typeError := by
  unfold crossTyped
  rw [if_pos ⟨hn, .inl (by rw [canCast_promote]; omega)⟩]

/-- **C118 (Poynting vector).** The cross product of fields of the type of the calculation, which is always complex, never raises (solver.py 907). -/
theorem C118_poynting {n : ℕ} {X : Type} (dtype : Option NumType) (s : Source) (E H : Fin n → X → ℂ) :
    crossTyped (calculation dtype s) (calculation dtype s) E H = .ok (Backend.cross E H) := by
  have h3 : (calculation dtype s).kind = 3 := by
    unfold calculation
    generalize dtype.getD (sourceType dtype s) = t
    cases t <;> rfl
  have hk : ∀ z, IsKind (calculation dtype s) z := by
    intro z
    generalize calculation dtype s = t at h3
    cases t <;> trivial
  exact C118_cross_partial le_rfl (fun h => by rw [h] at h3; exact absurd h3 (by decide)) (fun _ _ => hk _) (fun _ _ => hk _)

/-- **C118 (modes).** The tolerance that decides which modes propagate is the square root of the precision of the type that is asked for, by default of the grid; for double precision it is 2⁻²⁶. A
scattering matrix with an integer type raises a `ValueError`, unlike the solver. -/
theorem C118_modes (k : NumType) (dtype : Option NumType) :
    (∀ tol, modeTolerance k dtype = .ok tol → 0 < tol ∧ tol ^ 2 * 2 ^ (digits (dtype.getD k) - 1) = 1) ∧
      (modeTolerance k dtype = .error .valueError ↔ dtype.getD k = .bool ∨ dtype.getD k = .int) ∧
      modeTolerance .float64 none = .ok (1 / 2 ^ 26) ∧ modeTolerance k (some .complex128) = .ok (1 / 2 ^ 26) ∧ ∀ e s, solutionType e (some .int) s = .ok .complex128 := by
  have h26 : Real.sqrt (1 / 2 ^ 52) = 1 / 2 ^ 26 := by
    rw [show (1 / 2 ^ 52 : ℝ) = (1 / 2 ^ 26) ^ 2 by norm_num]
    exact Real.sqrt_sq (by positivity)
  refine ⟨fun tol h => ?_, ?_, ?_, ?_, fun e s => by cases e <;> cases s <;> rfl⟩
  · unfold modeTolerance at h
    generalize dtype.getD k = t at *
    cases t <;> simp only [epsExponent, reduceCtorEq, Except.ok.injEq] at h <;> subst h <;>
      exact ⟨Real.sqrt_pos.2 (by positivity), by rw [Real.sq_sqrt (by positivity)]; norm_num [digits]⟩
  · unfold modeTolerance
    generalize dtype.getD k = t
    cases t <;> simp [epsExponent]
  · show Except.ok (Real.sqrt (1 / 2 ^ 52)) = _
    rw [h26]
  · show Except.ok (Real.sqrt (1 / 2 ^ 52)) = _
    rw [h26]

/-- **C118 (roll).** A shifted image is complex, and has a type with all values of the original, unless that is of integers or of extended precision; an image that is not shifted keeps its type. -/
theorem C118_roll (t : NumType) : rollType false t = t ∧ (rollType true t = .complex64 ∨ rollType true t = .complex128) ∧
    (t ≠ .int → t ≠ .longdouble → t ≠ .clongdouble → ∀ z, IsValue t z → IsValue (rollType true t) z) := by
  refine ⟨rfl, by cases t <;> decide, fun h1 h2 h3 z hz => ?_⟩
  cases t
  · rcases hz with rfl | rfl
    · exact ⟨hasDigits_zero _, hasDigits_zero _⟩
    · exact ⟨hasDigits_one (by norm_num), hasDigits_zero _⟩
  · exact absurd rfl h1
  · exact ⟨hasDigits_mono (by norm_num) hz.2, by rw [hz.1]; exact hasDigits_zero _⟩
  · exact ⟨hz.2, by rw [hz.1]; exact hasDigits_zero _⟩
  · exact ⟨hz.2, by rw [hz.1]; exact hasDigits_zero _⟩
  · exact absurd rfl h2
  · exact hz
  · exact hz
  · exact absurd rfl h3

/-- The hypotheses can be met: a real source with single precision, and two vector fields. -/
example : solutionType .torch none (.distribution .float32) = .ok .complex64 ∧ solutionType .numpy (some .int) .none = .ok .complex128 ∧
    crossTyped (n := 3) (X := Unit) .complex64 .float64 (fun i _ => if i = 0 then I else 0) (fun i _ => if i = 1 then 1 else 0) =
      .ok (Backend.cross (fun i _ => if i = 0 then I else 0) (fun i _ => if i = 1 then 1 else 0)) :=
  ⟨rfl, rfl, C118_cross_partial (by decide) (by decide) (fun _ _ => trivial) (fun i _ => by show (_ : ℂ).im = 0; split_ifs <;> simp)⟩

/-! ### C119: beams -/

/-- **C119 (complex).** The type of a section with a field is complex, and has all values of the array that is given, unless that is of integers or of extended precision. -/
theorem C119_complex (v : Bool) (t : NumType) :
    (sectionType v (.fieldFt t)).kind = 3 ∧ (sectionType v (.field t)).kind = 3 ∧
      (t ≠ .int → t ≠ .longdouble → ∀ z, IsValue t z → IsValue (sectionType v (.fieldFt t)) z) := by
  refine ⟨by cases v <;> cases t <;> rfl, by cases v <;> cases t <;> rfl, fun h1 h2 z hz => ?_⟩
  have h0 : ∀ z : ℂ, z = 0 ∨ z = 1 → IsValue .complex128 z := by
    rintro z (rfl | rfl)
    · exact ⟨hasDigits_zero _, hasDigits_zero _⟩
    · exact ⟨hasDigits_one (by norm_num), hasDigits_zero _⟩
  cases t
  · cases v <;> exact h0 z hz
  · exact absurd rfl h1
  · cases v <;> exact ⟨hasDigits_mono (by norm_num) hz.2, by rw [hz.1]; exact hasDigits_zero _⟩
  · cases v
    · exact ⟨hz.2, by rw [hz.1]; exact hasDigits_zero _⟩
    · exact ⟨hasDigits_mono (by norm_num) hz.2, by rw [hz.1]; exact hasDigits_zero _⟩
  · cases v <;> exact ⟨hz.2, by rw [hz.1]; exact hasDigits_zero _⟩
  · exact absurd rfl h2
  · cases v
    · exact hz
    · exact ⟨hasDigits_mono (by norm_num) hz.1, hasDigits_mono (by norm_num) hz.2⟩
  · cases v <;> exact hz
  · cases v <;> exact hz

/-- **C119 (partial).** The type of a section is that of a given array of complex numbers with double or extended precision, or of the Fourier transform of a scalar field. -/
theorem C119_default_partial (v : Bool) : sectionType v (.fieldFt .complex128) = .complex128 ∧ sectionType v (.field .complex128) = .complex128 ∧
    sectionType v (.fieldFt .clongdouble) = .clongdouble ∧ sectionType v (.field .clongdouble) = .clongdouble ∧ sectionType false (.fieldFt .complex64) = .complex64 ∧
    ∀ z t, 3 ≤ t.kind → t ≠ .complex64 → fieldType z t = t := by
  refine ⟨by cases v <;> rfl, by cases v <;> rfl, by cases v <;> rfl, by cases v <;> rfl, rfl, fun z t h1 h2 => ?_⟩
  cases t <;> first | exact absurd rfl h2 | exact absurd h1 (by decide) | (cases z <;> rfl)

/-- **C119 (default)** is violated for single precision: a field, or the Fourier transform of a vectorial field, gives a section with double precision; the field of a scalar section with single precision
is returned with double precision, though `dtype` is documented to be its type; and without a field the type is real. -/
theorem C119_default_violates : (∀ v, sectionType v (.field .complex64) = .complex128) ∧ sectionType true (.fieldFt .complex64) = .complex128 ∧
    fieldType false (sectionType false (.fieldFt .complex64)) ≠ sectionType false (.fieldFt .complex64) ∧ (∀ v, RealType (sectionType v (.zeros none))) :=
  ⟨fun v => by cases v <;> rfl, rfl, by decide, fun v => by cases v <;> exact ⟨by decide, by decide, by decide⟩⟩

/-! ### The rules of NumPy -/

/-- **C118, C119 (promotion).** The type of a sum or product has the kind of the more general of the types, and the digits of the more precise one: all values of both are values of it.  Integers count as double
precision, so that integers with floating point numbers of fewer digits give double precision. -/
theorem C118_promote (a b : NumType) : (promote a b).kind = max a.kind b.kind ∧
    (a ≠ .int → b ≠ .int → digits (promote a b) = max (digits a) (digits b) ∨ max a.kind b.kind = 3 ∧ digits (promote a b) = 24 ∧ max (digits a) (digits b) < 24) ∧
    (a ≠ .int → ∀ z, IsValue a z → IsValue (promote a b) z) ∧ (b ≠ .int → ∀ z, IsValue b z → IsValue (promote a b) z) ∧
    (a = .int → 2 ≤ b.kind → digits (promote a b) = max 53 (digits b)) ∧ (b = .int → 2 ≤ a.kind → digits (promote a b) = max (digits a) 53) := by
  have key : ∀ a b : NumType, a ≠ .int → ∀ z, IsValue a z → IsValue (promote a b) z := by
    intro a b ha z hz
    have hb : ∀ t : NumType, a = .bool → IsValue t z := by
      rintro t rfl
      rcases hz with rfl | rfl
      · cases t <;> first
          | exact .inl rfl
          | exact ⟨0, by norm_num, by simp⟩
          | exact ⟨rfl, hasDigits_zero _⟩
          | exact ⟨hasDigits_zero _, hasDigits_zero _⟩
      · cases t <;> first
          | exact .inr rfl
          | exact ⟨1, by norm_num, by simp⟩
          | exact ⟨rfl, hasDigits_one (by norm_num)⟩
          | exact ⟨hasDigits_one (by norm_num), hasDigits_zero _⟩
    by_cases h : a = .bool
    · exact hb _ h
    cases a <;> cases b <;> first
      | exact absurd rfl ha
      | exact absurd rfl h
      | exact hz
      | exact ⟨hz.1, hasDigits_mono (by norm_num) hz.2⟩
      | exact ⟨hasDigits_mono (by norm_num) hz.2, by rw [hz.1]; exact hasDigits_zero _⟩
      | exact ⟨hasDigits_mono (by norm_num) hz.1, hasDigits_mono (by norm_num) hz.2⟩
  have hcomm : ∀ a b, promote a b = promote b a := fun a b => by unfold promote; rw [max_comm a.kind, max_comm a.size]
  refine ⟨by cases a <;> cases b <;> rfl, ?_, key a b, fun h z hz => hcomm b a ▸ key b a h z hz, ?_, ?_⟩
  · cases a <;> cases b <;> decide
  · cases a <;> cases b <;> decide
  · cases a <;> cases b <;> decide

/-- What an array of booleans or integers keeps of the values that are assigned to it: whether they are different from 0, and their real part rounded towards 0. -/
theorem C119_store (z : ℂ) : (store .bool z = 0 ↔ z = 0) ∧ (store .bool z = 1 ↔ z ≠ 0) ∧
    ∃ m : ℤ, store .int z = m ∧ |(m : ℝ)| ≤ |z.re| ∧ |z.re| < |(m : ℝ)| + 1 ∧ 0 ≤ m * z.re := by
  refine ⟨?_, ?_, if 0 ≤ z.re then ⌊z.re⌋ else ⌈z.re⌉, ?_, ?_⟩
  · by_cases h : z = 0 <;> simp [store, NumType.kind, h]
  · by_cases h : z = 0 <;> simp [store, NumType.kind, h]
  · simp only [store, NumType.kind, truncK]
    split_ifs <;> simp
  split_ifs with h
  · have h1 := Int.floor_le z.re
    have h2 := Int.lt_floor_add_one z.re
    have h3 : (0 : ℝ) ≤ ⌊z.re⌋ := by exact_mod_cast Int.floor_nonneg.2 h
    rw [abs_of_nonneg h3, abs_of_nonneg h]
    exact ⟨h1, h2, mul_nonneg h3 h⟩
  · have h1 := Int.le_ceil z.re
    have h2 := Int.ceil_lt_add_one z.re
    have h4 : z.re ≤ 0 := le_of_lt (not_le.1 h)
    have h3 : ((⌈z.re⌉ : ℤ) : ℝ) ≤ 0 := by exact_mod_cast Int.ceil_le.2 (by simpa using h4)
    rw [abs_of_nonpos h3, abs_of_nonpos h4]
    exact ⟨by linarith, by linarith, mul_nonneg_of_nonpos_of_nonpos h3 h4⟩

example : promote .float32 .float64 = .float64 ∧ promote .float16 .float16 = .float16 ∧ promote .float32 .float16 = .float32 := ⟨rfl, rfl, rfl⟩

end Verif.Dtype

namespace Verif.Beam

open Verif Verif.Dtype Verif.Fourier Complex

variable {o : Optics} {P : Projection}

theorem loopInto_eq (h : ∀ a, 0 < o.grid.shape a) (t : NumType) {step : ℝ} {ps : List (Option Arg × Option Arg)} {ns : List (Option (Idx o.grid.shape → ℂ))}
    (hm : List.Forall₂ (Means h P step) ps ns) : ∀ (j : ℕ) (s : Section o P) (out : List (Arr o P)), j + ps.length ≤ out.length →
      loopInto t step ps j s out = .ok (out.take j ++ (evaluate h step s ns).1.map (fun F c x => store t (F c x)) ++ out.drop (j + ps.length), (evaluate h step s ns).2) := by
  induction hm with
  | nil =>
    intro j s out _
    show Except.ok _ = Except.ok _
    congr 2
    show out = out.take j ++ [] ++ out.drop (j + 0)
    rw [List.append_nil, add_zero, List.take_append_drop]
  | @cons p n ps ns h1 h2 ih =>
    intro j s out hj
    obtain ⟨e, m⟩ := p
    rw [List.length_cons] at hj
    have hj' : j < out.length := by omega
    show (propagateArgs s step e m).bind _ = _
    rw [h1 s]
    show (if j < out.length then loopInto t step ps (j + 1) (read (propagate h s step n)).2 (out.set j fun c x => store t ((read (propagate h s step n)).1 c x)) else _) = _
    rw [if_pos hj', ih (j + 1) _ _ (by rw [List.length_set]; omega)]
    congr 2
    show _ ++ _ ++ _ = out.take j ++ ((fun c x => store t ((read (propagate h s step n)).1 c x)) :: (evaluate h step (read (propagate h s step n)).2 ns).1.map (fun F c x => store t (F c x))) ++ _
    rw [List.length_cons, List.drop_set_of_lt (by omega), show j + 1 + ps.length = j + (ps.length + 1) by omega]
    congr 1
    have e : (out.set j fun c x => store t ((read (propagate h s step n)).1 c x)).take (j + 1) = out.take j ++ [fun c x => store t ((read (propagate h s step n)).1 c x)] := by
      rw [List.take_succ_eq_append_getElem (by rw [List.length_set]; exact hj'), List.take_set_of_le le_rfl, List.getElem_set_self]
    rw [e, List.append_assoc]
    rfl

/-- **C119 (output).** `Beam.field(..., out)` with an array of complex numbers gives the same fields as without, whatever the array contained, and leaves the beam in the same state. -/
theorem C119_output (h : ∀ a, 0 < o.grid.shape a) {step : ℝ} {N : ℕ} (s : Section o P) {eps n : Option (List (Option Arg))} {ns : List (Option (Idx o.grid.shape → ℂ))}
    (hm : List.Forall₂ (Means h P step) (sections N eps n) ns) (hN : ns.length = N) {t : NumType} (ht : ¬ Spec.Dtype.RealType t) (out : List (Arr o P)) (hout : out.length = N) :
    beamFieldInto N step s eps n t out = beamField N step s eps n := by
  have h3 : store t = id := by
    funext z
    unfold Spec.Dtype.RealType at ht
    cases t <;> first | rfl | exact absurd ⟨by decide, by decide, by decide⟩ ht
  rw [beamField_eq h s hm hN.le]
  unfold beamFieldInto
  rw [loopInto_eq h t hm 0 s out (by rw [hm.length_eq]; omega), hm.length_eq, hN, h3]
  simp [List.drop_eq_nil_of_le hout.le]

/-- **C119 (rest of the output).** When there are fewer slices than samples, the rest of the array is left as it was. -/
theorem C119_rest (h : ∀ a, 0 < o.grid.shape a) {step : ℝ} {N : ℕ} (s : Section o P) {eps n : Option (List (Option Arg))} {ns : List (Option (Idx o.grid.shape → ℂ))}
    (hm : List.Forall₂ (Means h P step) (sections N eps n) ns) (hN : ns.length ≤ N) (t : NumType) (out : List (Arr o P)) (hout : out.length = N) :
    beamFieldInto N step s eps n t out = .ok ((evaluate h step s ns).1.map (fun F c x => store t (F c x)) ++ out.drop ns.length, (evaluate h step s ns).2) := by
  unfold beamFieldInto
  rw [loopInto_eq h t hm 0 s out (by rw [hm.length_eq]; omega), hm.length_eq]
  simp only [List.take_zero, List.nil_append, zero_add]

/-- **C119 (too many slices).** When there are more slices than samples, which is only possible if both the permittivity and the refractive index are given, an IndexError is raised. -/
theorem C119_long (h : ∀ a, 0 < o.grid.shape a) {step : ℝ} {N : ℕ} (s : Section o P) {eps n : Option (List (Option Arg))} {ns : List (Option (Idx o.grid.shape → ℂ))}
    (hm : List.Forall₂ (Means h P step) (sections N eps n) ns) (t : NumType) (out : List (Arr o P)) (hout : out.length < ns.length) : beamFieldInto N step s eps n t out = .error .indexError := by
  unfold beamFieldInto
  rw [← hm.length_eq] at hout
  generalize sections N eps n = ps at hm hout
  have : ∀ (j : ℕ) (s : Section o P) (out : List (Arr o P)), j ≤ out.length → out.length < j + ps.length → loopInto t step ps j s out = .error .indexError := by
    clear hout
    induction hm with
    | nil =>
      intro j s out h1 h2
      rw [List.length_nil] at h2
      omega
    | @cons p n ps ns h1 h2 ih =>
      intro j s out hj hl
      obtain ⟨e, m⟩ := p
      rw [List.length_cons] at hl
      show (propagateArgs s step e m).bind _ = _
      rw [h1 s]
      show (if j < out.length then loopInto t step ps (j + 1) (read (propagate h s step n)).2 (out.set j fun c x => store t ((read (propagate h s step n)).1 c x)) else _) = _
      split_ifs with hj'
      · exact ih (j + 1) _ _ (by rw [List.length_set]; omega) (by rw [List.length_set]; omega)
      · rfl
  exact this 0 s out (Nat.zero_le _) (by omega)

/-- **C119 (output)** is violated for real arrays: only the real part of the field is returned. -/
theorem C119_output_violates (h : ∀ a, 0 < o.grid.shape a) {step : ℝ} {N : ℕ} (s : Section o P) {eps n : Option (List (Option Arg))} {ns : List (Option (Idx o.grid.shape → ℂ))}
    (hm : List.Forall₂ (Means h P step) (sections N eps n) ns) (hN : ns.length = N) {t : NumType} (ht : t = .float16 ∨ t = .float32 ∨ t = .float64 ∨ t = .longdouble)
    (out : List (Arr o P)) (hout : out.length = N) :
    beamFieldInto N step s eps n t out = .ok ((evaluate h step s ns).1.map fun F c x => (((F c x).re : ℝ) : ℂ), (evaluate h step s ns).2) := by
  have h3 : store t = fun z => ((z.re : ℝ) : ℂ) := by rcases ht with rfl | rfl | rfl | rfl <;> rfl
  unfold beamFieldInto
  rw [loopInto_eq h t hm 0 s out (by rw [hm.length_eq]; omega), hm.length_eq, hN, h3]
  simp [List.drop_eq_nil_of_le hout.le]

/-- The hypotheses of `C119_long` are met: three slices for two samples. -/
example (h : ∀ a, 0 < o.grid.shape a) (step : ℝ) (s : Section o P) (a b : Arr o P) : beamFieldInto 2 step s (some [none, none, none]) (some [none, none, none]) .complex64 [a, b] = .error .indexError := by
  have hm : Means h P step (none, none) none := fun s => by unfold propagateArgs propagate; rfl
  exact C119_long h s (ns := [none, none, none]) (.cons hm (.cons hm (.cons hm .nil))) _ _ (by simp)

/-- The hypotheses can be met: any number of samples in the background. -/
example (h : ∀ a, 0 < o.grid.shape a) (N : ℕ) (step : ℝ) (s : Section o P) (out : List (Arr o P)) (hout : out.length = N) :
    beamFieldInto N step s none none .complex64 out = beamField N step s none none := by
  refine C119_output h s (ns := List.replicate N none) ?_ List.length_replicate (fun h => h.1 rfl) out hout
  have : sections N none none = List.replicate N ((none, none) : Option Arg × Option Arg) := by
    simp [sections, List.zip_replicate']
  rw [this]
  clear this hout out
  induction N with
  | zero => exact .nil
  | succ N ih => exact .cons (fun s => by unfold propagateArgs propagate; rfl) ih

end Verif.Beam
