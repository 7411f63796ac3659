import Verif.Lemmas.Construct
import Verif.Props.Assign
import Mathlib.Tactic.Ring
import Mathlib.Tactic.NormNum
import Mathlib.LinearAlgebra.Matrix.Determinant.Basic

/-!
# C84, C85: the source and the materials that `Solution` is constructed with
-/

namespace Verif.Construct

open Verif Verif.Assign

variable {d : ℕ}

/-! ### Specification of materials

`bval a (r :: c :: x)` is NumPy's value of `a`, broadcast to more axes, at an index (its meaning is fixed by `C85_elementwise`). -/

/-- An array that NumPy can broadcast to a matrix at every point of the grid. -/
def Fits (rows : ℕ) (N : Fin d → ℕ) (a : Arr ℂ) : Prop := Refines a.shape.reverse ((List.ofFn N).reverse ++ [rows, rows])

/-- A number for each point: at most two singleton axes before those of the grid. -/
def ScalarForm (d : ℕ) (a : Arr ℂ) : Prop := a.shape.length ≤ d + 2 ∧ ∀ l ∈ a.shape.reverse.drop d, l = 1

/-- A matrix for each point: the shape is rows × rows × space. -/
def TensorForm (d rows : ℕ) (a : Arr ℂ) : Prop := a.shape.reverse.drop d = [rows, rows]

/-- The material that is meant by an array in scalar form. -/
noncomputable def scalarMeaning (a : Arr ℂ) (x : Fin d → ℕ) (rows : ℕ) : Matrix (Fin rows) (Fin rows) ℂ :=
  bval a (0 :: 0 :: List.ofFn x) • 1

/-- The material that is meant by an array in tensor form. -/
noncomputable def tensorMeaning (a : Arr ℂ) (x : Fin d → ℕ) (rows : ℕ) : Matrix (Fin rows) (Fin rows) ℂ :=
  fun r c => bval a (r :: c :: List.ofFn x)

/-! ### Helpers -/

theorem tensorForm_length {rows : ℕ} {a : Arr ℂ} (h : TensorForm d rows a) : a.shape.length = d + 2 := by
  have := congrArg List.length h
  rw [List.length_drop, List.length_reverse] at this
  simp only [List.length_cons, List.length_nil] at this
  omega

theorem hasTensorAxes_eq (d : ℕ) (a : Arr ℂ) : hasTensorAxes d a = true ↔ ∃ l ∈ a.shape.reverse.drop d, 1 < l := by
  unfold hasTensorAxes
  rw [List.drop_reverse, List.any_eq_true]
  simp only [List.mem_reverse, decide_eq_true_eq]

theorem toMatrixField_expand {a : Arr ℂ} (h : ¬ ((expand d a).shape 0 = 1 ∧ 1 < (expand d a).shape 1)) : toMatrixField d a = expand d a := by
  unfold toMatrixField
  exact if_neg h

theorem scalarForm_shape {a : Arr ℂ} (h : ScalarForm d a) : (expand d a).shape 0 = 1 ∧ (expand d a).shape 1 = 1 := by
  have key : ∀ k, (a.shape.reverse.drop d).getD k 1 = 1 := fun k => by
    rw [List.getD_eq_getElem?_getD]
    cases hk : (a.shape.reverse.drop d)[k]? with
    | none => rfl
    | some l => exact h.2 l (List.mem_of_getElem? hk)
  exact ⟨(expand_shape h.1 0 (by omega)).trans (key _), (expand_shape h.1 1 (by omega)).trans (key _)⟩

theorem tensorForm_shape {rows : ℕ} {a : Arr ℂ} (h : TensorForm d rows a) : (expand d a).shape 0 = rows ∧ (expand d a).shape 1 = rows := by
  have hl := (tensorForm_length h).le
  have h' : a.shape.reverse.drop d = [rows, rows] := h
  have h0 := expand_shape hl 0 (by omega)
  have h1 := expand_shape hl 1 (by omega)
  rw [h'] at h0 h1
  exact ⟨h0, h1⟩

theorem ofFn_cons2 (r c : ℕ) (x : Fin d → ℕ) : List.ofFn (Fin.cons r (Fin.cons c x) : Fin (d + 2) → ℕ) = r :: c :: List.ofFn x := by
  rw [List.ofFn_succ, List.ofFn_succ]
  rfl

/-! ### C85: materials -/

/-- **C85.** The elementwise operations: the shape of the result is one that both arguments can be broadcast to, and the value at each index is
that of the broadcast arguments. -/
theorem C85_elementwise {f : ℂ → ℂ → ℂ} {a b c : Arr ℂ} (h : bop f a b = .ok c) :
    Refines a.shape.reverse c.shape.reverse ∧ Refines b.shape.reverse c.shape.reverse ∧ ∀ i, bval c i = f (bval a i) (bval b i) := by
  obtain ⟨h1, h2⟩ := bop_spec h
  exact ⟨(bshapeRev_refines h1).1, (bshapeRev_refines h1).2, h2⟩

/-- **C85.** A material in scalar form is used as a multiple of the identity. -/
theorem C85_scalar (rows : ℕ) (a : Arr ℂ) (h : ScalarForm d a) (x : Fin d → ℕ) :
    tensorAt rows (toMatrixField d a) x = scalarMeaning a x rows := by
  obtain ⟨h0, h1⟩ := scalarForm_shape h
  rw [toMatrixField_expand (by rw [h1]; exact fun h => absurd h.2 (by decide))]
  funext r c
  unfold tensorAt scalarMeaning
  simp only
  rw [if_pos ⟨h0, h1⟩, expand_value h.1, ofFn_cons2, Matrix.smul_apply, Matrix.one_apply, smul_eq_mul, mul_ite, mul_one, mul_zero]

/-- **C85.** A material in tensor form is used as the matrix that is given for each point. -/
theorem C85_tensor (rows : ℕ) (a : Arr ℂ) (h : TensorForm d rows a) (x : Fin d → ℕ) :
    tensorAt rows (toMatrixField d a) x = tensorMeaning a x rows := by
  obtain ⟨h0, h1⟩ := tensorForm_shape h
  rw [toMatrixField_expand (by rw [h0, h1]; exact fun h => by omega)]
  funext r c
  unfold tensorAt tensorMeaning
  simp only
  rw [h0, h1]
  by_cases hr : rows = 1
  · subst hr
    rw [if_pos ⟨rfl, rfl⟩, expand_value (tensorForm_length h).le, ofFn_cons2]
    have hr0 : r = 0 := Subsingleton.elim _ _
    have hc0 : c = 0 := Subsingleton.elim _ _
    rw [hr0, hc0, if_pos rfl]
    rfl
  · rw [if_neg (fun h => hr h.1), expand_value (tensorForm_length h).le, ofFn_cons2]

theorem eye_tensorForm (d rows : ℕ) : TensorForm d rows (eye d rows) := by
  unfold TensorForm eye
  simp

theorem eye_fits (rows : ℕ) (N : Fin d → ℕ) : Fits rows N (eye d rows) := by
  unfold Fits eye
  simp only [List.reverse_cons, List.reverse_replicate, List.append_assoc, List.cons_append, List.nil_append]
  have key : ∀ (M : List ℕ), Refines (List.replicate M.length 1 ++ [rows, rows]) (M ++ [rows, rows]) := by
    intro M
    induction M with
    | nil => exact refines_refl _
    | cons m M ih => exact ⟨Or.inl rfl, ih⟩
  have := key (List.ofFn N).reverse
  rwa [List.length_reverse, List.length_ofFn] at this

theorem eye_value (rows : ℕ) (x : Fin d → ℕ) (r c : Fin rows) :
    bval (eye d rows) (r :: c :: List.ofFn x) = (1 : Matrix (Fin rows) (Fin rows) ℂ) r c := by
  have h := C85_tensor rows (eye d rows) (eye_tensorForm d rows) x
  have hv : bval (eye d rows) (r :: c :: List.ofFn x) = tensorMeaning (eye d rows) x rows r c := rfl
  obtain ⟨h0, h1⟩ := tensorForm_shape (eye_tensorForm d rows)
  rw [hv, ← h, toMatrixField_expand (by rw [h0, h1]; exact fun h => by omega)]
  unfold tensorAt
  simp only
  rw [h0, h1, Matrix.one_apply]
  have hl : d + 2 - (eye d rows).shape.length = 0 := by unfold eye; simp
  have he : ∀ i : Fin (d + 2) → ℕ, (expand d (eye d rows)).val i = if i 0 = i 1 then 1 else 0 := fun i => by
    unfold expand
    simp only [hl, List.drop_zero]
    unfold eye
    simp only
    rw [List.ofFn_succ, List.ofFn_succ]
    rfl
  by_cases hr : rows = 1
  · rw [if_pos ⟨hr, hr⟩, he, if_pos (h0.trans hr), if_pos (h1.trans hr), if_pos rfl]
  · rw [if_neg (fun h => hr h.1), he]
    simp only [h0, h1, if_neg hr]
    have : ((Fin.cons (r : ℕ) (Fin.cons (c : ℕ) x) : Fin (d + 2) → ℕ) 0 = (Fin.cons (r : ℕ) (Fin.cons (c : ℕ) x) : Fin (d + 2) → ℕ) 1) ↔ r = c := by
      change (r : ℕ) = (c : ℕ) ↔ r = c
      exact Fin.ext_iff.symm
    simp only [this]

/-- A scalar has the same value for all components. -/
theorem scalar_value {a : Arr ℂ} (h : ScalarForm d a) (r c : ℕ) (x : Fin d → ℕ) : bval a (r :: c :: List.ofFn x) = bval a (0 :: 0 :: List.ofFn x) := by
  obtain ⟨h0, h1⟩ := scalarForm_shape h
  rw [← ofFn_cons2, ← ofFn_cons2, ← expand_value h.1, ← expand_value h.1]
  congr 1
  funext k
  refine Fin.cases ?_ (fun k => Fin.cases ?_ (fun k => rfl) k) k
  · rw [if_pos h0, if_pos h0]
  · exact (if_pos h1).trans (if_pos h1).symm

theorem chi_scalarForm {chi : Arr ℂ} (h : chi.shape.length ≤ d) : ScalarForm d chi :=
  ⟨by omega, fun l hl => by rw [List.drop_of_length_le (by rw [List.length_reverse]; exact h)] at hl; exact absurd hl List.not_mem_nil⟩

/-- The product of the identity with a scalar. -/
theorem eye_mul {rows : ℕ} {N : Fin d → ℕ} {chi : Arr ℂ} (hc : chi.shape.length ≤ d) (hf : Fits rows N chi) :
    ∃ e, bop (· * ·) (eye d rows) chi = .ok e ∧ Fits rows N e ∧ TensorForm d rows e ∧
      ∀ x : Fin d → ℕ, tensorMeaning e x rows = scalarMeaning chi x rows := by
  obtain ⟨e, he, hfe⟩ := bop_exists (· * ·) (eye_fits rows N) hf
  obtain ⟨hs, hv⟩ := bop_spec he
  refine ⟨e, he, hfe, ?_, fun x => ?_⟩
  · have h := bshapeRev_drop d hs
    have h1 : (eye d rows).shape.reverse.drop d = [rows, rows] := eye_tensorForm d rows
    rw [h1, List.drop_of_length_le (l := chi.shape.reverse) (by rw [List.length_reverse]; exact hc)] at h
    exact (Option.some_inj.mp h).symm
  · funext r c
    unfold tensorMeaning scalarMeaning
    rw [hv, eye_value, scalar_value (chi_scalarForm hc), Matrix.smul_apply, smul_eq_mul, mul_comm]

theorem bshapeRev_same (s : List ℕ) : bshapeRev s s = some s := by
  induction s with
  | nil => rfl
  | cons a s ih =>
    unfold bshapeRev
    rw [if_pos (Or.inl rfl), ih]
    simp

/-- The sum of two materials in tensor form. -/
theorem tensor_add {rows : ℕ} {N : Fin d → ℕ} {a b : Arr ℂ} (ha : TensorForm d rows a) (hb : TensorForm d rows b) (hfa : Fits rows N a)
    (hfb : Fits rows N b) : ∃ e, bop (· + ·) a b = .ok e ∧ TensorForm d rows e ∧ ∀ x : Fin d → ℕ, tensorMeaning e x rows = tensorMeaning a x rows + tensorMeaning b x rows := by
  obtain ⟨e, he, -⟩ := bop_exists (· + ·) hfa hfb
  obtain ⟨hs, hv⟩ := bop_spec he
  refine ⟨e, he, ?_, fun x => ?_⟩
  · have h := bshapeRev_drop d hs
    have ha' : a.shape.reverse.drop d = [rows, rows] := ha
    have hb' : b.shape.reverse.drop d = [rows, rows] := hb
    rw [ha', hb', bshapeRev_same] at h
    exact (Option.some_inj.mp h).symm
  · funext r c
    exact hv _

/-- The sum of a material in scalar form and the scalar of a boundary. -/
theorem scalar_add {rows : ℕ} {N : Fin d → ℕ} {a chi : Arr ℂ} (ha : ScalarForm d a) (hc : chi.shape.length ≤ d) (hfa : Fits rows N a)
    (hfb : Fits rows N chi) : ∃ e, bop (· + ·) a chi = .ok e ∧ ScalarForm d e ∧ ∀ x : Fin d → ℕ, scalarMeaning e x rows = scalarMeaning a x rows + scalarMeaning chi x rows := by
  obtain ⟨e, he, -⟩ := bop_exists (· + ·) hfa hfb
  obtain ⟨hs, hv⟩ := bop_spec he
  refine ⟨e, he, ?_, fun x => ?_⟩
  · have h := bshapeRev_drop d hs
    rw [List.drop_of_length_le (l := chi.shape.reverse) (by rw [List.length_reverse]; exact hc), bshapeRev_nil] at h
    have h' := (Option.some_inj.mp h).symm
    have hl := congrArg List.length h'
    rw [List.length_drop, List.length_drop, List.length_reverse, List.length_reverse] at hl
    refine ⟨?_, h' ▸ ha.2⟩
    have := ha.1
    omega
  · unfold scalarMeaning
    rw [hv, add_smul]

/-- **C85.** An electric boundary adds its susceptibility, at each point, to the permittivity, as a multiple of the identity: a permittivity in
scalar form remains so. -/
theorem C85_electric_scalar (rows : ℕ) (N : Fin d → ℕ) (epsilon chi : Arr ℂ) (he : ScalarForm d epsilon) (hfe : Fits rows N epsilon)
    (hc : chi.shape.length ≤ d) (hfc : Fits rows N chi) :
    ∃ e, withElectric d rows epsilon chi = .ok e ∧
      ∀ x : Fin d → ℕ, tensorAt rows (toMatrixField d e) x = scalarMeaning epsilon x rows + scalarMeaning chi x rows := by
  obtain ⟨e, h1, h2, h3⟩ := scalar_add he hc hfe hfc
  have ht : hasTensorAxes d epsilon ≠ true := fun h => by
    obtain ⟨l, hl, h⟩ := (hasTensorAxes_eq d epsilon).mp h
    rw [he.2 l hl] at h
    exact absurd h (by decide)
  refine ⟨e, ?_, fun x => (C85_scalar rows e h2 x).trans (h3 x)⟩
  unfold withElectric
  rw [if_neg ht]
  exact h1

/-- **C85.** An electric boundary adds its susceptibility, at each point, to a permittivity in tensor form, as a multiple of the identity. -/
theorem C85_electric_tensor (rows : ℕ) (N : Fin d → ℕ) (epsilon chi : Arr ℂ) (he : TensorForm d rows epsilon) (hr : 1 < rows)
    (hfe : Fits rows N epsilon) (hc : chi.shape.length ≤ d) (hfc : Fits rows N chi) :
    ∃ e, withElectric d rows epsilon chi = .ok e ∧
      ∀ x : Fin d → ℕ, tensorAt rows (toMatrixField d e) x = tensorMeaning epsilon x rows + scalarMeaning chi x rows := by
  obtain ⟨b, hb, hfb, hbt, hbv⟩ := eye_mul hc hfc
  obtain ⟨e, h1, h2, h3⟩ := tensor_add he hbt hfe hfb
  have ht : hasTensorAxes d epsilon = true := by
    have he' : epsilon.shape.reverse.drop d = [rows, rows] := he
    rw [hasTensorAxes_eq, he']
    exact ⟨rows, by simp, hr⟩
  refine ⟨e, ?_, fun x => ((C85_tensor rows e h2 x).trans (h3 x)).trans (by rw [hbv x])⟩
  unfold withElectric
  rw [if_pos ht, hb]
  exact h1

/-- The product of the identity with a multiple of the identity. -/
theorem eye_mul_tensor {rows : ℕ} {N : Fin d → ℕ} {b : Arr ℂ} (hb : TensorForm d rows b) (hf : Fits rows N b) :
    ∃ e, bop (· * ·) (eye d rows) b = .ok e ∧ Fits rows N e ∧ TensorForm d rows e ∧
      ∀ (x : Fin d → ℕ) (s : ℂ), tensorMeaning b x rows = s • (1 : Matrix (Fin rows) (Fin rows) ℂ) → tensorMeaning e x rows = s • 1 := by
  obtain ⟨e, he, hfe⟩ := bop_exists (· * ·) (eye_fits rows N) hf
  obtain ⟨hs, hv⟩ := bop_spec he
  refine ⟨e, he, hfe, ?_, fun x s h => ?_⟩
  · have h := bshapeRev_drop d hs
    have h1 : (eye d rows).shape.reverse.drop d = [rows, rows] := eye_tensorForm d rows
    have h2 : b.shape.reverse.drop d = [rows, rows] := hb
    rw [h1, h2, bshapeRev_same] at h
    exact (Option.some_inj.mp h).symm
  · funext r c
    have hb' : bval b (r :: c :: List.ofFn x) = (s • (1 : Matrix (Fin rows) (Fin rows) ℂ)) r c := congrFun (congrFun h r) c
    unfold tensorMeaning
    rw [hv, eye_value, hb', Matrix.smul_apply, smul_eq_mul, Matrix.one_apply]
    split_ifs <;> simp

/-- **C85 (partial).** A magnetic boundary adds its susceptibility to a permeability in tensor form, as a multiple of the identity.  Missing: a
permeability in scalar form in a vectorial calculation, see `C85_magnetic_violates`. -/
theorem C85_magnetic_partial (rows : ℕ) (N : Fin d → ℕ) (mu chi : Arr ℂ) (hm : TensorForm d rows mu) (hfm : Fits rows N mu)
    (hc : chi.shape.length ≤ d) (hfc : Fits rows N chi) :
    ∃ e, withMagnetic d rows mu chi = .ok e ∧
      ∀ x : Fin d → ℕ, tensorAt rows (toMatrixField d e) x = tensorMeaning mu x rows + scalarMeaning chi x rows := by
  obtain ⟨b, hb, hfb, hbt, hbv⟩ := eye_mul hc hfc
  by_cases ht : hasTensorAxes d mu = true
  · obtain ⟨b', hb', hfb', hbt', hbv'⟩ := eye_mul_tensor hbt hfb
    obtain ⟨e, h1, h2, h3⟩ := tensor_add hm hbt' hfm hfb'
    refine ⟨e, ?_, fun x => ((C85_tensor rows e h2 x).trans (h3 x)).trans (by rw [hbv' x _ (hbv x)]; rfl)⟩
    unfold withMagnetic
    rw [if_pos ht, hb]
    change ((bop (· * ·) (eye d rows) b) >>= fun chi => bop (· + ·) mu chi) = _
    rw [hb']
    exact h1
  · obtain ⟨e, h1, h2, h3⟩ := tensor_add hm hbt hfm hfb
    refine ⟨e, ?_, fun x => ((C85_tensor rows e h2 x).trans (h3 x)).trans (by rw [hbv x])⟩
    unfold withMagnetic
    rw [if_neg ht]
    change ((bop (· * ·) (eye d rows) chi) >>= fun chi => bop (· + ·) mu chi) = _
    rw [hb]
    exact h1

/-- Exactly what a magnetic boundary makes of a permeability in scalar form: it is added to all elements of the matrix. -/
theorem magnetic_scalar (rows : ℕ) (N : Fin d → ℕ) (mu chi : Arr ℂ) (hm : ScalarForm d mu) (hfm : Fits rows N mu)
    (hc : chi.shape.length ≤ d) (hfc : Fits rows N chi) :
    ∃ e, withMagnetic d rows mu chi = .ok e ∧
      ∀ x : Fin d → ℕ, tensorAt rows (toMatrixField d e) x = (fun r c => bval mu (0 :: 0 :: List.ofFn x) + scalarMeaning chi x rows r c) := by
  obtain ⟨b, hb, hfb, hbt, hbv⟩ := eye_mul hc hfc
  obtain ⟨e, he, -⟩ := bop_exists (· + ·) hfm hfb
  obtain ⟨hs, hv⟩ := bop_spec he
  have ht : ¬ hasTensorAxes d mu = true := fun h => by
    obtain ⟨l, hl, h⟩ := (hasTensorAxes_eq d mu).mp h
    rw [hm.2 l hl] at h
    exact absurd h (by decide)
  have hte : TensorForm d rows e := by
    have h := bshapeRev_drop d hs
    have h2 : b.shape.reverse.drop d = [rows, rows] := hbt
    rw [h2] at h
    have hl : (mu.shape.reverse.drop d).length ≤ 2 := by
      rw [List.length_drop, List.length_reverse]
      have := hm.1
      omega
    have ho := hm.2
    unfold TensorForm
    generalize mu.shape.reverse.drop d = s at h hl ho
    match s, hl, ho, h with
    | [], _, _, h => exact (Option.some_inj.mp h).symm
    | [p], _, ho, h =>
      rw [ho p (by simp)] at h
      simp [bshapeRev] at h
      exact h.symm
    | [p, q], _, ho, h =>
      rw [ho p (by simp), ho q (by simp)] at h
      simp [bshapeRev] at h
      exact h.symm
  refine ⟨e, ?_, fun x => ?_⟩
  · unfold withMagnetic
    rw [if_neg ht]
    change ((bop (· * ·) (eye d rows) chi) >>= fun chi => bop (· + ·) mu chi) = _
    rw [hb]
    exact he
  · rw [C85_tensor rows e hte x]
    funext r c
    unfold tensorMeaning
    rw [hv, scalar_value hm]
    congr 1
    exact congrFun (congrFun (hbv x) r) c

/-- **C85.** In a scalar calculation, a magnetic boundary adds its susceptibility to a permeability in scalar form. -/
theorem C85_magnetic_one (N : Fin d → ℕ) (mu chi : Arr ℂ) (hm : ScalarForm d mu) (hfm : Fits 1 N mu)
    (hc : chi.shape.length ≤ d) (hfc : Fits 1 N chi) :
    ∃ e, withMagnetic d 1 mu chi = .ok e ∧
      ∀ x : Fin d → ℕ, tensorAt 1 (toMatrixField d e) x = scalarMeaning mu x 1 + scalarMeaning chi x 1 := by
  obtain ⟨e, h1, h2⟩ := magnetic_scalar 1 N mu chi hm hfm hc hfc
  refine ⟨e, h1, fun x => (h2 x).trans ?_⟩
  funext r c
  rw [Matrix.add_apply]
  congr 1
  unfold scalarMeaning
  rw [Matrix.smul_apply, Matrix.one_apply, if_pos (Subsingleton.elim _ _), smul_eq_mul, mul_one]

/-- **C85 is violated**: in a vectorial calculation with a magnetic boundary, a permeability that is given as a number for each point, as the default
1.0 is, becomes a matrix with this number in all its elements, also inside the boundary, where the susceptibility is 0: there it is not this
multiple of the identity, and it can not be inverted. -/
theorem C85_magnetic_violates (N : Fin d → ℕ) (mu chi : Arr ℂ) (hm : ScalarForm d mu) (hfm : Fits 3 N mu)
    (hc : chi.shape.length ≤ d) (hfc : Fits 3 N chi) :
    ∃ e, withMagnetic d 3 mu chi = .ok e ∧
      ∀ x : Fin d → ℕ, bval mu (0 :: 0 :: List.ofFn x) ≠ 0 →
        tensorAt 3 (toMatrixField d e) x ≠ scalarMeaning mu x 3 + scalarMeaning chi x 3 ∧
        (bval chi (0 :: 0 :: List.ofFn x) = 0 → Matrix.det (Matrix.of (tensorAt 3 (toMatrixField d e) x)) = 0) := by
  obtain ⟨e, h1, h2⟩ := magnetic_scalar 3 N mu chi hm hfm hc hfc
  refine ⟨e, h1, fun x hx => ⟨fun h => ?_, fun h0 => ?_⟩⟩
  · rw [h2 x] at h
    have h01 := congrFun (congrFun h 0) 1
    rw [Matrix.add_apply, add_left_inj] at h01
    unfold scalarMeaning at h01
    rw [Matrix.smul_apply, Matrix.one_apply, if_neg (by decide), smul_zero] at h01
    exact hx h01
  · rw [h2 x]
    apply Matrix.det_zero_of_row_eq (i := 0) (j := 1) (by decide)
    funext c
    simp only [Matrix.of_apply]
    unfold scalarMeaning
    rw [h0]
    simp

/-! ### C84: the source -/

/-- **C84.** The argument `vectorial` decides on a vectorial calculation when it is given. -/
theorem C84_explicit (a : Args) (N : List ℕ) (factor : ℂ) (v : Bool) (h : a.vectorial = some v) : a.isVectorial N factor = v := by
  unfold Args.isVectorial Args.resolve
  rw [h]
  cases a.source with
  | some s => rfl
  | none =>
    cases a.current with
    | some j => rfl
    | none => rfl

/-- **C84.** Without any source the calculation is vectorial by default, with a source that is 0 and has the shape of the vector field; a scalar
calculation can be asked for. -/
theorem C84_none (a : Args) (N : List ℕ) (factor : ℂ) (hs : a.source = none) (hc : a.current = none) :
    a.isVectorial N factor = a.vectorial.getD true ∧ (a.resolve N factor).2.shape = (if a.vectorial.getD true then 3 else 1) :: N ∧
      ∀ i, (a.resolve N factor).2.val i = 0 := by
  unfold Args.isVectorial Args.resolve
  rw [hs, hc]
  exact ⟨rfl, rfl, fun i => zero_mul _⟩

/-- **C84.** A current density has the same effect as the source distribution with that factor. -/
theorem C84_current (a : Args) (N : List ℕ) (factor : ℂ) (j : Arr ℂ) (hs : a.source = none) (hc : a.current = some j) :
    a.resolve N factor = Args.resolve ⟨a.vectorial, none, some ⟨j.shape, fun i => factor * j.val i⟩⟩ N factor := by
  unfold Args.resolve
  rw [hs, hc]
  simp only [mul_comm factor]

/-- **C84.** A source distribution is used as it is, also if a current density is specified too. -/
theorem C84_source (a : Args) (N : List ℕ) (factor : ℂ) (s : Arr ℂ) (hs : a.source = some s) : a.resolve N factor = (a.vectorial, s) := by
  unfold Args.resolve
  rw [hs]

/-- **C84.** If `vectorial` is not specified, then the calculation is vectorial exactly if the source has more axes than the grid and three
components along the first one. -/
theorem C84_vectorial (a : Args) (N : List ℕ) (factor : ℂ) (s : Arr ℂ) (hv : a.vectorial = none)
    (hs : a.source = some s ∨ (a.source = none ∧ ∃ j, a.current = some j ∧ j.shape = s.shape)) :
    (a.isVectorial N factor = true ↔ ∃ t, s.shape = 3 :: t ∧ N.length ≤ t.length) := by
  have key : ∀ l : List ℕ, ((decide (N.length < l.length) && l.headD 0 == 3) = true ↔ ∃ t, l = 3 :: t ∧ N.length ≤ t.length) := by
    intro l
    cases l with
    | nil => simp
    | cons m t =>
      simp only [List.length_cons, List.headD_cons, Bool.and_eq_true, decide_eq_true_eq, beq_iff_eq, List.cons.injEq]
      constructor
      · exact fun h => ⟨t, ⟨h.2, rfl⟩, Nat.lt_succ_iff.mp h.1⟩
      · rintro ⟨t', ⟨h1, rfl⟩, h2⟩
        exact ⟨Nat.lt_succ_of_le h2, h1⟩
  unfold Args.isVectorial Args.resolve
  rcases hs with hs | ⟨hs, j, hj, e⟩
  · rw [hs, hv]
    exact key s.shape
  · rw [hs, hj, hv, ← e]
    exact key j.shape

/-- **C84.** In particular, arrays with the documented shapes for vector fields make it vectorial, and those for scalar fields do not. -/
theorem C84_documented (a : Args) (N : List ℕ) (factor : ℂ) (s : Arr ℂ) (hv : a.vectorial = none) (hs : a.source = some s) :
    (s.shape = 3 :: N ∨ s.shape = 3 :: 1 :: N → a.isVectorial N factor = true) ∧
    (s.shape = N ∨ s.shape = [] ∨ s.shape = 1 :: N ∨ s.shape = 1 :: 1 :: N → a.isVectorial N factor = false) := by
  have key := C84_vectorial a N factor s hv (Or.inl hs)
  constructor
  · rintro (h | h)
    · exact key.mpr ⟨_, h, le_refl _⟩
    · exact key.mpr ⟨_, h, Nat.le_succ _⟩
  · intro h
    rw [← Bool.not_eq_true, key]
    rintro ⟨t, e, hl⟩
    rcases h with h | h | h | h
    · have := congrArg List.length (h.symm.trans e)
      rw [List.length_cons] at this
      omega
    · exact absurd (h.symm.trans e) (List.cons_ne_nil _ _).symm
    · exact absurd (List.cons.inj (h.symm.trans e)).1 (by decide)
    · exact absurd (List.cons.inj (h.symm.trans e)).1 (by decide)

/-- **C84.** The iteration uses the source that `Solution` was constructed with if it can be broadcast to the shape of the field, multiplied by the
normalization, and it raises if not. -/
theorem C84_construct (rows : ℕ) (N : Fin d → ℕ) (factor : ℂ) (s : Arr ℂ) :
    ∃ f, setSource rows N factor none s = .ok f ∧
      ((CanBroadcast (toMatrixField d s) (full rows N) ∧ ∃ v, addedSource rows N f = .ok v ∧ ∀ i, v i = broadcast (toMatrixField d s) i * factor) ∨
       (¬ CanBroadcast (toMatrixField d s) (full rows N) ∧ addedSource rows N f = .error .valueError)) := by
  refine ⟨_, rfl, ?_⟩
  by_cases h : CanBroadcast (toMatrixField d s) (full rows N)
  · exact Or.inl ⟨h, _, if_pos h, fun i => rfl⟩
  · exact Or.inr ⟨h, if_neg h⟩

/-- `to_matrix_field` does not transpose twice. -/
theorem toMatrixField_column (s : Arr ℂ) : ¬ ((toMatrixField d s).shape 0 = 1 ∧ 1 < (toMatrixField d s).shape 1) := by
  unfold toMatrixField
  dsimp only
  split_ifs with h
  · change ¬ (swap01 (expand d s).shape 0 = 1 ∧ 1 < swap01 (expand d s).shape 1)
    unfold swap01
    simp only [Function.comp, Equiv.swap_apply_left, Equiv.swap_apply_right]
    omega
  · exact h

/-- The array that the setter assigns. -/
theorem scaled_field (factor : ℂ) (s : Arr ℂ) :
    toMatrixField d (⟨List.ofFn (toMatrixField d s).shape, fun i => (toMatrixField d s).val (fun a => i.getD a 0) * factor⟩ : Arr ℂ) =
      ⟨(toMatrixField d s).shape, fun i => (toMatrixField d s).val i * factor⟩ := by
  obtain ⟨h1, h2⟩ := (C30_full_rank (d := d) (⟨List.ofFn (toMatrixField d s).shape, fun i => (toMatrixField d s).val (fun a => i.getD a 0) * factor⟩ : Arr ℂ)
    (toMatrixField d s).shape rfl).1 (toMatrixField_column s)
  generalize toMatrixField d (⟨List.ofFn (toMatrixField d s).shape, fun i => (toMatrixField d s).val (fun a => i.getD a 0) * factor⟩ : Arr ℂ) = g at h1 h2
  obtain ⟨gs, gv⟩ := g
  simp only at h1 h2
  subst h1
  congr 1
  funext i
  rw [h2]
  congr 2
  funext a
  rw [List.getD_eq_getElem?_getD, List.getElem?_ofFn]
  simp

/-- **C84 (partial).** Once the stored source has the full shape, any source that can be broadcast to it replaces it, and the iteration uses it,
multiplied by the normalization.  Missing: `Solution` stores a smaller array if it was constructed with one, see `C84_replace_violates`. -/
theorem C84_replace_partial (rows : ℕ) (N : Fin d → ℕ) (factor : ℂ) (stored : Field d ℂ) (hst : stored.shape = full rows N) (s : Arr ℂ)
    (h : CanBroadcast (toMatrixField d s) (full rows N)) :
    ∃ f v, setSource rows N factor (some stored) s = .ok f ∧ f.shape = full rows N ∧ addedSource rows N f = .ok v ∧
      ∀ i, InShape (full rows N) i → v i = broadcast (toMatrixField d s) i * factor := by
  obtain ⟨w, hw, hv⟩ := C30_broadcast_partial rows N
    (⟨List.ofFn (toMatrixField d s).shape, fun i => (toMatrixField d s).val (fun a => i.getD a 0) * factor⟩ : Arr ℂ)
    (by rw [scaled_field]; exact h)
  refine ⟨⟨full rows N, w⟩, fun i => w fun a => if full rows N a = 1 then 0 else i a, ?_, rfl, if_pos fun a => Or.inl rfl, fun i hi => ?_⟩
  · unfold setSource
    dsimp only
    rw [hst, hw]
    rfl
  · have hi' : (fun a => if full rows N a = 1 then 0 else i a) = i := by
      funext a
      have := hi a
      split_ifs with h1
      · omega
      · rfl
    change w (fun a => if full rows N a = 1 then 0 else i a) = _
    rw [hi', hv i hi, scaled_field]
    rfl

/-- **C84 (partial).** After any sequence of replacements, the iteration uses the last source. -/
theorem C84_history_partial (rows : ℕ) (N : Fin d → ℕ) (factor : ℂ) (s : Arr ℂ) (hs : (toMatrixField d s).shape = full rows N)
    (l : List (Arr ℂ)) (hl : ∀ a ∈ l, CanBroadcast (toMatrixField d a) (full rows N)) :
    ∃ f v, ((setSource rows N factor none s) >>= fun f => l.foldlM (fun f a => setSource rows N factor (some f) a) f) = .ok f ∧
      addedSource rows N f = .ok v ∧ ∀ i, InShape (full rows N) i → v i = broadcast (toMatrixField d (l.getLastD s)) i * factor := by
  have key : ∀ (l : List (Arr ℂ)) (s : Arr ℂ) (f : Field d ℂ), (∀ a ∈ l, CanBroadcast (toMatrixField d a) (full rows N)) → f.shape = full rows N →
      (∃ v, addedSource rows N f = .ok v ∧ ∀ i, InShape (full rows N) i → v i = broadcast (toMatrixField d s) i * factor) →
      ∃ f' v, l.foldlM (fun f a => setSource rows N factor (some f) a) f = .ok f' ∧
        addedSource rows N f' = .ok v ∧ ∀ i, InShape (full rows N) i → v i = broadcast (toMatrixField d (l.getLastD s)) i * factor := by
    intro l
    induction l with
    | nil =>
      rintro s f - - ⟨v, h⟩
      exact ⟨f, v, rfl, h⟩
    | cons a l ih =>
      intro s f hl hf _
      obtain ⟨g, v, hg, hgs, hgv⟩ := C84_replace_partial rows N factor f hf a (hl a (by simp))
      obtain ⟨f', v', h1, h2⟩ := ih a g (fun b hb => hl b (by simp [hb])) hgs ⟨v, hgv⟩
      refine ⟨f', v', ?_, by rw [List.getLastD_cons]; exact h2⟩
      rw [List.foldlM_cons, hg]
      exact h1
  obtain ⟨f, hf, h⟩ := C84_construct rows N factor s
  cases hf
  have hc : CanBroadcast (toMatrixField d s) (full rows N) := fun a => Or.inl (congrFun hs a)
  rcases h with ⟨-, v, hv, hvv⟩ | ⟨hn, -⟩
  · exact key l s _ hl hs ⟨v, hv, fun i _ => hvv i⟩
  · exact absurd hc hn

/-- **C84 is violated**: if the vectorial calculation was constructed with a source that has a single component, or the calculation on a grid with
more than one point with a number, then the iteration uses it for all components and points, but a source with the documented shape can
not replace it: its assignment raises. -/
theorem C84_replace_violates (rows : ℕ) (N : Fin d → ℕ) (factor : ℂ) (s s' : Arr ℂ) (h : CanBroadcast (toMatrixField d s) (full rows N))
    (hs : (toMatrixField d s).shape ≠ full rows N) (hs' : (toMatrixField d s').shape = full rows N) :
    ∃ f v, setSource rows N factor none s = .ok f ∧ addedSource rows N f = .ok v ∧
      setSource rows N factor (some f) s' = .error .valueError := by
  obtain ⟨f, hf, hc⟩ := C84_construct rows N factor s
  cases hf
  rcases hc with ⟨-, v, hv, -⟩ | ⟨hn, -⟩
  · refine ⟨_, v, rfl, hv, ?_⟩
    have ha : assign rows N (⟨List.ofFn (toMatrixField d s').shape, fun i => (toMatrixField d s').val (fun a => i.getD a 0) * factor⟩ : Arr ℂ)
        (toMatrixField d s).shape = .error .valueError := by
      unfold assign
      dsimp only
      rw [scaled_field]
      have hm : ¬ ((∃ b : Fin d, (toMatrixField d s').shape b.succ.succ ≠ N b) ∨ (toMatrixField d s').shape 0 ≠ rows) := by
        rw [hs']
        rintro (⟨b, hb⟩ | hb)
        · exact hb rfl
        · exact hb rfl
      rw [if_neg hm]
      refine if_neg fun hall => hs ?_
      funext a
      rcases hall a with e | e
      · have e' : (toMatrixField d s').shape a = (toMatrixField d s).shape a := e
        rw [← e', hs']
      · have e' : (toMatrixField d s').shape a = 1 := e
        rw [hs'] at e'
        rcases h a with h1 | h1
        · exact h1
        · rw [h1, e']
    unfold setSource
    dsimp only
    rw [ha]
    rfl
  · exact absurd h hn

/-! ### Examples -/

/-- A vector source on a grid with five points: the calculation is vectorial. -/
example : Args.isVectorial ⟨none, none, some ⟨[3, 5], fun _ => 1⟩⟩ [5] 1 = true :=
  (C84_documented ⟨none, none, some ⟨[3, 5], fun _ => 1⟩⟩ [5] 1 _ rfl rfl).1 (Or.inl rfl)

/-- The number 1 is used for all points, but can not be replaced by a field. -/
example : CanBroadcast (toMatrixField 1 (⟨[], fun _ => 1⟩ : Arr ℂ)) (full 1 ![4]) ∧ (toMatrixField 1 (⟨[], fun _ => 1⟩ : Arr ℂ)).shape ≠ full 1 ![4] ∧
    (toMatrixField 1 (⟨[4], fun _ => 1⟩ : Arr ℂ)).shape = full 1 ![4] := by
  have h1 := (C30_scalar (d := 1) (⟨[], fun _ => 1⟩ : Arr ℂ) rfl).1
  refine ⟨fun a => Or.inr (h1 a), fun h => absurd ((h1 2).symm.trans (congrFun h 2)) (by decide), ?_⟩
  exact (C30_spatial (d := 1) (⟨[4], fun _ => 1⟩ : Arr ℂ) ![4] (by simp)).1

/-- The default permeability and the susceptibility of a boundary along the only axis. -/
example : ScalarForm 1 (⟨[], fun _ => 1⟩ : Arr ℂ) ∧ Fits 3 ![4] (⟨[], fun _ => 1⟩ : Arr ℂ) ∧
    Fits 3 ![4] (⟨[4], fun i => i.getD 0 0⟩ : Arr ℂ) ∧ bval (⟨[], fun _ => 1⟩ : Arr ℂ) [0, 0, 2] ≠ 0 ∧ bval (⟨[4], fun i => i.getD 0 0⟩ : Arr ℂ) [0, 0, 0] = 0 := by
  refine ⟨⟨by simp, by simp⟩, trivial, ⟨Or.inr (by simp), trivial⟩, ?_, ?_⟩
  · simp [bval]
  · simp [bval, bidxRev]

/-- A tensor for each of four points. -/
example : TensorForm 1 3 (⟨[3, 3, 4], fun _ => 1⟩ : Arr ℂ) ∧ Fits 3 ![4] (⟨[3, 3, 4], fun _ => 1⟩ : Arr ℂ) :=
  ⟨rfl, ⟨Or.inr (by simp), Or.inr rfl, Or.inr rfl, trivial⟩⟩

end Verif.Construct
