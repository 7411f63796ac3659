import Verif.Model.MatrixField

/-!
# C28: the matrix-field algebra treats scalars as multiples of the identity
-/

set_option linter.unusedSectionVars false

namespace Verif.MatrixField

open Verif Matrix

variable {X : Type} {n : ℕ}

/-- The array stands for this field of matrices: either entry by entry, or as a scalar that multiplies the identity. -/
def Rep (a : MF X) (A : X → Matrix (Fin n) (Fin n) ℂ) : Prop :=
  (a.rows = n ∧ a.cols = n ∧ ∀ x i j, A x i j = a.val i j x) ∨
  (a.rows = 1 ∧ a.cols = 1 ∧ ∀ x, A x = a.val 0 0 x • (1 : Matrix (Fin n) (Fin n) ℂ))

/-- The array stands for this field of vectors. -/
def RepVec (a : MF X) (v : X → Fin n → ℂ) : Prop := a.rows = n ∧ a.cols = 1 ∧ ∀ x i, v x i = a.val i 0 x

/-! ### Lemmas -/

theorem bLen_self (a : ℕ) : bLen a a = .ok a := by simp [bLen]
theorem bLen_one_left (a : ℕ) : bLen 1 a = .ok a := by unfold bLen; split_ifs <;> simp_all
theorem bLen_one_right (a : ℕ) : bLen a 1 = .ok a := by unfold bLen; split_ifs <;> simp_all

/-- A matrix that is not a scalar. -/
structure Full (a : MF X) (A : X → Matrix (Fin n) (Fin n) ℂ) : Prop where
  rows : a.rows = n
  cols : a.cols = n
  val : ∀ x i j, A x i j = a.val i j x

/-- A scalar. -/
structure Scal (a : MF X) (A : X → Matrix (Fin n) (Fin n) ℂ) : Prop where
  rows : a.rows = 1
  cols : a.cols = 1
  val : ∀ x, A x = a.val 0 0 x • (1 : Matrix (Fin n) (Fin n) ℂ)

/-- Either it is a scalar for the code, or it is a matrix and more than 1 × 1. -/
theorem Rep.cases {a : MF X} {A : X → Matrix (Fin n) (Fin n) ℂ} (h : Rep a A) :
    (a.isScalar = true ∧ Scal a A) ∨ (a.isScalar = false ∧ n ≠ 1 ∧ Full a A) := by
  rcases h with ⟨h1, h2, h3⟩ | ⟨h1, h2, h3⟩
  · by_cases hn : n = 1
    · left
      subst hn
      refine ⟨by simp [MF.isScalar, h1, h2], h1, h2, fun x => ?_⟩
      ext i j
      have hi : i = 0 := Subsingleton.elim _ _
      have hj : j = 0 := Subsingleton.elim _ _
      subst hi; subst hj
      simp [h3]
    · right
      exact ⟨by simp [MF.isScalar, h1, hn], hn, h1, h2, h3⟩
  · left
    exact ⟨by simp [MF.isScalar, h1, h2], h1, h2, h3⟩

theorem Full.rep {a : MF X} {A : X → Matrix (Fin n) (Fin n) ℂ} (h : Full a A) : Rep a A := .inl ⟨h.rows, h.cols, h.val⟩
theorem Scal.rep {a : MF X} {A : X → Matrix (Fin n) (Fin n) ℂ} (h : Scal a A) : Rep a A := .inr ⟨h.rows, h.cols, h.val⟩

theorem bIdx_one (i : ℕ) : bIdx 1 i = 0 := rfl
theorem bIdx_ne {len : ℕ} (h : len ≠ 1) (i : ℕ) : bIdx len i = i := if_neg h

theorem einsum_eq {a b : MF X} {l : ℕ} (h1 : a.cols = l) (h2 : b.rows = l) : einsum a b = .ok ⟨a.rows, b.cols,
      fun i k x => ∑ j ∈ Finset.range l, a.val i (bIdx l j) x * b.val (bIdx l j) k x⟩ := by
  simp only [einsum, h1, h2, bLen_self]; rfl

theorem scalar_elementwise {op : ℂ → ℂ → ℂ} {a v : MF X} (h1 : a.rows = 1) (h2 : a.cols = 1) :
    elementwise op a v = .ok ⟨v.rows, v.cols,
      fun i j x => op (a.val 0 0 x) (v.val (bIdx v.rows i) (bIdx v.cols j) x)⟩ := by
  simp only [elementwise, h1, h2, bLen_one_left]; rfl

/-- Multiplying the identity with a scalar gives its matrix. -/
theorem eye_mul {a : MF X} {A : X → Matrix (Fin n) (Fin n) ℂ} (h : Scal a A) :
    ∃ r, elementwise (· * ·) (eye n) a = .ok r ∧ Full r A := by
  refine ⟨_, by simp only [elementwise, eye, h.rows, h.cols, bLen_one_right]; rfl, rfl, rfl, fun x i j => ?_⟩
  simp only [h.val x, bIdx_one, Matrix.smul_apply, Matrix.one_apply, smul_eq_mul]
  by_cases hn : n = 1
  · subst hn
    have hi : i = 0 := Subsingleton.elim _ _
    have hj : j = 0 := Subsingleton.elim _ _
    subst hi; subst hj; simp
  · simp only [bIdx_ne hn, Fin.ext_iff]
    split_ifs <;> simp

/-! ### C28 -/

/-- **C28.** `mul` is the pointwise matrix product of what the operands stand for, whichever is scalar. -/
theorem C28_mul {a b : MF X} {A B : X → Matrix (Fin n) (Fin n) ℂ} (ha : Rep a A) (hb : Rep b B) :
    ∃ r, mul a b = .ok r ∧ Rep r (fun x => A x * B x) := by
  rcases ha.cases with ⟨sa, ha⟩ | ⟨sa, hn, ha⟩ <;> rcases hb.cases with ⟨sb, hb⟩ | ⟨sb, hn', hb⟩
  · refine ⟨_, by simp only [mul, sa, sb, Bool.or_self, if_true, elementwise, ha.rows, ha.cols, hb.rows, hb.cols, bLen_self]; rfl,
      Scal.rep ⟨rfl, rfl, fun x => ?_⟩⟩
    simp only [ha.val, hb.val, bIdx_one, Matrix.smul_mul, Matrix.one_mul, smul_smul]
  · refine ⟨_, by simp only [mul, sa, Bool.true_or, if_true, elementwise, ha.rows, ha.cols, hb.rows, hb.cols, bLen_one_left]; rfl,
      Full.rep ⟨rfl, rfl, fun x i j => ?_⟩⟩
    simp only [ha.val, bIdx_one, bIdx_ne hn', Matrix.smul_mul, Matrix.one_mul, Matrix.smul_apply, smul_eq_mul, hb.val]
  · refine ⟨_, by simp only [mul, sb, Bool.or_true, if_true, elementwise, ha.rows, ha.cols, hb.rows, hb.cols, bLen_one_right]; rfl,
      Full.rep ⟨rfl, rfl, fun x i j => ?_⟩⟩
    simp only [hb.val, bIdx_one, bIdx_ne hn, Matrix.mul_smul, Matrix.mul_one, Matrix.smul_apply, smul_eq_mul, ha.val, mul_comm]
  · have e : mul a b = _ := (if_neg (by simp [sa, sb])).trans (einsum_eq ha.cols hb.rows)
    refine ⟨_, e, Full.rep ⟨ha.rows, hb.cols, fun x i j => ?_⟩⟩
    simp only [Matrix.mul_apply, bIdx_ne hn, ha.val, hb.val]
    exact Fin.sum_univ_eq_sum_range (fun l => a.val i l x * b.val l j x) n

/-- **C28.** `mul` applies the matrix that the left operand stands for to a vector field, also when that is a scalar. -/
theorem C28_mul_vec {a v : MF X} {A : X → Matrix (Fin n) (Fin n) ℂ} {V : X → Fin n → ℂ} (ha : Rep a A) (hv : RepVec v V) :
    ∃ r, mul a v = .ok r ∧ RepVec r (fun x => A x *ᵥ V x) := by
  obtain ⟨v1, v2, v3⟩ := hv
  rcases ha.cases with ⟨sa, ha⟩ | ⟨sa, hn, ha⟩
  · have e : mul a v = _ := (if_pos (by simp [sa])).trans (scalar_elementwise ha.rows ha.cols)
    refine ⟨_, e, v1, v2, fun x i => ?_⟩
    have hi : bIdx v.rows i = i := by
      rw [v1]; unfold bIdx; split_ifs with h
      · subst h; omega
      · rfl
    simp only [ha.val, hi, v2, ha.rows, ha.cols, bIdx_one, Matrix.smul_mulVec, Matrix.one_mulVec, Pi.smul_apply, smul_eq_mul, v3]
  · have sv : v.isScalar = false := by simp [MF.isScalar, v1, hn]
    have e : mul a v = _ := (if_neg (by simp [sa, sv])).trans (einsum_eq ha.cols v1)
    refine ⟨_, e, ha.rows, v2, fun x i => ?_⟩
    simp only [Matrix.mulVec, dotProduct, bIdx_ne hn, ha.val, v3]
    exact Fin.sum_univ_eq_sum_range (fun l => a.val i l x * v.val l 0 x) n

/-- **C28.** With `out` the same array as the right factor, `mul` leaves the product in it. -/
theorem C28_mul_out_partial {a v : MF X} {A : X → Matrix (Fin n) (Fin n) ℂ} {V : X → Fin n → ℂ} (ha : Rep a A) (hv : RepVec v V) :
    ∃ r, mulOut a v v = .ok r ∧ RepVec r (fun x => A x *ᵥ V x) := by
  have hv' := hv
  obtain ⟨v1, v2, v3⟩ := hv
  rcases ha.cases with ⟨sa, ha⟩ | ⟨sa, hn, ha⟩
  · have e : elementwise (· * ·) v a = .ok ⟨v.rows, v.cols,
      fun i j x => v.val (bIdx v.rows i) (bIdx v.cols j) x * a.val (bIdx a.rows i) (bIdx a.cols j) x⟩ := by
      simp only [elementwise, ha.rows, ha.cols, bLen_one_right]; rfl
    have e' : mulOut a v v = elementwise (· * ·) v a := by
      simp only [mulOut, sa, Bool.true_or, if_true, e, and_self]
    rw [e', e]
    refine ⟨_, rfl, v1, v2, fun x i => ?_⟩
    have hi : bIdx v.rows i = i := by
      rw [v1]; unfold bIdx; split_ifs with h
      · subst h; omega
      · rfl
    simp only [ha.val, hi, v2, ha.rows, ha.cols, bIdx_one, Matrix.smul_mulVec, Matrix.one_mulVec, Pi.smul_apply, smul_eq_mul, v3, mul_comm]
  · have sv : v.isScalar = false := by simp [MF.isScalar, v1, hn]
    obtain ⟨r, hr, q1, q2, q3⟩ := C28_mul_vec ha.rep hv'
    simp only [mul, sa, sv, Bool.or_self, Bool.false_eq_true, if_false] at hr
    refine ⟨r, ?_, q1, q2, q3⟩
    simp only [mulOut, sa, sv, Bool.or_self, Bool.false_eq_true, if_false, hr]
    rw [if_pos ⟨q1.trans v1.symm, q2.trans v2.symm⟩]

/-- **C28 is violated** when `out` is another array and a factor is scalar: the right factor is ignored and the previous contents of `out` are
used instead. -/
theorem C28_mul_out_violates : ∃ a b out r : MF Unit, mulOut a b out = .ok r ∧ a.isScalar = true ∧
    out.rows = b.rows ∧ out.cols = b.cols ∧ (∃ p, mul a b = .ok p ∧ p.val 0 0 () ≠ r.val 0 0 ()) := by
  refine ⟨ofScalar fun _ => 2, ofScalar fun _ => 3, ofScalar fun _ => 0, _, by rfl, by rfl, rfl, rfl, _, by rfl, ?_⟩
  simp [ofScalar]

/-- **C28.** `subtract` is the pointwise difference of what the operands stand for. -/
theorem C28_subtract {a b : MF X} {A B : X → Matrix (Fin n) (Fin n) ℂ} (ha : Rep a A) (hb : Rep b B) :
    ∃ r, subtract n a b = .ok r ∧ Rep r (fun x => A x - B x) := by
  have full : ∀ {a b : MF X} {A B : X → Matrix (Fin n) (Fin n) ℂ}, Full a A → Full b B →
      ∃ r, elementwise (· - ·) a b = .ok r ∧ Rep r (fun x => A x - B x) := by
    intro a b A B ha hb
    refine ⟨_, by simp only [elementwise, ha.rows, ha.cols, hb.rows, hb.cols, bLen_self]; rfl, Full.rep ⟨rfl, rfl, fun x i j => ?_⟩⟩
    have hi : ∀ i : Fin n, bIdx n i = i := by
      intro i; unfold bIdx; split_ifs with h
      · subst h; omega
      · rfl
    simp only [hi, Matrix.sub_apply, ha.val, hb.val]
  rcases ha.cases with ⟨sa, ha⟩ | ⟨sa, hn, ha⟩ <;> rcases hb.cases with ⟨sb, hb⟩ | ⟨sb, hn', hb⟩
  · refine ⟨_, by simp only [subtract, sa, sb, Bool.not_true, Bool.or_self, Bool.false_eq_true, if_false, elementwise, ha.rows, ha.cols,
      hb.rows, hb.cols, bLen_self]; rfl, Scal.rep ⟨rfl, rfl, fun x => ?_⟩⟩
    simp only [ha.val, hb.val, bIdx_one, sub_smul]
  · obtain ⟨p, hp, fp⟩ := eye_mul ha
    obtain ⟨r, hr, q⟩ := full fp hb
    refine ⟨r, ?_, q⟩
    simp only [subtract, sa, sb, Bool.not_true, Bool.not_false, Bool.or_true, if_true, Bool.false_eq_true, if_false, hp]
    exact hr
  · obtain ⟨p, hp, fp⟩ := eye_mul hb
    obtain ⟨r, hr, q⟩ := full ha fp
    refine ⟨r, ?_, q⟩
    simp only [subtract, sa, sb, Bool.not_true, Bool.not_false, Bool.true_or, if_true, Bool.false_eq_true, if_false, hp]
    exact hr
  · obtain ⟨r, hr, q⟩ := full ha hb
    refine ⟨r, ?_, q⟩
    simp only [subtract, sa, sb, Bool.not_false, Bool.true_or, if_true, Bool.false_eq_true, if_false]
    exact hr

/-- **C28.** `adjoint` is the conjugate transpose. -/
theorem C28_adjoint {a : MF X} {A : X → Matrix (Fin n) (Fin n) ℂ} (ha : Rep a A) : Rep (adjoint a) (fun x => (A x)ᴴ) := by
  rcases ha with ⟨h1, h2, h3⟩ | ⟨h1, h2, h3⟩
  · exact .inl ⟨h2, h1, fun x i j => by simp [Matrix.conjTranspose_apply, h3, adjoint]⟩
  · refine .inr ⟨h2, h1, fun x => ?_⟩
    change (A x)ᴴ = _
    rw [h3, Matrix.conjTranspose_smul, Matrix.conjTranspose_one]; rfl

theorem rep_toMatrix {a : MF X} {A : X → Matrix (Fin n) (Fin n) ℂ} (h : Full a A) (x : X) : a.toMatrix n n x = A x := by
  ext i j; exact (h.val x i j).symm

theorem ofMatrix_full (A : X → Matrix (Fin n) (Fin n) ℂ) : Full (ofMatrix A) A :=
  ⟨rfl, rfl, fun x i j => by simp [ofMatrix]⟩

/-- **C28.** `ldivide` multiplies by the inverse of what the denominator stands for, whichever operand is scalar; a scalar numerator for a matrix
denominator must not vary in space. -/
theorem C28_ldivide_partial {a b : MF X} {A B : X → Matrix (Fin n) (Fin n) ℂ} (ha : Rep a A) (hb : Rep b B) (hn0 : 0 < n)
    (hdet : ∀ x, (A x).det ≠ 0) : ∃ r, ldivide a b = .ok r ∧ Rep r (fun x => (A x)⁻¹ * B x) := by
  classical
  rcases ha.cases with ⟨sa, ha⟩ | ⟨sa, hn, ha⟩
  · have hne : ∀ x, a.val 0 0 x ≠ 0 := by
      intro x h0
      have hd := hdet x
      rw [ha.val, h0, zero_smul] at hd
      have : Nonempty (Fin n) := ⟨⟨0, hn0⟩⟩
      exact hd Matrix.det_zero
    have hinv : ∀ x, (A x)⁻¹ = (a.val 0 0 x)⁻¹ • (1 : Matrix (Fin n) (Fin n) ℂ) := by
      intro x
      refine Matrix.inv_eq_right_inv ?_
      rw [ha.val, Matrix.smul_mul, Matrix.one_mul, smul_smul, mul_inv_cancel₀ (hne x), one_smul]
    simp only [ldivide, sa, if_true]
    rw [if_pos hne]
    rcases hb.cases with ⟨sb, hb⟩ | ⟨sb, hn', hb⟩
    · refine ⟨_, by simp only [elementwise, ha.rows, ha.cols, hb.rows, hb.cols, bLen_self]; rfl, Scal.rep ⟨rfl, rfl, fun x => ?_⟩⟩
      simp only [hinv, hb.val, bIdx_one, Matrix.smul_mul, Matrix.one_mul, smul_smul]
      rw [div_eq_inv_mul]
    · refine ⟨_, by simp only [elementwise, ha.rows, ha.cols, hb.rows, hb.cols, bLen_one_right]; rfl, Full.rep ⟨rfl, rfl, fun x i j => ?_⟩⟩
      simp only [hinv, bIdx_one, bIdx_ne hn', Matrix.smul_mul, Matrix.one_mul, Matrix.smul_apply, smul_eq_mul, hb.val]
      rw [div_eq_inv_mul]
  · obtain ⟨ar, ac, av⟩ := a
    have hr : ar = n := ha.rows
    have hc : ac = n := ha.cols
    subst hr
    subst hc
    have hm : ∀ x, (⟨ac, ac, av⟩ : MF X).toMatrix ac ac x = A x := rep_toMatrix ha
    have hnd : ¬ ∃ x, ((⟨ac, ac, av⟩ : MF X).toMatrix ac ac x).det = 0 := by
      rintro ⟨x, hx⟩; rw [hm] at hx; exact hdet x hx
    have fi := ofMatrix_full (X := X) (fun x => (A x)⁻¹)
    simp only [ldivide, sa, Bool.false_eq_true, if_false, ne_eq, not_true_eq_false]
    rw [if_neg hnd]
    simp only [hm]
    rcases hb.cases with ⟨sb, hb⟩ | ⟨sb, hn', hb⟩
    · rw [if_pos sb]
      refine ⟨_, by simp only [elementwise, fi.rows, fi.cols, hb.rows, hb.cols, bLen_one_right]; rfl, Full.rep ⟨rfl, rfl, fun x i j => ?_⟩⟩
      simp only [hb.val, bIdx_one, bIdx_ne hn, Matrix.mul_smul, Matrix.mul_one, Matrix.smul_apply, smul_eq_mul]
      rw [fi.val x i j, mul_comm]
    · rw [if_neg (by simp [sb]), if_neg (by simp [hb.rows])]
      obtain ⟨br, bc, bv⟩ := b
      have hbc : bc = ac := hb.cols
      subst hbc
      exact ⟨_, rfl, by simp only [rep_toMatrix hb]; exact (ofMatrix_full _).rep⟩

/-- **C28.** `inv` is the matrix inverse. -/
theorem C28_inv {a : MF X} {A : X → Matrix (Fin n) (Fin n) ℂ} (ha : Rep a A) (hn0 : 0 < n) (hdet : ∀ x, (A x).det ≠ 0) :
    ∃ r, inv a = .ok r ∧ Rep r (fun x => (A x)⁻¹) := by
  have h1 : Rep (n := n) (ofScalar fun _ : X => 1) (fun _ => 1) := .inr ⟨rfl, rfl, fun x => by simp [ofScalar]⟩
  obtain ⟨r, hr, q⟩ := C28_ldivide_partial ha h1 hn0 hdet
  refine ⟨r, hr, ?_⟩
  simpa using q

/-- **C28 is violated** by `ldivide` for a matrix denominator and a scalar numerator that varies in space: it raises for most grids. -/
theorem C28_ldivide_varying_raises_violates {N : ℕ} (hn : N ≠ n) (h1 : N ≠ 1) (A : Fin N → Matrix (Fin n) (Fin n) ℂ) (f : Fin N → ℂ) :
    ldivideVarying1D A f = .error .valueError := by
  rw [ldivideVarying1D, dif_neg hn, dif_neg h1]

/-- **C28 is violated** silently when the grid happens to have as many points as the matrix has columns: these are multiplied by the
values at different points. -/
theorem C28_ldivide_varying_silent_violates (A : Fin n → Matrix (Fin n) (Fin n) ℂ) (f : Fin n → ℂ) :
    ldivideVarying1D A f = .ok fun x => (A x)⁻¹ * Matrix.diagonal f := by
  rw [ldivideVarying1D, dif_pos rfl]
  congr 1
  funext x i j
  simp [Matrix.mul_apply, Matrix.diagonal_apply]

/-! ### Examples -/

/-- A scalar and a matrix, neither of them trivial. -/
example : Rep (n := 3) (ofScalar fun _ : Unit => 2) (fun _ => 2 • (1 : Matrix (Fin 3) (Fin 3) ℂ)) :=
  .inr ⟨rfl, rfl, fun _ => by simp [ofScalar, two_smul]⟩

example : Rep (n := 2) (ofMatrix fun _ : Unit => !![1, 2; 3, 4]) (fun _ => !![1, 2; 3, 4]) := (ofMatrix_full _).rep

end Verif.MatrixField
