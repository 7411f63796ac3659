import Verif.Model.MatTransfer
import Verif.Props.MatConvert
import Verif.Props.MatOp

/-!
# Property C112: the methods `inv` and `transfer`, and stacks of scatterers
-/

namespace Verif.Mat

open Matrix Verif.Spec.Mat

variable {n : ℕ}

/-- A matrix object of which the product with a vector is linear. -/
def LinOp.Linear (M : LinOp ℂ) : Prop := ∃ A : Matrix (Fin M.rows) (Fin M.cols) ℂ, ∀ v, M.matvec v = A.mulVec v

/-- Two scatterers on top of each other: the waves in between are shared. -/
structure Stacked {h : ℕ} (w1 w2 w : Waves h) : Prop where
  down : w2.pi = w1.po
  up : w1.ni = w2.no
  pi : w.pi = w1.pi
  no : w.no = w1.no
  po : w.po = w2.po
  ni : w.ni = w2.ni

/-- **C112 (stack).** The product of the transfer matrices of two scatterers is that of the first on top of the second: it relates the waves on both sides precisely when there are waves in between
for which both scatter. -/
theorem C112_stack (hn : n % 2 = 0) {noise : ℝ} (hnoise : noise ≤ 0) {d1 d2 : SVD (n / 2)} {S1 S2 T1 T2 : Matrix (Fin n) (Fin n) ℂ} (h1 : convert false d1 S1 noise = .ok T1)
    (h2 : convert false d2 S2 noise = .ok T2) (w : Waves (n / 2)) : Transfers (T2 * T1) w ↔ ∃ w1 w2, Stacked w1 w2 w ∧ Scatters S1 w1 ∧ Scatters S2 w2 := by
  have e : 2 * (n / 2) = n := by omega
  constructor
  · intro h
    let z := T1.mulVec (joined w.pi w.no)
    have hz : z = joined (fun i => z (at' e 0 i)) (fun i => z (at' e 1 i)) := by
      rw [ext_at' e]
      intro a i
      match a with
      | 0 => exact (joined_at' e (fun i => z (at' e 0 i)) (fun i => z (at' e 1 i)) i).1.symm
      | 1 => exact (joined_at' e (fun i => z (at' e 0 i)) (fun i => z (at' e 1 i)) i).2.symm
    refine ⟨⟨w.pi, fun i => z (at' e 1 i), fun i => z (at' e 0 i), w.no⟩, ⟨fun i => z (at' e 0 i), w.ni, w.po, fun i => z (at' e 1 i)⟩, ⟨rfl, rfl, rfl, rfl, rfl, rfl⟩,
      (C48_relation hn hnoise h1 _).2 hz.symm, (C48_relation hn hnoise h2 _).2 ?_⟩
    unfold Transfers at h ⊢
    rw [h, ← mulVec_mulVec]
    exact congrArg _ hz
  · rintro ⟨w1, w2, hs, hw1, hw2⟩
    have t1 := (C48_relation hn hnoise h1 _).1 hw1
    have t2 := (C48_relation hn hnoise h2 _).1 hw2
    unfold Transfers at *
    rw [hs.po, hs.ni, t2, hs.down, ← hs.up, t1, hs.pi, hs.no, mulVec_mulVec]

/-- **C112 (scattering matrix of a stack).** Its conversion is the scattering matrix of the stack. -/
theorem C112_scattering (hn : n % 2 = 0) {noise : ℝ} (hnoise : noise ≤ 0) {d1 d2 d : SVD (n / 2)} {S1 S2 S T1 T2 : Matrix (Fin n) (Fin n) ℂ} (h1 : convert false d1 S1 noise = .ok T1)
    (h2 : convert false d2 S2 noise = .ok T2) (h : convert false d (T2 * T1) noise = .ok S) (w : Waves (n / 2)) :
    Scatters S w ↔ ∃ w1 w2, Stacked w1 w2 w ∧ Scatters S1 w1 ∧ Scatters S2 w2 := by
  rw [← C112_stack hn hnoise h1 h2 w]
  exact C48_relation hn hnoise (C48_involution hn hnoise (d' := d) h) w

/-- **C112 (resonance).** The scattering matrix of the stack can be calculated unless waves can exist between the scatterers without any from outside, that is, unless a non-zero inward wave from the
bottom leaves nothing to the top. -/
theorem C112_resonance (hn : n % 2 = 0) {noise : ℝ} (hnoise : noise ≤ 0) {d1 d2 : SVD (n / 2)} (d : SVD (n / 2)) {S1 S2 T1 T2 : Matrix (Fin n) (Fin n) ℂ}
    (h1 : convert false d1 S1 noise = .ok T1) (h2 : convert false d2 S2 noise = .ok T2) :
    (∃ S, convert false d (T2 * T1) noise = .ok S) ↔
      ∀ w1 w2 w : Waves (n / 2), Stacked w1 w2 w → Scatters S1 w1 → Scatters S2 w2 → w.pi = 0 → w.ni = 0 → w.no = 0 ∧ w1.po = 0 ∧ w1.ni = 0 := by
  have e : 2 * (n / 2) = n := by omega
  rw [(C48_exists hn hnoise d (T2 * T1)).1, backward_eq e]
  constructor
  · rintro ⟨B, hB⟩ w1 w2 w hs hw1 hw2 hpi hni
    have ht := (C112_stack hn hnoise h1 h2 w).2 ⟨w1, w2, hs, hw1, hw2⟩
    unfold Transfers at ht
    rw [joined_eq_mulVec e, hpi, hni] at ht
    simp only [mulVec_zero, zero_add] at ht
    have h0 : w.no = 0 := by
      have := congrArg B.mulVec ht.2
      rw [mulVec_mulVec, mul_eq_one_comm.1 hB, one_mulVec, mulVec_zero] at this
      exact this.symm
    have t1 := (C48_relation hn hnoise h1 _).1 hw1
    unfold Transfers at t1
    rw [joined_eq_mulVec e, ← hs.pi, ← hs.no, hpi, h0] at t1
    simp only [mulVec_zero, add_zero] at t1
    exact ⟨h0, t1⟩
  · intro h
    by_contra hno
    have hdet : (blk e (T2 * T1) 1 1).det = 0 := by
      by_contra h0
      exact hno ⟨_, Matrix.mul_nonsing_inv _ (isUnit_iff_ne_zero.2 h0)⟩
    obtain ⟨v, hv, hv0⟩ := Matrix.exists_mulVec_eq_zero_iff.2 hdet
    have ht : Transfers (T2 * T1) ⟨0, 0, (blk e (T2 * T1) 0 1).mulVec v, v⟩ := by
      unfold Transfers
      rw [joined_eq_mulVec e]
      simp [hv0]
    obtain ⟨w1, w2, hs, hw1, hw2⟩ := (C112_stack hn hnoise h1 h2 _).1 ht
    exact hv (h w1 w2 _ hs hw1 hw2 rfl rfl).1

/-- **C112 (empty space).** "No scattering, as in vacuum, is indicated by the NxN identity matrix": its transfer matrix is the identity, so that it has no effect in a stack. -/
theorem C112_vacuum (hn : n % 2 = 0) {noise : ℝ} (hnoise : noise ≤ 0) (d : SVD (n / 2)) : convert false d (1 : Matrix (Fin n) (Fin n) ℂ) noise = .ok 1 := by
  have e : 2 * (n / 2) = n := by omega
  have hb : backward (1 : Matrix (Fin n) (Fin n) ℂ) = 1 := by
    ext i j
    by_cases hij : i = j
    · subst hij; simp [backward]
    · have : (⟨n / 2 + i, by omega⟩ : Fin n) ≠ ⟨n / 2 + j, by omega⟩ := fun h => hij (Fin.ext (by simpa using h))
      simp [backward, this, hij]
  obtain ⟨T, hT⟩ := (C48_exists hn hnoise d (1 : Matrix (Fin n) (Fin n) ℂ)).1.2 ⟨1, by rw [hb, Matrix.one_mul]⟩
  rw [hT, ← C48_unique hn hnoise hT (T' := 1) fun w => ?_]
  unfold Scatters Transfers
  rw [one_mulVec, one_mulVec, ext_at' e, ext_at' e]
  constructor
  · intro h a i
    match a with
    | 0 =>
      have := h 0 i
      rw [(joined_at' e _ _ i).1, (joined_at' e _ _ i).1] at this ⊢
      exact this
    | 1 =>
      have := h 1 i
      rw [(joined_at' e _ _ i).2, (joined_at' e _ _ i).2] at this ⊢
      exact this.symm
  · intro h a i
    match a with
    | 0 =>
      have := h 0 i
      rw [(joined_at' e _ _ i).1, (joined_at' e _ _ i).1] at this ⊢
      exact this
    | 1 =>
      have := h 1 i
      rw [(joined_at' e _ _ i).2, (joined_at' e _ _ i).2] at this ⊢
      exact this.symm

/-- **C112 (energy).** If neither of the scatterers absorbs or amplifies, then neither does the stack. -/
theorem C112_lossless (hn : n % 2 = 0) {noise : ℝ} (hnoise : noise ≤ 0) {d1 d2 d : SVD (n / 2)} {S1 S2 S T1 T2 : Matrix (Fin n) (Fin n) ℂ} (h1 : convert false d1 S1 noise = .ok T1)
    (h2 : convert false d2 S2 noise = .ok T2) (h : convert false d (T2 * T1) noise = .ok S) (l1 : ∀ w, Scatters S1 w → power w.po + power w.no = power w.pi + power w.ni)
    (l2 : ∀ w, Scatters S2 w → power w.po + power w.no = power w.pi + power w.ni) (w : Waves (n / 2)) (hw : Scatters S w) :
    power w.po + power w.no = power w.pi + power w.ni := by
  obtain ⟨w1, w2, hs, hw1, hw2⟩ := (C112_scattering hn hnoise h1 h2 h w).1 hw
  have e1 := l1 w1 hw1
  have e2 := l2 w2 hw2
  rw [hs.down, ← hs.up] at e2
  rw [hs.po, hs.no, hs.pi, hs.ni]
  linarith

/-! ### The methods -/

theorem elements_mulVec (M : LinOp ℂ) (hc : Consistent M) (hl : M.Linear) (v : Fin M.cols → ℂ) : M.elements.mulVec v = M.matvec v := by
  obtain ⟨A, hA⟩ := hl
  have e : M.elements = A := by
    ext i j
    show M.asarray.get [i, j] = _
    rw [(C51_columns M hc).2 i j, hA]
    have : (Spec.Mat.single j 1 : Fin M.cols → ℂ) = Pi.single j 1 := by
      funext k
      simp [Spec.Mat.single, Pi.single_apply]
    rw [this]
    simp
  rw [e, hA]

/-- **C112 (transfer).** The matrix that `S.transfer()` returns, for matrices with an array and for operators, relates the waves on both sides precisely when the products with `S` relate the in-
and outward waves. -/
theorem C112_transfer (M : LinOp ℂ) (hc : Consistent M) (hl : M.Linear) (hsq : M.cols = M.rows) (hn : M.rows % 2 = 0) {noise : ℝ} (hnoise : noise ≤ 0) {d : SVD (M.rows / 2)}
    {T : Matrix (Fin M.rows) (Fin M.rows) ℂ} (h : M.transfer hsq d noise = .ok T) (w : Waves (M.rows / 2)) :
    joined w.po w.no = M.matvec (fun j => joined w.pi w.ni (j.cast hsq)) ↔ Transfers T w := by
  rw [← C48_relation hn hnoise h w, ← elements_mulVec M hc hl]
  unfold Scatters
  rw [show (M.elements.submatrix id (Fin.cast hsq.symm)).mulVec (joined w.pi w.ni) = M.elements.mulVec (fun j => joined w.pi w.ni (j.cast hsq)) from ?_]
  funext i
  unfold Matrix.mulVec dotProduct
  exact Fintype.sum_equiv (finCongr hsq.symm) _ _ fun j => rfl

/-- **C112 (inverse).** Without a noise level, `S.inv()` of a square matrix object inverts its product with vectors, on both sides; and it raises a ValueError if and only if there is no inverse. -/
theorem C112_inverse (M : LinOp ℂ) (hc : Consistent M) (hl : M.Linear) (hsq : M.cols = M.rows) {noise : ℝ} (hnoise : noise ≤ 0) (s : SVD M.rows) :
    (∀ B, M.inverse s noise = .ok B → (∀ v, M.matvec (B.mulVec v) = v) ∧ ∀ v, B.mulVec (M.matvec v) = v) ∧
    (M.inverse s noise = .error .valueError ↔ ¬ Function.Bijective M.matvec) := by
  have he := elements_mulVec M hc hl
  unfold LinOp.inverse
  generalize M.elements = E at he
  clear hc hl
  obtain ⟨r, c, arr, mv⟩ := M
  dsimp only at *
  subst hsq
  have hm : mv = E.mulVec := funext fun v => (he v).symm
  rw [C49_square, hm]
  rcases C49_exact hnoise E s with ⟨B, hB, h1, h2⟩ | ⟨hB, hno⟩
  · have k1 : ∀ v, E.mulVec (B.mulVec v) = v := fun v => by rw [mulVec_mulVec, h1, one_mulVec]
    have k2 : ∀ v, B.mulVec (E.mulVec v) = v := fun v => by rw [mulVec_mulVec, h2, one_mulVec]
    refine ⟨fun B' hB' => ?_, ?_⟩
    · rw [hB] at hB'
      cases hB'
      exact ⟨k1, k2⟩
    · rw [hB]
      refine ⟨(by intro h; cases h), fun h => absurd ?_ h⟩
      exact Function.bijective_iff_has_inverse.2 ⟨B.mulVec, k2, k1⟩
  · refine ⟨fun B' hB' => ?_, ?_⟩
    · rw [hB] at hB'
      cases hB'
    · refine ⟨fun _ hbij => hno ?_, fun _ => hB⟩
      choose f hf using hbij.2
      refine ⟨.of fun i j => f (Pi.single j 1) i, ?_⟩
      ext i j
      have := congrFun (hf (Pi.single j 1)) i
      rw [Matrix.mul_apply]
      simp only [of_apply, Matrix.one_apply]
      rw [show (if i = j then (1 : ℂ) else 0) = (Pi.single j 1 : Fin _ → ℂ) i by rw [Pi.single_apply], ← this]
      rfl

/-- For matrices with an array, the methods are the functions of the same name. -/
theorem transfer_literal (a : Fin n → Fin n → ℂ) (d : SVD (n / 2)) (noise : ℝ) : (LinOp.literal a).transfer rfl d noise = convert false d (.of a) noise := by
  have e : (LinOp.literal a).elements.submatrix id (Fin.cast rfl) = (.of a : Matrix (Fin n) (Fin n) ℂ) := by
    ext i j
    show (if h : (i : ℕ) < n ∧ (j : ℕ) < n then a ⟨i, h.1⟩ ⟨j, h.2⟩ else 0) = _
    exact dif_pos ⟨i.2, j.2⟩
  exact congrArg (fun z => convert false d z noise) e

/-! ### Examples -/

/-- Two mirrors that transmit all the power of the waves but for their reflections: the scattering matrix of one mode. -/
noncomputable def mirror : Matrix (Fin 2) (Fin 2) ℂ := .of ![![3 / 5, 4 / 5 * Complex.I], ![4 / 5 * Complex.I, 3 / 5]]

theorem backward_mirror : backward mirror * (Matrix.of fun _ _ => 5 / 3) = 1 := by
  ext i j
  have hi : i = ⟨0, by decide⟩ := Fin.ext (by have := i.2; simp at this; omega)
  have hj : j = ⟨0, by decide⟩ := Fin.ext (by have := j.2; simp at this; omega)
  subst hi hj
  simp [backward, mirror, Matrix.mul_apply]

example (d : SVD 1) : ∃ T, convert false d mirror 0 = .ok T ∧ ∀ w, Transfers (T * T) w ↔ ∃ w1 w2, Stacked w1 w2 w ∧ Scatters mirror w1 ∧ Scatters mirror w2 := by
  obtain ⟨T, hT⟩ := (C48_exists (n := 2) rfl le_rfl d mirror).1.2 ⟨_, backward_mirror⟩
  exact ⟨T, hT, C112_stack rfl le_rfl hT hT⟩

/-- The hypotheses of C112_transfer hold for all matrices with an array. -/
example (hn : n % 2 = 0) (a : Fin n → Fin n → ℂ) (d : SVD (n / 2)) (T : Matrix (Fin n) (Fin n) ℂ) (hT : convert false d (.of a) 0 = .ok T) (w : Waves (n / 2)) :
    joined w.po w.no = (LinOp.literal a).matvec (joined w.pi w.ni) ↔ Transfers T w :=
  C112_transfer (LinOp.literal a) (fun a ha => by cases ha; rfl) ⟨.of a, fun v => rfl⟩ rfl hn le_rfl (d := d) ((transfer_literal _ d 0).trans hT) w

end Verif.Mat
