import Verif.Lemmas.MatConvert
import Verif.Props.MatInv

/-!
# Property C48: scattering and transfer matrices convert into each other
-/

namespace Verif.Mat

open Matrix Verif.Spec.Mat

variable {n : ℕ}

theorem inv_exact_ok {h : ℕ} {noise : ℝ} (hn : noise ≤ 0) {A D : Matrix (Fin h) (Fin h) ℂ} {d : SVD h} (hD : inv d A noise = .ok D) : A * D = 1 ∧ D * A = 1 := by
  rcases C49_exact hn A d with ⟨B, h1, h2, h3⟩ | ⟨h1, -⟩
  · rw [h1] at hD
    cases hD
    exact ⟨h2, h3⟩
  · rw [h1] at hD
    cases hD

/-- **C48**: Without noise level, the matrix that `convert` returns relates the waves on both sides precisely when the argument relates the in- and outward waves. -/
theorem C48_relation (hn : n % 2 = 0) {noise : ℝ} (hnoise : noise ≤ 0) {d : SVD (n / 2)} {S T : Matrix (Fin n) (Fin n) ℂ} (h : convert false d S noise = .ok T)
    (w : Waves (n / 2)) : Scatters S w ↔ Transfers T w := by
  have e : 2 * (n / 2) = n := by omega
  obtain ⟨D, hD, h11, h10, h01, h00⟩ := convert_ok e h
  obtain ⟨hAD, hDA⟩ := inv_exact_ok hnoise hD
  unfold Scatters Transfers
  rw [joined_eq_mulVec e, joined_eq_mulVec e, h00, h01, h10, h11]
  constructor
  · rintro ⟨hpo, hno⟩
    have hni : w.ni = (-D * blk e S 1 0).mulVec w.pi + D.mulVec w.no := by
      rw [hno, mulVec_add, mulVec_mulVec, mulVec_mulVec, hDA, one_mulVec, Matrix.neg_mul, neg_mulVec]
      abel
    refine ⟨?_, hni⟩
    conv_lhs => rw [hpo, hni]
    rw [mulVec_add, mulVec_mulVec, mulVec_mulVec, add_mulVec]
    abel
  · rintro ⟨hpo, hni⟩
    have hno : w.no = (blk e S 1 0).mulVec w.pi + (blk e S 1 1).mulVec w.ni := by
      rw [hni, mulVec_add, mulVec_mulVec, mulVec_mulVec, hAD, one_mulVec, ← Matrix.mul_assoc, Matrix.mul_neg, hAD, Matrix.neg_mul, Matrix.one_mul, neg_mulVec]
      abel
    refine ⟨?_, hno⟩
    conv_lhs => rw [hpo]
    conv_rhs => rw [hni, mulVec_add, mulVec_mulVec, mulVec_mulVec]
    rw [add_mulVec]
    abel

/-- **C48**: Without noise level, `convert` returns a matrix when the backward transmission can be inverted, and raises a ValueError otherwise: then no transfer matrix exists. -/
theorem C48_exists (hn : n % 2 = 0) {noise : ℝ} (hnoise : noise ≤ 0) (d : SVD (n / 2)) (S : Matrix (Fin n) (Fin n) ℂ) :
    ((∃ T, convert false d S noise = .ok T) ↔ ∃ B, backward S * B = 1) ∧
      ((∃ T : Matrix (Fin n) (Fin n) ℂ, ∀ w, Scatters S w ↔ Transfers T w) ↔ ∃ B, backward S * B = 1) ∧
      ((¬ ∃ B, backward S * B = 1) → convert false d S noise = .error .valueError) := by
  have e : 2 * (n / 2) = n := by omega
  have h1 : (∃ T, convert false d S noise = .ok T) ↔ ∃ B, backward S * B = 1 := by
    rw [backward_eq e]
    constructor
    · rintro ⟨T, hT⟩
      obtain ⟨D, hD, -⟩ := convert_ok e hT
      exact ⟨D, (inv_exact_ok hnoise hD).1⟩
    · rintro ⟨B, hB⟩
      rcases C49_exact hnoise (blk e S 1 1) d with ⟨D, h2, -⟩ | ⟨-, h2⟩
      · exact (convert_of_inv e).1 D h2
      · exact absurd ⟨B, hB⟩ h2
  refine ⟨h1, ⟨?_, fun h => ?_⟩, fun h => ?_⟩
  · rintro ⟨T, hT⟩
    rw [backward_eq e]
    by_contra hno
    have hdet : (blk e S 1 1).det = 0 := by
      by_contra h0
      exact hno ⟨_, Matrix.mul_nonsing_inv _ (isUnit_iff_ne_zero.2 h0)⟩
    obtain ⟨v, hv, hv0⟩ := Matrix.exists_mulVec_eq_zero_iff.2 hdet
    have h2 := (hT ⟨0, v, (blk e S 0 1).mulVec v, 0⟩).1 (by
      unfold Scatters
      rw [joined_eq_mulVec e]
      simp [hv0])
    unfold Transfers at h2
    rw [joined_eq_mulVec e] at h2
    simp only [mulVec_zero, add_zero] at h2
    exact hv h2.2
  · obtain ⟨T, hT⟩ := h1.2 h
    exact ⟨T, fun w => C48_relation hn hnoise hT w⟩
  · rw [backward_eq e] at h
    rcases C49_exact hnoise (blk e S 1 1) d with ⟨D, h2, h3, -⟩ | ⟨h2, -⟩
    · exact absurd ⟨D, h3⟩ h
    · exact (convert_of_inv e).2 _ h2

/-- **C48**: The matrix that `convert` returns is the only transfer matrix. -/
theorem C48_unique (hn : n % 2 = 0) {noise : ℝ} (hnoise : noise ≤ 0) {d : SVD (n / 2)} {S T T' : Matrix (Fin n) (Fin n) ℂ} (h : convert false d S noise = .ok T)
    (h' : ∀ w, Scatters S w ↔ Transfers T' w) : T' = T := by
  have e : 2 * (n / 2) = n := by omega
  have key : ∀ x y, T'.mulVec (joined x y) = T.mulVec (joined x y) := by
    intro x y
    let u : Fin (n / 2) → ℂ := (blk e T 0 0).mulVec x + (blk e T 0 1).mulVec y
    let v : Fin (n / 2) → ℂ := (blk e T 1 0).mulVec x + (blk e T 1 1).mulVec y
    have h1 : Transfers T ⟨x, v, u, y⟩ := by
      unfold Transfers
      rw [joined_eq_mulVec e]
      exact ⟨rfl, rfl⟩
    have h2 := (h' _).1 ((C48_relation hn hnoise h _).2 h1)
    unfold Transfers at h1 h2
    rw [← h1, ← h2]
  have hall : ∀ z : Fin n → ℂ, T'.mulVec z = T.mulVec z := by
    intro z
    have hz : z = joined (fun i => z (at' e 0 i)) (fun i => z (at' e 1 i)) := by
      rw [ext_at' e]
      intro a i
      match a with
      | 0 => exact (joined_at' e (fun i => z (at' e 0 i)) (fun i => z (at' e 1 i)) i).1.symm
      | 1 => exact (joined_at' e (fun i => z (at' e 0 i)) (fun i => z (at' e 1 i)) i).2.symm
    rw [hz]
    exact key _ _
  ext i j
  have := congrFun (hall (Pi.single j 1)) i
  simpa using this

/-- **C48**: Without noise level, `convert` is its own inverse. -/
theorem C48_involution (hn : n % 2 = 0) {noise : ℝ} (hnoise : noise ≤ 0) {d d' : SVD (n / 2)} {S T : Matrix (Fin n) (Fin n) ℂ} (h : convert false d S noise = .ok T) :
    convert false d' T noise = .ok S := by
  have e : 2 * (n / 2) = n := by omega
  obtain ⟨D, hD, h11, h10, h01, h00⟩ := convert_ok e h
  obtain ⟨hAD, hDA⟩ := inv_exact_ok hnoise hD
  obtain ⟨T', hT'⟩ := (C48_exists hn hnoise d' T).1.2 ⟨blk e S 1 1, by rw [backward_eq e, h11, hDA]⟩
  rw [hT']
  congr 1
  obtain ⟨E, hE, k11, k10, k01, k00⟩ := convert_ok e hT'
  obtain ⟨hDE, hED⟩ := inv_exact_ok hnoise hE
  rw [h11] at hDE hED
  have hES : E = blk e S 1 1 := by
    calc E = (blk e S 1 1 * D) * E := by rw [hAD, Matrix.one_mul]
      _ = blk e S 1 1 := by rw [Matrix.mul_assoc, hDE, Matrix.mul_one]
  apply ext_blk e
  intro a b
  match a, b with
  | 1, 1 => rw [k11, hES]
  | 1, 0 => rw [k10, h10, hES, Matrix.neg_mul, Matrix.neg_mul, Matrix.mul_neg, neg_neg, ← Matrix.mul_assoc, hAD, Matrix.one_mul]
  | 0, 1 => rw [k01, h01, hES, Matrix.mul_assoc, hDA, Matrix.mul_one]
  | 0, 0 =>
    have h3 : -E * blk e T 1 0 = blk e S 1 0 := by
      rw [h10, hES, Matrix.neg_mul, Matrix.neg_mul, Matrix.mul_neg, neg_neg, ← Matrix.mul_assoc, hAD, Matrix.one_mul]
    rw [k00, h3, h00, h01, Matrix.neg_mul, Matrix.mul_neg, Matrix.mul_assoc]
    abel

/-- **C48**: With a noise level, the transfer matrix gives, for the waves on one side, the regularized solution for the inward wave on the other side, and the outward wave that
belongs to it. -/
theorem C48_noise (hn : n % 2 = 0) {noise : ℝ} (hnoise : 0 < noise) {d : SVD (n / 2)} {S : Matrix (Fin n) (Fin n) ℂ} (hd : IsSVD (backward S) d) :
    ∃ T, convert false d S noise = .ok T ∧ ∀ pi no po ni : Fin (n / 2) → ℂ, joined po ni = T.mulVec (joined pi no) ↔
      (∀ x, tikhonov (backward S) noise (no - fun i : Fin (n / 2) => S.mulVec (joined pi 0) ⟨n / 2 + i, by omega⟩) ni ≤
          tikhonov (backward S) noise (no - fun i : Fin (n / 2) => S.mulVec (joined pi 0) ⟨n / 2 + i, by omega⟩) x) ∧
        ∀ i : Fin (n / 2), po i = S.mulVec (joined pi ni) ⟨i, by omega⟩ := by
  have e : 2 * (n / 2) = n := by omega
  obtain ⟨D, hD, hmin⟩ := C49_minimum hnoise hd
  have hD' := hD
  rw [backward_eq e] at hD'
  obtain ⟨T, hT⟩ := (convert_of_inv e).1 D hD'
  obtain ⟨D', hD'', h11, h10, h01, h00⟩ := convert_ok e hT
  rw [hD'] at hD''
  cases hD''
  refine ⟨T, hT, fun pi no po ni => ?_⟩
  rw [joined_eq_mulVec e, h00, h01, h10, h11]
  have hrow1 : (fun i : Fin (n / 2) => S.mulVec (joined pi 0) ⟨n / 2 + i, by omega⟩) = (blk e S 1 0).mulVec pi := by
    funext i
    have : (⟨n / 2 + i, by omega⟩ : Fin n) = at' e 1 i := Fin.ext (by rw [at'_val]; simp [Nat.add_comm])
    rw [this, mulVec_joined]
    simp
  have hrow0 : ∀ i : Fin (n / 2), S.mulVec (joined pi ni) ⟨i, by omega⟩ = ((blk e S 0 0).mulVec pi + (blk e S 0 1).mulVec ni) i := by
    intro i
    have : (⟨i, by omega⟩ : Fin n) = at' e 0 i := Fin.ext (by rw [at'_val]; simp)
    rw [this, mulVec_joined]
  rw [hrow1]
  simp only [hrow0]
  have hsol : D.mulVec (no - (blk e S 1 0).mulVec pi) = (-D * blk e S 1 0).mulVec pi + D.mulVec no := by
    rw [mulVec_sub, mulVec_mulVec, Matrix.neg_mul, neg_mulVec]
    abel
  constructor
  · rintro ⟨hpo, hni⟩
    rw [← hsol] at hni
    refine ⟨fun x => hni ▸ (hmin _ x).1, fun i => ?_⟩
    have hni' : ni = (-D * blk e S 1 0).mulVec pi + D.mulVec no := by rw [hni, hsol]
    rw [hpo, hni', mulVec_add, mulVec_mulVec, mulVec_mulVec, add_mulVec]
    simp only [Pi.add_apply]
    ring
  · rintro ⟨hx, hpo⟩
    have h1 := (hmin (no - (blk e S 1 0).mulVec pi) ni).2 (le_antisymm (hmin _ ni).1 (hx _))
    have hni' : ni = (-D * blk e S 1 0).mulVec pi + D.mulVec no := by rw [h1, hsol]
    refine ⟨?_, hni'⟩
    funext i
    rw [hpo i, hni', mulVec_add, mulVec_mulVec, mulVec_mulVec, add_mulVec]
    simp only [Pi.add_apply]
    ring

/-- **C48**: Without noise level, a scattering matrix conserves the power if and only if its transfer matrix conserves the difference between the power in both directions. -/
theorem C48_power (hn : n % 2 = 0) {noise : ℝ} (hnoise : noise ≤ 0) {d : SVD (n / 2)} {S T : Matrix (Fin n) (Fin n) ℂ} (h : convert false d S noise = .ok T) :
    (∀ w, Scatters S w → power w.po + power w.no = power w.pi + power w.ni) ↔ (∀ w, Transfers T w → power w.po - power w.ni = power w.pi - power w.no) := by
  constructor
  · intro h1 w hw
    have := h1 w ((C48_relation hn hnoise h w).2 hw)
    linarith
  · intro h1 w hw
    have := h1 w ((C48_relation hn hnoise h w).1 hw)
    linarith

/-- **C48**: An odd number of rows and columns raises a ValueError. -/
theorem C48_odd (hn : n % 2 = 1) (integer : Bool) (d : SVD (n / 2)) (S : Matrix (Fin n) (Fin n) ℂ) (noise : ℝ) : convert integer d S noise = .error .valueError := by
  unfold convert
  rw [dif_neg (by omega)]

/-- The matrix without reflection that doubles the amplitude of all waves. -/
noncomputable def doubling : Matrix (Fin 2) (Fin 2) ℂ := (2 : ℂ) • 1

theorem doubling_inv (d : SVD 1) : inv d (2 : Matrix (Fin 1) (Fin 1) ℂ) 0 = .ok (Matrix.of fun _ _ => 1 / 2) := by
  have h2 : (2 : Matrix (Fin 1) (Fin 1) ℂ) * (Matrix.of fun _ _ => 1 / 2) = 1 := by
    ext i j
    have : (2 : Matrix (Fin 1) (Fin 1) ℂ) = Matrix.of fun _ _ => 2 := by
      ext i j
      fin_cases i; fin_cases j
      rfl
    rw [this]
    fin_cases i; fin_cases j
    simp [Matrix.mul_apply]
  rcases C49_exact le_rfl (2 : Matrix (Fin 1) (Fin 1) ℂ) d with ⟨B, h3, h4, h5⟩ | ⟨-, h3⟩
  · rw [h3]
    congr 1
    calc B = B * ((2 : Matrix (Fin 1) (Fin 1) ℂ) * (Matrix.of fun _ _ => 1 / 2)) := by rw [h2, Matrix.mul_one]
      _ = _ := by rw [← Matrix.mul_assoc, h5, Matrix.one_mul]
  · exact absurd ⟨_, h2⟩ h3

/-- **C48** does not hold for arrays of an integer data type: what is stored in the result has no decimals, so that the transfer matrix of a scattering matrix that
doubles all waves, of which the inverse of the last block is a half, is singular and cannot be converted back. -/
theorem C48_integer_violates (d d' : SVD 1) :
    ∃ T, convert (n := 2) true d doubling 0 = .ok T ∧ (∃ w, Scatters doubling w ∧ ¬ Transfers T w) ∧ convert (n := 2) true d' T 0 = .error .valueError := by
  have e : 2 * (2 / 2) = 2 := by norm_num
  have hb : block (fun a i b j => doubling ((finProdFinEquiv (a, i)).cast e) ((finProdFinEquiv (b, j)).cast e) : Blocks 1) 1 1 = 2 := by
    ext i j
    fin_cases i; fin_cases j
    simp [block, doubling, Matrix.smul_apply, finProdFinEquiv]
    rfl
  have ht : truncK (1 / 2 : ℝ) = 0 := by
    unfold truncK
    rw [if_pos (by norm_num)]
    have : ⌊(1 / 2 : ℝ)⌋ = 0 := by rw [Int.floor_eq_zero_iff]; constructor <;> norm_num
    rw [this]
    simp
  have hst : store true (Matrix.of fun _ _ => 1 / 2 : Matrix (Fin 1) (Fin 1) ℂ) = 0 := by
    ext i j
    simp only [store, if_true, map_apply, of_apply]
    have : ((1 / 2 : ℂ)).re = 1 / 2 := by norm_num
    rw [this, ht]
    simp
  have hT : ∃ T, convert (n := 2) true d doubling 0 = .ok T ∧ blk e T 1 1 = 0 := by
    obtain ⟨T, hT⟩ : ∃ T, convert (n := 2) true d doubling 0 = .ok T := by
      unfold convert
      rw [dif_pos e]
      unfold convertBlocks
      rw [hb, doubling_inv]
      exact ⟨_, rfl⟩
    obtain ⟨D, hD, h1⟩ := convert_11 e hT
    have hb' : blk e doubling 1 1 = 2 := hb
    rw [hb', doubling_inv] at hD
    cases hD
    exact ⟨T, hT, h1.trans hst⟩
  obtain ⟨T, hT, h11⟩ := hT
  refine ⟨T, hT, ⟨⟨0, fun _ => 1, 0, fun _ => 2⟩, ?_, ?_⟩, ?_⟩
  · unfold Scatters
    rw [joined_eq_mulVec e]
    constructor
    · funext i
      fin_cases i
      simp [blk, doubling, mulVec, dotProduct, at', finProdFinEquiv]
    · funext i
      fin_cases i
      simp [blk, doubling, mulVec, dotProduct, at', finProdFinEquiv]
  · unfold Transfers
    rw [joined_eq_mulVec e]
    rintro ⟨-, h2⟩
    simp only [mulVec_zero, zero_add, h11, zero_mulVec] at h2
    have := congrFun h2 0
    simp at this
  · have hb' : block (fun a i b j => T ((finProdFinEquiv (a, i)).cast e) ((finProdFinEquiv (b, j)).cast e) : Blocks 1) 1 1 = 0 := h11
    unfold convert
    rw [dif_pos e]
    unfold convertBlocks
    rw [hb']
    rcases C49_exact le_rfl (0 : Matrix (Fin 1) (Fin 1) ℂ) d' with ⟨B, -, h4, -⟩ | ⟨h3, -⟩
    · rw [Matrix.zero_mul] at h4
      have := congrFun (congrFun h4 0) 0
      simp at this
    · rw [h3]
      rfl

/-- A scattering matrix with reflections. -/
noncomputable def reflecting : Matrix (Fin 2) (Fin 2) ℂ := Matrix.of ![![3, 1], ![1, 2]]

theorem backward_reflecting : backward reflecting = Matrix.of fun _ _ => 2 := by
  ext i j
  have hi : (⟨2 / 2 + i.val, by omega⟩ : Fin 2) = 1 := Fin.ext (by have := i.2; simp)
  have hj : (⟨2 / 2 + j.val, by omega⟩ : Fin 2) = 1 := Fin.ext (by have := j.2; simp)
  simp only [backward, of_apply, hi, hj]
  simp [reflecting]

/-- The theorems apply to a scattering matrix with reflections. -/
example (d : SVD (2 / 2)) : ∃ T, convert false d reflecting 0 = .ok T := by
  refine (C48_exists (by norm_num) le_rfl d reflecting).1.2 ⟨Matrix.of fun _ _ => 1 / 2, ?_⟩
  rw [backward_reflecting]
  ext i j
  have hij : i = j := Fin.ext (by have := i.2; have := j.2; omega)
  subst hij
  simp [Matrix.mul_apply]

end Verif.Mat
