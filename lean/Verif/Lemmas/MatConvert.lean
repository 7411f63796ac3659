import Verif.Model.MatConvert
import Verif.Spec.MatWaves
import Mathlib.LinearAlgebra.Matrix.ToLinearEquiv
import Mathlib.Tactic.Ring

/-!
# Lemmas about the conversion of scattering and transfer matrices
-/

namespace Verif.Mat

open Matrix Verif.Spec.Mat

variable {n : ℕ}

/-- The rows or columns of one half. -/
def at' (e : 2 * (n / 2) = n) (a : Fin 2) (i : Fin (n / 2)) : Fin n := (finProdFinEquiv (a, i)).cast e

theorem at'_val (e : 2 * (n / 2) = n) (a : Fin 2) (i : Fin (n / 2)) : (at' e a i).val = i.val + n / 2 * a.val := by
  simp [at', finProdFinEquiv]

theorem at'_surj (e : 2 * (n / 2) = n) (i : Fin n) : ∃ a i', at' e a i' = i := by
  refine ⟨(finProdFinEquiv.symm (i.cast e.symm)).1, (finProdFinEquiv.symm (i.cast e.symm)).2, ?_⟩
  unfold at'
  rw [Prod.mk.eta, Equiv.apply_symm_apply]
  rfl

/-- The equivalence of pairs and indices. -/
def atEquiv (e : 2 * (n / 2) = n) : Fin 2 × Fin (n / 2) ≃ Fin n := finProdFinEquiv.trans (finCongr e)

theorem atEquiv_apply (e : 2 * (n / 2) = n) (a : Fin 2) (i : Fin (n / 2)) : atEquiv e (a, i) = at' e a i := rfl

theorem joined_at' (e : 2 * (n / 2) = n) (x y : Fin (n / 2) → ℂ) (i : Fin (n / 2)) : joined x y (at' e 0 i) = x i ∧ joined x y (at' e 1 i) = y i := by
  have h0 := at'_val e 0 i
  have h1 := at'_val e 1 i
  simp only [Fin.val_zero, Nat.mul_zero, Nat.add_zero, Fin.val_one, Nat.mul_one] at h0 h1
  constructor
  · unfold joined
    rw [dif_pos (by rw [h0]; exact i.2)]
    exact congrArg x (Fin.ext h0)
  · unfold joined
    rw [dif_neg (by rw [h1]; omega), dif_pos (by rw [h1]; omega)]
    exact congrArg y (Fin.ext (by simp only; rw [h1]; omega))

/-- The blocks of a matrix. -/
def blk (e : 2 * (n / 2) = n) (S : Matrix (Fin n) (Fin n) ℂ) (a b : Fin 2) : Matrix (Fin (n / 2)) (Fin (n / 2)) ℂ := .of fun i j => S (at' e a i) (at' e b j)

theorem backward_eq (e : 2 * (n / 2) = n) (S : Matrix (Fin n) (Fin n) ℂ) : backward S = blk e S 1 1 := by
  ext i j
  simp only [backward, blk, of_apply]
  congr 1 <;> exact Fin.ext (by rw [at'_val]; simp [Nat.add_comm])

theorem ext_at' (e : 2 * (n / 2) = n) {x y : Fin n → ℂ} : x = y ↔ ∀ a i, x (at' e a i) = y (at' e a i) := by
  constructor
  · rintro rfl _ _; rfl
  · intro h
    funext i
    obtain ⟨a, i', rfl⟩ := at'_surj e i
    exact h a i'

theorem ext_blk (e : 2 * (n / 2) = n) {S T : Matrix (Fin n) (Fin n) ℂ} (h : ∀ a b, blk e S a b = blk e T a b) : S = T := by
  ext i j
  obtain ⟨a, i', rfl⟩ := at'_surj e i
  obtain ⟨b, j', rfl⟩ := at'_surj e j
  have := congrFun (congrFun (h a b) i') j'
  simpa [blk] using this

theorem mulVec_joined (e : 2 * (n / 2) = n) (S : Matrix (Fin n) (Fin n) ℂ) (x y : Fin (n / 2) → ℂ) (a : Fin 2) (i : Fin (n / 2)) :
    S.mulVec (joined x y) (at' e a i) = ((blk e S a 0).mulVec x + (blk e S a 1).mulVec y) i := by
  simp only [mulVec, dotProduct, Pi.add_apply]
  rw [← (atEquiv e).sum_comp, Fintype.sum_prod_type, Fin.sum_univ_two]
  simp only [atEquiv_apply, (joined_at' e x y _).1, (joined_at' e x y _).2, blk, of_apply]

theorem joined_eq_mulVec (e : 2 * (n / 2) = n) (S : Matrix (Fin n) (Fin n) ℂ) (x y u v : Fin (n / 2) → ℂ) :
    joined u v = S.mulVec (joined x y) ↔ u = (blk e S 0 0).mulVec x + (blk e S 0 1).mulVec y ∧ v = (blk e S 1 0).mulVec x + (blk e S 1 1).mulVec y := by
  rw [ext_at' e]
  constructor
  · intro h
    constructor
    · funext i
      rw [← mulVec_joined, ← h 0 i, (joined_at' e u v i).1]
    · funext i
      rw [← mulVec_joined, ← h 1 i, (joined_at' e u v i).2]
  · rintro ⟨h0, h1⟩ a i
    rw [mulVec_joined]
    match a with
    | 0 => rw [(joined_at' e u v i).1, h0]
    | 1 => rw [(joined_at' e u v i).2, h1]

/-- The four blocks of what `convert` returns, for arrays with a data type that is not integer. -/
theorem convert_ok (e : 2 * (n / 2) = n) {d : SVD (n / 2)} {S T : Matrix (Fin n) (Fin n) ℂ} {noise : ℝ} (h : convert false d S noise = .ok T) :
    ∃ D, inv d (blk e S 1 1) noise = .ok D ∧ blk e T 1 1 = D ∧ blk e T 1 0 = -D * blk e S 1 0 ∧ blk e T 0 1 = blk e S 0 1 * D ∧
      blk e T 0 0 = blk e S 0 0 + blk e S 0 1 * (-D * blk e S 1 0) := by
  unfold convert at h
  rw [dif_pos e] at h
  unfold convertBlocks at h
  have hblk : ∀ a b, block (fun a i b j => S ((finProdFinEquiv (a, i)).cast e) ((finProdFinEquiv (b, j)).cast e)) a b = blk e S a b := fun a b => rfl
  simp only [hblk, store, Bool.false_eq_true, if_false] at h
  cases hD : inv d (blk e S 1 1) noise with
  | error err => rw [hD] at h; simp [Except.map] at h
  | ok D =>
    rw [hD] at h
    simp only [Except.map, Except.ok.injEq] at h
    have hs : ∀ (a : Fin 2) (i : Fin (n / 2)), finProdFinEquiv.symm ((at' e a i).cast e.symm) = (a, i) := by
      intro a i
      have : (at' e a i).cast e.symm = finProdFinEquiv (a, i) := rfl
      rw [this, Equiv.symm_apply_apply]
    refine ⟨D, rfl, ?_, ?_, ?_, ?_⟩ <;> (rw [← h]; ext i j; simp only [blk, of_apply, hs])

/-- The last block, for all data types. -/
theorem convert_11 (e : 2 * (n / 2) = n) {integer : Bool} {d : SVD (n / 2)} {S T : Matrix (Fin n) (Fin n) ℂ} {noise : ℝ} (h : convert integer d S noise = .ok T) :
    ∃ D, inv d (blk e S 1 1) noise = .ok D ∧ blk e T 1 1 = store integer D := by
  unfold convert at h
  rw [dif_pos e] at h
  unfold convertBlocks at h
  have hblk : ∀ a b, block (fun a i b j => S ((finProdFinEquiv (a, i)).cast e) ((finProdFinEquiv (b, j)).cast e)) a b = blk e S a b := fun a b => rfl
  simp only [hblk] at h
  cases hD : inv d (blk e S 1 1) noise with
  | error err => rw [hD] at h; simp [Except.map] at h
  | ok D =>
    rw [hD] at h
    simp only [Except.map, Except.ok.injEq] at h
    have hs : ∀ (a : Fin 2) (i : Fin (n / 2)), finProdFinEquiv.symm ((at' e a i).cast e.symm) = (a, i) := by
      intro a i
      have : (at' e a i).cast e.symm = finProdFinEquiv (a, i) := rfl
      rw [this, Equiv.symm_apply_apply]
    refine ⟨D, rfl, ?_⟩
    rw [← h]
    ext i j
    simp only [blk, of_apply, hs]

theorem convert_of_inv (e : 2 * (n / 2) = n) {d : SVD (n / 2)} {S : Matrix (Fin n) (Fin n) ℂ} {noise : ℝ} :
    (∀ D, inv d (blk e S 1 1) noise = .ok D → ∃ T, convert false d S noise = .ok T) ∧
      (∀ err, inv d (blk e S 1 1) noise = .error err → convert false d S noise = .error err) := by
  have hblk : ∀ a b, block (fun a i b j => S ((finProdFinEquiv (a, i)).cast e) ((finProdFinEquiv (b, j)).cast e)) a b = blk e S a b := fun a b => rfl
  unfold convert
  rw [dif_pos e]
  unfold convertBlocks
  simp only [hblk]
  constructor
  · intro D hD
    rw [hD]
    exact ⟨_, rfl⟩
  · intro err hD
    rw [hD]
    rfl

end Verif.Mat
