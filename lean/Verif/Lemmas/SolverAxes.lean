import Verif.Lemmas.SolverTurnFields
import Mathlib.Logic.Equiv.Fintype

/-!
# Permutations of the axes, and mirror images
-/

namespace Verif.Solver

open Verif Verif.Fourier Verif.Backend Complex Matrix

variable {d n : ℕ}

/-! ### Permutations -/

/-- The grid of which axis `τ a` is axis `a` of the given one. -/
def permutedGrid (g : Grid.Obj d ℝ) (τ : Equiv.Perm (Fin d)) : Grid.Obj d ℝ where
  shape := fun a => g.shape (τ.symm a)
  step := fun a => g.step (τ.symm a)
  center := fun a => g.center (τ.symm a)
  dt := g.dt
  flat := fun a => g.flat (τ.symm a)
  originAtCenter := fun a => g.originAtCenter (τ.symm a)
  centerAtIndex := fun a => g.centerAtIndex (τ.symm a)
  multidimensional := g.multidimensional
  stepShort := g.stepShort

/-- The point of the permuted grid: coordinate `τ a` is coordinate `a` of the given point. -/
def permutedPoint (g : Grid.Obj d ℝ) (τ : Equiv.Perm (Fin d)) : Idx g.shape ≃ Idx (permutedGrid g τ).shape := Equiv.piCongrLeft' (fun a => Fin (g.shape a)) τ

theorem permutedPoint_apply (g : Grid.Obj d ℝ) (τ : Equiv.Perm (Fin d)) (x : Idx g.shape) (a : Fin d) : permutedPoint g τ x a = x (τ.symm a) := rfl

theorem permutedPoint_val (g : Grid.Obj d ℝ) (τ : Equiv.Perm (Fin d)) (x : Idx g.shape) (a : Fin d) : ((permutedPoint g τ x (τ a) : Fin _) : ℕ) = x a := by
  show ((x (τ.symm (τ a)) : Fin _) : ℕ) = x a
  rw [τ.symm_apply_apply]

/-- The new component of a vector: components for which the grid has no axis stay where they are. -/
def permutedComponent (kind : Kind d n) (τ : Equiv.Perm (Fin d)) : Equiv.Perm (Fin n) :=
  match kind with
  | .scalar => 1
  | .vectorial hd => τ.viaFintypeEmbedding (Fin.castLEEmb hd)

theorem permutedComponent_lt (hd : d ≤ 3) (τ : Equiv.Perm (Fin d)) (a : Fin d) : permutedComponent (.vectorial hd) τ (Fin.castLE hd a) = Fin.castLE hd (τ a) :=
  Equiv.Perm.viaFintypeEmbedding_apply_image τ (Fin.castLEEmb hd) a

theorem permutedComponent_ge (hd : d ≤ 3) (τ : Equiv.Perm (Fin d)) (c : Fin 3) (hc : d ≤ (c : ℕ)) : permutedComponent (.vectorial hd) τ c = c := by
  refine Equiv.Perm.viaFintypeEmbedding_apply_notMem_range τ (Fin.castLEEmb hd) ?_
  rintro ⟨a, ha⟩
  have : (a : ℕ) = c := congrArg Fin.val ha
  have := a.2
  omega

theorem permutedComponent_iff (hd : d ≤ 3) (τ : Equiv.Perm (Fin d)) (c : Fin 3) : ((permutedComponent (.vectorial hd) τ c : Fin 3) : ℕ) < d ↔ (c : ℕ) < d := by
  by_cases hc : (c : ℕ) < d
  · have e : c = Fin.castLE hd ⟨c, hc⟩ := rfl
    rw [e, permutedComponent_lt]
    exact ⟨fun _ => hc, fun _ => (τ ⟨c, hc⟩).2⟩
  · rw [permutedComponent_ge hd τ c (by omega)]

/-- The matrix with a single element in each row and column, with the given signs. -/
def signedPermutation (σ : Equiv.Perm (Fin n)) (ε : Fin n → ℝ) : Matrix (Fin n) (Fin n) ℝ := fun i j => if i = σ j then ε j else 0

theorem signedPermutation_orthogonal (σ : Equiv.Perm (Fin n)) {ε : Fin n → ℝ} (hε : ∀ c, ε c * ε c = 1) : signedPermutation σ ε * (signedPermutation σ ε)ᵀ = 1 := by
  ext i j
  simp only [Matrix.mul_apply, Matrix.transpose_apply, signedPermutation]
  obtain ⟨i, rfl⟩ := σ.surjective i
  rw [Finset.sum_eq_single i]
  · rw [if_pos rfl]
    by_cases h : j = σ i
    · rw [if_pos h, hε, h, Matrix.one_apply_eq]
    · rw [if_neg h, mul_zero, Matrix.one_apply_ne (Ne.symm h)]
  · intro b _ hb
    rw [if_neg (fun h => hb (σ.injective h).symm), zero_mul]
  · exact fun h => absurd (Finset.mem_univ _) h

theorem signedPermutation_sum (σ : Equiv.Perm (Fin n)) (ε : Fin n → ℝ) (c : Fin n) (v : Fin n → ℝ) : ∑ j, signedPermutation σ ε (σ c) j * v j = ε c * v c := by
  rw [Finset.sum_eq_single c]
  · simp [signedPermutation]
  · intro b _ hb
    rw [signedPermutation, if_neg (fun h => hb (σ.injective h).symm), zero_mul]
  · exact fun h => absurd (Finset.mem_univ _) h

theorem backendK_formula (g : Grid.Obj d ℝ) (hs : ∀ a, g.step a ≠ 0) {k0 : ℝ} (hk0 : k0 ≠ 0) (a : Fin d) (x : Idx g.shape) :
    backendK g k0 a x = 2 * Real.pi * ((if 2 * (x a : ℕ) < g.shape a then ((x a : ℕ) : ℝ) else ((x a : ℕ) : ℝ) - g.shape a) / (g.shape a * g.step a)) / k0 := by
  have h := C31_backend g hs hk0 a x
  rw [C24_kOf g fun a _ => hs a] at h
  rw [h, mul_div_cancel_left₀ _ hk0]

theorem backendK_permuted (g : Grid.Obj d ℝ) (hs : ∀ a, g.step a ≠ 0) {k0 : ℝ} (hk0 : k0 ≠ 0) (τ : Equiv.Perm (Fin d)) (a : Fin d) (x : Idx g.shape) :
    backendK (permutedGrid g τ) k0 (τ a) (permutedPoint g τ x) = backendK g k0 a x := by
  rw [backendK_formula g hs hk0, backendK_formula (permutedGrid g τ) (fun a => hs _) hk0, permutedPoint_apply]
  show 2 * Real.pi * ((if 2 * (x (τ.symm (τ a)) : ℕ) < g.shape (τ.symm (τ a)) then ((x (τ.symm (τ a)) : ℕ) : ℝ) else ((x (τ.symm (τ a)) : ℕ) : ℝ) - g.shape (τ.symm (τ a))) /
    (g.shape (τ.symm (τ a)) * g.step (τ.symm (τ a)))) / k0 = _
  rw [τ.symm_apply_apply]

/-- Permutation of the axes of grid and vectors. -/
noncomputable def permutation (kind : Kind d n) (g : Grid.Obj d ℝ) (hs : ∀ a, g.step a ≠ 0) {k0 : ℝ} (hk0 : k0 ≠ 0) (τ : Equiv.Perm (Fin d)) :
    Turn n (backendK g k0) (backendK (permutedGrid g τ) k0) where
  matrix := signedPermutation (permutedComponent kind τ) fun _ => 1
  orthogonal := signedPermutation_orthogonal _ fun _ => mul_one 1
  block := by
    intro i j h
    cases kind with
    | scalar =>
      exact absurd (by rw [Subsingleton.elim i j]) h
    | vectorial hd =>
      refine if_neg fun e => h ?_
      rw [e]
      exact permutedComponent_iff hd τ j
  point := permutedPoint g τ
  freq := permutedPoint g τ
  transform := by
    intro f q
    show ∑ x' : Idx (permutedGrid g τ).shape, f ((permutedPoint g τ).symm x') * ∏ a, twiddle (g.shape (τ.symm a)) (q (τ.symm a)) (x' a) = _
    rw [← Equiv.sum_comp (permutedPoint g τ)]
    refine Finset.sum_congr rfl fun x _ => ?_
    rw [Equiv.symm_apply_apply]
    congr 1
    exact Equiv.prod_comp τ.symm fun a => twiddle (g.shape a) (q a) (x a)
  origin := by
    intro q
    constructor
    · intro h a
      have := h (τ a)
      rw [permutedPoint_val] at this
      exact this
    · intro h a
      exact h (τ.symm a)
  square := by
    intro q
    unfold k2
    rw [← Equiv.sum_comp τ]
    exact Finset.sum_congr rfl fun a _ => by rw [backendK_permuted g hs hk0]
  wave := by
    intro hn c q
    cases kind with
    | scalar => exact absurd hn (by decide)
    | vectorial hd =>
      obtain ⟨c, rfl⟩ := (permutedComponent (.vectorial hd) τ).surjective c
      rw [signedPermutation_sum, one_mul]
      unfold waveComponent
      by_cases hc : (c : ℕ) < d
      · have e : ((permutedComponent (.vectorial hd) τ c : Fin 3) : ℕ) = τ ⟨c, hc⟩ := congrArg Fin.val (permutedComponent_lt hd τ ⟨c, hc⟩)
        rw [dif_pos hc, dif_pos ((permutedComponent_iff hd τ c).2 hc)]
        have e' : (⟨_, (permutedComponent_iff hd τ c).2 hc⟩ : Fin d) = τ ⟨c, hc⟩ := Fin.ext e
        rw [e', backendK_permuted g hs hk0]
      · rw [dif_neg hc, dif_neg fun h => hc ((permutedComponent_iff hd τ c).1 h)]

/-! ### Mirror images -/

/-- The point with the opposite coordinates for the given axes, counted from the first sample on the periodic grid. -/
def mirroredPoint {N : Fin d → ℕ} (m : Fin d → Bool) : Idx N ≃ Idx N where
  toFun := fun x a => if m a then opposite x a else x a
  invFun := fun x a => if m a then opposite x a else x a
  left_inv := by
    intro x
    funext a
    apply Fin.ext
    have hx := (x a).2
    cases h : m a
    · simp [h]
    · simp only [if_true, opposite_val, h]
      split_ifs <;> omega
  right_inv := by
    intro x
    funext a
    apply Fin.ext
    have hx := (x a).2
    cases h : m a
    · simp [h]
    · simp only [if_true, opposite_val, h]
      split_ifs <;> omega

theorem mirroredPoint_symm {N : Fin d → ℕ} (m : Fin d → Bool) (x : Idx N) : (mirroredPoint m).symm x = mirroredPoint m x := rfl

theorem mirroredPoint_apply {N : Fin d → ℕ} (m : Fin d → Bool) (x : Idx N) (a : Fin d) : mirroredPoint m x a = if m a then opposite x a else x a := rfl

/-- The sign of the new component. -/
def mirroredSign (m : Fin d → Bool) (c : ℕ) : ℝ := if h : c < d then (if m ⟨c, h⟩ then -1 else 1) else 1

theorem mirroredSign_sq (m : Fin d → Bool) (c : ℕ) : mirroredSign m c * mirroredSign m c = 1 := by
  unfold mirroredSign
  split_ifs <;> norm_num

theorem twiddle_mirrored {N : Fin d → ℕ} (m : Fin d → Bool) (q x : Idx N) (a : Fin d) :
    twiddle (N a) (mirroredPoint m q a) (mirroredPoint m x a) = twiddle (N a) (q a) (x a) := by
  rw [mirroredPoint_apply, mirroredPoint_apply]
  cases m a
  · simp
  · simp only [if_true]
    rw [twiddle_opposite]
    have h := twiddle_opposite x a (q a)
    have c1 : ∀ p y : ℕ, twiddle (N a) p y = twiddle (N a) y p := fun p y => by unfold twiddle; rw [mul_comm (p : ℂ)]
    have c2 : ∀ p y : ℕ, untwiddle (N a) p y = (starRingEnd ℂ) (twiddle (N a) p y) := fun p y => (conj_twiddle _ _ _).symm
    rw [c2, c1, h, c2, conj_conj, c1]

theorem backendK_mirrored (g : Grid.Obj d ℝ) (hs : ∀ a, g.step a ≠ 0) {k0 : ℝ} (hk0 : k0 ≠ 0) (m : Fin d → Bool) (a : Fin d) (q : Idx g.shape) :
    backendK g k0 a (mirroredPoint m q) = if m a = true ∧ 2 * (q a : ℕ) ≠ g.shape a then -backendK g k0 a q else backendK g k0 a q := by
  have h1 := C31_backend g hs hk0 a (mirroredPoint m q)
  have h2 := C31_backend g hs hk0 a q
  have h3 := C31_backend g hs hk0 a (opposite q)
  have h4 := kOf_opposite g (fun a _ => hs a) a q
  have e : ∀ x y : Idx g.shape, x a = y a → backendK g k0 a x = backendK g k0 a y := by
    intro x y h
    rw [backendK_formula g hs hk0, backendK_formula g hs hk0, h]
  cases hm : m a
  · rw [if_neg (by simp)]
    exact e _ _ (by rw [mirroredPoint_apply, hm]; rfl)
  · rw [e (mirroredPoint m q) (opposite q) (by rw [mirroredPoint_apply, hm]; rfl)]
    rw [h2, h3] at h4
    by_cases hq : 2 * (q a : ℕ) = g.shape a
    · rw [if_neg (by simp [hq])]
      rw [if_pos hq] at h4
      exact mul_left_cancel₀ hk0 h4
    · rw [if_pos ⟨rfl, hq⟩]
      rw [if_neg hq] at h4
      exact mul_left_cancel₀ hk0 (by rw [h4]; ring)

/-- Mirror images.  For vectorial calculations the numbers of samples along the mirrored axes must be odd. -/
noncomputable def reflection (kind : Kind d n) (g : Grid.Obj d ℝ) (hs : ∀ a, g.step a ≠ 0) {k0 : ℝ} (hk0 : k0 ≠ 0) (m : Fin d → Bool)
    (hodd : n = 3 → ∀ a, m a = true → g.shape a % 2 = 1) : Turn n (backendK g k0) (backendK g k0) where
  matrix := match kind with
    | .scalar => 1
    | .vectorial _ => signedPermutation 1 fun c => mirroredSign m c
  orthogonal := by
    cases kind with
    | scalar => simp
    | vectorial hd => exact signedPermutation_orthogonal _ fun c => mirroredSign_sq m c
  block := by
    intro i j h
    cases kind with
    | scalar => exact absurd (by rw [Subsingleton.elim i j]) h
    | vectorial hd =>
      refine if_neg fun e => h ?_
      rw [e]
      rfl
  point := mirroredPoint m
  freq := mirroredPoint m
  transform := by
    intro f q
    unfold ft
    rw [← Equiv.sum_comp (mirroredPoint (N := g.shape) m)]
    refine Finset.sum_congr rfl fun x _ => ?_
    beta_reduce
    rw [Equiv.symm_apply_apply]
    congr 1
    exact Finset.prod_congr rfl fun a _ => twiddle_mirrored m q x a
  origin := by
    intro q
    have hv : ∀ a, ((mirroredPoint m q a : Fin _) : ℕ) = 0 ↔ (q a : ℕ) = 0 := by
      intro a
      have := (q a).2
      rw [mirroredPoint_apply]
      cases m a
      · simp
      · simp only [if_true, opposite_val]
        split_ifs <;> omega
    exact forall_congr' hv
  square := by
    intro q
    unfold k2
    refine Finset.sum_congr rfl fun a _ => ?_
    rw [backendK_mirrored g hs hk0]
    split_ifs <;> ring
  wave := by
    intro hn c q
    cases kind with
    | scalar => exact absurd hn (by decide)
    | vectorial hd =>
      have h := signedPermutation_sum 1 (fun c : Fin 3 => mirroredSign m c) c fun j => waveComponent (backendK g k0) j q
      rw [Equiv.Perm.one_apply] at h
      dsimp only
      rw [h]
      unfold waveComponent mirroredSign
      by_cases hc : (c : ℕ) < d
      · rw [dif_pos hc, dif_pos hc, dif_pos hc, backendK_mirrored g hs hk0]
        by_cases hm : m ⟨c, hc⟩ = true
        · have := hodd rfl ⟨c, hc⟩ hm
          rw [if_pos ⟨hm, by omega⟩, if_pos hm, neg_one_mul]
        · rw [if_neg (fun h => hm h.1), if_neg hm, one_mul]
      · rw [dif_neg hc, dif_neg hc, dif_neg hc, mul_zero]

end Verif.Solver
