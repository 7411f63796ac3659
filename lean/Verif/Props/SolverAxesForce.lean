import Verif.Props.SolverAxes

/-!
# C98: the force density and the divergence of the flux, with other axes
-/

namespace Verif.Solver

open Verif Verif.Fourier Verif.Backend Complex Matrix

variable {d : ℕ} {N N' : Fin d → ℕ}

/-- The sum in the divergence. -/
noncomputable def divSum (hd : d ≤ 3) (k : Fin d → Idx N → ℝ) (F : Field 3 N) : Idx N → ℂ := ift fun q => ∑ a : Fin d, I * (k a q : ℂ) * ft (F (Fin.castLE hd a)) q

theorem divSum_wave (hd : d ≤ 3) (k : Fin d → Idx N → ℝ) (F : Field 3 N) : divSum hd k F = ift fun q => I * ∑ j : Fin 3, (waveComponent k j q : ℂ) * ft (F j) q := by
  unfold divSum
  congr 1
  funext q
  have hsum : ∑ a : Fin d, (k a q : ℂ) * ft (F (Fin.castLE hd a)) q = ∑ j : Fin 3, (waveComponent k j q : ℂ) * ft (F j) q := by
    refine Finset.sum_of_injOn (Fin.castLE hd) (fun a _ b _ h => Fin.castLE_injective hd h) (by simp) ?_ ?_
    · intro j _ hj
      have : ¬ (j : ℕ) < d := fun h => hj ⟨⟨j, h⟩, by simp, rfl⟩
      simp [waveComponent, this]
    · intro a _
      simp [waveComponent]
  rw [← hsum, Finset.mul_sum]
  exact Finset.sum_congr rfl fun a _ => by ring

theorem divSum_turn (hd : d ≤ 3) {k : Fin d → Idx N → ℝ} {k' : Fin d → Idx N' → ℝ} (t : Turn 3 k k') (F : Field 3 N) (x : Idx N) : divSum hd k' (t.field F) (t.point x) = divSum hd k F x := by
  have h : divSum hd k' (t.field F) = fun x' => divSum hd k F (t.point.symm x') := by
    apply ft_inj
    funext q'
    obtain ⟨q, rfl⟩ := t.freq.surjective q'
    rw [t.transform, divSum_wave, divSum_wave, C23_ft_ift, C23_ft_ift]
    congr 1
    have h1 : (fun c : Fin 3 => (waveComponent k' c (t.freq q) : ℂ)) = t.cmatrix *ᵥ fun j : Fin 3 => (waveComponent k j q : ℂ) := by
      funext c
      rw [t.wave rfl c q]
      push_cast
      rfl
    have h2 : (fun c : Fin 3 => ft (t.field F c) (t.freq q)) = t.cmatrix *ᵥ fun j => ft (F j) q := by
      funext c
      rw [ft_field]
      unfold Turn.fieldFt
      rw [Equiv.symm_apply_apply]
      rfl
    show (fun c : Fin 3 => (waveComponent k' c (t.freq q) : ℂ)) ⬝ᵥ (fun c : Fin 3 => ft (t.field F c) (t.freq q)) = (fun c : Fin 3 => (waveComponent k c q : ℂ)) ⬝ᵥ fun j => ft (F j) q
    rw [h1, h2, Matrix.dotProduct_mulVec, Matrix.vecMul_mulVec, ← Matrix.dotProduct_mulVec, t.corthogonal', Matrix.one_mulVec]
  rw [h]
  exact congrArg (divSum hd k F) (t.point.symm_apply_apply x)

/-- The force density and the divergence of the Poynting vector exist, and are those of the other solution with other axes. -/
structure MovedForces (co : Const) (k0 : ℝ) (k : Fin d → Idx N → ℝ) (k' : Fin d → Idx N' → ℝ) (x0 : Idx N) (x0' : Idx N') (σ : Equiv.Perm (Fin 3)) (ε : Fin 3 → ℝ) (point : Idx N ≃ Idx N') (s : State 3 N)
    (s' : State 3 N') : Prop where
  force : ∃ f f', getForce co k0 k 0 x0 s = .ok f ∧ getForce co k0 k' 0 x0' s' = .ok f' ∧ ∀ c x, f' (σ c) (point x) = ε c * f c x
  divS : ∃ f f', getDivS co k0 k 0 x0 s = .ok f ∧ getDivS co k0 k' 0 x0' s' = .ok f' ∧ ∀ x, f' (point x) = f x

theorem moved_forces (hd : d ≤ 3) {k : Fin d → Idx N → ℝ} {k' : Fin d → Idx N' → ℝ} (t : Turn 3 k k') {σ : Equiv.Perm (Fin 3)} {ε : Fin 3 → ℝ} (ht : t.matrix = signedPermutation σ ε) {co : Const} {k0 : ℝ}
    {x0 : Idx N} {x0' : Idx N'} {s : State 3 N} {s' : State 3 N'} {z : ℝ} (h : MovedSolution co k0 k k' 0 x0 x0' σ ε t.point z s s') : MovedForces co k0 k k' x0 x0' σ ε t.point s s' where
  force := by
    refine ⟨fun c x => (divSum hd k (fun a x => (getStress co k0 k 0 x0 s a c x : ℂ)) x).re * k0, fun c x => (divSum hd k' (fun a x => (getStress co k0 k' 0 x0' s' a c x : ℂ)) x).re * k0, ?_, ?_, fun c x => ?_⟩
    · unfold getForce divTensor divFt
      rw [dif_pos hd]
      rfl
    · unfold getForce divTensor divFt
      rw [dif_pos hd]
      rfl
    · have h1 : (fun a x => (getStress co k0 k' 0 x0' s' a (σ c) x : ℂ)) = t.field fun a x => (ε c : ℂ) * (getStress co k0 k 0 x0 s a c x : ℂ) := by
        refine field_of_moved t ht fun a x => ?_
        rw [h.stress a c x]
        push_cast
        ring
      have h2 : ∀ (r : ℂ) (F : Field 3 N), divSum hd k (fun a x => r * F a x) x = r * divSum hd k F x := fun r F => by
        have h3 : divSum hd k (fun a x => r * F a x) = r • divSum hd k F := by
          apply ft_inj
          funext q
          have h4 : ∀ f : Idx N → ℂ, ft (fun x => r * f x) q = r * ft f q := fun f => by
            unfold ft
            rw [Finset.mul_sum]
            exact Finset.sum_congr rfl fun _ _ => by ring
          have h5 : ft (r • divSum hd k F) q = r * ft (divSum hd k F) q := h4 _
          rw [h5]
          unfold divSum
          rw [C23_ft_ift, C23_ft_ift, Finset.mul_sum]
          refine Finset.sum_congr rfl fun a _ => ?_
          rw [h4]
          ring
        rw [h3]
        rfl
      dsimp only
      rw [h1, divSum_turn hd t, h2, re_ofReal_mul]
      ring
  divS := by
    refine ⟨divSum hd k fun a x => (getS co k0 k 0 x0 s a x : ℂ), divSum hd k' fun a x => (getS co k0 k' 0 x0' s' a x : ℂ), ?_, ?_, fun x => ?_⟩
    · unfold getDivS div divFt
      rw [dif_pos hd]
      rfl
    · unfold getDivS div divFt
      rw [dif_pos hd]
      rfl
    · have h1 : (fun a x => (getS co k0 k' 0 x0' s' a x : ℂ)) = t.field fun a x => (getS co k0 k 0 x0 s a x : ℂ) := by
        refine field_of_moved t ht fun a x => ?_
        rw [h.S a x]
        push_cast
        ring
      rw [h1, divSum_turn hd t]

theorem Both.mono {n : ℕ} {R R' : State n N → State n N' → Prop} (h : ∀ s s', R s s' → R' s s') : ∀ {a b}, Both R a b → Both R' a b
  | .ok s, .ok s', hR => h s s' hR
  | .error _, .error _, hR => hR

/-- **C98 (forces, permutations).** The force density is a vector, and the divergence of the Poynting vector a number, after any number of iterations. -/
theorem C98_force (hd : d ≤ 3) (g : Grid.Obj d ℝ) (hs : ∀ a, g.step a ≠ 0) {k0 : ℝ} (hk0 : k0 ≠ 0) (τ : Equiv.Perm (Fin d)) (co : Const) (x0 : Idx g.shape)
    (x0' : Idx (permutedGrid g τ).shape) {m : Medium 3 g.shape} {m' : Medium 3 (permutedGrid g τ).shape} {S F : Field 3 g.shape} {S' F' : Field 3 (permutedGrid g τ).shape}
    (hm : MovedMedium (permutedComponent (.vectorial hd) τ) (fun _ => 1) (permutedPoint g τ) (((Equiv.Perm.sign (permutedComponent (.vectorial hd) τ) : ℤˣ) : ℤ) : ℝ) m m')
    (hS : MovedField (permutedComponent (.vectorial hd) τ) (fun _ => 1) (permutedPoint g τ) 1 S S') (hF : MovedField (permutedComponent (.vectorial hd) τ) (fun _ => 1) (permutedPoint g τ) 1 F F')
    {mag : Bool} (hp : m.Plain mag) (alpha : ℂ) (beta : ℝ) (i : ℕ) :
    Both (MovedForces co k0 (backendK g k0) (backendK (permutedGrid g τ) k0) x0 x0' (permutedComponent (.vectorial hd) τ) (fun _ => 1) (permutedPoint g τ))
      (run (.vectorial hd) (backendK g k0) (prepare m mag alpha beta S F) i) (run (.vectorial hd) (backendK (permutedGrid g τ) k0) (prepare m' mag alpha beta S' F') i) :=
  (C98_permutation (.vectorial hd) g hs hk0 τ co 0 x0 x0' hm hS hF hp alpha beta i).mono fun _ _ h => moved_forces hd (permutation (.vectorial hd) g hs hk0 τ) rfl h

/-- **C98 (forces, mirror images, partial).** What is missing: even numbers of samples along a mirrored axis, see `C98_mirror_violates`. -/
theorem C98_force_mirror_partial (hd : d ≤ 3) (g : Grid.Obj d ℝ) (hs : ∀ a, g.step a ≠ 0) {k0 : ℝ} (hk0 : k0 ≠ 0) (mir : Fin d → Bool) (hodd : ∀ a, mir a = true → g.shape a % 2 = 1)
    (co : Const) (x0 x0' : Idx g.shape) {m m' : Medium 3 g.shape} {S F S' F' : Field 3 g.shape}
    (hm : MovedMedium 1 (reflectedSign mir (.vectorial hd)) (mirroredPoint mir) (∏ c, reflectedSign mir (.vectorial hd) c) m m')
    (hS : MovedField 1 (reflectedSign mir (.vectorial hd)) (mirroredPoint mir) 1 S S') (hF : MovedField 1 (reflectedSign mir (.vectorial hd)) (mirroredPoint mir) 1 F F')
    {mag : Bool} (hp : m.Plain mag) (alpha : ℂ) (beta : ℝ) (i : ℕ) :
    Both (MovedForces co k0 (backendK g k0) (backendK g k0) x0 x0' 1 (reflectedSign mir (.vectorial hd)) (mirroredPoint mir))
      (run (.vectorial hd) (backendK g k0) (prepare m mag alpha beta S F) i) (run (.vectorial hd) (backendK g k0) (prepare m' mag alpha beta S' F') i) :=
  (C98_mirror_partial (.vectorial hd) g hs hk0 mir (fun _ => hodd) co 0 x0 x0' hm hS hF hp alpha beta i).mono fun _ _ h =>
    moved_forces hd (reflection (.vectorial hd) g hs hk0 mir fun _ => hodd) rfl h

/-- Vacuum. -/
def emptySpace (N : Fin d → ℕ) : Medium 3 N := ⟨fun _ => 1, fun _ => 0, fun _ => 0, fun _ => 1⟩

theorem emptySpace_moved {σ : Equiv.Perm (Fin 3)} {ε : Fin 3 → ℝ} (hε : ∀ c, ε c * ε c = 1) (point : Idx N ≃ Idx N') (z : ℝ) : MovedMedium σ ε point z (emptySpace N) (emptySpace N') := by
  have h1 : ∀ i j : Fin 3, (1 : Matrix (Fin 3) (Fin 3) ℂ) (σ i) (σ j) = (1 : ℝ) * ε i * ε j * (1 : Matrix (Fin 3) (Fin 3) ℂ) i j := fun i j => by
    have h2 : (ε i : ℂ) * ε i = 1 := by exact_mod_cast hε i
    by_cases e : i = j
    · subst e
      simp [h2]
    · simp [Matrix.one_apply_ne e, Matrix.one_apply_ne fun h => e (σ.injective h)]
  exact ⟨fun i j _ => h1 i j, fun i j _ => by simp [emptySpace], fun i j _ => by simp [emptySpace], fun i j _ => h1 i j⟩

theorem emptySpace_plain : (emptySpace N).Plain false := by
  exact fun _ => ⟨1, fun _ => (one_smul _ _).symm⟩

/-- `C98_force` for any source in vacuum, if the first two of three axes are exchanged. -/
example (g : Grid.Obj 3 ℝ) (hs : ∀ a, g.step a ≠ 0) (co : Const) (x0 : Idx g.shape) (x0' : Idx (permutedGrid g (Equiv.swap 0 1)).shape) (S : Field 3 g.shape) (alpha : ℂ) (beta : ℝ) (i : ℕ) :=
  C98_force (le_refl 3) g hs one_ne_zero (Equiv.swap 0 1) co x0 x0' (m := emptySpace g.shape) (m' := emptySpace _) (S := S) (F := S)
    (S' := fun c x => S ((permutedComponent (.vectorial (le_refl 3)) (Equiv.swap 0 1)).symm c) ((permutedPoint g (Equiv.swap 0 1)).symm x))
    (F' := fun c x => S ((permutedComponent (.vectorial (le_refl 3)) (Equiv.swap 0 1)).symm c) ((permutedPoint g (Equiv.swap 0 1)).symm x))
    (emptySpace_moved (fun _ => mul_one 1) _ _) (fun c x => by simp) (fun c x => by simp) (mag := false) emptySpace_plain alpha beta i

/-- `C98_force_mirror_partial` for any source in vacuum and the mirror image along the first of three axes. -/
example (g : Grid.Obj 3 ℝ) (hs : ∀ a, g.step a ≠ 0) (hodd : g.shape 0 = 65) (co : Const) (x0 x0' : Idx g.shape) (S : Field 3 g.shape) (alpha : ℂ) (beta : ℝ) (i : ℕ) :=
  C98_force_mirror_partial (le_refl 3) g hs one_ne_zero ![true, false, false] (fun a ha => by fin_cases a <;> simp_all) co x0 x0' (m := emptySpace g.shape) (m' := emptySpace _) (S := S) (F := S)
    (S' := fun c x => reflectedSign ![true, false, false] (.vectorial (le_refl 3)) c * S c ((mirroredPoint ![true, false, false]).symm x))
    (F' := fun c x => reflectedSign ![true, false, false] (.vectorial (le_refl 3)) c * S c ((mirroredPoint ![true, false, false]).symm x))
    (emptySpace_moved (fun c => mirroredSign_sq _ c) _ _) (fun c x => by simp) (fun c x => by simp) (mag := false) emptySpace_plain alpha beta i

end Verif.Solver
