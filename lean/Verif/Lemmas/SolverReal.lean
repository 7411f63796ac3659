import Verif.Lemmas.SolverMedium
import Verif.Spec.Physics
import Verif.Props.SolverWave

/-!
# Complex conjugates of fields and of their Fourier transforms
-/

namespace Verif.Solver

open Verif Verif.Fourier Verif.Backend Complex
open Verif.Spec.Physics (reaction)

variable {d n : ℕ} {N : Fin d → ℕ}

/-- The index of minus the frequency. -/
def opposite (x : Idx N) : Idx N := fun a => ⟨if (x a : ℕ) = 0 then 0 else N a - x a, by
  have := (x a).isLt
  split_ifs <;> omega⟩

theorem opposite_val (x : Idx N) (a : Fin d) : (opposite x a : ℕ) = if (x a : ℕ) = 0 then 0 else N a - x a := rfl

theorem opposite_opposite (x : Idx N) : opposite (opposite x) = x := by
  funext a
  apply Fin.ext
  have := (x a).isLt
  rw [opposite_val, opposite_val]
  split_ifs <;> omega

theorem twiddle_opposite (q : Idx N) (a : Fin d) (x : ℕ) : twiddle (N a) (opposite q a) x = untwiddle (N a) (q a) x := by
  have hq := (q a).isLt
  rw [opposite_val]
  unfold twiddle untwiddle
  split_ifs with h
  · rw [h]; simp
  · have hn : (N a : ℂ) ≠ 0 := by exact_mod_cast (show N a ≠ 0 by omega)
    rw [Nat.cast_sub hq.le, show -(2 * (Real.pi : ℂ) * I * (((N a : ℂ) - ((q a : ℕ) : ℂ)) * (x : ℂ) / (N a : ℂ))) =
      2 * Real.pi * I * (((q a : ℕ) : ℂ) * (x : ℂ) / (N a : ℂ)) - ((x : ℤ) : ℂ) * (2 * Real.pi * I) by push_cast; field_simp; ring]
    rw [exp_sub, exp_int_mul_two_pi_mul_I, div_one]

theorem ft_conj (f : Idx N → ℂ) (q : Idx N) : ft (fun x => (starRingEnd ℂ) (f x)) q = (starRingEnd ℂ) (ft f (opposite q)) := by
  unfold ft
  rw [map_sum]
  refine Finset.sum_congr rfl fun x _ => ?_
  rw [map_mul, map_prod]
  congr 1
  refine Finset.prod_congr rfl fun a _ => ?_
  rw [twiddle_opposite, ← conj_twiddle, conj_conj]

theorem ft_inj {f g : Idx N → ℂ} (h : ft f = ft g) : f = g := by rw [← C23_ift_ft f, h, C23_ift_ft]

/-- The complex conjugate of a field. -/
noncomputable def conjField (F : Field n N) : Field n N := fun c x => (starRingEnd ℂ) (F c x)

/-- The wavenumbers of opposite frequencies are opposite. -/
def Odd (k : Fin d → Idx N → ℝ) : Prop := ∀ a x, k a (opposite x) = -k a x

theorem ft_curl (k : Fin d → Idx N → ℝ) (F : Field 3 N) (c : Fin 3) : ft (curl 3 k F c) = curlFt 3 k (fun c => ft (F c)) c := by
  unfold curl convolve
  rw [C23_ft_ift]

/-- Where opposite frequencies have opposite wavenumbers, the curl of real fields is real. -/
theorem curl_conj {k : Fin d → Idx N → ℝ} (hk : Odd k) (F : Field 3 N) : curl 3 k (conjField F) = conjField (curl 3 k F) := by
  funext c
  apply ft_inj
  funext q
  have e1 : ft (conjField (curl 3 k F) c) q = (starRingEnd ℂ) (ft (curl 3 k F c) (opposite q)) := ft_conj _ _
  rw [e1, ft_curl, ft_curl, congrFun (C24_curl_ft k _ q) c, congrFun (C24_curl_ft k _ (opposite q)) c]
  have hr : ∀ c, (starRingEnd ℂ) (Spec.Backend.kVector k (opposite q) c) = -Spec.Backend.kVector k q c := by
    intro c
    unfold Spec.Backend.kVector
    split_ifs
    · rw [conj_ofReal, hk]; push_cast; rfl
    · simp
  have hv : ∀ (F : Fin 3 → Idx N → ℂ) x, Spec.Backend.vector F x = fun c => F c x := fun F x => by
    funext c
    simp [Spec.Backend.vector]
  have hc : ∀ c, ft (conjField F c) q = (starRingEnd ℂ) (ft (F c) (opposite q)) := fun c => ft_conj _ _
  simp only [hv, hc, cross_apply]
  rw [map_mul, conj_I]
  fin_cases c <;> simp [hr] <;> ring

theorem reaction_eq (S E : Field n N) : reaction S E = dot (conjField S) E := by
  unfold reaction dot conjField
  rw [Finset.sum_comm]
  simp only [conj_conj]
  rfl

theorem reaction_comm (S E : Field n N) : reaction S E = reaction E S :=
  Finset.sum_congr rfl fun x _ => dotProduct_comm _ _

theorem conjField_conjField (F : Field n N) : conjField (conjField F) = F := by
  funext c x; exact conj_conj _

theorem reaction_curl {k : Fin d → Idx N → ℝ} (hk : Odd k) (F G : Field 3 N) : reaction F (curl 3 k G) = reaction (curl 3 k F) G := by
  rw [reaction_eq, curl_adjoint, curl_conj hk, reaction_eq]

theorem reaction_sub (F G H : Field n N) : reaction F (G - H) = reaction F G - reaction F H := by
  simp only [reaction_eq, dot_sub]

theorem reaction_smul (a : ℂ) (F G : Field n N) : reaction F (a • G) = a * reaction F G := by
  simp only [reaction_eq, dot_smul]

theorem reaction_mulField {A : Tensor n N} (hA : Spec.Physics.Reciprocal A) (F G : Field n N) : reaction F (mulField A G) = reaction G (mulField A F) := by
  unfold reaction
  refine Finset.sum_congr rfl fun x _ => ?_
  show (fun c => F c x) ⬝ᵥ (A x).mulVec (fun c => G c x) = (fun c => G c x) ⬝ᵥ (A x).mulVec (fun c => F c x)
  rw [Matrix.dotProduct_mulVec, ← Matrix.mulVec_transpose, hA x, dotProduct_comm]

/-! ### The wavenumbers of grids -/

theorem kOf_opposite (g : Grid.Obj d ℝ) (hs : ∀ a, 1 < g.shape a → g.step a ≠ 0) (a : Fin d) (x : Idx g.shape) :
    kOf g a (opposite x) = if 2 * (x a : ℕ) = g.shape a then kOf g a x else -kOf g a x := by
  rw [C24_kOf g hs, C24_kOf g hs, opposite_val]
  have := (x a).isLt
  by_cases h0 : (x a : ℕ) = 0
  · have h1 : ¬ 2 * (x a : ℕ) = g.shape a := by omega
    rw [if_neg h1, if_pos h0, h0]
    simp [show 0 < g.shape a by omega]
  · rw [if_neg h0]
    by_cases h1 : 2 * (x a : ℕ) = g.shape a
    · rw [if_pos h1, show g.shape a - (x a : ℕ) = (x a : ℕ) by omega]
    · rw [if_neg h1, Nat.cast_sub this.le]
      by_cases h2 : 2 * (x a : ℕ) < g.shape a
      · rw [if_pos h2, if_neg (by omega)]; ring
      · rw [if_neg h2, if_pos (by omega)]; ring

theorem kOf_odd (g : Grid.Obj d ℝ) (hs : ∀ a, 1 < g.shape a → g.step a ≠ 0) (h : ∀ a, g.shape a % 2 = 1) : Odd (kOf g) := fun a x => by
  rw [kOf_opposite g hs, if_neg (by have := h a; omega)]

theorem k2_opposite (g : Grid.Obj d ℝ) (hs : ∀ a, 1 < g.shape a → g.step a ≠ 0) (x : Idx g.shape) : k2 (kOf g) (opposite x) = k2 (kOf g) x := by
  unfold k2
  refine Finset.sum_congr rfl fun a _ => ?_
  rw [kOf_opposite g hs]
  split_ifs <;> ring

end Verif.Solver
