import Verif.Lemmas.SolverReal
import Verif.Props.Subpixel

/-!
# Maps between problems that commute with the iteration
-/

namespace Verif.Solver

open Verif Verif.Fourier Verif.Backend Complex
open Verif.Spec.Subpixel (circular wrap)

variable {d n : ℕ} {N : Fin d → ℕ}

theorem step_unfold (kind : Kind d n) (k : Fin d → Idx N → ℝ) (s : State n N) : step kind k s =
    match divFloat (Backend.norm (update kind k s)) s.prevNorm with
    | .error e => .error e
    | .ok r => if r < 1 then
        .ok { s with iteration := s.iteration + 1, residue := none, field := s.field + update kind k s, prevNorm := (Backend.norm (update kind k s) : ℝ) }
      else .ok (updateOperators { s with iteration := s.iteration + 1, residue := none } (increased s.alpha)) := rfl

theorem run_map {n' : ℕ} {N' : Fin d → ℕ} {kind : Kind d n} {kind' : Kind d n'} {k : Fin d → Idx N → ℝ} {k' : Fin d → Idx N' → ℝ} (Φ : State n N → State n' N')
    (h : ∀ s, step kind' k' (Φ s) = (step kind k s).map Φ) (s : State n N) (i : ℕ) : run kind' k' (Φ s) i = (run kind k s i).map Φ := by
  induction i with
  | zero => rfl
  | succ i ih =>
    simp only [run, ih]
    cases run kind k s i with
    | error e => rfl
    | ok t => exact h t

/-! ### Translations -/

/-- A field that has been moved by the given number of samples along each axis. -/
def moveField (F : Field n N) (m : Fin d → ℤ) : Field n N := fun c => circular (F c) m

/-- A problem that has been moved: all arrays have been moved. -/
noncomputable def moveState (m : Fin d → ℤ) (s : State n N) : State n N :=
  { s with field := moveField s.field m, source := moveField s.source m, chiEE := circular s.chiEE m, chiEH := circular s.chiEH m, chiHE := circular s.chiHE m, chiHH := circular s.chiHH m }

theorem convolve_move (hN : ∀ a, 0 < N a) {l : ℕ} {op : (Fin n → Idx N → ℂ) → (Fin l → Idx N → ℂ)}
    (hop : ∀ (F : Fin n → Idx N → ℂ) (z : Idx N → ℂ), op (fun c x => F c x * z x) = fun c x => op F c x * z x) (F : Field n N) (m : Fin d → ℤ) :
    convolve op (moveField F m) = moveField (convolve op F) m := by
  funext c
  apply ft_inj
  unfold convolve moveField
  rw [C23_ft_ift, Subpixel.ft_circular hN, C23_ft_ift]
  simp only [Subpixel.ft_circular hN]
  exact congrFun (hop _ _) c

theorem curlFt_mul {l : ℕ} (k : Fin d → Idx N → ℝ) (F : Fin n → Idx N → ℂ) (z : Idx N → ℂ) : curlFt l k (fun c x => F c x * z x) = fun c x => curlFt l k F c x * z x := by
  funext c x
  unfold curlFt
  dsimp only
  split_ifs <;> ring

theorem longitudinalFt_mul (k : Fin d → Idx N → ℝ) (hd : d ≤ n) (F : Fin n → Idx N → ℂ) (z : Idx N → ℂ) :
    longitudinalFt k origin hd (fun c x => F c x * z x) = fun c x => longitudinalFt k origin hd F c x * z x := by
  funext c x
  have e : ∑ a, (k a x : ℂ) * (F (Fin.castLE hd a) x * z x) = (∑ a, (k a x : ℂ) * F (Fin.castLE hd a) x) * z x := by
    rw [Finset.sum_mul]; exact Finset.sum_congr rfl fun a _ => by ring
  unfold longitudinalFt
  dsimp only
  rw [e]
  split_ifs <;> ring

theorem greenFt_mul (k : Fin d → Idx N → ℝ) (alpha : ℂ) (kind : Kind d n) (F : Fin n → Idx N → ℂ) (z : Idx N → ℂ) :
    greenFt k alpha kind (fun c x => F c x * z x) = fun c x => greenFt k alpha kind F c x * z x := by
  cases kind with
  | scalar => funext c x; simp only [greenFt]; ring
  | vectorial hd =>
    funext c x
    simp only [greenFt, longitudinalFt_mul]
    ring

theorem mulField_move (A : Tensor n N) (F : Field n N) (m : Fin d → ℤ) : mulField (circular A m) (moveField F m) = moveField (mulField A F) m := rfl

theorem chiOp_move (hN : ∀ a, 0 < N a) (k : Fin d → Idx N → ℝ) (s : State n N) (m : Fin d → ℤ) (F : Field n N) :
    chiOp k (moveState m s) (moveField F m) = moveField (chiOp k s F) m := by
  have hc : ∀ F : Field n N, curl n k (moveField F m) = moveField (curl n k F) m := fun F => convolve_move hN (curlFt_mul k) F m
  have ha : ∀ F G : Field n N, moveField F m + moveField G m = moveField (F + G) m := fun _ _ => rfl
  cases h : s.magnetic with
  | true =>
    rw [chiOp_magnetic k s h, chiOp_magnetic k (moveState m s) h, hc]
    show mulField (circular s.chiEE m) _ + mulField (circular s.chiHE m) _ + curl n k (mulField (circular s.chiEH m) _ + mulField (circular s.chiHH m) _) = _
    simp only [mulField_move, ha, hc]
  | false =>
    rw [chiOp_nonmagnetic k s h, chiOp_nonmagnetic k (moveState m s) h]
    exact mulField_move _ _ _

theorem update_move (hN : ∀ a, 0 < N a) (kind : Kind d n) (k : Fin d → Idx N → ℝ) (s : State n N) (m : Fin d → ℤ) :
    update kind k (moveState m s) = moveField (update kind k s) m := by
  have hg : ∀ F : Field n N, green kind k s.alpha (moveField F m) = moveField (green kind k s.alpha F) m := fun F => convolve_move hN (greenFt_mul k s.alpha kind) F m
  have ha : ∀ F G : Field n N, (fun c x => moveField F m c x + moveField G m c x) = moveField (fun c x => F c x + G c x) m := fun _ _ => rfl
  have hb : ∀ F G : Field n N, (fun c x => moveField F m c x - moveField G m c x) = moveField (fun c x => F c x - G c x) m := fun _ _ => rfl
  unfold update
  dsimp only
  rw [show (moveState m s).field = moveField s.field m from rfl, show (moveState m s).source = moveField s.source m from rfl,
    show (moveState m s).alpha = s.alpha from rfl, chiOp_move hN, ha, hg, hb, chiOp_move hN]

theorem sum_circular {M : Type} [AddCommMonoid M] (hN : ∀ a, 0 < N a) (f : Idx N → M) (m : Fin d → ℤ) : ∑ x, circular f m x = ∑ x, f x := by
  let e : Idx N → Idx N := fun x a => wrap (N a) (hN a) (((x a : ℕ) : ℤ) - m a)
  have he : Function.Bijective e := Finite.injective_iff_bijective.1 fun x y h => funext fun a => Subpixel.wrap_injective _ _ _ _ _ (congrFun h a)
  exact he.sum_comp f

theorem norm_move (hN : ∀ a, 0 < N a) (F : Field n N) (m : Fin d → ℤ) : Backend.norm (moveField F m) = Backend.norm F := by
  unfold Backend.norm
  congr 1
  exact Finset.sum_congr rfl fun c _ => sum_circular hN (fun x => ‖F c x‖ ^ 2) m

theorem step_move (hN : ∀ a, 0 < N a) (kind : Kind d n) (k : Fin d → Idx N → ℝ) (s : State n N) (m : Fin d → ℤ) :
    step kind k (moveState m s) = (step kind k s).map (moveState m) := by
  rw [step_unfold, step_unfold, update_move hN, norm_move hN, show (moveState m s).prevNorm = s.prevNorm from rfl]
  cases divFloat (Backend.norm (update kind k s)) s.prevNorm with
  | error e => rfl
  | ok r =>
    dsimp only
    split_ifs
    · rfl
    · rfl

/-! ### Amplitudes -/

/-- A problem of which source and field have been multiplied by a constant. -/
noncomputable def scaleState (z : ℂ) (s : State n N) : State n N :=
  { s with field := z • s.field, source := z • s.source, prevNorm := s.prevNorm.map (‖z‖ * ·) }

theorem update_scale (z : ℂ) (kind : Kind d n) (k : Fin d → Idx N → ℝ) (s : State n N) : update kind k (scaleState z s) = z • update kind k s := by
  have h1 := (homogeneous_isLinear kind k s).map_smul z s.field
  have h2 := (green_isLinear kind k s.alpha).map_smul z s.source
  have h3 := (chiOp_isLinear k s).map_smul z (green kind k s.alpha s.source)
  rw [update_eq, update_eq]
  show homogeneous kind k s (z • s.field) - z • s.field + chiOp k s (green kind k s.alpha (z • s.source)) = _
  rw [h1, h2, h3, smul_add, smul_sub]

theorem norm_scale (z : ℂ) (F : Field n N) : Backend.norm (z • F) = ‖z‖ * Backend.norm F := norm_smul' z F

theorem divFloat_scale {r : ℝ} (hr : r ≠ 0) (x : ℝ) (p : WithTop ℝ) : divFloat (r * x) (p.map (r * ·)) = divFloat x p := by
  cases p with
  | top => rfl
  | coe p =>
    show (if r * p = 0 then _ else _) = (if p = 0 then _ else _)
    by_cases h : p = 0
    · subst h; simp
    · rw [if_neg (mul_ne_zero hr h), if_neg h, mul_div_mul_left _ _ hr]

theorem step_scale {z : ℂ} (hz : z ≠ 0) (kind : Kind d n) (k : Fin d → Idx N → ℝ) (s : State n N) :
    step kind k (scaleState z s) = (step kind k s).map (scaleState z) := by
  rw [step_unfold, step_unfold, update_scale, norm_scale, show (scaleState z s).prevNorm = s.prevNorm.map (‖z‖ * ·) from rfl, divFloat_scale (norm_ne_zero_iff.2 hz)]
  cases divFloat (Backend.norm (update kind k s)) s.prevNorm with
  | error e => rfl
  | ok r =>
    dsimp only
    split_ifs
    · simp only [Except.map, scaleState, smul_add]
      rfl
    · simp only [Except.map, scaleState, updateOperators]
      congr 2
      funext c x
      simp only [Pi.smul_apply, smul_eq_mul]
      ring

end Verif.Solver
