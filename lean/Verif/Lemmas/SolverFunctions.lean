import Verif.Model.SolverFunctions
import Verif.Lemmas.Problem
import Verif.Props.Problem

/-!
# Arrays of coordinates
-/

namespace Verif.Problem

open Verif Verif.Fourier Verif.Solver Verif.Construct Complex
open Verif.Assign (Arr toMatrixField full expand CanBroadcast broadcast)

variable {d n : ℕ}

/-! ### Broadcasting -/

theorem bidxRev_within : ∀ {s j : List ℕ}, List.Forall₂ (· < ·) j s → ∀ t, bidxRev s (j ++ t) = j
  | _, _, .nil, _ => rfl
  | _, _, .cons (a := x) (b := l) h h', t => by
    have := bidxRev_within h' t
    show (if l = 1 then 0 else x) :: bidxRev _ (_ ++ t) = _
    rw [this]
    congr 1
    split_ifs with h1
    · omega
    · rfl

theorem bval_within {a : Arr ℂ} {i : List ℕ} (h : List.Forall₂ (· < ·) i a.shape) (pre : List ℕ) : bval a (pre ++ i) = a.val i := by
  unfold bval
  rw [List.reverse_append, bidxRev_within (List.forall₂_reverse_iff.2 h), List.reverse_reverse]

theorem within_ofFn {N : Fin d → ℕ} (x : Idx N) : List.Forall₂ (· < ·) (List.ofFn fun b => (x b : ℕ)) (List.ofFn N) :=
  List.forall₂_iff_get.2 ⟨by simp, fun i h1 h2 => by simp⟩

theorem bshapeRev_ofFn : ∀ {d : ℕ} (f g : Fin d → ℕ), (∀ b, f b = g b ∨ f b = 1 ∨ g b = 1) →
    bshapeRev (List.ofFn f) (List.ofFn g) = some (List.ofFn fun b => if f b = 1 then g b else f b)
  | 0, _, _, _ => rfl
  | d + 1, f, g, h => by
    rw [List.ofFn_succ, List.ofFn_succ, List.ofFn_succ]
    show (if f 0 = g 0 ∨ f 0 = 1 ∨ g 0 = 1 then _ else none) = _
    rw [if_pos (h 0), bshapeRev_ofFn _ _ fun b => h b.succ]
    rfl

theorem ofFn_reverse (f : Fin d → ℕ) : (List.ofFn f).reverse = List.ofFn fun b => f b.rev := by
  apply List.ext_getElem
  · simp
  · intro i h1 h2
    simp only [List.getElem_reverse, List.getElem_ofFn, List.length_ofFn]
    congr 1
    ext
    simp [Fin.rev]
    omega

theorem bshapeRev_reverse (f g : Fin d → ℕ) (h : ∀ b, f b = g b ∨ f b = 1 ∨ g b = 1) :
    bshapeRev (List.ofFn f).reverse (List.ofFn g).reverse = some (List.ofFn fun b => if f b = 1 then g b else f b).reverse := by
  rw [ofFn_reverse, ofFn_reverse, ofFn_reverse, bshapeRev_ofFn _ _ fun b => h b.rev]

/-- The shape of the coordinates along an axis. -/
def alongAxis (N : Fin d → ℕ) (a : Fin d) : List ℕ := List.ofFn fun b => if b = a then N a else 1

/-- NumPy's rule for the shape of an elementwise operation on any number of arrays. -/
def broadcastShapes (shapes : List (List ℕ)) : Option (List ℕ) := (shapes.foldlM (fun r s => bshapeRev r s.reverse) []).map List.reverse

theorem fold_shapes (N : Fin d → ℕ) (l : List (Fin d)) : ∀ (P : Fin d → Bool),
    (l.map (alongAxis N)).foldlM (fun r s => bshapeRev r s.reverse) (List.ofFn fun b => if P b then N b else 1).reverse =
      some (List.ofFn fun b => if P b ∨ b ∈ l then N b else 1).reverse := by
  induction l with
  | nil => intro P; simp
  | cons a l ih =>
    intro P
    rw [List.map_cons, List.foldlM_cons]
    unfold alongAxis
    rw [bshapeRev_reverse _ _ (by intro b; by_cases h1 : P b <;> by_cases h2 : b = a <;> simp_all)]
    have := ih fun b => P b || decide (b = a)
    have e : (fun b => if (if P b = true then N b else 1) = 1 then (if b = a then N a else 1) else (if P b = true then N b else 1)) =
        fun b => if (P b || decide (b = a)) = true then N b else 1 := by
      funext b
      by_cases h1 : P b <;> by_cases h2 : b = a <;> simp_all
    rw [e]
    show (l.map (alongAxis N)).foldlM _ _ = _
    rw [this]
    congr 3
    funext b
    by_cases h1 : P b <;> by_cases h2 : b = a <;> simp_all

theorem broadcastShapes_axes (N : Fin d → ℕ) : broadcastShapes ((List.finRange d).map (alongAxis N)) = some (List.ofFn N) := by
  unfold broadcastShapes
  cases d with
  | zero => rfl
  | succ d =>
    rw [List.finRange_succ, List.map_cons, List.foldlM_cons]
    have h0 : alongAxis N 0 = List.ofFn fun b => if decide (b = 0) = true then N b else 1 := by
      unfold alongAxis
      congr 1
      funext b
      by_cases h : b = 0 <;> simp_all
    show Option.map List.reverse (((List.map Fin.succ (List.finRange d)).map (alongAxis N)).foldlM _ (alongAxis N 0).reverse) = _
    rw [h0, fold_shapes]
    show some (List.ofFn _).reverse.reverse = _
    rw [List.reverse_reverse]
    congr 2
    funext b
    refine Fin.cases ?_ (fun b => ?_) b
    · simp
    · simp

/-! ### Sources -/

/-- An array with one number per component and point is used as such. -/
theorem source_canonical {N : Fin d → ℕ} {a : Arr ℂ} (hn : 1 ≤ n) (hs : a.shape = n :: List.ofFn N) :
    CanBroadcast (toMatrixField d a) (full n N) ∧
      ∀ (c : Fin n) (x : Idx N), broadcast (toMatrixField d a) (Fin.cons (c : ℕ) (Fin.cons 0 fun b => (x b : ℕ))) = a.val ((c : ℕ) :: List.ofFn fun b => (x b : ℕ)) := by
  have hl : d + 2 - a.shape.length = 1 := by rw [hs]; simp
  have hshape : (expand d a).shape = Fin.cons 1 (Fin.cons n N) := by
    funext k
    unfold expand
    dsimp only
    rw [hl, hs]
    refine Fin.cases ?_ (fun k => Fin.cases ?_ (fun k => ?_) k) k
    · rfl
    · rfl
    · simp
  have hval : ∀ i : Fin (d + 2) → ℕ, (expand d a).val i = a.val (i 1 :: List.ofFn fun b : Fin d => i b.succ.succ) := by
    intro i
    unfold expand
    dsimp only
    rw [hl, List.ofFn_succ, List.ofFn_succ]
    rfl
  have hzero : ∀ {m : ℕ} (y : Fin m), (if m = 1 then 0 else (y : ℕ)) = y := fun {m} y => by
    split_ifs with h
    · have := y.isLt
      omega
    · rfl
  rcases Nat.lt_or_ge 1 n with h1 | h1
  · have hm : toMatrixField d a = ⟨Assign.swap01 (expand d a).shape, fun i => (expand d a).val (Assign.swap01 i)⟩ := by
      unfold toMatrixField
      exact if_pos ⟨by rw [hshape]; rfl, by rw [hshape]; exact h1⟩
    have hsh : (toMatrixField d a).shape = full n N := by
      rw [hm]
      funext k
      show (expand d a).shape (Equiv.swap 0 1 k) = _
      rw [hshape]
      refine Fin.cases ?_ (fun k => Fin.cases ?_ (fun k => ?_) k) k
      · rw [Equiv.swap_apply_left]; rfl
      · show (Fin.cons 1 (Fin.cons n N) : Fin (d + 2) → ℕ) (Equiv.swap 0 1 1) = _
        rw [Equiv.swap_apply_right]; rfl
      · rw [Equiv.swap_apply_of_ne_of_ne (Fin.succ_ne_zero _) (by rw [← Fin.succ_zero_eq_one]; exact fun h => Fin.succ_ne_zero _ (Fin.succ_injective _ h))]; rfl
    refine ⟨fun k => .inl (congrFun hsh k), fun c x => ?_⟩
    unfold broadcast
    rw [hsh, hm]
    dsimp only
    rw [hval]
    congr 2
    · show (if full n N (Equiv.swap 0 1 1) = 1 then 0 else (Fin.cons (c : ℕ) (Fin.cons 0 fun b => (x b : ℕ)) : Fin (d + 2) → ℕ) (Equiv.swap 0 1 1)) = _
      rw [Equiv.swap_apply_right]
      exact hzero c
    · congr 1
      funext b
      show (if full n N (Equiv.swap 0 1 b.succ.succ) = 1 then 0 else (Fin.cons (c : ℕ) (Fin.cons 0 fun b => (x b : ℕ)) : Fin (d + 2) → ℕ) (Equiv.swap 0 1 b.succ.succ)) = _
      rw [Equiv.swap_apply_of_ne_of_ne (Fin.succ_ne_zero _) (by rw [← Fin.succ_zero_eq_one]; exact fun h => Fin.succ_ne_zero _ (Fin.succ_injective _ h))]
      exact hzero (x b)
  · have hn1 : n = 1 := by omega
    subst hn1
    have hm : toMatrixField d a = expand d a := by
      unfold toMatrixField
      exact if_neg fun h => absurd h.2 (by rw [hshape]; exact lt_irrefl 1)
    refine ⟨fun k => .inl (by rw [hm, hshape]; rfl), fun c x => ?_⟩
    unfold broadcast
    rw [hm, hval, hshape]
    congr 2
    · show 0 = (c : ℕ)
      omega
    · congr 1
      funext b
      exact hzero (x b)

end Verif.Problem
