import Verif.Model.SubpixelAxes
import Mathlib.Tactic.Linarith

/-!
# Lemmas about shapes and axes for the registration of images
-/

namespace Verif.Subpixel

open Verif

theorem broadcastRev_nil (s : List ℕ) : broadcastRev s [] = .ok s := by
  cases s <;> rfl

theorem broadcastRev_self (s : List ℕ) : broadcastRev s s = .ok s := by
  induction s with
  | nil => rfl
  | cons a s ih => simp [broadcastRev, ih, Except.map]

theorem broadcastRev_ones (s : List ℕ) : broadcastRev (List.replicate s.length 1) s = .ok s := by
  induction s with
  | nil => rfl
  | cons a s ih =>
    rw [List.length_cons, List.replicate_succ, broadcastRev, ih]
    by_cases h : 1 = a ∨ a = 1
    · rw [if_pos h]
      have : a = 1 := by omega
      rw [this]; rfl
    · rw [if_neg h, if_pos rfl]; rfl

theorem broadcastRev_length (s t u : List ℕ) (h : broadcastRev s t = .ok u) : u.length = max s.length t.length := by
  induction s generalizing t u with
  | nil => rw [broadcastRev] at h; cases h; simp
  | cons a s ih =>
    cases t with
    | nil => rw [broadcastRev_nil] at h; cases h; simp
    | cons b t =>
      rw [broadcastRev] at h
      have : ∀ x : ℕ, (broadcastRev s t).map (x :: ·) = .ok u → u.length = max (a :: s).length (b :: t).length := by
        intro x hx
        cases hb : broadcastRev s t with
        | error e => rw [hb] at hx; exact nomatch hx
        | ok v =>
          rw [hb] at hx
          cases hx
          simp only [List.length_cons, ih t v hb]
          omega
      split at h
      · exact this a h
      · split at h
        · exact this b h
        · exact nomatch h

theorem broadcastShapes_nil (s : List ℕ) : broadcastShapes s [] = .ok s := by
  simp [broadcastShapes, broadcastRev_nil, Except.map]

theorem broadcastShapes_self (s : List ℕ) : broadcastShapes s s = .ok s := by
  simp [broadcastShapes, broadcastRev_self, Except.map]

theorem broadcastShapes_ones (s : List ℕ) : broadcastShapes (List.replicate s.length 1) s = .ok s := by
  have := broadcastRev_ones s.reverse
  rw [List.length_reverse] at this
  simp [broadcastShapes, this, Except.map]

theorem broadcastShapes_length {s t u : List ℕ} (h : broadcastShapes s t = .ok u) : u.length = max s.length t.length := by
  unfold broadcastShapes at h
  cases hb : broadcastRev s.reverse t.reverse with
  | error e => rw [hb] at h; exact nomatch h
  | ok v =>
    rw [hb] at h
    cases h
    simpa using broadcastRev_length _ _ _ hb

theorem mapM_ok {α β : Type} (f : α → Except PyErr β) (g : α → β) (l : List α) (h : ∀ a ∈ l, f a = .ok (g a)) : l.mapM f = .ok (l.map g) := by
  induction l with
  | nil => rfl
  | cons a l ih =>
    rw [List.mapM_cons, h a (List.mem_cons_self ..), ih fun b hb => h b (List.mem_cons_of_mem _ hb)]
    rfl

theorem axisPositions_tail (m n : ℕ) : axisPositions (m + n) (defaultAxes n) = .ok ((List.range n).map (m + ·)) := by
  unfold axisPositions defaultAxes
  rw [List.mapM_map]
  refine mapM_ok _ _ _ fun i hi => ?_
  rw [List.mem_range] at hi
  show Mat.position (m + n) ((i : ℤ) - n) = _
  unfold Mat.position
  rw [if_neg (by omega), if_pos (by push_cast; omega)]
  congr 1
  push_cast
  omega

theorem axisPositions_default (n : ℕ) : axisPositions n (defaultAxes n) = .ok (List.range n) := by
  have := axisPositions_tail 0 n
  simpa using this

theorem meanShape_default (s : List ℕ) : meanShape s (defaultAxes s.length) = .ok [] := by
  unfold meanShape
  rw [axisPositions_default]
  dsimp only
  rw [if_pos List.nodup_range]
  have : (List.range s.length).filter (fun i => decide (i ∉ List.range s.length)) = [] := by
    rw [List.filter_eq_nil_iff]
    intro a ha
    simpa using ha
  rw [this]
  rfl

theorem defaultAxes_length (n : ℕ) : (defaultAxes n).length = n := by simp [defaultAxes]

theorem zoomAxes_default (M : ℕ) (s : List ℕ) : zoomAxes M s (List.range s.length) s = zoomShape M s := by
  unfold zoomAxes zoomShape
  have : ∀ (l : List ℕ) (u : List ℕ), (∀ i ∈ l, i < s.length) →
      l.foldlM (fun u i => if i < s.length then (matmulShape M (s.getD i 0) (swapaxes i u)).map (swapaxes i) else .error .indexError) u
        = l.foldlM (fun u i => (matmulShape M (s.getD i 0) (swapaxes i u)).map (swapaxes i)) u := by
    intro l
    induction l with
    | nil => intro u _; rfl
    | cons a l ih =>
      intro u h
      rw [List.foldlM_cons, List.foldlM_cons, if_pos (h a (List.mem_cons_self ..))]
      congr 1
      funext v
      exact ih v fun i hi => h i (List.mem_cons_of_mem _ hi)
  exact this _ _ fun i hi => List.mem_range.1 hi

theorem getD_range (s : List ℕ) : (List.range s.length).map (fun i => s.getD i 0) = s := by
  apply List.ext_getElem
  · simp
  · intro i h1 h2
    simp only [List.length_map, List.length_range] at h1
    simp [List.getElem?_eq_getElem h1]

/-- What the peak is found with, for all axes. -/
theorem peakShape_default (s : List ℕ) (h : s.prod ≠ 0) (p : Precision) : peakShape (defaultAxes s.length) s p = match p with
    | .fine M => (zoomShape M s).map fun u => (u.length, [])
    | _ => .ok (s.length, []) := by
  have hfit : List.Forall₂ indexFits s s := by
    rw [List.forall₂_same]
    intro a ha
    have : a ≠ 0 := fun h0 => h (List.prod_eq_zero (h0 ▸ ha))
    unfold indexFits
    omega
  unfold peakShape
  rw [axisPositions_default]
  dsimp only
  rw [getD_range]
  cases p with
  | zero => simp only [meanShape_default, Except.map, defaultAxes_length]
  | whole => simp only [if_neg h, defaultAxes_length, ne_eq, not_true_eq_false, if_false]
  | half => simp only [if_neg h, defaultAxes_length, ne_eq, not_true_eq_false, if_false, if_pos hfit]
  | fine M => simp only [if_neg h, defaultAxes_length, ne_eq, not_true_eq_false, if_false, if_pos hfit, zoomAxes_default]

theorem meanShape_tail (c : ℕ) (rest : List ℕ) : meanShape (c :: rest) (defaultAxes rest.length) = .ok [c] := by
  have h := axisPositions_tail 1 rest.length
  unfold meanShape
  rw [List.length_cons, Nat.add_comm, h]
  dsimp only
  rw [if_pos (List.nodup_range.map fun a b hab => by simpa using hab)]
  have : (List.range (1 + rest.length)).filter (fun i => decide (i ∉ (List.range rest.length).map (1 + ·))) = [0] := by
    rw [Nat.add_comm, List.range_succ_eq_map, List.filter_cons, if_pos (by simp)]
    congr 1
    rw [List.filter_eq_nil_iff]
    intro a ha
    simp only [List.mem_map, List.mem_range, decide_not, Bool.not_eq_true', decide_eq_false_iff_not, not_not] at ha ⊢
    obtain ⟨b, hb, rfl⟩ := ha
    exact ⟨b, hb, by omega⟩
  rw [this]
  rfl

end Verif.Subpixel
