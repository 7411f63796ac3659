import Verif.Model.BeamArgs
import Verif.Spec.BeamArgs
import Verif.Lemmas.Beam

/-!
# Broadcasting to the shape of a section
-/

namespace Verif.Beam

open Verif Verif.Fourier Complex

variable {o : Optics} {P : Projection}

theorem fitsRev_iff : ∀ {s t : List ℕ}, GridArg.fitsRev s t = true ↔ ∃ t1 t2, t = t1 ++ t2 ∧ List.Forall₂ (fun l m => l = 1 ∨ l = m) s t1
  | [], t => ⟨fun _ => ⟨[], t, rfl, .nil⟩, fun _ => rfl⟩
  | a :: s, [] => by
    refine Iff.intro (fun h => (Bool.false_ne_true h).elim) ?_
    rintro ⟨t1, t2, h, h2⟩
    cases h2
    cases h
  | a :: s, b :: t => by
    unfold GridArg.fitsRev
    rw [Bool.and_eq_true, fitsRev_iff, Bool.or_eq_true, decide_eq_true_iff, decide_eq_true_iff]
    constructor
    · rintro ⟨h1, t1, t2, rfl, h2⟩
      exact ⟨b :: t1, t2, rfl, .cons h1 h2⟩
    · rintro ⟨t1, t2, h, h2⟩
      cases h2 with
      | cons h3 h4 =>
        obtain ⟨rfl, rfl⟩ := List.cons.inj h
        exact ⟨h3, _, _, rfl, h4⟩

theorem fits_iff {s t : List ℕ} : GridArg.fitsRev s.reverse t.reverse = true ↔ Fits s t := by
  rw [fitsRev_iff]
  constructor
  · rintro ⟨t1, t2, h, h2⟩
    refine ⟨t2.reverse, t1.reverse, ?_, ?_⟩
    · rw [← List.reverse_append, ← h, List.reverse_reverse]
    · rw [← List.forall₂_reverse_iff, List.reverse_reverse]
      exact h2
  · rintro ⟨l, r, rfl, h2⟩
    exact ⟨r.reverse, l.reverse, List.reverse_append, List.forall₂_reverse_iff.2 h2⟩

theorem Fits.length_le {s t : List ℕ} (h : Fits s t) : s.length ≤ t.length := by
  obtain ⟨l, r, rfl, h2⟩ := h
  rw [List.length_append, h2.length_eq]
  omega

theorem pick_eq {s i : List ℕ} (h : s.length ≤ i.length) : (GridArg.pickRev s.reverse i.reverse).reverse = indexIn s i := by
  have hk : i.length - s.length ≤ i.length := Nat.sub_le _ _
  have hl : s.length = (i.drop (i.length - s.length)).length := by rw [List.length_drop]; omega
  unfold GridArg.pickRev indexIn
  conv_lhs => rw [← List.take_append_drop (i.length - s.length) i, List.reverse_append]
  generalize i.drop (i.length - s.length) = r at hl
  have e : List.zipWith (fun l j => if l = 1 then 0 else j) s.reverse (r.reverse ++ (List.take (i.length - s.length) i).reverse) =
      List.zipWith (fun l j => if l = 1 then 0 else j) s.reverse r.reverse := by
    rw [← List.append_nil s.reverse, List.zipWith_append (by simp [hl])]
    simp
  rw [e, ← List.reverse_zipWith hl, List.reverse_reverse]

theorem broadcastTo_ok {a : Assign.Arr ℂ} {t : List ℕ} (h : Fits a.shape t) :
    ∃ v, broadcastTo a t = .ok v ∧ ∀ i, i.length = t.length → v i = a.val (indexIn a.shape i) := by
  refine ⟨_, if_pos (fits_iff.2 h), fun i hi => ?_⟩
  show a.val _ = _
  rw [pick_eq (hi ▸ h.length_le)]

theorem broadcastTo_error {a : Assign.Arr ℂ} {t : List ℕ} (h : ¬ Fits a.shape t) : broadcastTo a t = .error .valueError :=
  if_neg fun h' => h (fits_iff.1 h')

theorem length_indexIn {s i : List ℕ} (h : s.length ≤ i.length) : (indexIn s i).length = s.length := by
  unfold indexIn
  rw [List.length_zipWith, List.length_drop]
  omega

theorem indexIn_cons {s i : List ℕ} {j : ℕ} (h : s.length ≤ i.length) : indexIn s (j :: i) = indexIn s i := by
  unfold indexIn
  rw [List.length_cons, show i.length + 1 - s.length = (i.length - s.length) + 1 by omega, List.drop_succ_cons]

/-- An array without polarization axis fits with any number of components, and has the same values for all. -/
theorem fits_component {s t : List ℕ} (h : Fits s (1 :: t)) (c : ℕ) : Fits s (c :: t) := by
  obtain ⟨l, r, e, h2⟩ := h
  cases l with
  | nil =>
    obtain rfl : 1 :: t = r := e
    cases h2 with
    | cons h3 h4 => exact ⟨[], _, rfl, .cons (.inl (h3.elim id id)) h4⟩
  | cons x l =>
    obtain ⟨rfl, rfl⟩ := List.cons.inj e
    exact ⟨c :: l, r, rfl, h2⟩

theorem indexIn_component {s t i : List ℕ} (h : Fits s (1 :: t)) (hi : i.length = t.length) (c : ℕ) : indexIn s (c :: i) = indexIn s (0 :: i) := by
  rcases Nat.lt_or_ge i.length s.length with hl | hl
  · obtain ⟨l, r, e, h2⟩ := h
    cases l with
    | nil =>
      obtain rfl : 1 :: t = r := e
      cases h2 with
      | cons h3 h4 =>
        obtain rfl := h3.elim id id
        unfold indexIn
        rw [show (c :: i).length - (1 :: _).length = 0 by simp only [List.length_cons]; rw [h4.length_eq, hi]; omega,
          show (0 :: i).length - (1 :: _).length = 0 by simp only [List.length_cons]; rw [h4.length_eq, hi]; omega]
        rfl
    | cons x l =>
      obtain ⟨_, rfl⟩ := List.cons.inj e
      have hi : i.length = (l ++ r).length := hi
      rw [List.length_append, ← h2.length_eq] at hi
      omega
  · rw [indexIn_cons hl, indexIn_cons hl]

theorem within_indexIn {s t i : List ℕ} (h : Fits s t) (hi : List.Forall₂ (· < ·) i t) : List.Forall₂ (· < ·) (indexIn s i) s := by
  obtain ⟨l, r, rfl, h2⟩ := h
  have hlen := hi.length_eq
  have hr : List.Forall₂ (· < ·) (i.drop l.length) r := by
    have := List.forall₂_drop l.length hi
    rwa [List.drop_left] at this
  unfold indexIn
  rw [show i.length - s.length = l.length by rw [hlen, List.length_append, h2.length_eq]; omega]
  generalize i.drop l.length = i at hr
  clear hi hlen
  induction h2 generalizing i with
  | nil => cases hr; exact .nil
  | cons h3 h4 ih =>
    cases hr with
    | cons h5 h6 =>
      refine .cons ?_ (ih _ h6)
      dsimp only
      split_ifs with h1
      · rw [h1]; exact one_pos
      · rcases h3 with e | e
        · exact absurd e h1
        · rw [e]; exact h5

theorem exists_indexIn {s t i : List ℕ} (h : Fits s t) (hp : ∀ m ∈ t, 0 < m) (hi : List.Forall₂ (· < ·) i s) : ∃ j, List.Forall₂ (· < ·) j t ∧ indexIn s j = i := by
  obtain ⟨l, r, rfl, h2⟩ := h
  have key : ∃ j, List.Forall₂ (· < ·) j r ∧ List.zipWith (fun l j => if l = 1 then 0 else j) s j = i := by
    have hp' : ∀ m ∈ r, 0 < m := fun m hm => hp m (List.mem_append_right _ hm)
    clear hp
    induction h2 generalizing i with
    | nil => cases hi; exact ⟨[], .nil, rfl⟩
    | @cons a b s r h3 h4 ih =>
      cases hi with
      | @cons x _ i _ h5 h6 =>
        obtain ⟨j, hj, e⟩ := ih h6 fun m hm => hp' m (List.mem_cons_of_mem _ hm)
        by_cases h1 : a = 1
        · refine ⟨0 :: j, .cons (hp' b List.mem_cons_self) hj, ?_⟩
          rw [List.zipWith_cons_cons, e, if_pos h1]
          congr 1
          omega
        · refine ⟨x :: j, .cons ?_ hj, ?_⟩
          · rcases h3 with e' | e'
            · exact absurd e' h1
            · omega
          · rw [List.zipWith_cons_cons, e, if_neg h1]
  obtain ⟨j, hj, e⟩ := key
  refine ⟨List.replicate l.length 0 ++ j, List.rel_append ?_ hj, ?_⟩
  · have hp' : ∀ m ∈ l, 0 < m := fun m hm => hp m (List.mem_append_left _ hm)
    clear hp
    induction l with
    | nil => exact .nil
    | cons a l ih => exact .cons (hp' a List.mem_cons_self) (ih fun m hm => hp' m (List.mem_cons_of_mem _ hm))
  · unfold indexIn
    have hlen : (List.replicate l.length 0 ++ j).length - s.length = (List.replicate l.length 0).length := by
      rw [List.length_append, List.length_replicate, hj.length_eq, h2.length_eq]; omega
    rw [hlen, List.drop_left]
    exact e

theorem forall₂_ofFn {n : ℕ} {N : Fin n → ℕ} (x : Idx N) : List.Forall₂ (· < ·) (List.ofFn fun b => (x b : ℕ)) (List.ofFn N) := by
  rw [List.forall₂_iff_get]
  refine ⟨by simp, fun k h1 h2 => ?_⟩
  simp only [List.get_eq_getElem, List.getElem_ofFn]
  exact (x _).isLt

theorem exists_ofFn {n : ℕ} {N : Fin n → ℕ} {j : List ℕ} (h : List.Forall₂ (· < ·) j (List.ofFn N)) : ∃ x : Idx N, j = List.ofFn fun b => (x b : ℕ) := by
  rw [List.forall₂_iff_get] at h
  obtain ⟨h1, h2⟩ := h
  rw [List.length_ofFn] at h1
  refine ⟨fun b => ⟨j.get ⟨b, h1 ▸ b.isLt⟩, ?_⟩, ?_⟩
  · have := h2 b (h1 ▸ b.isLt) (by simp)
    simpa using this
  · refine List.ext_getElem (by simpa using h1) fun k h3 h4 => ?_
    simp

theorem indexIn_zero {s i : List ℕ} (h : s.length ≤ i.length) (h0 : ∀ j ∈ i, j = 0) : indexIn s i = s.map fun _ => 0 := by
  unfold indexIn
  refine List.ext_getElem ?_ fun k h1 h2 => ?_
  · rw [List.length_zipWith, List.length_drop, List.length_map]; omega
  · rw [List.getElem_zipWith, List.getElem_map, List.getElem_drop]
    split_ifs
    · rfl
    · exact h0 _ (List.getElem_mem _)

theorem prod_ne_zero_of_fits {s t : List ℕ} (h : Fits s t) (hp : ∀ m ∈ t, 0 < m) : s.prod ≠ 0 := by
  obtain ⟨l, r, rfl, h2⟩ := h
  have hp' : ∀ m ∈ r, 0 < m := fun m hm => hp m (List.mem_append_right _ hm)
  clear hp
  induction h2 with
  | nil => simp
  | cons h3 h4 ih =>
    rw [List.prod_cons]
    refine Nat.mul_ne_zero ?_ (ih fun m hm => hp' m (List.mem_cons_of_mem _ hm))
    have := hp' _ List.mem_cons_self
    omega

theorem mem_ofFn_pos {n : ℕ} {N : Fin n → ℕ} (h : ∀ a, 0 < N a) : ∀ m ∈ 1 :: List.ofFn N, 0 < m := by
  intro m hm
  rcases List.mem_cons.1 hm with rfl | hm
  · exact one_pos
  · obtain ⟨a, rfl⟩ := List.mem_ofFn.1 hm
    exact h a

theorem nearUniform_iff (h : ∀ a, 0 < o.grid.shape a) {n : Assign.Arr ℂ} (hf : Fits n.shape (1 :: List.ofFn o.grid.shape)) (n0 : ℂ) :
    NearUniform n0 (fun i : Within n.shape => n.val i.1) ↔ NearUniform n0 (atPoint (o := o) n) := by
  constructor
  · intro hu x
    exact hu ⟨_, within_indexIn hf (.cons one_pos (forall₂_ofFn x))⟩
  · rintro hu ⟨i, hi⟩
    obtain ⟨j, hj, rfl⟩ := exists_indexIn hf (mem_ofFn_pos h) hi
    cases hj with
    | cons h1 h2 =>
      obtain ⟨x, rfl⟩ := exists_ofFn h2
      obtain rfl := Nat.lt_one_iff.1 h1
      exact hu x

/-- The interaction with an array that fits the grid of the section. -/
theorem interactArray_eq (h : ∀ a, 0 < o.grid.shape a) (s : Section o P) (d : ℝ) {n : Assign.Arr ℂ} (hf : Fits n.shape (1 :: List.ofFn o.grid.shape)) :
    interactArray s d n = .ok (interact s d (atPoint (o := o) n (origin o h)) (atPoint (o := o) n)) := by
  have h0 : n.val (n.shape.map fun _ => 0) = atPoint (o := o) n (origin o h) := by
    unfold atPoint
    rw [indexIn_zero]
    · have := hf.length_le
      simpa using this
    · intro j hj
      rcases List.mem_cons.1 hj with rfl | hj
      · rfl
      · obtain ⟨a, rfl⟩ := List.mem_ofFn.1 hj
        rfl
  unfold interactArray
  rw [if_neg (prod_ne_zero_of_fits hf (mem_ofFn_pos h))]
  dsimp only
  rw [h0]
  unfold interact
  by_cases hu : NearUniform (atPoint (o := o) n (origin o h)) (atPoint (o := o) n)
  · rw [if_pos ((nearUniform_iff h hf _).2 hu), if_pos hu]
    dsimp only
    split_ifs <;> rfl
  · rw [if_neg (mt (nearUniform_iff h hf _).1 hu), if_neg hu]
    obtain ⟨v, hv, hx⟩ := broadcastTo_ok (a := n) (fits_component hf P.c)
    rw [hv]
    show Except.ok _ = _
    congr 2
    funext c x
    rw [hx _ (by simp), indexIn_component hf (by simp) c]
    rfl

end Verif.Beam
