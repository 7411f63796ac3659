import Verif.Model.Construct

/-!
# Broadcasting
-/

namespace Verif.Construct

open Verif Verif.Assign

variable {d : ℕ}

/-- An array with the first shape can be broadcast to the second, with the last axis first. -/
def Refines : List ℕ → List ℕ → Prop
  | [], _ => True
  | _ :: _, [] => False
  | a :: s, b :: r => (a = 1 ∨ a = b) ∧ Refines s r

theorem refines_refl : ∀ s, Refines s s
  | [] => trivial
  | _ :: s => ⟨Or.inr rfl, refines_refl s⟩

theorem bshapeRev_nil (s : List ℕ) : bshapeRev s [] = some s := by
  cases s <;> rfl

theorem bshapeRev_refines : ∀ {s t r : List ℕ}, bshapeRev s t = some r → Refines s r ∧ Refines t r
  | [], t, r, h => by
    cases h
    exact ⟨trivial, refines_refl t⟩
  | a :: s, [], r, h => by
    cases h
    exact ⟨refines_refl _, trivial⟩
  | a :: s, b :: t, r, h => by
    unfold bshapeRev at h
    split_ifs at h with hab h1
    · obtain ⟨r', hr, rfl⟩ := Option.map_eq_some_iff.mp h
      obtain ⟨h2, h3⟩ := bshapeRev_refines hr
      exact ⟨⟨Or.inl h1, h2⟩, ⟨Or.inr rfl, h3⟩⟩
    · obtain ⟨r', hr, rfl⟩ := Option.map_eq_some_iff.mp h
      obtain ⟨h2, h3⟩ := bshapeRev_refines hr
      refine ⟨⟨Or.inr rfl, h2⟩, ⟨?_, h3⟩⟩
      rcases hab with e | e | e
      · exact Or.inr e.symm
      · exact absurd e h1
      · exact Or.inl e

theorem bshapeRev_exists : ∀ {s t T : List ℕ}, Refines s T → Refines t T → ∃ r, bshapeRev s t = some r ∧ Refines r T
  | [], t, T, _, h => ⟨t, rfl, h⟩
  | a :: s, [], T, h, _ => ⟨a :: s, rfl, h⟩
  | a :: s, b :: t, [], h, _ => h.elim
  | a :: s, b :: t, c :: T, h, h' => by
    obtain ⟨r, hr, hT⟩ := bshapeRev_exists h.2 h'.2
    unfold bshapeRev
    rw [if_pos, hr]
    · refine ⟨_, rfl, ?_, hT⟩
      split_ifs with h1
      · exact h'.1
      · exact h.1
    · rcases h.1 with e | e
      · exact Or.inr (Or.inl e)
      · rcases h'.1 with e' | e'
        · exact Or.inr (Or.inr e')
        · exact Or.inl (e.trans e'.symm)

theorem bshapeRev_drop : ∀ (k : ℕ) {s t r : List ℕ}, bshapeRev s t = some r → bshapeRev (s.drop k) (t.drop k) = some (r.drop k)
  | 0, _, _, _, h => h
  | k + 1, [], t, r, h => by
    cases h
    simp only [List.drop_nil]
    rfl
  | k + 1, a :: s, [], r, h => by
    cases h
    simp only [List.drop_nil]
    exact bshapeRev_nil _
  | k + 1, a :: s, b :: t, r, h => by
    unfold bshapeRev at h
    split_ifs at h with hab h1
    · obtain ⟨r', hr, rfl⟩ := Option.map_eq_some_iff.mp h
      exact bshapeRev_drop k hr
    · obtain ⟨r', hr, rfl⟩ := Option.map_eq_some_iff.mp h
      exact bshapeRev_drop k hr

theorem bidxRev_comp : ∀ {s r : List ℕ} (i : List ℕ), Refines s r → bidxRev s (bidxRev r i) = bidxRev s i
  | [], _, _, _ => rfl
  | _ :: _, [], _, h => h.elim
  | _ :: _, _ :: _, [], _ => rfl
  | a :: s, b :: r, j :: i, h => by
    have ih := bidxRev_comp i h.2
    change (if a = 1 then 0 else if b = 1 then 0 else j) :: bidxRev s (bidxRev r i) = (if a = 1 then 0 else j) :: bidxRev s i
    rw [ih]
    congr 1
    by_cases ha : a = 1
    · rw [if_pos ha, if_pos ha]
    · rw [if_neg ha, if_neg ha]
      rcases h.1 with e | e
      · exact absurd e ha
      · rw [if_neg (e ▸ ha)]

/-- The values of the result of an elementwise operation. -/
theorem bop_spec {f : ℂ → ℂ → ℂ} {a b c : Arr ℂ} (h : bop f a b = .ok c) :
    bshapeRev a.shape.reverse b.shape.reverse = some c.shape.reverse ∧ ∀ i, bval c i = f (bval a i) (bval b i) := by
  unfold bop at h
  cases hr : bshapeRev a.shape.reverse b.shape.reverse with
  | none => rw [hr] at h; cases h
  | some r =>
    rw [hr] at h
    cases h
    obtain ⟨h1, h2⟩ := bshapeRev_refines hr
    refine ⟨by rw [List.reverse_reverse], fun i => ?_⟩
    have key : ∀ e : Arr ℂ, Refines e.shape.reverse r → bval e (bidxRev r i.reverse).reverse = bval e i := fun e he => by
      unfold bval
      rw [List.reverse_reverse, bidxRev_comp _ he]
    conv_lhs => unfold bval
    simp only [List.reverse_reverse]
    rw [← key a h1, ← key b h2]
    unfold bval
    simp only [List.reverse_reverse]

theorem bop_exists (f : ℂ → ℂ → ℂ) {a b : Arr ℂ} {T : List ℕ} (ha : Refines a.shape.reverse T) (hb : Refines b.shape.reverse T) :
    ∃ c, bop f a b = .ok c ∧ Refines c.shape.reverse T := by
  obtain ⟨r, hr, hT⟩ := bshapeRev_exists ha hb
  unfold bop
  rw [hr]
  exact ⟨_, rfl, by rw [List.reverse_reverse]; exact hT⟩

/-- The field that an array is converted to, without transposition. -/
theorem expand_value {a : Arr ℂ} (h : a.shape.length ≤ d + 2) (i : Fin (d + 2) → ℕ) :
    (expand d a).val (fun k => if (expand d a).shape k = 1 then 0 else i k) = bval a (List.ofFn i) := by
  unfold bval
  change a.val _ = a.val _
  congr 1
  have hl : (bidxRev a.shape.reverse (List.ofFn i).reverse).length = a.shape.length := by
    unfold bidxRev
    rw [List.length_zipWith, List.length_reverse, List.length_reverse, List.length_ofFn, Nat.min_eq_left h]
  apply List.ext_getElem
  · rw [List.length_drop, List.length_ofFn, List.length_reverse, hl]
    omega
  · intro k h1 h2
    have hk : k < a.shape.length := by rw [List.length_reverse, hl] at h2; exact h2
    rw [List.getElem_drop, List.getElem_ofFn, List.getElem_reverse]
    unfold bidxRev
    rw [List.getElem_zipWith, List.getElem_reverse, List.getElem_reverse, List.getElem_ofFn]
    have hl' : (List.zipWith (fun l j => if l = 1 then 0 else j) a.shape.reverse (List.ofFn i).reverse).length = a.shape.length := hl
    simp only [hl', List.length_ofFn]
    have e1 : a.shape.length - 1 - (a.shape.length - 1 - k) = k := by omega
    have e2 : d + 2 - 1 - (a.shape.length - 1 - k) = d + 2 - a.shape.length + k := by omega
    simp only [e1, e2]
    have hs : (expand d a).shape ⟨d + 2 - a.shape.length + k, by omega⟩ = a.shape[k] := by
      unfold expand
      simp only
      rw [if_neg (by omega), show d + 2 - a.shape.length + k - (d + 2 - a.shape.length) = k by omega, List.getD_eq_getElem?_getD, List.getElem?_eq_getElem hk]
      rfl
    rw [hs]

/-- The first lengths of the field. -/
theorem expand_shape {a : Arr ℂ} (h : a.shape.length ≤ d + 2) (k : ℕ) (hk : k < 2) :
    (expand d a).shape ⟨k, by omega⟩ = (a.shape.reverse.drop d).getD (1 - k) 1 := by
  unfold expand
  simp only
  rw [List.getD_eq_getElem?_getD (l := a.shape.reverse.drop d), List.getElem?_drop]
  by_cases hl : k < d + 2 - a.shape.length
  · rw [if_pos hl, List.getElem?_eq_none (by rw [List.length_reverse]; omega)]
    rfl
  · rw [if_neg hl, List.getElem?_reverse (by omega), List.getD_eq_getElem?_getD]
    congr 2
    omega

end Verif.Construct
