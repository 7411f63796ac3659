import Verif.Model.Annotate
import Verif.Spec.Display
import Mathlib.Tactic.Linarith
import Mathlib.Tactic.FieldSimp

/-!
# Lemmas about colour maps
-/

namespace Verif.Display

open Verif Verif.Spec.Display

variable {K : Type} [Field K] [LinearOrder K] [IsStrictOrderedRing K]

omit [IsStrictOrderedRing K] in
theorem stackRows_get (points channel : List K) (h : points.length = channel.length) : ∃ rows, stackRows points channel = .ok rows ∧ rows.length = points.length ∧
    ∀ k, k < points.length → rows.getD k (0, 0, 0) = (points.getD k 0, channel.getD k 0, channel.getD k 0) := by
  refine ⟨_, if_pos h, by simp [h], fun k hk => ?_⟩
  have hk' : k < channel.length := h ▸ hk
  simp [List.getD_eq_getElem?_getD, hk, hk']

omit [Field K] [LinearOrder K] [IsStrictOrderedRing K] in
theorem mapM_exists {α β : Type} (f : α → Except PyErr β) (l : List α) (R : α → β → Prop) (h : ∀ a ∈ l, ∃ b, f a = .ok b ∧ R a b) :
    ∃ l' : List β, l.mapM f = .ok l' ∧ List.Forall₂ R l l' := by
  induction l with
  | nil => exact ⟨[], rfl, .nil⟩
  | cons a l ih =>
    obtain ⟨b, hb, hr⟩ := h a (List.mem_cons_self ..)
    obtain ⟨l', hl, hr'⟩ := ih fun c hc => h c (List.mem_cons_of_mem _ hc)
    refine ⟨b :: l', ?_, .cons hr hr'⟩
    rw [List.mapM_cons, hb, hl]
    rfl

theorem countP_range (n k : ℕ) (h : k ≤ n) (q : ℕ → Prop) [DecidablePred q] (hq : ∀ j < n, q j ↔ j < k) : (List.range n).countP (fun j => decide (q j)) = k := by
  have : (List.range n).countP (fun j => decide (q j)) = (List.range n).countP (fun j => decide (j < k)) :=
    List.countP_congr fun j hj => by simpa using hq j (List.mem_range.1 hj)
  rw [this]
  obtain ⟨m, rfl⟩ := Nat.exists_eq_add_of_le h
  rw [List.range_add, List.countP_append]
  have h1 : (List.range k).countP (fun j => decide (j < k)) = k := by
    rw [List.countP_eq_length.2]
    · simp
    · intro a ha; simpa using ha
  have h2 : ((List.range m).map (k + ·)).countP (fun j => decide (j < k)) = 0 := by
    rw [List.countP_eq_zero]
    intro a ha
    simp only [List.mem_map] at ha
    obtain ⟨b, _, rfl⟩ := ha
    simp
  rw [h1, h2, Nat.add_zero]

omit [IsStrictOrderedRing K] in
theorem clipUnit_of_mem {y : K} (h0 : 0 ≤ y) (h1 : y ≤ 1) : clipUnit y = y := by
  rw [clipUnit, max_eq_left h0, min_eq_left h1]

theorem onLine_mem {p q a b x : K} (hp : p < q) (hx : p ≤ x) (hx' : x ≤ q) (ha : 0 ≤ a ∧ a ≤ 1) (hb : 0 ≤ b ∧ b ≤ 1) : 0 ≤ onLine p q a b x ∧ onLine p q a b x ≤ 1 := by
  have hd : 0 < q - p := sub_pos.2 hp
  have ht0 : 0 ≤ (x - p) / (q - p) := div_nonneg (sub_nonneg.2 hx) hd.le
  have ht1 : (x - p) / (q - p) ≤ 1 := (div_le_one hd).2 (by linarith)
  unfold onLine
  constructor <;> nlinarith [mul_nonneg ht0 hb.1, mul_nonneg (sub_nonneg.2 ht1) ha.1, mul_nonneg ht0 (sub_nonneg.2 hb.2), mul_nonneg (sub_nonneg.2 ht1) (sub_nonneg.2 ha.2)]

/-- The table of a channel, for strictly increasing positions from 0 to 1. -/
theorem lookupTable_line (N : ℕ) (hN : 2 ≤ N) (rows : Rows K) (p y : ℕ → K) (n : ℕ) (hn : 2 ≤ n) (hlen : rows.length = n) (hrow : ∀ k < n, rows.getD k (0, 0, 0) = (p k, y k, y k))
    (h0 : p 0 = 0) (h1 : p (n - 1) = 1) (hlt : ∀ k, k + 1 < n → p k < p (k + 1)) (hy : ∀ k < n, 0 ≤ y k ∧ y k ≤ 1) :
    ∃ table, lookupTable N rows = .ok table ∧ table.length = N ∧
      ∀ i < N, ∀ k, k + 1 < n → p k ≤ i / ((N : K) - 1) → i / ((N : K) - 1) ≤ p (k + 1) → table.getD i 0 = onLine (p k) (p (k + 1)) (y k) (y (k + 1)) (i / ((N : K) - 1)) := by
  have hNpos : (0 : K) < (N : K) - 1 := by
    have : (2 : K) ≤ N := by exact_mod_cast hN
    linarith
  have hmono : ∀ j k, j < n → k < n → j < k → p j < p k := by
    intro j k _ hk hjk
    induction k with
    | zero => omega
    | succ k ih =>
      rcases Nat.lt_or_ge j k with h | h
      · exact (ih (by omega) h).trans (hlt k hk)
      · have : j = k := by omega
        rw [this]; exact hlt k hk
  have hx : ∀ k < n, (rows.getD k (0, 0, 0)).1 = p k := fun k hk => by rw [hrow k hk]
  have hy0 : ∀ k < n, (rows.getD k (0, 0, 0)).2.1 = y k := fun k hk => by rw [hrow k hk]
  have hy1 : ∀ k < n, (rows.getD k (0, 0, 0)).2.2 = y k := fun k hk => by rw [hrow k hk]
  refine ⟨(List.range N).map fun i =>
      if i = 0 then clipUnit (rows.getD 0 (0, 0, 0)).2.2
      else if i = N - 1 then clipUnit (rows.getD (n - 1) (0, 0, 0)).2.1
      else
        let ind := (List.range n).countP fun k => (rows.getD k (0, 0, 0)).1 * ((N : K) - 1) < (i : K)
        let distance := ((i : K) - (rows.getD (ind - 1) (0, 0, 0)).1 * ((N : K) - 1)) / ((rows.getD ind (0, 0, 0)).1 * ((N : K) - 1) - (rows.getD (ind - 1) (0, 0, 0)).1 * ((N : K) - 1))
        clipUnit (distance * ((rows.getD ind (0, 0, 0)).2.1 - (rows.getD (ind - 1) (0, 0, 0)).2.2) + (rows.getD (ind - 1) (0, 0, 0)).2.2), ?_, ?_, ?_⟩
  · unfold lookupTable
    dsimp only
    rw [hlen, if_neg (by omega), if_neg (by rw [hx 0 (by omega), hx (n - 1) (by omega), h0, h1]; simp), if_neg]
    rintro ⟨k, hk, hlt'⟩
    rw [List.mem_range] at hk
    rw [hx _ (by omega), hx _ (by omega)] at hlt'
    exact absurd hlt' (not_lt.2 (hlt k (by omega)).le)
  · simp
  · intro i hi k hk hpk hpk'
    have hrange : ∀ j < n, 0 ≤ p j ∧ p j ≤ 1 := by
      intro j hj
      constructor
      · rcases Nat.eq_zero_or_pos j with rfl | h
        · rw [h0]
        · rw [← h0]; exact (hmono 0 j (by omega) hj h).le
      · rcases Nat.lt_or_ge j (n - 1) with h | h
        · rw [← h1]; exact (hmono j (n - 1) hj (by omega) h).le
        · have : j = n - 1 := by omega
          rw [this, h1]
    have hk1 := hlt k hk
    have hd : p (k + 1) - p k ≠ 0 := (sub_pos.2 hk1).ne'
    have hmem := onLine_mem hk1 hpk hpk' (hy k (by omega)) (hy (k + 1) hk)
    rw [List.getD_eq_getElem?_getD, List.getElem?_map, List.getElem?_range hi, Option.map_some, Option.getD_some]
    by_cases hi0 : i = 0
    · rw [if_pos hi0]
      have hzero : (i : K) / ((N : K) - 1) = 0 := by rw [hi0]; simp
      rw [hzero] at hpk ⊢
      have hk0 : k = 0 := by
        by_contra hne
        have := hmono 0 k (by omega) (by omega) (Nat.pos_of_ne_zero hne)
        rw [h0] at this
        exact absurd hpk (not_le.2 this)
      subst hk0
      rw [hy1 0 (by omega), clipUnit_of_mem (hy 0 (by omega)).1 (hy 0 (by omega)).2]
      unfold onLine
      rw [h0]; simp
    · rw [if_neg hi0]
      by_cases hil : i = N - 1
      · rw [if_pos hil]
        have hone : (i : K) / ((N : K) - 1) = 1 := by
          rw [hil, Nat.cast_sub (by omega), Nat.cast_one, div_self hNpos.ne']
        rw [hone] at hpk' ⊢
        have hkn : k + 1 = n - 1 := by
          by_contra hne
          have := hmono (k + 1) (n - 1) hk (by omega) (by omega)
          rw [h1] at this
          exact absurd hpk' (not_le.2 this)
        rw [hy0 (n - 1) (by omega), clipUnit_of_mem (hy (n - 1) (by omega)).1 (hy (n - 1) (by omega)).2, hkn]
        have hd' : (1 : K) - p k ≠ 0 := by rw [← h1, ← hkn]; exact hd
        unfold onLine
        rw [h1, div_self hd']
        ring
      · rw [if_neg hil]
        -- the interval that is found contains the position; at the boundary of two intervals both lines agree
        have hcase : ∀ j, j + 1 < n → p j < i / ((N : K) - 1) → i / ((N : K) - 1) ≤ p (j + 1) →
            (List.range n).countP (fun k => decide ((rows.getD k (0, 0, 0)).1 * ((N : K) - 1) < (i : K))) = j + 1 := by
          intro j hj hj1 hj2
          refine countP_range n (j + 1) (by omega) _ fun l hl => ?_
          rw [hx l hl, ← lt_div_iff₀ hNpos]
          constructor
          · intro h
            by_contra hne
            have : p (j + 1) ≤ p l := by
              rcases Nat.lt_or_ge (j + 1) l with h' | h'
              · exact (hmono (j + 1) l hj hl h').le
              · have : l = j + 1 := by omega
                rw [this]
            exact absurd (this.trans_lt h) (not_lt.2 hj2)
          · intro h
            have : p l ≤ p j := by
              rcases Nat.lt_or_ge l j with h' | h'
              · exact (hmono l j hl (by omega) h').le
              · have : l = j := by omega
                rw [this]
            exact this.trans_lt hj1
        have hvalue : ∀ j, j + 1 < n → p j < i / ((N : K) - 1) → i / ((N : K) - 1) ≤ p (j + 1) →
            (let ind := (List.range n).countP fun k => decide ((rows.getD k (0, 0, 0)).1 * ((N : K) - 1) < (i : K))
              let distance := ((i : K) - (rows.getD (ind - 1) (0, 0, 0)).1 * ((N : K) - 1)) / ((rows.getD ind (0, 0, 0)).1 * ((N : K) - 1) - (rows.getD (ind - 1) (0, 0, 0)).1 * ((N : K) - 1))
              clipUnit (distance * ((rows.getD ind (0, 0, 0)).2.1 - (rows.getD (ind - 1) (0, 0, 0)).2.2) + (rows.getD (ind - 1) (0, 0, 0)).2.2)) =
            onLine (p j) (p (j + 1)) (y j) (y (j + 1)) (i / ((N : K) - 1)) := by
          intro j hj hj1 hj2
          have hmem := onLine_mem (hlt j hj) hj1.le hj2 (hy j (by omega)) (hy (j + 1) hj)
          have hdj : p (j + 1) - p j ≠ 0 := (sub_pos.2 (hlt j hj)).ne'
          dsimp only
          rw [hcase j hj hj1 hj2, Nat.add_sub_cancel, hx j (by omega), hx (j + 1) hj, hy0 (j + 1) hj, hy1 j (by omega)]
          have : ((i : K) - p j * ((N : K) - 1)) / (p (j + 1) * ((N : K) - 1) - p j * ((N : K) - 1)) * (y (j + 1) - y j) + y j = onLine (p j) (p (j + 1)) (y j) (y (j + 1)) (i / ((N : K) - 1)) := by
            unfold onLine
            rw [← sub_mul, add_comm]
            congr 2
            rw [← div_div, div_right_comm]
            congr 1
            rw [sub_div, mul_div_cancel_right₀ _ hNpos.ne']
          rw [this, clipUnit_of_mem hmem.1 hmem.2]
        rcases lt_or_eq_of_le hpk with hlt' | heq
        · exact hvalue k hk hlt' hpk'
        · -- at the lower end of the interval
          have hkpos : 0 < k := by
            rcases Nat.eq_zero_or_pos k with rfl | h
            · rw [h0] at heq
              have : (0 : K) < i / ((N : K) - 1) := div_pos (by exact_mod_cast Nat.pos_of_ne_zero hi0) hNpos
              exact absurd heq this.ne
            · exact h
          obtain ⟨j, rfl⟩ := Nat.exists_eq_succ_of_ne_zero hkpos.ne'
          have h2 := hvalue j (by omega) (by rw [← heq]; exact hlt j (by omega)) heq.symm.le
          refine h2.trans ?_
          have hdj : p (j + 1) - p j ≠ 0 := (sub_pos.2 (hlt j (by omega))).ne'
          show onLine (p j) (p (j + 1)) (y j) (y (j + 1)) _ = onLine (p (j + 1)) (p (j + 1 + 1)) (y (j + 1)) (y (j + 1 + 1)) _
          rw [← heq]
          unfold onLine
          rw [div_self hdj]
          simp

end Verif.Display
