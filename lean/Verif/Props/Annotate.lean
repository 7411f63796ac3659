import Verif.Lemmas.Annotate
import Verif.Props.Round125

/-!
# C109 and C110: colour maps, and what is added to the axes of images
-/

namespace Verif.Display

open Verif Verif.Spec.Display

section
variable {K : Type} [Field K] [LinearOrder K] [IsStrictOrderedRing K]

/-! ### C109 -/

/-- **C109.** For at least two colours with elements from 0 to 1, at strictly increasing positions from 0 to 1, each table has the linear interpolation of the colours: red, green and blue, and the
fourth column if there is one. -/
theorem C109_interpolates (N : ℕ) (hN : 2 ≤ N) (n m : ℕ) (hn : 2 ≤ n) (hm : 3 ≤ m) (colors : ℕ → ℕ → K) (hc : ∀ k < n, ∀ c < m, 0 ≤ colors k c ∧ colors k c ≤ 1)
    (p : List K) (hp : p.length = n) (h0 : p.getD 0 0 = 0) (h1 : p.getD (n - 1) 0 = 1) (hlt : ∀ k, k + 1 < n → p.getD k 0 < p.getD (k + 1) 0) :
    ∃ tables, colorTables N n m colors (some p) = .ok tables ∧ tables.length = min m 4 ∧ ∀ c < min m 4, (tables.getD c []).length = N ∧
      ∀ i < N, ∀ k, k + 1 < n → p.getD k 0 ≤ i / ((N : K) - 1) → i / ((N : K) - 1) ≤ p.getD (k + 1) 0 →
        (tables.getD c []).getD i 0 = onLine (p.getD k 0) (p.getD (k + 1) 0) (colors k c) (colors (k + 1) c) (i / ((N : K) - 1)) := by
  obtain ⟨rows, hrows, hR⟩ := mapM_exists (fun c => stackRows p ((List.range n).map fun i => colors i c)) (List.range (min m 4))
    (fun c r => r.length = n ∧ ∀ k < n, r.getD k (0, 0, 0) = (p.getD k 0, colors k c, colors k c)) (by
      intro c _
      obtain ⟨r, h, hl, hg⟩ := stackRows_get p ((List.range n).map fun i => colors i c) (by simp [hp])
      refine ⟨r, h, hl.trans hp, fun k hk => ?_⟩
      rw [hg k (hp ▸ hk)]
      simp [List.getD_eq_getElem?_getD, hk])
  have hrowsOk : colorRows n m colors (some p) = .ok rows := by
    unfold colorRows positionsOf
    show (if m < 3 then _ else _) = _
    rw [if_neg (by omega)]
    exact hrows
  obtain ⟨tables, ht, hT⟩ := mapM_exists (lookupTable N) rows (fun r t => ∀ c < min m 4, rows[c]? = some r → t.length = N ∧
      ∀ i < N, ∀ k, k + 1 < n → p.getD k 0 ≤ i / ((N : K) - 1) → i / ((N : K) - 1) ≤ p.getD (k + 1) 0 →
        t.getD i 0 = onLine (p.getD k 0) (p.getD (k + 1) 0) (colors k c) (colors (k + 1) c) (i / ((N : K) - 1))) (by
    intro r hr
    obtain ⟨c0, hc0, hrc0⟩ := List.mem_iff_getElem.1 hr
    have hlen := hR.length_eq
    rw [List.length_range] at hlen
    have hRc : ∀ c < min m 4, rows[c]? = some r → r.length = n ∧ ∀ k < n, r.getD k (0, 0, 0) = (p.getD k 0, colors k c, colors k c) := by
      intro c hc' hrc
      have := List.Forall₂.get hR (i := c) (by simpa using hc') (by omega)
      simp only [List.get_eq_getElem, List.getElem_range] at this
      rw [List.getElem?_eq_getElem (by omega)] at hrc
      injection hrc with hrc
      rwa [hrc] at this
    have hbase := hRc c0 (by omega) (by rw [List.getElem?_eq_getElem hc0, hrc0])
    obtain ⟨t, ht, htl, htv⟩ := lookupTable_line N hN r (fun k => p.getD k 0) (fun k => colors k c0) n hn hbase.1 hbase.2 h0 h1 hlt (fun k hk => hc k hk c0 (by omega))
    refine ⟨t, ht, fun c hc' hrc => ⟨htl, fun i hi k hk hk1 hk2 => ?_⟩⟩
    have hcol : ∀ k < n, colors k c = colors k c0 := by
      intro k hk
      have e1 := (hRc c hc' hrc).2 k hk
      have e2 := hbase.2 k hk
      rw [e1] at e2
      simp only [Prod.mk.injEq] at e2
      exact e2.2.1
    rw [hcol k (by omega), hcol (k + 1) hk]
    exact htv i hi k hk hk1 hk2)
  have hlen := hR.length_eq
  rw [List.length_range] at hlen
  have hlen' := hT.length_eq
  refine ⟨tables, ?_, by omega, fun c hc' => ?_⟩
  · unfold colorTables
    rw [hrowsOk]
    exact ht
  · have := List.Forall₂.get hT (i := c) (by omega) (by omega)
    simp only [List.get_eq_getElem] at this
    have h3 := this c hc' (List.getElem?_eq_getElem (by omega))
    have h4 : tables.getD c [] = tables[c] := by rw [List.getD_eq_getElem?_getD, List.getElem?_eq_getElem (by omega)]; rfl
    rw [h4]
    exact h3

/-- **C109 (default).** Without positions, the colours are at equal distances. -/
theorem C109_uniform (N n m : ℕ) (hn : 2 ≤ n) (colors : ℕ → ℕ → K) :
    let p : List K := (List.range n).map fun i : ℕ => (i : K) / ((n : K) - 1)
    colorTables N n m colors none = colorTables N n m colors (some p) ∧ p.length = n ∧ p.getD 0 0 = 0 ∧ p.getD (n - 1) 0 = 1 ∧ ∀ k, k + 1 < n → p.getD (k + 1) 0 - p.getD k 0 = 1 / ((n : K) - 1) ∧ p.getD k 0 < p.getD (k + 1) 0 := by
  intro p
  have hpos : (0 : K) < (n : K) - 1 := by
    have : (2 : K) ≤ n := by exact_mod_cast hn
    linarith
  have hget : ∀ k < n, p.getD k 0 = (k : K) / ((n : K) - 1) := fun k hk => by simp [p, List.getD_eq_getElem?_getD, hk]
  refine ⟨?_, by simp [p], by rw [hget 0 (by omega)]; simp, ?_, fun k hk => ?_⟩
  · unfold colorTables colorRows positionsOf
    dsimp only
    rw [if_neg (by omega)]
  · rw [hget _ (by omega), Nat.cast_sub (by omega), Nat.cast_one, div_self hpos.ne']
  · have hdiff : p.getD (k + 1) 0 - p.getD k 0 = 1 / ((n : K) - 1) := by
      rw [hget _ hk, hget _ (by omega), ← sub_div]
      push_cast
      congr 1
      ring
    refine ⟨hdiff, sub_pos.1 ?_⟩
    rw [hdiff]
    exact div_pos one_pos hpos

omit [IsStrictOrderedRing K] in
/-- **C109 (errors).** Fewer than three columns, another number of positions than of colours, positions that do not start at 0 or end at 1, and a single colour without position, raise an error. -/
theorem C109_raises (N n m : ℕ) (colors : ℕ → ℕ → K) (p : List K) :
    (m < 3 → colorTables N n m colors (some p) = .error .indexError) ∧ (3 ≤ m → p.length ≠ n → colorTables N n m colors (some p) = .error .valueError) ∧
    (3 ≤ m → p.length = n → 0 < n → p.getD 0 0 ≠ 0 ∨ p.getD (n - 1) 0 ≠ 1 → colorTables N n m colors (some p) = .error .valueError) ∧
    colorTables N 1 m colors none = .error .valueError := by
  have hcons : ∃ k, 3 ≤ m → List.range (min m 4) = 0 :: (List.range k).map Nat.succ := by
    by_cases h : 3 ≤ m
    · obtain ⟨k, hk⟩ : ∃ k, min m 4 = k + 1 := ⟨min m 4 - 1, by omega⟩
      exact ⟨k, fun _ => by rw [hk, List.range_succ_eq_map]⟩
    · exact ⟨0, fun h' => absurd h' h⟩
  obtain ⟨l, hl⟩ := hcons
  refine ⟨fun h => ?_, fun h hp => ?_, fun h hp hn hbad => ?_, ?_⟩
  · unfold colorTables colorRows positionsOf
    show (if m < 3 then _ else _ : Except PyErr _) >>= _ = _
    rw [if_pos h]
    rfl
  · unfold colorTables colorRows positionsOf
    show (if m < 3 then _ else _ : Except PyErr _) >>= _ = _
    rw [if_neg (by omega), hl h, List.mapM_cons]
    have : stackRows p ((List.range n).map fun i => colors i 0) = .error .valueError := if_neg (by simpa using hp)
    rw [this]
    rfl
  · obtain ⟨rows, hrows, hR⟩ := mapM_exists (fun c => stackRows p ((List.range n).map fun i => colors i c)) (List.range (min m 4))
      (fun c r => r.length = n ∧ ∀ k < n, (r.getD k (0, 0, 0)).1 = p.getD k 0) (by
        intro c _
        obtain ⟨r, h, hl, hg⟩ := stackRows_get p ((List.range n).map fun i => colors i c) (by simp [hp])
        exact ⟨r, h, hl.trans hp, fun k hk => by rw [hg k (hp ▸ hk)]⟩)
    unfold colorTables colorRows positionsOf
    show (if m < 3 then _ else _ : Except PyErr _) >>= _ = _
    rw [if_neg (by omega), hrows]
    show rows.mapM (lookupTable N) = _
    rw [hl h] at hR
    cases hR with
    | cons hr _ =>
      rename_i r rest _
      rw [List.mapM_cons]
      have : lookupTable N r = .error .valueError := by
        unfold lookupTable
        dsimp only
        rw [hr.1, if_neg (by omega), if_pos]
        rw [hr.2 0 hn, hr.2 (n - 1) (by omega)]
        exact hbad
      rw [this]
      rfl
  · rfl

/-- The example of the documentation: eight colours at given positions. -/
example : ∃ tables, colorTables 256 8 3 (fun k c => ([[0, 0, 0], [1, 0, 0], [3 / 4, 3 / 4, 0], [0, 1, 0], [0, 3 / 4, 3 / 4], [0, 0, 1], [3 / 4, 0, 3 / 4], [1, 1, 1]].getD k []).getD c (0 : ℚ))
    (some [0, 1 / 10, 2 / 10, 3 / 10, 4 / 10, 5 / 10, 6 / 10, 1]) = .ok tables ∧ tables.length = 3 := by
  obtain ⟨t, h, hl, -⟩ := C109_interpolates (K := ℚ) 256 (by norm_num) 8 3 (by norm_num) (by norm_num)
    (fun k c => ([[0, 0, 0], [1, 0, 0], [3 / 4, 3 / 4, 0], [0, 1, 0], [0, 3 / 4, 3 / 4], [0, 0, 1], [3 / 4, 0, 3 / 4], [1, 1, 1]].getD k []).getD c (0 : ℚ))
    (by decide +kernel) [0, 1 / 10, 2 / 10, 3 / 10, 4 / 10, 5 / 10, 6 / 10, 1] rfl rfl rfl (by
      intro k hk
      have key : ∀ k < 7, ([0, 1 / 10, 2 / 10, 3 / 10, 4 / 10, 5 / 10, 6 / 10, 1] : List ℚ).getD k 0 < ([0, 1 / 10, 2 / 10, 3 / 10, 4 / 10, 5 / 10, 6 / 10, 1] : List ℚ).getD (k + 1) 0 := by
        decide +kernel
      exact key k (by omega))
  exact ⟨t, h, hl⟩

end

/-! ### C110: the axes of images -/

open Round125 Verif.Spec.Round125 in
/-- **C110 (scale bar).** A scale bar is added exactly for positive scales.  Its length is 1, 2, or 5 times a power of 10, and its label is that length with the unit. -/
theorem C110_bar (str : ℝ → List Char) (title : Option (List Char)) (scale : ℝ) (unit : List Char) (white : Bool) :
    (scale ≤ 0 → (formatImageAxes str title scale unit white).bar = none) ∧
    (0 < scale → ∃ b, (formatImageAxes str title scale unit white).bar = some b ∧ b.label = str b.size ++ unit ∧ b.size = round125 scale ∧ b.height = b.size / 5 ∧ InSeries b.size) := by
  constructor
  · intro h
    exact if_neg (not_lt.2 h)
  · intro h
    refine ⟨_, if_pos h, rfl, rfl, rfl, ?_⟩
    have := C13_series h.ne'
    rw [round125_eq, signK_of_pos h, one_mul]
    exact series_inSeries _

/-- **C110 (title).** An empty title is not added. -/
theorem C110_title (str : ℝ → List Char) (title : Option (List Char)) (scale : ℝ) (unit : List Char) (white : Bool) (t : List Char) :
    (formatImageAxes str title scale unit white).title = some t ↔ title = some t ∧ t ≠ [] := by
  show title.filter _ = some t ↔ _
  rw [Option.filter_eq_some_iff]
  simp [List.length_pos_iff]

/-- **C110 (violation: units).** "E.g. 'm' will translate to 'mm' for scales on the order of 1e-3": the unit is never translated, so the label of a scale bar of a millimeter does not end in "mm". -/
theorem C110_unit_violates (str : ℝ → List Char) (hstr : ∀ x, 'm' ∉ str x) (title : Option (List Char)) (scale : ℝ) (white : Bool) (b : ScaleBar)
    (h : (formatImageAxes str title scale ['m'] white).bar = some b) : ¬ ['m', 'm'] <:+ b.label := by
  have hb : b.label = str b.size ++ ['m'] := by
    rcases le_or_gt scale 0 with h0 | h0
    · rw [(C110_bar str title scale ['m'] white).1 h0] at h
      exact nomatch h
    · obtain ⟨b', h1, h2, -⟩ := (C110_bar str title scale ['m'] white).2 h0
      rw [h] at h1
      cases h1
      exact h2
  rw [hb]
  rintro ⟨l, hl⟩
  have : l ++ ['m'] = str b.size := by
    have h2 : (l ++ ['m']) ++ ['m'] = str b.size ++ ['m'] := by simpa using hl
    exact List.append_cancel_right h2
  exact hstr b.size (this ▸ by simp)

/-- Such a conversion: only digits. -/
example : ∀ x : ℝ, 'm' ∉ (fun _ : ℝ => ['0', '.', '0', '0', '1']) x := by intro x; simp

/-- **C110 (violation: colour).** "If True, use white annotations, otherwise black": it is the opposite. -/
theorem C110_colour_violates (str : ℝ → List Char) (title : Option (List Char)) (scale : ℝ) (unit : List Char) :
    (formatImageAxes str title scale unit true).colour = (0, 0, 0, 1) ∧ (formatImageAxes str title scale unit false).colour = (1, 1, 1, 1) := ⟨rfl, rfl⟩

end Verif.Display
