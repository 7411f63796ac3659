import Verif.Props.Grid06

/-!
# C06: `swapaxes` for any number of axes
-/

set_option linter.unusedSectionVars false

namespace Verif.Grid

open Verif Verif.Spec.Grid

section
variable {n : ℕ} {K : Type} [Field K] [LinearOrder K] [IsStrictOrderedRing K] [FloorRing K]

theorem assignAxis_eq (l : List ℤ) {z : ℤ} {i : Fin n} (v : ℤ) (hl : l.length = n) (hz : RefersTo z i) :
    assignAxis l z v = .ok (l.set i.val v) := by
  subst hl
  have hi := i.isLt
  have : pyIndex l.length z = .ok i := by
    unfold pyIndex
    rcases hz with rfl | rfl
    · simp
    · rw [dif_neg (by omega), dif_pos (by omega)]
      congr 1; apply Fin.ext; simp
  simp [assignAxis, this]

/-- The assignments one after the other, for axes that are in range. -/
def setAll : List (Fin n × ℤ) → List ℤ → List ℤ
  | [], l => l
  | p :: ps, l => setAll ps (l.set p.1.val p.2)

theorem assign_fold {zs : List ℤ} {keep : List (Fin n)} (h : List.Forall₂ RefersTo zs keep) :
    ∀ (vs l : List ℤ), l.length = n →
      (zs.zip vs).foldlM (fun all p => assignAxis all p.1 p.2) l = (.ok (setAll (keep.zip vs) l) : Except PyErr (List ℤ)) := by
  induction h with
  | nil => intro vs l _; rfl
  | cons h1 _ ih =>
    intro vs l hl
    cases vs with
    | nil => rfl
    | cons v vs =>
      simp only [List.zip_cons_cons, List.foldlM_cons]
      rw [assignAxis_eq l v hl h1]
      exact ih vs _ (by simpa using hl)

theorem setAll_length : ∀ (ps : List (Fin n × ℤ)) (l : List ℤ), (setAll ps l).length = l.length
  | [], _ => rfl
  | p :: ps, l => by simp [setAll, setAll_length ps]

theorem setAll_other : ∀ (ps : List (Fin n × ℤ)) (l : List ℤ) (i : Fin n), i ∉ ps.map Prod.fst → (setAll ps l)[i.val]? = l[i.val]?
  | [], _, _, _ => rfl
  | p :: ps, l, i, h => by
    simp only [List.map_cons, List.mem_cons, not_or] at h
    rw [setAll, setAll_other ps _ i h.2, List.getElem?_set_ne]
    exact fun e => h.1 (Fin.ext e.symm)

theorem setAll_mem : ∀ (ps : List (Fin n × ℤ)) (l : List ℤ), l.length = n → (ps.map Prod.fst).Nodup → ∀ p ∈ ps,
    (setAll ps l)[p.1.val]? = some p.2
  | [], _, _, _, _, h => by simp at h
  | q :: ps, l, hl, hn, p, h => by
    simp only [List.map_cons, List.nodup_cons] at hn
    rcases List.mem_cons.1 h with rfl | h
    · rw [setAll, setAll_other ps _ _ hn.1, List.getElem?_set_self (by have := p.1.isLt; omega)]
    · rw [setAll, setAll_mem ps _ (by simpa using hl) hn.2 p h]

/-- **C06 (swapaxes, any number of axes).** `swapaxes` reverses the order of the given axes and keeps all others. -/
theorem C06_swapaxes_all (g : Obj n K) (hN : ∀ i, 1 ≤ g.shape i) {zs : List ℤ} {keep : List (Fin n)} (h : List.Forall₂ RefersTo zs keep)
    (hd : keep.Nodup) (hne : zs ≠ []) :
    ∃ r : Obj n K, swapaxes g zs = .ok ⟨n, r⟩ ∧
      (∀ (k : ℕ) (hk : k < keep.length), SameAxis r keep[k] g (keep[keep.length - 1 - k]'(by omega))) ∧ ∀ j ∉ keep, SameAxis r j g j := by
  have hlen := h.length_eq
  have hn : 0 < n := by
    cases h with
    | nil => exact absurd rfl hne
    | cons h1 _ => rename_i i _ _ _; have := i.isLt; omega
  set base := (List.range n).map (fun (i : ℕ) => (i : ℤ)) with hbase
  have hbl : base.length = n := by simp [hbase]
  set all := setAll (keep.zip zs.reverse) base with hall
  have hal : all.length = n := by rw [hall, setAll_length, hbl]
  have hfst : (keep.zip zs.reverse).map Prod.fst = keep := by
    rw [List.map_fst_zip]; simp [hlen]
  have hread : ∀ j : Fin n, ∃ i : Fin n, RefersTo (all[j.val]'(by rw [hal]; exact j.isLt)) i ∧
      (∀ (k : ℕ) (hk : k < keep.length), keep[k] = j → i = keep[keep.length - 1 - k]'(by omega)) ∧ (j ∉ keep → i = j) := by
    intro j
    by_cases hj : j ∈ keep
    · obtain ⟨k, hk, e⟩ := List.getElem_of_mem hj
      have hp : (keep[k], zs[keep.length - 1 - k]'(by omega)) ∈ keep.zip zs.reverse := by
        have : (keep.zip zs.reverse)[k]'(by simp; omega) = (keep[k], zs[keep.length - 1 - k]'(by omega)) := by
          simp [List.getElem_zip, List.getElem_reverse, hlen]
        rw [← this]
        exact List.getElem_mem _
      have hs := setAll_mem _ base hbl (by rw [hfst]; exact hd) _ hp
      have hv : all[j.val]'(by rw [hal]; exact j.isLt) = zs[keep.length - 1 - k]'(by omega) := by
        rw [← hall] at hs
        simp only [e] at hs
        rw [List.getElem?_eq_getElem (by rw [hal]; exact j.isLt)] at hs
        exact Option.some.inj hs
      refine ⟨keep[keep.length - 1 - k]'(by omega), ?_, ?_, fun hh => absurd hj hh⟩
      · rw [hv]
        exact (List.forall₂_iff_get.1 h).2 (keep.length - 1 - k) (by omega) (by omega)
      · intro k' hk' e'
        have : k' = k := (List.Nodup.getElem_inj_iff hd).1 (e'.trans e.symm)
        subst this
        rfl
    · refine ⟨j, ?_, fun k hk e => absurd (e ▸ List.getElem_mem hk) hj, fun _ => rfl⟩
      have hs := setAll_other (keep.zip zs.reverse) base j (by rw [hfst]; exact hj)
      rw [← hall, List.getElem?_eq_getElem (by rw [hal]; exact j.isLt), List.getElem?_eq_getElem (by rw [hbl]; exact j.isLt)] at hs
      left
      rw [Option.some.inj hs]
      simp [hbase]
  choose σ hσ using hread
  have hf : List.Forall₂ RefersTo all ((List.finRange n).map σ) := by
    rw [List.forall₂_iff_get]
    refine ⟨by simp [hal], fun k h1 h2 => ?_⟩
    have hk : k < n := by simpa using h2
    simpa using (hσ ⟨k, hk⟩).1
  obtain ⟨r, h1, h2⟩ := C06_keep g hn hN hf
  have hl : ((List.finRange n).map σ).length = n := by simp
  have key : ∀ (m : ℕ) (q : Obj m K) (hm : m = n), (∀ k : Fin m, SameAxis q k g (σ (k.cast hm))) →
      ∃ r' : Obj n K, (⟨m, q⟩ : Σ m, Obj m K) = ⟨n, r'⟩ ∧ ∀ k, SameAxis r' k g (σ k) := by
    intro m q hm hq; subst hm; exact ⟨q, rfl, hq⟩
  obtain ⟨r', e1, e2⟩ := key _ r hl fun k => by
    have := h2 k
    have e : ((List.finRange n).map σ).get k = σ (k.cast hl) := by
      simp only [List.get_eq_getElem, List.getElem_map, List.getElem_finRange]
      rfl
    rwa [e] at this
  refine ⟨r', ?_, fun k hk => ?_, fun j hj => ?_⟩
  · unfold swapaxes
    rw [if_neg hne, ← hbase, assign_fold h _ _ hbl, ← hall]
    simp only [transpose, Option.getD_some]
    rw [h1, e1]
  · have := e2 keep[k]
    rwa [(hσ keep[k]).2.1 k hk rfl] at this
  · have := e2 j
    rwa [(hσ j).2.2 hj] at this

/-- **C06 (swapaxes, range).** `swapaxes` raises an IndexError for axes that do not exist. -/
theorem C06_swapaxes_raises (g : Obj n K) {zs : List ℤ} {z : ℤ} (hz : z ∈ zs) (h : (n : ℤ) ≤ z ∨ z < -n) : swapaxes g zs = .error .indexError := by
  have hassign : ∀ (l : List ℤ) (z v : ℤ), l.length = n → assignAxis l z v = .error .indexError ∨ ∃ l', assignAxis l z v = .ok l' ∧ l'.length = n := by
    intro l z v hl
    unfold assignAxis pyIndex
    split_ifs
    · exact .inr ⟨_, rfl, by simp [hl]⟩
    · exact .inr ⟨_, rfl, by simp [hl]⟩
    · exact .inl rfl
  have hbad : ∀ (l : List ℤ) (v : ℤ), l.length = n → assignAxis l z v = .error .indexError := by
    intro l v hl
    unfold assignAxis pyIndex
    rw [dif_neg (by omega), dif_neg (by omega)]
  have hfold : ∀ (zs vs l : List ℤ), l.length = n → zs.length = vs.length → z ∈ zs →
      (zs.zip vs).foldlM (fun all p => assignAxis all p.1 p.2) l = (.error .indexError : Except PyErr (List ℤ)) := by
    intro zs
    induction zs with
    | nil => intro vs l _ _ hm; simp at hm
    | cons y ys ih =>
      intro vs l hl hv hm
      cases vs with
      | nil => simp at hv
      | cons v vs =>
        simp only [List.zip_cons_cons, List.foldlM_cons]
        rcases hassign l y v hl with e | ⟨l', e, e'⟩
        · rw [e]; rfl
        · rw [e]
          rcases List.mem_cons.1 hm with rfl | hm
          · rw [hbad l v hl] at e; simp at e
          · exact ih vs l' e' (by simpa using hv) hm
  unfold swapaxes
  rw [if_neg (by rintro rfl; simp at hz), hfold zs _ _ (by simp) (by simp) hz]

/-- **C06 (swapaxes)** is violated by the empty list, for which an IndexError is raised instead of that the grid remains as it is, and by slices, which the declaration mentions. -/
theorem C06_swapaxes_violates (g : Obj n K) :
    swapaxesArg g (.list []) = .error .indexError ∧ ∀ start stop step, swapaxesArg g (.slice start stop step) = .error .indexError :=
  ⟨rfl, fun _ _ _ => rfl⟩

end

/-- `C06_swapaxes_all`: the axes 0, 2 and -1 of a grid with four dimensions. -/
example := C06_swapaxes_all (cube 4 true) (fun _ => by simp [cube]) (zs := [0, 2, -1]) (keep := [0, 2, 3]) (by simp [RefersTo]) (by decide) (by simp)

/-- `C06_swapaxes_raises`: there is no axis 4. -/
example := C06_swapaxes_raises (cube 4 true) (zs := [0, 4]) (z := 4) (by simp) (by decide)

end Verif.Grid
