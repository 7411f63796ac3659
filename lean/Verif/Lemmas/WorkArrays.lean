import Verif.Model.WorkArrays

/-!
# Which arrays the operations change
-/

namespace Verif.WorkArrays

open Verif Verif.Fourier Verif.Backend Verif.Solver Complex

variable {d n : ℕ} {N : Fin d → ℕ}

/-- The Fourier transforms do not use the array, unless it is their argument. -/
def Safe (u : ℕ) (m : Mem n N) : Prop := 1 < u ∧ u ≠ m.fwd ∧ u ≠ m.bwd ∧ u < m.next

/-- The field and the source are not used by the Fourier transforms, and the transforms do not refer to their output as input. -/
structure WF (m : Mem n N) : Prop where
  field : Safe fieldRef m
  source : Safe sourceRef m
  fwd : m.fwd ≠ ftOut
  fwd_lt : m.fwd < m.next
  bwd : m.bwd ≠ ftIn
  bwd_lt : m.bwd < m.next

/-- An operation leaves all arrays but its argument `r` and the work arrays as they are. -/
structure Frame (r : ℕ) (m m' : Mem n N) : Prop where
  next : m.next ≤ m'.next
  keep : ∀ u, Safe u m → u ≠ r → Safe u m' ∧ m'.cells u = m.cells u
  wf : WF m'

/-- An array that may be the argument of an operation that overwrites it. -/
def Work (r : ℕ) (m : Mem n N) : Prop := (r = ftIn ∨ Safe r m) ∧ r ≠ fieldRef ∧ r ≠ sourceRef

theorem WF.four_le {m : Mem n N} (h : WF m) : 3 < m.next := h.source.2.2.2

theorem Work.lt {r : ℕ} {m : Mem n N} (hm : WF m) (h : Work r m) : r < m.next := by
  rcases h.1 with h | h
  · rw [h]; exact lt_of_le_of_lt (Nat.zero_le _) hm.fwd_lt
  · exact h.2.2.2

theorem Work.ne {r : ℕ} {m : Mem n N} (h : Work r m) : r ≠ ftOut := by
  rcases h.1 with h | h
  · rw [h]; decide
  · exact fun e => absurd h.1 (by rw [e]; decide)

theorem Frame.trans {r r' : ℕ} {m m' m'' : Mem n N} (h : Frame r m m') (h' : Frame r' m' m'') (hr : r' = r ∨ ¬ Safe r' m) : Frame r m m'' where
  next := h.next.trans h'.next
  keep := fun u hu hne => by
    have h1 := h.keep u hu hne
    have hne' : u ≠ r' := by
      rcases hr with hr | hr
      · rw [hr]; exact hne
      · exact fun e => hr (e ▸ hu)
    have h2 := h'.keep u h1.1 hne'
    exact ⟨h2.1, h2.2.trans h1.2⟩
  wf := h'.wf

theorem Frame.set {m : Mem n N} (hm : WF m) (r : ℕ) (F : Field n N) : Frame r m (m.set r F) where
  next := le_rfl
  keep := fun u hu hne => ⟨hu, Function.update_of_ne hne _ _⟩
  wf := ⟨hm.field, hm.source, hm.fwd, hm.fwd_lt, hm.bwd, hm.bwd_lt⟩

theorem Safe.alloc {u : ℕ} {m : Mem n N} (h : Safe u m) (F : Field n N) : Safe u (m.alloc F).2 := ⟨h.1, h.2.1, h.2.2.1, Nat.lt_succ_of_lt h.2.2.2⟩

theorem Frame.alloc {m : Mem n N} (hm : WF m) (r : ℕ) (F : Field n N) : Frame r m (m.alloc F).2 where
  next := Nat.le_succ _
  keep := fun u hu _ => ⟨hu.alloc F, Function.update_of_ne (Nat.ne_of_lt hu.2.2.2) _ _⟩
  wf := ⟨hm.field.alloc F, hm.source.alloc F, hm.fwd, Nat.lt_succ_of_lt hm.fwd_lt, hm.bwd, Nat.lt_succ_of_lt hm.bwd_lt⟩

theorem alloc_fst (m : Mem n N) (F : Field n N) : (m.alloc F).1 = m.next := rfl

theorem alloc_cells (m : Mem n N) (F : Field n N) : (m.alloc F).2.cells (m.alloc F).1 = F := Function.update_self _ _ _

theorem alloc_keep {m : Mem n N} {u : ℕ} (hu : u < m.next) (F : Field n N) : (m.alloc F).2.cells u = m.cells u := Function.update_of_ne (Nat.ne_of_lt hu) _ _

theorem alloc_safe {m : Mem n N} (hm : WF m) (F : Field n N) : Safe (m.alloc F).1 (m.alloc F).2 :=
  ⟨lt_trans (by decide) hm.four_le, (Nat.ne_of_lt hm.fwd_lt).symm, (Nat.ne_of_lt hm.bwd_lt).symm, Nat.lt_succ_self _⟩

theorem not_safe_of_le {m : Mem n N} {r : ℕ} (h : m.next ≤ r) : ¬ Safe r m := fun hr => absurd hr.2.2.2 (Nat.not_lt.mpr h)

theorem not_safe_in (m : Mem n N) : ¬ Safe ftIn m := fun h => absurd h.1 (by decide)

theorem not_safe_out (m : Mem n N) : ¬ Safe ftOut m := fun h => absurd h.1 (by decide)

theorem set_self (m : Mem n N) (r : ℕ) (F : Field n N) : (m.set r F).cells r = F := Function.update_self _ _ _

theorem set_ne {m : Mem n N} {r u : ℕ} (h : u ≠ r) (F : Field n N) : (m.set r F).cells u = m.cells u := Function.update_of_ne h _ _

/-- A transform of a single point does nothing. -/
theorem ft_single (h : ¬ ∃ a, 1 < N a) (f : Idx N → ℂ) : ft f = f := by
  have hs : ∀ x y : Idx N, x = y := fun x y => funext fun a => Fin.ext (by
    have := (x a).2; have := (y a).2; have : ¬ 1 < N a := fun h1 => h ⟨a, h1⟩; omega)
  funext x
  unfold ft
  have h0 : ∀ a, (x a : ℕ) = 0 := fun a => by
    have := (x a).2; have : ¬ 1 < N a := fun h1 => h ⟨a, h1⟩; omega
  have : Subsingleton (Idx N) := ⟨hs⟩
  rw [Fintype.sum_subsingleton _ x]
  simp [twiddle, h0]

theorem ift_single (h : ¬ ∃ a, 1 < N a) (f : Idx N → ℂ) : ift f = f := by
  have hs : ∀ x y : Idx N, x = y := fun x y => funext fun a => Fin.ext (by
    have := (x a).2; have := (y a).2; have : ¬ 1 < N a := fun h1 => h ⟨a, h1⟩; omega)
  funext x
  unfold ift
  have h0 : ∀ a, (x a : ℕ) = 0 := fun a => by
    have := (x a).2; have : ¬ 1 < N a := fun h1 => h ⟨a, h1⟩; omega
  have h1 : ∀ a, N a = 1 := fun a => by
    have := (x a).2; have : ¬ 1 < N a := fun h1 => h ⟨a, h1⟩; omega
  have : Subsingleton (Idx N) := ⟨hs⟩
  rw [Fintype.sum_subsingleton _ x]
  simp [untwiddle, h0, h1]

theorem forward_spec (e : Env n N) {r : ℕ} {m : Mem n N} (hm : WF m) (hr : Work r m) :
    (forward e r m).2.cells (forward e r m).1 = (fun c => ft (m.cells r c)) ∧ Frame r m (forward e r m).2 ∧
      ((forward e r m).1 = ftOut ∨ m.next ≤ (forward e r m).1 ∧ Safe (forward e r m).1 (forward e r m).2) := by
  have hlt := hr.lt hm
  unfold forward
  by_cases hf : e.fftw = true
  · by_cases hN : ∃ a, 1 < N a
    · rw [if_pos hf, if_pos hN]
      dsimp only
      by_cases ha : e.aligned r = true
      · rw [if_pos ha]
        refine ⟨?_, ⟨le_rfl, fun u hu hne => ?_, ?_⟩, Or.inl rfl⟩
        · exact (set_ne (Ne.symm hr.ne) _).trans (set_self _ _ _)
        · refine ⟨⟨hu.1, hne, hu.2.2.1, hu.2.2.2⟩, (set_ne hne _).trans (set_ne (fun e => absurd hu.1 (by rw [e]; decide)) _)⟩
        · exact ⟨⟨hm.field.1, Ne.symm hr.2.1, hm.field.2.2⟩, ⟨hm.source.1, Ne.symm hr.2.2, hm.source.2.2⟩, hr.ne, hlt, hm.bwd, hm.bwd_lt⟩
      · rw [if_neg ha]
        refine ⟨?_, ⟨le_rfl, fun u hu hne => ?_, ?_⟩, Or.inl rfl⟩
        · refine (set_ne (Ne.symm hm.fwd) _).trans ((set_self _ _ _).trans ?_)
          exact congrArg (fun (F : Field n N) => fun c => ft (F c)) (set_self m m.fwd _)
        · exact ⟨hu, (set_ne hu.2.1 _).trans ((set_ne (fun e => absurd hu.1 (by rw [e]; decide)) _).trans (set_ne hu.2.1 _))⟩
        · exact ⟨hm.field, hm.source, hm.fwd, hm.fwd_lt, hm.bwd, hm.bwd_lt⟩
    · rw [if_pos hf, if_neg hN]
      refine ⟨?_, Frame.alloc hm r _, Or.inr ⟨le_rfl, alloc_safe hm _⟩⟩
      exact (alloc_cells _ _).trans (funext fun c => (ft_single hN _).symm)
  · rw [if_neg hf]
    exact ⟨alloc_cells _ _, Frame.alloc hm r _, Or.inr ⟨le_rfl, alloc_safe hm _⟩⟩

theorem backward_spec (e : Env n N) {r : ℕ} {m : Mem n N} (hm : WF m) (hr : (r = ftOut ∨ Safe r m) ∧ r ≠ fieldRef ∧ r ≠ sourceRef) :
    (backward e r m).2.cells (backward e r m).1 = (fun c => ift (m.cells r c)) ∧ Frame r m (backward e r m).2 ∧
      ((backward e r m).1 = ftIn ∨ m.next ≤ (backward e r m).1 ∧ Safe (backward e r m).1 (backward e r m).2) := by
  have hne0 : r ≠ ftIn := by
    rcases hr.1 with h | h
    · rw [h]; decide
    · exact fun e => absurd h.1 (by rw [e]; decide)
  have hlt : r < m.next := by
    rcases hr.1 with h | h
    · rw [h]; exact lt_trans (by decide) hm.four_le
    · exact h.2.2.2
  unfold backward
  by_cases hf : e.fftw = true
  · by_cases hN : ∃ a, 1 < N a
    · rw [if_pos hf, if_pos hN]
      dsimp only
      by_cases ha : e.aligned r = true
      · rw [if_pos ha]
        refine ⟨?_, ⟨le_rfl, fun u hu hne => ?_, ?_⟩, Or.inl rfl⟩
        · exact (set_ne (Ne.symm hne0) _).trans (set_self _ _ _)
        · refine ⟨⟨hu.1, hu.2.1, hne, hu.2.2.2⟩, (set_ne hne _).trans (set_ne (fun e => absurd hu.1 (by rw [e]; decide)) _)⟩
        · exact ⟨⟨hm.field.1, hm.field.2.1, Ne.symm hr.2.1, hm.field.2.2.2⟩, ⟨hm.source.1, hm.source.2.1, Ne.symm hr.2.2, hm.source.2.2.2⟩, hm.fwd, hm.fwd_lt, hne0, hlt⟩
      · rw [if_neg ha]
        refine ⟨?_, ⟨le_rfl, fun u hu hne => ?_, ?_⟩, Or.inl rfl⟩
        · refine (set_ne (Ne.symm hm.bwd) _).trans ((set_self _ _ _).trans ?_)
          exact congrArg (fun (F : Field n N) => fun c => ift (F c)) (set_self m m.bwd _)
        · exact ⟨hu, (set_ne hu.2.2.1 _).trans ((set_ne (fun e => absurd hu.1 (by rw [e]; decide)) _).trans (set_ne hu.2.2.1 _))⟩
        · exact ⟨hm.field, hm.source, hm.fwd, hm.fwd_lt, hm.bwd, hm.bwd_lt⟩
    · rw [if_pos hf, if_neg hN]
      refine ⟨?_, Frame.alloc hm r _, Or.inr ⟨le_rfl, alloc_safe hm _⟩⟩
      exact (alloc_cells _ _).trans (funext fun c => (ift_single hN _).symm)
  · rw [if_neg hf]
    exact ⟨alloc_cells _ _, Frame.alloc hm r _, Or.inr ⟨le_rfl, alloc_safe hm _⟩⟩

/-- The result of an operation: `array_ift_output`, or an array that was not in use. -/
def Result (m : Mem n N) (o : ℕ × Mem n N) : Prop := o.1 = ftIn ∨ m.next ≤ o.1 ∧ Safe o.1 o.2

theorem Result.work {m : Mem n N} (hm : WF m) {o : ℕ × Mem n N} (h : Result m o) : Work o.1 o.2 := by
  have h4 := hm.four_le
  rcases h with h | ⟨h, hs⟩
  · exact ⟨Or.inl h, by rw [h]; decide, by rw [h]; decide⟩
  · exact ⟨Or.inr hs, by unfold fieldRef; omega, by unfold sourceRef; omega⟩

theorem Result.not_safe {m : Mem n N} {o : ℕ × Mem n N} (h : Result m o) : ¬ Safe o.1 m := by
  rcases h with h | h
  · rw [h]; exact not_safe_in m
  · exact not_safe_of_le h.1

theorem curlM_spec (e : Env n N) (k : Fin d → Idx N → ℝ) {r : ℕ} {m : Mem n N} (hm : WF m) (hr : Work r m) :
    (curlM e k r m).2.cells (curlM e k r m).1 = curl n k (m.cells r) ∧ Frame r m (curlM e k r m).2 ∧ Result m (curlM e k r m) := by
  obtain ⟨h1, h2, -⟩ := forward_spec e hm hr
  have hw := h2.wf
  set o := forward e r m
  have ha := alloc_safe hw (curlFt n k (o.2.cells o.1))
  have h3 : Frame r m (o.2.alloc (curlFt n k (o.2.cells o.1))).2 := h2.trans (Frame.alloc hw r _) (Or.inl rfl)
  have hne : o.2.next ≠ fieldRef ∧ o.2.next ≠ sourceRef := by
    have := hw.four_le
    unfold fieldRef sourceRef
    omega
  obtain ⟨h4, h5, h6⟩ := backward_spec e h3.wf ⟨Or.inr ha, hne⟩
  refine ⟨h4.trans ?_, h3.trans h5 (Or.inr (not_safe_of_le h2.next)), ?_⟩
  · rw [alloc_cells, h1]
    rfl
  · rcases h6 with h6 | ⟨h6, h7⟩
    · exact Or.inl h6
    · exact Or.inr ⟨h3.next.trans h6, h7⟩

/-- The result of `chi_op`: the argument itself, or an array that was not in use. -/
theorem mulOutM_spec (e : Env n N) (A : Tensor n N) {r : ℕ} {m : Mem n N} (hm : WF m) (hr : Work r m) :
    (mulOutM e A r m).2.cells (mulOutM e A r m).1 = mulField A (m.cells r) ∧ Frame r m (mulOutM e A r m).2 ∧ Work (mulOutM e A r m).1 (mulOutM e A r m).2 ∧
      ((mulOutM e A r m).1 = r ∨ m.next ≤ (mulOutM e A r m).1) := by
  unfold mulOutM
  split
  · exact ⟨set_self _ _ _, Frame.set hm r _, hr, Or.inl rfl⟩
  · have := hm.four_le
    have hn : m.next ≤ (m.alloc (mulField A (m.cells r))).1 := le_rfl
    exact ⟨alloc_cells _ _, Frame.alloc hm r _, ⟨Or.inr (alloc_safe hm _), by unfold fieldRef; omega, by unfold sourceRef; omega⟩, Or.inr hn⟩

theorem chiOpM_spec (e : Env n N) (k : Fin d → Idx N → ℝ) (s : State n N) {r : ℕ} {m : Mem n N} (hm : WF m) (hr : Work r m) :
    (chiOpM e k s r m).2.cells (chiOpM e k s r m).1 = chiOp k s (m.cells r) ∧ Frame r m (chiOpM e k s r m).2 ∧
      Work (chiOpM e k s r m).1 (chiOpM e k s r m).2 ∧ ((chiOpM e k s r m).1 = r ∨ m.next ≤ (chiOpM e k s r m).1) := by
  unfold chiOpM chiOp
  by_cases hs : s.magnetic = true
  · rw [if_pos hs, if_pos hs]
    dsimp only
    have hrlt := hr.lt hm
    -- the two products with the argument
    have fE := Frame.alloc hm r (mulField s.chiEE (m.cells r))
    have sE := alloc_safe hm (mulField s.chiEE (m.cells r))
    have vE := alloc_cells m (mulField s.chiEE (m.cells r))
    have vr := alloc_keep hrlt (mulField s.chiEE (m.cells r))
    set oE := m.alloc (mulField s.chiEE (m.cells r)) with hoE
    have gE : m.next ≤ oE.1 := le_rfl
    have hrE : r ≠ oE.1 := Nat.ne_of_lt hrlt
    have hrlt1 : r < oE.2.next := lt_of_lt_of_le hrlt fE.next
    have fH := Frame.alloc fE.wf r (mulField s.chiEH (oE.2.cells r))
    have sH := alloc_safe fE.wf (mulField s.chiEH (oE.2.cells r))
    have vH := alloc_cells oE.2 (mulField s.chiEH (oE.2.cells r))
    have vr1 := alloc_keep hrlt1 (mulField s.chiEH (oE.2.cells r))
    have kE := fH.keep oE.1 sE hrE.symm
    set oH := oE.2.alloc (mulField s.chiEH (oE.2.cells r)) with hoH
    have gH : oE.2.next ≤ oH.1 := le_rfl
    have hrH : r ≠ oH.1 := Nat.ne_of_lt hrlt1
    have hEH : oE.1 ≠ oH.1 := Nat.ne_of_lt sE.2.2.2
    have frH : Frame r m oH.2 := fE.trans fH (Or.inl rfl)
    have wrH : Work r oH.2 := ⟨hr.1.imp id fun h => (h.alloc _).alloc _, hr.2⟩
    -- the curl of the argument
    obtain ⟨vD, fD, rD⟩ := curlM_spec e k frH.wf wrH
    set oD := curlM e k r oH.2 with hoD
    have kE2 := fD.keep oE.1 kE.1 hrE.symm
    have kH2 := fD.keep oH.1 sH hrH.symm
    have wD := rD.work frH.wf
    have nED : oE.1 ≠ oD.1 := fun h => rD.not_safe (h ▸ kE.1)
    have nHD : oH.1 ≠ oD.1 := fun h => rD.not_safe (h ▸ sH)
    have frD : Frame r m oD.2 := frH.trans fD (Or.inl rfl)
    -- the product with the curl
    have fT := Frame.alloc frD.wf r (mulField s.chiHE (oD.2.cells oD.1))
    have vT := alloc_cells oD.2 (mulField s.chiHE (oD.2.cells oD.1))
    have kE3 := fT.keep oE.1 kE2.1 hrE.symm
    have kH3 := fT.keep oH.1 kH2.1 hrH.symm
    have kD3 := alloc_keep (wD.lt frD.wf) (mulField s.chiHE (oD.2.cells oD.1))
    set oT := oD.2.alloc (mulField s.chiHE (oD.2.cells oD.1)) with hoT
    have frT : Frame r m oT.2 := frD.trans fT (Or.inl rfl)
    -- the changes in place
    set m1 := oT.2.set oE.1 (oT.2.cells oE.1 + oT.2.cells oT.1) with hm1
    have f1 : Frame oE.1 oT.2 m1 := Frame.set frT.wf _ _
    have wD1 : Work oD.1 m1 := ⟨wD.1.imp id fun h => (h.alloc _ : Safe oD.1 oT.2), wD.2⟩
    obtain ⟨vP, f2, -, gP⟩ := mulOutM_spec e s.chiHH f1.wf wD1
    have kE5 := f2.keep oE.1 (kE3.1 : Safe oE.1 oT.2) nED
    have kH5 := f2.keep oH.1 (kH3.1 : Safe oH.1 oT.2) nHD
    set o2 := mulOutM e s.chiHH oD.1 m1 with ho2
    set m3 := o2.2.set oH.1 (o2.2.cells oH.1 + o2.2.cells o2.1) with hm3
    have f3 : Frame oH.1 o2.2 m3 := Frame.set f2.wf _ _
    have nsE : ¬ Safe oE.1 m := not_safe_of_le gE
    have nsH : ¬ Safe oH.1 m := not_safe_of_le (fE.next.trans gH)
    have nsD : ¬ Safe oD.1 m := by
      rcases rD with h | h
      · rw [h]; exact not_safe_in m
      · exact not_safe_of_le (frH.next.trans h.1)
    have fr3 : Frame r m m3 := ((frT.trans f1 (Or.inr nsE)).trans f2 (Or.inr nsD)).trans f3 (Or.inr nsH)
    have eqH : m3.cells oH.1 = fun c x => mulField s.chiEH (m.cells r) c x + mulField s.chiHH (curl n k (m.cells r)) c x := by
      rw [hm3, set_self, kH5.2, vP, hm1, set_ne hEH.symm, set_ne nED.symm, kH3.2, kH2.2, vH, vr, kD3, vD, vr1, vr]
      rfl
    have eqE : m3.cells oE.1 = fun c x => mulField s.chiEE (m.cells r) c x + mulField s.chiHE (curl n k (m.cells r)) c x := by
      rw [hm3, set_ne hEH, kE5.2, hm1, set_self, kE3.2, kE2.2, kE.2, vE, vT, vD, vr1, vr]
      rfl
    have sE3 : Safe oE.1 m3 := kE5.1
    have h4 : 3 < oE.2.next := fE.wf.four_le
    have wH3 : Work oH.1 m3 := ⟨Or.inr (kH5.1 : Safe oH.1 o2.2), by unfold fieldRef; omega, by unfold sourceRef; omega⟩
    obtain ⟨vQ, fQ, rQ⟩ := curlM_spec e k fr3.wf wH3
    set oQ := curlM e k oH.1 m3 with hoQ
    have kE4 := fQ.keep oE.1 sE3 hEH
    have h40 := hm.four_le
    refine ⟨?_, (fr3.trans fQ (Or.inr nsH)).trans (Frame.set fQ.wf _ _) (Or.inr nsE), ⟨Or.inr kE4.1, by unfold fieldRef; omega, by unfold sourceRef; omega⟩, Or.inr gE⟩
    rw [set_self, kE4.2, vQ, eqE, eqH]
    rfl
  · rw [if_neg hs, if_neg hs]
    exact mulOutM_spec e s.chiEE hm hr

theorem greenFtM_spec (kind : Kind d n) (k : Fin d → Idx N → ℝ) (alpha : ℂ) {r : ℕ} {m : Mem n N} (hm : WF m) (hr : r ≠ ftIn) :
    (greenFtM k alpha kind r m).cells r = greenFt k alpha kind (m.cells r) ∧ Frame r m (greenFtM k alpha kind r m) := by
  cases kind with
  | scalar => exact ⟨set_self _ _ _, Frame.set hm r _⟩
  | vectorial hd =>
    unfold greenFtM greenFt longitudinalFtM
    dsimp only
    set m0 := m.set ftIn (longitudinalFt k origin hd (m.cells r)) with h0
    set m1 := m0.set r (m0.cells r - m0.cells ftIn) with h1
    set m2 := m1.set r (fun c x => m1.cells r c x * gScalar k alpha x) with h2
    set m3 := m2.set ftIn (fun c x => m2.cells ftIn c x * (I * (alpha.im : ℂ) / alpha)) with h3
    have f0 : Frame ftIn m m0 := Frame.set hm _ _
    have f1 : Frame r m0 m1 := Frame.set f0.wf _ _
    have f2 : Frame r m1 m2 := Frame.set f1.wf _ _
    have f3 : Frame ftIn m2 m3 := Frame.set f2.wf _ _
    have f4 : Frame r m3 (m3.set r (m3.cells r + m3.cells ftIn)) := Frame.set f3.wf _ _
    have fr : Frame r m m := ⟨le_rfl, fun u hu _ => ⟨hu, rfl⟩, hm⟩
    refine ⟨?_, ((((fr.trans f0 (Or.inr (not_safe_in m))).trans f1 (Or.inl rfl)).trans f2 (Or.inl rfl)).trans f3 (Or.inr (not_safe_in m))).trans f4 (Or.inl rfl)⟩
    rw [set_self, h3, set_ne hr, set_self, h2, set_self, set_ne hr.symm, h1, set_self, set_ne hr.symm, h0, set_ne hr, set_self]
    rfl

theorem greenM_spec (e : Env n N) (kind : Kind d n) (k : Fin d → Idx N → ℝ) (alpha : ℂ) {r : ℕ} {m : Mem n N} (hm : WF m) (hr : Work r m) :
    (greenM e kind k alpha r m).2.cells (greenM e kind k alpha r m).1 = green kind k alpha (m.cells r) ∧ Frame r m (greenM e kind k alpha r m).2 ∧
      Result m (greenM e kind k alpha r m) := by
  obtain ⟨h1, h2, h3⟩ := forward_spec e hm hr
  unfold greenM
  dsimp only
  set o := forward e r m
  have h4 := hm.four_le
  have hne : o.1 ≠ ftIn := by
    rcases h3 with h | h
    · rw [h]; decide
    · exact fun e => absurd h.2.1 (by rw [e]; decide)
  have hns : ¬ Safe o.1 m := by
    rcases h3 with h | h
    · rw [h]; exact not_safe_out m
    · exact not_safe_of_le h.1
  obtain ⟨h5, h6⟩ := greenFtM_spec kind k alpha h2.wf hne
  set m1 := greenFtM k alpha kind o.1 o.2 with hm1
  have hq : (o.1 = ftOut ∨ Safe o.1 m1) ∧ o.1 ≠ fieldRef ∧ o.1 ≠ sourceRef := by
    rcases h3 with h | h
    · exact ⟨Or.inl h, by rw [h]; decide, by rw [h]; decide⟩
    · refine ⟨Or.inr ?_, by unfold fieldRef; omega, by unfold sourceRef; omega⟩
      rw [hm1]
      cases kind with
      | scalar => exact h.2
      | vectorial hd => exact h.2
  obtain ⟨h7, h8, h9⟩ := backward_spec e h6.wf hq
  have h26 := h2.trans h6 (Or.inr hns)
  refine ⟨h7.trans ?_, h26.trans h8 (Or.inr hns), ?_⟩
  · rw [h5, h1]
    rfl
  · exact h9.imp id fun h => ⟨h26.next.trans h.1, h.2⟩

theorem updateM_spec (e : Env n N) (kind : Kind d n) (k : Fin d → Idx N → ℝ) (s : State n N) {m : Mem n N} (hm : WF m) :
    (updateM e kind k s m).2.cells (updateM e kind k s m).1 = update kind k { s with field := m.cells fieldRef, source := m.cells sourceRef } ∧
      Frame ftIn m (updateM e kind k s m).2 := by
  unfold updateM update
  dsimp only
  set m0 := m.set ftIn (m.cells fieldRef) with h0
  have f0 : Frame ftIn m m0 := Frame.set hm _ _
  have w0 : Work ftIn m0 := ⟨Or.inl rfl, by decide, by decide⟩
  obtain ⟨v1, f1, w1, g1⟩ := chiOpM_spec e k s f0.wf w0
  set o1 := chiOpM e k s ftIn m0 with ho1
  have c1 : Frame ftIn m o1.2 := f0.trans f1 (Or.inl rfl)
  have n1 : ¬ Safe o1.1 m := by
    rcases g1 with h | h
    · rw [h]; exact not_safe_in m
    · exact not_safe_of_le h
  set m1 := o1.2.set o1.1 (o1.2.cells o1.1 + o1.2.cells sourceRef) with hm1
  have c2 : Frame ftIn m m1 := c1.trans (Frame.set c1.wf _ _) (Or.inr n1)
  obtain ⟨v2, f2, r2⟩ := greenM_spec e kind k s.alpha c2.wf (r := o1.1) w1
  set o2 := greenM e kind k s.alpha o1.1 m1 with ho2
  have c3 : Frame ftIn m o2.2 := c2.trans f2 (Or.inr n1)
  have w2 := r2.work c2.wf
  have n2 : ¬ Safe o2.1 m := by
    rcases r2 with h | h
    · rw [h]; exact not_safe_in m
    · exact not_safe_of_le (c2.next.trans h.1)
  set m2 := o2.2.set o2.1 (o2.2.cells o2.1 - o2.2.cells fieldRef) with hm2
  have c4 : Frame ftIn m m2 := c3.trans (Frame.set c3.wf _ _) (Or.inr n2)
  obtain ⟨v3, f3, -, -⟩ := chiOpM_spec e k s c4.wf (r := o2.1) w2
  refine ⟨v3.trans ?_, c4.trans f3 (Or.inr n2)⟩
  have e1 : m1.cells o1.1 = fun c x => chiOp k s (m.cells fieldRef) c x + m.cells sourceRef c x := by
    rw [hm1, set_self, v1, (c1.keep _ hm.source (by decide)).2, h0, set_self]
    rfl
  have e2 : m2.cells o2.1 = fun c x => green kind k s.alpha (m1.cells o1.1) c x - m.cells fieldRef c x := by
    rw [hm2, set_self, v2, (c3.keep _ hm.field (by decide)).2]
    rfl
  rw [e2, e1]
  rfl

/-- The state of the solver without references. -/
def abs (s : State n N) (m : Mem n N) : State n N := { s with field := m.cells fieldRef, source := m.cells sourceRef }

theorem readE_spec (k0 : ℝ) (s : State n N) {m : Mem n N} (hm : WF m) :
    (readE k0 m).2.cells (readE k0 m).1 = getE k0 (abs s m) ∧ (∀ r, Frame r m (readE k0 m).2) ∧ m.next ≤ (readE k0 m).1 ∧ Safe (readE k0 m).1 (readE k0 m).2 :=
  ⟨alloc_cells _ _, fun r => Frame.alloc hm r _, le_rfl, alloc_safe hm _⟩

/-- An array that was not in use may be overwritten. -/
theorem work_of_new {m m' : Mem n N} (hm : WF m) {r : ℕ} (h : m.next ≤ r) (hs : Safe r m') : Work r m' := by
  have := hm.four_le
  exact ⟨Or.inr hs, by unfold fieldRef; omega, by unfold sourceRef; omega⟩

theorem readCurl_spec (e : Env n N) (k0 : ℝ) (k : Fin d → Idx N → ℝ) (s : State n N) {m : Mem n N} (hm : WF m) :
    let o := curlM e k (readE k0 m).1 (readE k0 m).2
    o.2.cells o.1 = curl n k (getE k0 (abs s m)) ∧ Frame ftIn m o.2 ∧ Work o.1 o.2 ∧ ¬ Safe o.1 m := by
  intro o
  obtain ⟨v1, f1, g1, s1⟩ := readE_spec k0 s hm
  obtain ⟨v2, f2, r2⟩ := curlM_spec e k (f1 ftIn).wf (work_of_new hm g1 s1)
  refine ⟨v2.trans (congrArg _ v1), (f1 ftIn).trans f2 (Or.inr (not_safe_of_le g1)), r2.work (f1 ftIn).wf, ?_⟩
  rcases r2 with h | h
  · exact fun h' => not_safe_in m (h ▸ h')
  · exact not_safe_of_le ((f1 ftIn).next.trans h.1)

theorem readB_spec (e : Env n N) (co : Const) (k0 : ℝ) (k : Fin d → Idx N → ℝ) (s : State n N) {m : Mem n N} (hm : WF m) :
    (readB e co k0 k m).2.cells (readB e co k0 k m).1 = getB co k0 k (abs s m) ∧ Frame ftIn m (readB e co k0 k m).2 ∧ m.next ≤ (readB e co k0 k m).1 ∧
      Safe (readB e co k0 k m).1 (readB e co k0 k m).2 := by
  obtain ⟨v, f, -, -⟩ := readCurl_spec e k0 k s hm
  refine ⟨(alloc_cells _ _).trans ?_, f.trans (Frame.alloc f.wf ftIn _) (Or.inl rfl), f.next, alloc_safe f.wf _⟩
  funext c x
  exact congrArg (· / (I * (co.c : ℂ))) (congrFun (congrFun v c) x)

theorem readH_spec (e : Env n N) (co : Const) (k0 : ℝ) (k : Fin d → Idx N → ℝ) (i0 : Fin n) (x0 : Idx N) (s : State n N) {m : Mem n N} (hm : WF m) :
    (readH e co k0 k i0 x0 s m).2.cells (readH e co k0 k i0 x0 s m).1 = getH co k0 k i0 x0 (abs s m) ∧ Frame ftIn m (readH e co k0 k i0 x0 s m).2 ∧
      m.next ≤ (readH e co k0 k i0 x0 s m).1 ∧ Safe (readH e co k0 k i0 x0 s m).1 (readH e co k0 k i0 x0 s m).2 := by
  obtain ⟨v, f, w, -⟩ := readCurl_spec e k0 k s hm
  unfold readH getH
  by_cases hs : s.magnetic = true
  · rw [if_pos hs, if_pos (show (abs s m).magnetic = true from hs)]
    dsimp only
    set o := curlM e k (readE k0 m).1 (readE k0 m).2 with ho
    set muInv : Tensor n N := fun x => (s.beta : ℂ) • (1 - (-I * (s.alpha.im : ℂ)) • s.chiHH x) with hmu
    set coupling : Tensor n N := fun x => (-I * (s.alpha.im : ℂ)) • s.chiHE x with hc
    have f1 := f.trans (Frame.alloc f.wf ftIn (mulField muInv (o.2.cells o.1))) (Or.inl rfl)
    have v1 := alloc_cells o.2 (mulField muInv (o.2.cells o.1))
    have s1 := alloc_safe f.wf (mulField muInv (o.2.cells o.1))
    set o1 := o.2.alloc (mulField muInv (o.2.cells o.1)) with ho1
    have n1 : o1.1 ≠ ftIn := fun h => absurd s1.1 (by rw [h]; decide)
    obtain ⟨v2, f2, -, s2⟩ := readE_spec k0 s f1.wf
    set o2 := readE k0 o1.2 with ho2
    have k2 := (f2 ftIn).keep o1.1 s1 n1
    have f3 := Frame.alloc (f2 ftIn).wf ftIn (mulField coupling (o2.2.cells o2.1))
    have v3 := alloc_cells o2.2 (mulField coupling (o2.2.cells o2.1))
    have k3 := f3.keep o1.1 k2.1 n1
    set o3 := o2.2.alloc (mulField coupling (o2.2.cells o2.1)) with ho3
    have f4 := (f1.trans (f2 ftIn) (Or.inl rfl)).trans f3 (Or.inl rfl)
    refine ⟨(alloc_cells _ _).trans ?_, f4.trans (Frame.alloc f4.wf ftIn _) (Or.inl rfl), f4.next, alloc_safe f4.wf _⟩
    have hE : getE k0 (abs s o1.2) = getE k0 (abs s m) := by
      funext c x
      exact congrArg (fun F : Field n N => F c x / ((k0 ^ 2 : ℝ) : ℂ)) (f1.keep _ hm.field (by decide)).2
    rw [v3, k3.2, k2.2, v1, v, v2, hE]
    rfl
  · rw [if_neg hs, if_neg (show ¬ (abs s m).magnetic = true from hs)]
    dsimp only
    set o := curlM e k (readE k0 m).1 (readE k0 m).2 with ho
    have f1 := f.trans (Frame.alloc f.wf ftIn (fun c x => -I / ((co.mu0 : ℂ) * (co.c : ℂ)) * o.2.cells o.1 c x)) (Or.inl rfl)
    refine ⟨(alloc_cells _ _).trans ?_, f1.trans (Frame.alloc f1.wf ftIn _) (Or.inl rfl), f1.next, alloc_safe f1.wf _⟩
    rw [alloc_cells, v]
    rfl

theorem readD_spec (e : Env n N) (co : Const) (k0 : ℝ) (k : Fin d → Idx N → ℝ) (i0 : Fin n) (x0 : Idx N) (s : State n N) {m : Mem n N} (hm : WF m) :
    (readD e co k0 k i0 x0 s m).2.cells (readD e co k0 k i0 x0 s m).1 = getD co k0 k i0 x0 (abs s m) ∧ Frame ftIn m (readD e co k0 k i0 x0 s m).2 ∧
      Result m (readD e co k0 k i0 x0 s m) := by
  obtain ⟨v1, f1, g1, s1⟩ := readH_spec e co k0 k i0 x0 s hm
  unfold readD
  dsimp only
  set o := readH e co k0 k i0 x0 s m with ho
  obtain ⟨v2, f2, r2⟩ := curlM_spec e k f1.wf (work_of_new hm g1 s1)
  set q := curlM e k o.1 o.2 with hq
  have f12 : Frame ftIn m q.2 := f1.trans f2 (Or.inr (not_safe_of_le g1))
  have rm : Result m q := r2.imp id fun h => ⟨f1.next.trans h.1, h.2⟩
  have w := r2.work f1.wf
  have ks := (f12.keep _ hm.source (by decide)).2
  set m1 := q.2.set q.1 (fun c x => q.2.cells q.1 c x * (k0 : ℂ)) with hm1
  have f3 : Frame ftIn m m1 := f12.trans (Frame.set f12.wf _ _) (Or.inr rm.not_safe)
  set m2 := m1.set q.1 (fun c x => m1.cells q.1 c x - ((s.beta : ℂ) / (I * (co.omega k0 : ℂ) * (co.mu0 : ℂ))) * (m1.cells sourceRef c x * ((s.alpha.im : ℂ) / I))) with hm2
  have f4 : Frame ftIn m m2 := f3.trans (Frame.set f3.wf _ _) (Or.inr rm.not_safe)
  refine ⟨?_, f4.trans (Frame.set f4.wf _ _) (Or.inr rm.not_safe), rm⟩
  rw [set_self, hm2, set_self, hm1, set_self, set_ne (Ne.symm w.2.2), ks, v2, v1]
  rfl

end Verif.WorkArrays
