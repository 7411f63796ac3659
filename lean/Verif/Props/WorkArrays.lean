import Verif.Lemmas.WorkArrays

/-!
# Properties C81, C82 and C83: work arrays

The same operations on values (`Model/Solver.lean`) are the specification.
-/

namespace Verif.WorkArrays

open Verif Verif.Fourier Verif.Backend Verif.Solver Complex

variable {d n : ℕ} {N : Fin d → ℕ}

/-- The memory after the construction of a solution, with the given field and source: `array_ft_input`, `array_ft_output`, `__field_array` and `__source_normalized`. -/
def initial (field source : Field n N) (other : ℕ → Field n N) : Mem n N where
  cells := fun r => if r = 2 then field else if r = 3 then source else other r
  next := 4
  fwd := 0
  bwd := 1

theorem C81_initial (field source : Field n N) (other : ℕ → Field n N) (s : State n N) :
    WF (initial field source other) ∧ abs s (initial field source other) = { s with field := field, source := source } :=
  ⟨⟨⟨by decide, show (2 : ℕ) ≠ 0 by decide, show (2 : ℕ) ≠ 1 by decide, show (2 : ℕ) < 4 by decide⟩,
    ⟨by decide, show (3 : ℕ) ≠ 0 by decide, show (3 : ℕ) ≠ 1 by decide, show (3 : ℕ) < 4 by decide⟩,
    show (0 : ℕ) ≠ 1 by decide, show (0 : ℕ) < 4 by decide, show (1 : ℕ) ≠ 0 by decide, show (1 : ℕ) < 4 by decide⟩, rfl⟩

/-- One pass of the loop with work arrays has the same outcome as on values, whatever the library for Fourier transforms does to its input. -/
theorem C81_step (e : Env n N) (kind : Kind d n) (k : Fin d → Idx N → ℝ) (s : State n N) (m : Mem n N) (hm : WF m) :
    step kind k (abs s m) = (stepM e kind k s m).map (fun o => abs o.1 o.2) ∧ ∀ o, stepM e kind k s m = .ok o → WF o.2 ∧ ∀ u, Safe u m → u ≠ fieldRef → u ≠ sourceRef →
      Safe u o.2 ∧ o.2.cells u = m.cells u := by
  set s1 : State n N := { s with iteration := s.iteration + 1, residue := none } with hs1
  obtain ⟨v, f⟩ := updateM_spec e kind k s1 hm
  have hF := (f.keep _ hm.field (by decide)).2
  have hS := (f.keep _ hm.source (by decide)).2
  have hupd : update kind k { abs s m with iteration := s.iteration + 1, residue := none } = (updateM e kind k s1 m).2.cells (updateM e kind k s1 m).1 := v.symm
  unfold step stepM
  dsimp only
  rw [show update kind k { abs s m with iteration := (abs s m).iteration + 1, residue := none } = _ from hupd]
  set o := updateM e kind k s1 m with ho
  change (match divFloat (Backend.norm (o.2.cells o.1)) s.prevNorm with
    | .error e => Except.error e
    | .ok relative => _) = _ ∧ _
  cases hd : divFloat (Backend.norm (o.2.cells o.1)) s.prevNorm with
  | error err => exact ⟨rfl, fun o h => by cases h⟩
  | ok relative =>
    dsimp only
    by_cases hr : relative < 1
    · rw [if_pos hr, if_pos hr]
      refine ⟨?_, fun o' h => ?_⟩
      · change Except.ok _ = Except.ok _
        congr 1
        unfold abs
        congr 1
        · rw [set_self, hF]; rfl
        · rw [set_ne (by decide), hS]
      · cases h
        refine ⟨(Frame.set f.wf _ _).wf, fun u hu h2 h3 => ?_⟩
        have := f.keep u hu (fun e => not_safe_in m (e ▸ hu))
        exact ⟨this.1, (set_ne h2 _).trans this.2⟩
    · rw [if_neg hr, if_neg hr]
      refine ⟨?_, fun o' h => ?_⟩
      · change Except.ok _ = Except.ok _
        congr 1
        unfold abs updateOperators
        congr 1
        · rw [set_ne (by decide), hF]
        · rw [set_self, hS]
      · cases h
        refine ⟨(Frame.set f.wf _ _).wf, fun u hu h2 h3 => ?_⟩
        have := f.keep u hu (fun e => not_safe_in m (e ▸ hu))
        exact ⟨this.1, (set_ne h3 _).trans this.2⟩

/-- The arrays that the accessors return have the values that are specified, and the solution does not change. -/
theorem C81_accessors (e : Env n N) (co : Const) (k0 : ℝ) (k : Fin d → Idx N → ℝ) (i0 : Fin n) (x0 : Idx N) (s : State n N) (m : Mem n N) (hm : WF m) :
    ((readE k0 m).2.cells (readE k0 m).1 = getE k0 (abs s m) ∧ abs s (readE k0 m).2 = abs s m) ∧
    ((readB e co k0 k m).2.cells (readB e co k0 k m).1 = getB co k0 k (abs s m) ∧ abs s (readB e co k0 k m).2 = abs s m) ∧
    ((readH e co k0 k i0 x0 s m).2.cells (readH e co k0 k i0 x0 s m).1 = getH co k0 k i0 x0 (abs s m) ∧ abs s (readH e co k0 k i0 x0 s m).2 = abs s m) ∧
    ((readD e co k0 k i0 x0 s m).2.cells (readD e co k0 k i0 x0 s m).1 = getD co k0 k i0 x0 (abs s m) ∧ abs s (readD e co k0 k i0 x0 s m).2 = abs s m) ∧
    ((readSource s m).2.cells (readSource s m).1 = getSource (abs s m) ∧ abs s (readSource s m).2 = abs s m) := by
  have ha : ∀ m' : Mem n N, Frame ftIn m m' → abs s m' = abs s m := fun m' f => by
    unfold abs
    rw [(f.keep _ hm.field (by decide)).2, (f.keep _ hm.source (by decide)).2]
  obtain ⟨a1, a2, -⟩ := readE_spec k0 s hm
  obtain ⟨b1, b2, -⟩ := readB_spec e co k0 k s hm
  obtain ⟨c1, c2, -⟩ := readH_spec e co k0 k i0 x0 s hm
  obtain ⟨d1, d2, -⟩ := readD_spec e co k0 k i0 x0 s hm
  exact ⟨⟨a1, ha _ (a2 _)⟩, ⟨b1, ha _ b2⟩, ⟨c1, ha _ c2⟩, ⟨d1, ha _ d2⟩, ⟨alloc_cells _ _, ha _ (Frame.alloc hm _ _)⟩⟩

/-- The Poynting vector and the energy density are calculated from arrays that are not overwritten before they are used. -/
theorem C81_energy (e : Env n N) (co : Const) (k0 : ℝ) (k : Fin d → Idx N → ℝ) (i0 : Fin n) (x0 : Idx N) (s : State n N) (m : Mem n N) (hm : WF m) :
    (readS e co k0 k i0 x0 s m).1 = getS co k0 k i0 x0 (abs s m) ∧ (readEnergy e co k0 k i0 x0 s m).1 = getEnergy co k0 k i0 x0 (abs s m) := by
  have ha : ∀ m' : Mem n N, Frame ftIn m m' → abs s m' = abs s m := fun m' f => by
    unfold abs
    rw [(f.keep _ hm.field (by decide)).2, (f.keep _ hm.source (by decide)).2]
  have hin : ∀ {u : ℕ} {m : Mem n N}, Safe u m → u ≠ ftIn := fun h e => not_safe_in _ (e ▸ h)
  obtain ⟨a1, a2, -, a4⟩ := readE_spec k0 s hm
  have fa := a2 ftIn
  constructor
  · obtain ⟨h1, h2, -, -⟩ := readH_spec e co k0 k i0 x0 s fa.wf
    unfold readS getS
    dsimp only
    rw [h1, (h2.keep _ a4 (hin a4)).2, a1, ha _ fa]
  · obtain ⟨b1, b2, -, b4⟩ := readB_spec e co k0 k s fa.wf
    have fb := fa.trans b2 (Or.inl rfl)
    have ab := b2.keep _ a4 (hin a4)
    obtain ⟨h1, h2, -, h4⟩ := readH_spec e co k0 k i0 x0 s fb.wf
    have fh := fb.trans h2 (Or.inl rfl)
    have ah := h2.keep _ ab.1 (hin a4)
    have bh := h2.keep _ b4 (hin b4)
    obtain ⟨d1, d2, -⟩ := readD_spec e co k0 k i0 x0 s fh.wf
    have ad := d2.keep _ ah.1 (hin a4)
    have bd := d2.keep _ bh.1 (hin b4)
    have hd := d2.keep _ h4 (hin h4)
    unfold readEnergy getEnergy
    dsimp only
    funext x
    rw [d1, ad.2, ah.2, ab.2, a1, bd.2, bh.2, b1, hd.2, h1, ha _ fa, ha _ fb, ha _ fh]

/-! ### Histories -/

/-- What a program does with a solution; `edit i F` overwrites the `i`th array that it has obtained. -/
inductive Op (n : ℕ) (N : Fin d → ℕ) where
  | iterate
  | readE
  | readB
  | readH
  | readD
  | readSource
  | writeE (F : Field n N)
  | writeSource (F : Field n N)
  | edit (i : ℕ) (F : Field n N)

/-- The constants of a solution. -/
structure Setup (d n : ℕ) (N : Fin d → ℕ) where
  env : Env n N
  kind : Kind d n
  co : Const
  k0 : ℝ
  k : Fin d → Idx N → ℝ
  i0 : Fin n
  x0 : Idx N

/-- A solution with its memory, and the arrays that have been obtained from it, the last one first. -/
structure Sys (n : ℕ) (N : Fin d → ℕ) where
  state : State n N
  mem : Mem n N
  held : List ℕ

/-- The effect of a getter: its result is added to the list. -/
def Sys.got (y : Sys n N) (o : ℕ × Mem n N) : Sys n N := ⟨y.state, o.2, o.1 :: y.held⟩

/-- solver.py 691–720, 812–893, 1064–1098: the effect of an operation. -/
noncomputable def exec (p : Setup d n N) (y : Sys n N) : Op n N → Except PyErr (Sys n N)
  | .iterate => (stepM p.env p.kind p.k y.state y.mem).map fun o => ⟨o.1, o.2, y.held⟩
  | .readE => .ok (y.got (readE p.k0 y.mem))
  | .readB => .ok (y.got (readB p.env p.co p.k0 p.k y.mem))
  | .readH => .ok (y.got (readH p.env p.co p.k0 p.k p.i0 p.x0 y.state y.mem))
  | .readD => .ok (y.got (readD p.env p.co p.k0 p.k p.i0 p.x0 y.state y.mem))
  | .readSource => .ok (y.got (readSource y.state y.mem))
  | .writeE F => .ok ⟨{ y.state with prevNorm := ⊤ }, writeE p.k0 F y.mem, y.held⟩
  | .writeSource F => .ok ⟨{ y.state with prevNorm := ⊤ }, writeSource y.state F y.mem, y.held⟩
  | .edit i F => match y.held[i]? with
    | some r => .ok { y with mem := y.mem.set r F }
    | none => .ok y

/-- The same on values: getters and what a program does with their results have no effect. -/
noncomputable def execValue (p : Setup d n N) (s : State n N) : Op n N → Except PyErr (State n N)
  | .iterate => step p.kind p.k s
  | .writeE F => .ok (setE p.k0 s F)
  | .writeSource F => .ok (setSource s F)
  | _ => .ok s

/-- A list of operations. -/
noncomputable def execAll (p : Setup d n N) (y : Sys n N) : List (Op n N) → Except PyErr (Sys n N)
  | [] => .ok y
  | a :: l => match exec p y a with
    | .ok y => execAll p y l
    | .error err => .error err

noncomputable def execAllValue (p : Setup d n N) (s : State n N) : List (Op n N) → Except PyErr (State n N)
  | [] => .ok s
  | a :: l => match execValue p s a with
    | .ok s => execAllValue p s l
    | .error err => .error err

/-- What holds between operations. -/
structure Sys.Inv (y : Sys n N) : Prop where
  wf : WF y.mem
  held : ∀ r ∈ y.held, Work r y.mem

theorem Sys.Inv.got {y : Sys n N} (h : y.Inv) {o : ℕ × Mem n N} (hf : Frame ftIn y.mem o.2) (hr : Work o.1 o.2) : (y.got o).Inv := by
  refine ⟨hf.wf, fun r hr' => ?_⟩
  rcases List.mem_cons.mp hr' with e | e
  · rw [e]; exact hr
  · obtain ⟨h1, h2⟩ := h.held r e
    refine ⟨?_, h2⟩
    rcases h1 with h1 | h1
    · exact Or.inl h1
    · exact Or.inr (hf.keep r h1 fun e => not_safe_in _ (e ▸ h1)).1

theorem work_mono {m m' : Mem n N} (h : ∀ u, Safe u m → u ≠ fieldRef → u ≠ sourceRef → Safe u m') {r : ℕ} (hr : Work r m) : Work r m' :=
  ⟨hr.1.imp id fun hs => h r hs hr.2.1 hr.2.2, hr.2⟩

/-- A single operation: the same effect as on values, and no other array changes. -/
theorem exec_spec (p : Setup d n N) (y : Sys n N) (h : y.Inv) (a : Op n N) :
    execValue p (abs y.state y.mem) a = (exec p y a).map (fun y => abs y.state y.mem) ∧ ∀ y', exec p y a = .ok y' → y'.Inv ∧
      ∀ u, Safe u y.mem → u ≠ fieldRef → u ≠ sourceRef → (∀ i F, a = .edit i F → y.held[i]? ≠ some u) → Safe u y'.mem ∧ y'.mem.cells u = y.mem.cells u := by
  have habs : ∀ m' : Mem n N, Frame ftIn y.mem m' → abs y.state m' = abs y.state y.mem := fun m' f => by
    unfold abs
    rw [(f.keep _ h.wf.field (by decide)).2, (f.keep _ h.wf.source (by decide)).2]
  have hin : ∀ {u : ℕ} {m : Mem n N}, Safe u m → u ≠ ftIn := fun h e => not_safe_in _ (e ▸ h)
  have hget : ∀ o : ℕ × Mem n N, Frame ftIn y.mem o.2 → Work o.1 o.2 → (Except.ok (abs y.state y.mem) : Except PyErr _) = (Except.ok (y.got o)).map (fun y => abs y.state y.mem) ∧
      ∀ y', (Except.ok (y.got o) : Except PyErr _) = .ok y' → y'.Inv ∧
      ∀ u, Safe u y.mem → u ≠ fieldRef → u ≠ sourceRef → Safe u y'.mem ∧ y'.mem.cells u = y.mem.cells u := fun o f w => by
    refine ⟨congrArg Except.ok (habs _ f).symm, fun y' e => ?_⟩
    cases e
    exact ⟨h.got f w, fun u hu _ _ => f.keep u hu (hin hu)⟩
  cases a with
  | iterate =>
    obtain ⟨h1, h2⟩ := C81_step p.env p.kind p.k y.state y.mem h.wf
    refine ⟨?_, fun y' e => ?_⟩
    · unfold execValue exec
      rw [h1]
      cases stepM p.env p.kind p.k y.state y.mem <;> rfl
    · unfold exec at e
      cases hs : stepM p.env p.kind p.k y.state y.mem with
      | error err => rw [hs] at e; cases e
      | ok o =>
        rw [hs] at e
        cases e
        obtain ⟨w, kp⟩ := h2 o hs
        exact ⟨⟨w, fun r hr => work_mono (fun u hu a b => (kp u hu a b).1) (h.held r hr)⟩, fun u hu a b _ => kp u hu a b⟩
  | readE =>
    obtain ⟨-, f, g, s⟩ := readE_spec p.k0 y.state h.wf
    have := hget _ (f ftIn) (work_of_new h.wf g s)
    exact ⟨this.1, fun y' e => ⟨(this.2 y' e).1, fun u a b c _ => (this.2 y' e).2 u a b c⟩⟩
  | readB =>
    obtain ⟨-, f, g, s⟩ := readB_spec p.env p.co p.k0 p.k y.state h.wf
    have := hget _ f (work_of_new h.wf g s)
    exact ⟨this.1, fun y' e => ⟨(this.2 y' e).1, fun u a b c _ => (this.2 y' e).2 u a b c⟩⟩
  | readH =>
    obtain ⟨-, f, g, s⟩ := readH_spec p.env p.co p.k0 p.k p.i0 p.x0 y.state h.wf
    have := hget _ f (work_of_new h.wf g s)
    exact ⟨this.1, fun y' e => ⟨(this.2 y' e).1, fun u a b c _ => (this.2 y' e).2 u a b c⟩⟩
  | readD =>
    obtain ⟨-, f, r⟩ := readD_spec p.env p.co p.k0 p.k p.i0 p.x0 y.state h.wf
    have := hget _ f (r.work h.wf)
    exact ⟨this.1, fun y' e => ⟨(this.2 y' e).1, fun u a b c _ => (this.2 y' e).2 u a b c⟩⟩
  | readSource =>
    have := hget (readSource y.state y.mem) (Frame.alloc h.wf _ _) (work_of_new h.wf le_rfl (alloc_safe h.wf _))
    exact ⟨this.1, fun y' e => ⟨(this.2 y' e).1, fun u a b c _ => (this.2 y' e).2 u a b c⟩⟩
  | writeE F =>
    refine ⟨?_, fun y' e => ?_⟩
    · refine congrArg Except.ok ?_
      unfold setE abs writeE
      dsimp only
      rw [set_self, set_ne (by decide)]
    · cases e
      exact ⟨⟨(Frame.set h.wf _ _).wf, fun r hr => h.held r hr⟩, fun u hu h2 _ _ => ⟨hu, set_ne h2 _⟩⟩
  | writeSource F =>
    refine ⟨?_, fun y' e => ?_⟩
    · refine congrArg Except.ok ?_
      unfold setSource abs writeSource
      dsimp only
      rw [set_self, set_ne (by decide)]
    · cases e
      exact ⟨⟨(Frame.set h.wf _ _).wf, fun r hr => h.held r hr⟩, fun u hu _ h3 _ => ⟨hu, set_ne h3 _⟩⟩
  | edit i F =>
    have hv : execValue p (abs y.state y.mem) (.edit i F) = .ok (abs y.state y.mem) := rfl
    rw [hv]
    cases hi : y.held[i]? with
    | none =>
      have hx : exec p y (.edit i F) = .ok y := by
        change (match y.held[i]? with
          | some r => Except.ok { y with mem := y.mem.set r F }
          | none => Except.ok y) = _
        rw [hi]
      rw [hx]
      refine ⟨rfl, fun y' e => ?_⟩
      cases e
      exact ⟨h, fun u hu _ _ _ => ⟨hu, rfl⟩⟩
    | some r =>
      have hw := h.held r (List.mem_of_getElem? hi)
      have hx : exec p y (.edit i F) = .ok { y with mem := y.mem.set r F } := by
        change (match y.held[i]? with
          | some r => Except.ok { y with mem := y.mem.set r F }
          | none => Except.ok y) = _
        rw [hi]
      rw [hx]
      refine ⟨?_, fun y' e => ?_⟩
      · refine congrArg Except.ok ?_
        unfold abs
        dsimp only
        rw [set_ne (Ne.symm hw.2.1), set_ne (Ne.symm hw.2.2)]
      · cases e
        refine ⟨⟨(Frame.set h.wf _ _).wf, fun r hr => h.held r hr⟩, fun u hu _ _ hne => ⟨hu, set_ne (fun e => hne i F rfl ?_) _⟩⟩
        rw [e]; exact hi

/-- Programs that iterate, read and assign, and overwrite what they have read, find the same solution as with values only, or the same exception. -/
theorem C81_history (p : Setup d n N) (l : List (Op n N)) (y : Sys n N) (h : y.Inv) :
    execAllValue p (abs y.state y.mem) l = (execAll p y l).map fun y => abs y.state y.mem := by
  induction l generalizing y with
  | nil => rfl
  | cons a l ih =>
    obtain ⟨h1, h2⟩ := exec_spec p y h a
    unfold execAllValue execAll
    rw [h1]
    cases he : exec p y a with
    | error err => rfl
    | ok y' => exact ih y' (h2 y' he).1

/-! ### C82 -/

/-- The operation does not overwrite the array. -/
def Spares (y : Sys n N) (u : ℕ) : Op n N → Prop
  | .edit i _ => y.held[i]? ≠ some u
  | _ => True

/-- None of the operations overwrites the array. -/
def SparesAll (p : Setup d n N) (u : ℕ) (y : Sys n N) : List (Op n N) → Prop
  | [] => True
  | a :: l => Spares y u a ∧ ∀ y', exec p y a = .ok y' → SparesAll p u y' l

theorem execAll_keep (p : Setup d n N) (u : ℕ) (l : List (Op n N)) (y : Sys n N) (h : y.Inv) (hu : Safe u y.mem) (h2 : u ≠ fieldRef) (h3 : u ≠ sourceRef) (hl : SparesAll p u y l)
    (y' : Sys n N) (hy : execAll p y l = .ok y') : y'.mem.cells u = y.mem.cells u := by
  induction l generalizing y with
  | nil => cases hy; rfl
  | cons a l ih =>
    obtain ⟨-, hs⟩ := exec_spec p y h a
    unfold execAll at hy
    cases he : exec p y a with
    | error err => rw [he] at hy; cases hy
    | ok y1 =>
      rw [he] at hy
      obtain ⟨hi, hk⟩ := hs y1 he
      have hsp : ∀ i F, a = .edit i F → y.held[i]? ≠ some u := fun i F e => by
        have := hl.1
        rw [e] at this
        exact this
      obtain ⟨hu1, hc⟩ := hk u hu h2 h3 hsp
      exact (ih y1 hi hu1 (hl.2 y1 he) hy).trans hc

/-- A getter of which the result is always a new array; `D` only without FFTW. -/
def Fresh (p : Setup d n N) : Op n N → Prop
  | .readE | .readB | .readH | .readSource => True
  | .readD => p.env.fftw = false ∨ ¬ ∃ a, 1 < N a
  | _ => False

theorem curlM_fresh (e : Env n N) (he : e.fftw = false ∨ ¬ ∃ a, 1 < N a) (k : Fin d → Idx N → ℝ) {r : ℕ} {m : Mem n N} (hm : WF m) (hr : Work r m) :
    m.next ≤ (curlM e k r m).1 ∧ Safe (curlM e k r m).1 (curlM e k r m).2 := by
  obtain ⟨-, h2, -⟩ := forward_spec e hm hr
  have hw := (Frame.alloc h2.wf ftIn (curlFt n k ((forward e r m).2.cells (forward e r m).1))).wf
  have hb : ∀ (q : ℕ) (m' : Mem n N), WF m' → m'.next ≤ (backward e q m').1 ∧ Safe (backward e q m').1 (backward e q m').2 := fun q m' h' => by
    unfold backward
    rcases he with he | he
    · rw [if_neg (by simp [he])]; exact ⟨le_rfl, alloc_safe h' _⟩
    · split_ifs
      · exact ⟨le_rfl, alloc_safe h' _⟩
      · exact ⟨le_rfl, alloc_safe h' _⟩
  have := hb (forward e r m).2.next _ hw
  exact ⟨(h2.next.trans (Nat.le_succ _)).trans this.1, this.2⟩

/-- The array that a getter has returned keeps its values, whatever is done with the solution later, unless the program itself overwrites it.
The results of two getters are never the same array. -/
theorem C82_partial (p : Setup d n N) (y : Sys n N) (h : y.Inv) (a : Op n N) (ha : Fresh p a) :
    ∃ o : ℕ × Mem n N, exec p y a = .ok (y.got o) ∧ o.1 ∉ y.held ∧ ∀ l y', SparesAll p o.1 (y.got o) l → execAll p (y.got o) l = .ok y' → y'.mem.cells o.1 = o.2.cells o.1 := by
  have key : ∀ o : ℕ × Mem n N, Frame ftIn y.mem o.2 → y.mem.next ≤ o.1 → Safe o.1 o.2 → o.1 ∉ y.held ∧
      ∀ l y', SparesAll p o.1 (y.got o) l → execAll p (y.got o) l = .ok y' → y'.mem.cells o.1 = o.2.cells o.1 := fun o f g s => by
    have w := work_of_new h.wf g s
    refine ⟨fun hm => ?_, fun l y' hl he => execAll_keep p o.1 l (y.got o) (h.got f w) s w.2.1 w.2.2 hl y' he⟩
    exact absurd ((h.held _ hm).lt h.wf) (Nat.not_lt.mpr g)
  cases a with
  | readE =>
    obtain ⟨-, f, g, s⟩ := readE_spec p.k0 y.state h.wf
    exact ⟨_, rfl, key _ (f ftIn) g s⟩
  | readB =>
    obtain ⟨-, f, g, s⟩ := readB_spec p.env p.co p.k0 p.k y.state h.wf
    exact ⟨_, rfl, key _ f g s⟩
  | readH =>
    obtain ⟨-, f, g, s⟩ := readH_spec p.env p.co p.k0 p.k p.i0 p.x0 y.state h.wf
    exact ⟨_, rfl, key _ f g s⟩
  | readSource => exact ⟨_, rfl, key (readSource y.state y.mem) (Frame.alloc h.wf _ _) le_rfl (alloc_safe h.wf _)⟩
  | readD =>
    obtain ⟨-, f, r⟩ := readD_spec p.env p.co p.k0 p.k p.i0 p.x0 y.state h.wf
    obtain ⟨-, f1, g1, s1⟩ := readH_spec p.env p.co p.k0 p.k p.i0 p.x0 y.state h.wf
    have := curlM_fresh p.env ha p.k f1.wf (work_of_new h.wf g1 s1)
    exact ⟨_, rfl, key _ f (f1.next.trans this.1) this.2⟩
  | iterate => exact ha.elim
  | writeE F => exact ha.elim
  | writeSource F => exact ha.elim
  | edit i F => exact ha.elim

/-- With FFTW, all calls of `D` return the array for the input of Fourier transforms. -/
theorem readD_fst (e : Env n N) (he : e.fftw = true) (hN : ∃ a, 1 < N a) (co : Const) (k0 : ℝ) (k : Fin d → Idx N → ℝ) (i0 : Fin n) (x0 : Idx N) (s : State n N) (m : Mem n N) :
    (readD e co k0 k i0 x0 s m).1 = ftIn := by
  unfold readD curlM backward
  dsimp only
  rw [if_pos he, if_pos hN]

/-- With FFTW, the array that `D` has returned gets the values of the next call of `D`. -/
theorem C82_alias (p : Setup d n N) (he : p.env.fftw = true) (hN : ∃ a, 1 < N a) (y : Sys n N) (h : y.Inv) (S : Field n N) :
    ∃ y1 y2 r, exec p y .readD = .ok y1 ∧ y1.held.head? = some r ∧ y1.mem.cells r = getD p.co p.k0 p.k p.i0 p.x0 (abs y.state y.mem) ∧
      execAll p y1 [.writeSource S, .readD] = .ok y2 ∧ y2.mem.cells r = getD p.co p.k0 p.k p.i0 p.x0 (setSource (abs y.state y.mem) S) := by
  obtain ⟨v, f, r⟩ := readD_spec p.env p.co p.k0 p.k p.i0 p.x0 y.state h.wf
  have hy1 : exec p y .readD = .ok (y.got (readD p.env p.co p.k0 p.k p.i0 p.x0 y.state y.mem)) := rfl
  have i1 := ((exec_spec p y h .readD).2 _ hy1).1
  set o := readD p.env p.co p.k0 p.k p.i0 p.x0 y.state y.mem with ho
  have hy2 : exec p (y.got o) (.writeSource S) = .ok ⟨{ y.state with prevNorm := ⊤ }, writeSource y.state S o.2, (y.got o).held⟩ := rfl
  obtain ⟨a2, i2⟩ := exec_spec p _ i1 (.writeSource S)
  have i2 := (i2 _ hy2).1
  set y2 : Sys n N := ⟨{ y.state with prevNorm := ⊤ }, writeSource y.state S o.2, (y.got o).held⟩ with hy2'
  obtain ⟨v3, f3, -⟩ := readD_spec p.env p.co p.k0 p.k p.i0 p.x0 y2.state i2.wf
  have hr1 : o.1 = ftIn := readD_fst p.env he hN _ _ _ _ _ _ _
  have hr3 := readD_fst p.env he hN p.co p.k0 p.k p.i0 p.x0 y2.state y2.mem
  have hab : abs y2.state y2.mem = setSource (abs y.state y.mem) S := by
    have e1 : abs y.state o.2 = abs y.state y.mem := by
      unfold abs
      rw [(f.keep _ h.wf.field (by decide)).2, (f.keep _ h.wf.source (by decide)).2]
    have e2 : execValue p (abs y.state o.2) (.writeSource S) = .ok (abs y2.state y2.mem) := a2
    rw [e1] at e2
    exact (Except.ok.inj e2).symm
  refine ⟨y.got o, _, o.1, rfl, rfl, v, rfl, ?_⟩
  rw [hr3, hab] at v3
  rw [hr1]
  exact v3

/-! ### C83 -/

/-- `transversal_projection` with work arrays has the result that is specified. -/
theorem C83_transversal (e : Env n N) (k : Fin d → Idx N → ℝ) (hd : d ≤ n) (r : ℕ) (m : Mem n N) (hm : WF m) (hr : Work r m) :
    (transversalM e k hd r m).2.cells (transversalM e k hd r m).1 = transversal k hd (m.cells r) := by
  obtain ⟨v1, f1, g1⟩ := forward_spec e hm hr
  unfold transversalM transversalFtM longitudinalFtM
  dsimp only
  set o := forward e r m with ho
  have hne : o.1 ≠ ftIn := by
    rcases g1 with h | h
    · rw [h]; decide
    · exact fun e => absurd h.2.1 (by rw [e]; decide)
  set m0 := o.2.set ftOut (o.2.cells o.1) with h0
  set m1 := m0.set ftIn (longitudinalFt k origin hd (m0.cells o.1)) with h1
  set m2 := m1.set ftOut (m1.cells ftOut - m1.cells ftIn) with h2
  have w0 : WF m0 := (Frame.set f1.wf _ _).wf
  have w1 : WF m1 := (Frame.set w0 _ _).wf
  have w2 : WF m2 := (Frame.set w1 _ _).wf
  have c0 : m0.cells o.1 = o.2.cells o.1 := by
    by_cases h : o.1 = ftOut
    · rw [h0, h, set_self]
    · rw [h0, set_ne h]
  obtain ⟨v2, -, -⟩ := backward_spec e w2 (r := ftOut) ⟨Or.inl rfl, by decide, by decide⟩
  refine v2.trans ?_
  have hc : m2.cells ftOut = transversalFt k origin hd fun c => ft (m.cells r c) := by
    rw [h2, set_self, h1, set_ne (by decide), set_self, c0, h0, set_self, v1]
    rfl
  rw [hc]
  rfl

/-- `longitudinal_projection` has the result that is specified without FFTW. -/
theorem C83_longitudinal_partial (e : Env n N) (he : e.fftw = false ∨ ¬ ∃ a, 1 < N a) (k : Fin d → Idx N → ℝ) (hd : d ≤ n) (r : ℕ) (m : Mem n N) (hm : WF m) (hr : Work r m) :
    (longitudinalM e k hd r m).2.cells (longitudinalM e k hd r m).1 = longitudinal k hd (m.cells r) := by
  obtain ⟨v1, -, -⟩ := forward_spec e hm hr
  unfold longitudinalM longitudinalFtM
  dsimp only
  set o := forward e r m with ho
  set m1 := o.2.set ftIn (longitudinalFt k origin hd (o.2.cells o.1)) with h1
  have hb : (backward e ftIn m1).2.cells (backward e ftIn m1).1 = fun c => ift (m1.cells ftIn c) := by
    unfold backward
    by_cases hf : e.fftw = true
    · rcases he with he | he
      · rw [he] at hf; cases hf
      · rw [if_pos hf, if_neg he]
        exact (alloc_cells _ _).trans (funext fun c => (ift_single he _).symm)
    · rw [if_neg hf]
      exact alloc_cells _ _
  refine hb.trans ?_
  rw [h1, set_self, v1]
  rfl

/-- With FFTW, the plan is executed with the same array as input and output, while it has been made for different arrays: the result is not determined by the code. -/
theorem C83_undetermined (e : Env n N) (he : e.fftw = true) (hN : ∃ a, 1 < N a) (ha : e.aligned ftIn = true) (k : Fin d → Idx N → ℝ) (hd : d ≤ n) (r : ℕ) (m : Mem n N) :
    ∃ F, (longitudinalM e k hd r m).2.cells (longitudinalM e k hd r m).1 = e.junk ftIn F := by
  unfold longitudinalM longitudinalFtM
  dsimp only
  set m1 := (forward e r m).2.set ftIn _
  unfold backward
  rw [if_pos he, if_pos hN, if_pos ha]
  exact ⟨_, set_self _ _ _⟩

/-! ### Instances -/

/-- The shape of two points on a line. -/
abbrev two : Fin 1 → ℕ := fun _ => 2

/-- Two points on a line, with FFTW that leaves `junk` in its input; the medium is empty. -/
noncomputable def demo (fftw : Bool) (junk : Field 3 two) : Setup 1 3 two where
  env := ⟨fftw, fun _ => true, fun _ _ => junk, fun _ => true⟩
  kind := .vectorial (by decide)
  co := ⟨1, 1, 1⟩
  k0 := 1
  k := fun _ x => (x 0 : ℕ)
  i0 := 0
  x0 := fun _ => (0 : Fin 2)

noncomputable def demoState : State 3 two := prepared ⟨fun _ => 1, fun _ => 0, fun _ => 0, fun _ => 1⟩ false (1 + I) 1 0 0

noncomputable def demoSys : Sys 3 two := ⟨demoState, initial 0 (fun _ _ => 1) fun _ => 0, []⟩

theorem demoSys_inv : demoSys.Inv := ⟨(C81_initial _ _ _ demoState).1, fun r h => by cases h⟩

/-- The premises of C81 and C82 hold for an execution with iterations, in which arrays are overwritten. -/
example (junk : Field 3 two) : execAllValue (demo true junk) (abs demoState demoSys.mem) [.readE, .iterate, .edit 0 junk, .readD, .edit 0 junk, .iterate, .writeE junk, .iterate] =
    (execAll (demo true junk) demoSys [.readE, .iterate, .edit 0 junk, .readD, .edit 0 junk, .iterate, .writeE junk, .iterate]).map fun y => abs y.state y.mem :=
  C81_history (demo true junk) _ demoSys demoSys_inv

example (junk : Field 3 two) : Fresh (demo true junk) .readH ∧ SparesAll (demo true junk) 7 demoSys [.readB, .writeE junk] := ⟨trivial, trivial, fun _ _ => ⟨trivial, fun _ _ => trivial⟩⟩

/-- With FFTW, the values of the array that `D` has returned change when `D` is read after an assignment to the source. -/
theorem C82_displacement_violates : ∃ (p : Setup 1 3 two) (y y1 y2 : Sys 3 two) (r : ℕ) (S : Field 3 two), y.Inv ∧ exec p y .readD = .ok y1 ∧ y1.held.head? = some r ∧
    execAll p y1 [.writeSource S, .readD] = .ok y2 ∧ SparesAll p r y1 [.writeSource S, .readD] ∧ y2.mem.cells r ≠ y1.mem.cells r := by
  have hN : ∃ a, 1 < two a := ⟨0, by decide⟩
  obtain ⟨y1, y2, r, h1, h2, h3, h4, h5⟩ := C82_alias (demo true 0) rfl hN demoSys demoSys_inv 0
  refine ⟨demo true 0, demoSys, y1, y2, r, 0, demoSys_inv, h1, h2, h4, ⟨trivial, fun _ _ => ⟨trivial, fun _ _ => trivial⟩⟩, fun h => ?_⟩
  rw [h3, h5] at h
  have h' := congrFun (congrFun h 0) (fun _ => (0 : Fin 2))
  have hH : getH (demo true 0).co (demo true 0).k0 (demo true 0).k (demo true 0).i0 (demo true 0).x0 (setSource (abs demoSys.state demoSys.mem) 0) =
      getH (demo true 0).co (demo true 0).k0 (demo true 0).k (demo true 0).i0 (demo true 0).x0 (abs demoSys.state demoSys.mem) := rfl
  unfold getD at h'
  rw [hH] at h'
  have hb : (abs demoSys.state demoSys.mem).beta = 1 := rfl
  have hb' : (setSource (abs demoSys.state demoSys.mem) 0).beta = 1 := rfl
  have ha : (abs demoSys.state demoSys.mem).alpha = 1 + I := rfl
  have ha' : (setSource (abs demoSys.state demoSys.mem) 0).alpha = 1 + I := rfl
  have hs : (abs demoSys.state demoSys.mem).source = fun _ _ => 1 := rfl
  have hs' : (setSource (abs demoSys.state demoSys.mem) 0).source = fun _ _ => 0 := by
    funext c x
    exact zero_mul _
  rw [hb, hb', ha, ha', hs, hs'] at h'
  have hom : (demo true 0).co.omega (demo true 0).k0 = 1 := by simp [Const.omega, angularFrequency, demo]
  have hmu : (demo true 0).co.mu0 = 1 := rfl
  rw [hom, hmu] at h'
  have him : ((1 + I : ℂ).im : ℝ) = 1 := by simp
  rw [him] at h'
  have hI : (I : ℂ) ≠ 0 := I_ne_zero
  simp only [ofReal_one, mul_one, zero_mul, mul_zero, sub_zero, one_mul, div_one] at h'
  have h'' := mul_right_cancel₀ hI h'
  have : (1 / I * (1 / I) : ℂ) = 0 := by linear_combination h''
  rw [div_mul_div_comm, I_mul_I] at this
  norm_num at this

/-- With FFTW, the result of `longitudinal_projection` is not that of the specification for what FFTW may leave. -/
theorem C83_longitudinal_violates : ∃ (e : Env 3 two) (k : Fin 1 → Idx two → ℝ) (hd : 1 ≤ 3) (r : ℕ) (m : Mem 3 two), WF m ∧ Work r m ∧
    (longitudinalM e k hd r m).2.cells (longitudinalM e k hd r m).1 ≠ longitudinal k hd (m.cells r) := by
  have hN : ∃ a, 1 < two a := ⟨0, by decide⟩
  set m : Mem 3 two := initial 0 0 fun _ => 0 with hm
  set k : Fin 1 → Idx two → ℝ := fun _ x => (x 0 : ℕ) with hk
  set J : Field 3 two := fun c x => longitudinal k (by decide : 1 ≤ 3) (m.cells ftIn) c x + 1 with hJ
  have hw : WF m := (C81_initial 0 0 _ demoState).1
  refine ⟨⟨true, fun _ => true, fun _ _ => J, fun _ => true⟩, k, by decide, ftIn, m, hw, ⟨Or.inl rfl, by decide, by decide⟩, fun h => ?_⟩
  obtain ⟨F, hF⟩ := C83_undetermined ⟨true, fun _ => true, fun _ _ => J, fun _ => true⟩ rfl hN rfl k (by decide) ftIn m
  rw [hF] at h
  have h' := congrFun (congrFun h 0) (fun _ => (0 : Fin 2))
  simp [hJ] at h'

end Verif.WorkArrays
