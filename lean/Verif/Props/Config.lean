import Verif.Model.Config

/-!
# C29: selection of a back end
-/

namespace Verif.Config

open Verif

variable {lower : String → String} {available : Option String → Bool} {contains : String → Bool}

/-! ### Specification -/

/-- The device that a dictionary asks for, in lower case. What starts with `gpu` is what starts with `cuda`. -/
def AsksDevice (lower : String → String) (e : Entry) : Option String → Prop
  | none => e.device = none
  | some dev => ∃ s, e.device = some s ∧ ((∃ t, lower s = "gpu" ++ t ∧ dev = "cuda" ++ t) ∨ ((¬ ∃ t, lower s = "gpu" ++ t) ∧ dev = lower s))

/-- The back end that a dictionary asks for. -/
def Asks (lower : String → String) (e : Entry) : Backend → Prop
  | .numpy => e.type.map lower = some "numpy" ∨ e.type = none ∧ lower "unknown" = "numpy"
  | .torch dev => (e.type.map lower = some "torch" ∨ e.type = none ∧ lower "unknown" = "torch") ∧ AsksDevice lower e dev

/-- Whether a back end can be loaded. -/
def Loadable (available : Option String → Bool) : Backend → Prop
  | .numpy => True
  | .torch dev => available dev = true

/-- `b` is what the first dictionary in the list that can be loaded asks for. -/
def FirstLoadable (lower : String → String) (available : Option String → Bool) (l : List Entry) (b : Backend) : Prop :=
  ∃ before e after, l = before ++ e :: after ∧ Asks lower e b ∧ Loadable available b ∧
    ∀ e' ∈ before, ∀ b', Asks lower e' b' → ¬ Loadable available b'

/-! ### Lemmas -/

theorem gpuAlias_gpu (t : String) : gpuAlias ("gpu" ++ t) = "cuda" ++ t := by
  unfold gpuAlias
  rw [String.toList_append]
  change "cuda" ++ String.ofList t.toList = _
  rw [String.ofList_toList]

theorem gpuAlias_other {s : String} (h : ¬ ∃ t, s = "gpu" ++ t) : gpuAlias s = s := by
  unfold gpuAlias
  split
  · rename_i t ht
    refine absurd ⟨String.ofList t, ?_⟩ h
    rw [← String.toList_inj, ht, String.toList_append, String.toList_ofList, String.toList_ofList]
    rfl
  · rfl

theorem asksDevice_iff (e : Entry) (dev : Option String) : AsksDevice lower e dev ↔ dev = device lower e := by
  unfold AsksDevice device
  cases he : e.device with
  | none => cases dev <;> simp
  | some s =>
    cases dev with
    | none => simp
    | some dev =>
      simp only [Option.some.injEq, exists_eq_left', Option.map_some]
      by_cases h : ∃ t, lower s = "gpu" ++ t
      · obtain ⟨t, ht⟩ := h
        rw [ht, gpuAlias_gpu]
        constructor
        · rintro (⟨t', h1, h2⟩ | ⟨h1, -⟩)
          · rw [← String.toList_inj, String.toList_append, String.toList_append] at h1
            rw [h2, String.toList_inj.1 (List.append_cancel_left h1)]
          · exact absurd ⟨t, rfl⟩ h1
        · rintro rfl
          exact .inl ⟨t, rfl, rfl⟩
      · rw [gpuAlias_other h]
        constructor
        · rintro (⟨t', h1, -⟩ | ⟨-, h2⟩)
          · exact absurd ⟨t', h1⟩ h
          · exact h2
        · intro h2
          exact .inr ⟨h, h2⟩

theorem type_iff (e : Entry) (t : String) : (e.type.map lower = some t ∨ e.type = none ∧ lower "unknown" = t) ↔ lower (e.type.getD "unknown") = t := by
  cases e.type <;> simp

theorem asks_numpy (e : Entry) : Asks lower e .numpy ↔ lower (e.type.getD "unknown") = "numpy" := type_iff e _

theorem asks_torch (e : Entry) (dev : Option String) : Asks lower e (.torch dev) ↔ lower (e.type.getD "unknown") = "torch" ∧ dev = device lower e :=
  and_congr (type_iff e _) (asksDevice_iff e dev)

theorem tryAll_of_first {l : List Entry} {b : Backend} (h : FirstLoadable lower available l b) (more : List Item) :
    tryAll lower available (l.map .dict ++ more) = .ok b := by
  obtain ⟨before, e, after, rfl, ha, hl, hb⟩ := h
  induction before with
  | nil =>
    simp only [List.nil_append, List.map_cons, List.cons_append, tryAll]
    cases b with
    | numpy =>
      have ha' : lower (e.type.getD "unknown") = "numpy" := (asks_numpy e).1 ha
      rw [if_neg (by rw [ha']; decide), if_pos ha']
    | torch dev =>
      obtain ⟨h1, rfl⟩ := (asks_torch e dev).1 ha
      have hl' : available (device lower e) = true := hl
      rw [if_pos h1, if_pos hl']
  | cons e' before ih =>
    simp only [List.cons_append, List.map_cons, tryAll]
    have h1 := hb e' (by simp)
    by_cases ht : lower (e'.type.getD "unknown") = "torch"
    · have h2 : ¬ available (device lower e') = true := h1 (.torch _) ((asks_torch e' _).2 ⟨ht, rfl⟩)
      rw [if_pos ht, if_neg h2]
      exact ih fun e'' he => hb e'' (by simp [he])
    · have h2 : ¬ lower (e'.type.getD "unknown") = "numpy" := fun hn => h1 .numpy ((asks_numpy e').2 hn) trivial
      rw [if_neg ht, if_neg h2]
      exact ih fun e'' he => hb e'' (by simp [he])

theorem firstLoadable_append {l : List Entry} (more : List Entry) {b : Backend} (h : FirstLoadable lower available l b) :
    FirstLoadable lower available (l ++ more) b := by
  obtain ⟨before, e, after, rfl, h⟩ := h
  exact ⟨before, e, after ++ more, by simp, h⟩

/-- The fall-backs as dictionaries. -/
def fallbackEntries : List Entry :=
  [{ type := some "torch", device := some "cuda" }, { type := some "torch", device := some "cpu" }, { type := some "numpy" }]

theorem fallback_eq : fallback = fallbackEntries.map .dict := rfl

theorem exists_first (hn : lower "numpy" = "numpy") (l : List Entry) :
    ∃ b, FirstLoadable lower available (l ++ fallbackEntries) b := by
  have key : ∀ l : List Entry, (∃ e ∈ l, ∃ b, Asks lower e b ∧ Loadable available b) → ∃ b, FirstLoadable lower available l b := by
    intro l
    induction l with
    | nil => rintro ⟨e, he, _⟩; simp at he
    | cons e l ih =>
      intro h
      by_cases h0 : ∃ b, Asks lower e b ∧ Loadable available b
      · obtain ⟨b, hb⟩ := h0
        exact ⟨b, [], e, l, rfl, hb.1, hb.2, by simp⟩
      · obtain ⟨e', he', hb⟩ := h
        rcases List.mem_cons.1 he' with rfl | he'
        · exact absurd hb h0
        · obtain ⟨b, before, e'', after, rfl, h1, h2, h3⟩ := ih ⟨e', he', hb⟩
          refine ⟨b, e :: before, e'', after, rfl, h1, h2, fun x hx b' hb' hl => ?_⟩
          rcases List.mem_cons.1 hx with rfl | hx
          · exact h0 ⟨b', hb', hl⟩
          · exact h3 x hx b' hb' hl
  exact key _ ⟨{ type := some "numpy" }, by simp [fallbackEntries], .numpy, (asks_numpy _).2 hn, trivial⟩

/-! ### C29 -/

/-- **C29.** With a list of dictionaries, `load` returns the first that can be loaded, where the fall-backs, of which NumPy can always be loaded, come last. -/
theorem C29_first (hn : lower "numpy" = "numpy") (l : List Entry) :
    ∃ b, FirstLoadable lower available (l ++ fallbackEntries) b ∧ (loadWith lower available (l.map .dict)).1 = .ok b := by
  obtain ⟨b, hb⟩ := exists_first (available := available) hn l
  refine ⟨b, hb, ?_⟩
  have := tryAll_of_first hb []
  rwa [List.append_nil, List.map_append, ← fallback_eq] at this

/-- **C29.** If none of the given configurations and none of the PyTorch fall-backs can be loaded, then NumPy is loaded. -/
theorem C29_numpy (hn : lower "numpy" = "numpy") (hl : ∀ dev, available dev = false) (l : List Entry) :
    (loadWith lower available (l.map .dict)).1 = .ok .numpy := by
  obtain ⟨b, ⟨before, e, after, -, ha, hb, -⟩, h⟩ := C29_first (available := available) hn l
  cases b with
  | numpy => exact h
  | torch dev => simp [Loadable, hl] at hb

/-- A call of `config` with dictionaries, or a call of `load`. -/
inductive Call where
  | config (args : List Entry) (kwargs : Entry)
  | load

/-- The state after a history of calls, with the results of the loads in the order of the calls. -/
def run (lower : String → String) (available : Option String → Bool) (contains : String → Bool) (file : File) :
    List Call → State → List (Except PyErr Backend) × State
  | [], st => ([], st)
  | .config args kwargs :: rest, st => run lower available contains file rest (config contains (args.map .dict) kwargs st).2
  | .load :: rest, st =>
    let r := load lower available file st
    let later := run lower available contains file rest r.2
    (r.1 :: later.1, later.2)

/-- The results of the loads as they should be: each uses the last configuration before it, and nothing else. -/
def expected (lower : String → String) (available : Option String → Bool) : List Call → List Entry → List Backend → Prop
  | [], _, bs => bs = []
  | .config args kwargs :: rest, _, bs => expected lower available rest (args ++ [kwargs]) bs
  | .load :: rest, current, bs => ∃ b bs', bs = b :: bs' ∧ FirstLoadable lower available (current ++ fallbackEntries) b ∧
      expected lower available rest current bs'

/-- **C29.** For every history of `config` calls with dictionaries and of `load` calls, each `load` gives the first loadable of the
last configuration, so that repeated calls give the same back end. -/
theorem C29_history (hn : lower "numpy" = "numpy") (calls : List Call) (file : List Entry) :
    ∃ bs : List Backend, (run lower available contains (.list (file.map .dict)) calls none).1 = bs.map .ok ∧
      expected lower available calls file bs := by
  -- the global list may have grown by any number of copies of the fall-backs
  have key : ∀ (calls : List Call) (st : State) (current : List Entry), (st = none ∧ current = file ∨
      ∃ more, st = some ((current ++ more).map .dict) ∧ (more = [] ∨ ∃ m, more = fallbackEntries ++ m)) →
      ∃ bs : List Backend, (run lower available contains (.list (file.map .dict)) calls st).1 = bs.map .ok ∧
        expected lower available calls current bs := by
    intro calls
    induction calls with
    | nil => intro st current _; exact ⟨[], rfl, rfl⟩
    | cons c calls ih =>
      intro st current hst
      cases c with
      | config args kwargs =>
        refine ih _ _ (.inr ⟨[], ?_, .inl rfl⟩)
        unfold config
        rw [if_neg]
        · simp
        · simp [Item.isDict]
      | load =>
        rcases hst with ⟨rfl, rfl⟩ | ⟨more, rfl, hm⟩
        · obtain ⟨b, hb⟩ := exists_first (available := available) hn current
          obtain ⟨bs, h1, h2⟩ := ih none current (.inl ⟨rfl, rfl⟩)
          refine ⟨b :: bs, ?_, b, bs, rfl, hb, h2⟩
          have ht := tryAll_of_first hb []
          rw [List.append_nil, List.map_append, ← fallback_eq] at ht
          simp only [run, load, defaultList, Option.map_none, List.map_cons, ht]
          rw [h1]
        · obtain ⟨b, hb⟩ := exists_first (available := available) hn current
          have hb' : FirstLoadable lower available (current ++ more ++ fallbackEntries) b := by
            rcases hm with rfl | ⟨m, rfl⟩
            · simpa using hb
            · have := firstLoadable_append (m ++ fallbackEntries) hb
              simpa [List.append_assoc] using this
          obtain ⟨bs, h1, h2⟩ := ih (some ((current ++ (more ++ fallbackEntries)).map .dict)) current
            (.inr ⟨more ++ fallbackEntries, rfl, .inr (by
              rcases hm with rfl | ⟨m, rfl⟩
              · exact ⟨[], by simp⟩
              · exact ⟨m ++ fallbackEntries, by simp⟩)⟩)
          refine ⟨b :: bs, ?_, b, bs, rfl, hb, h2⟩
          have ht := tryAll_of_first hb' []
          rw [List.append_nil, List.map_append, ← fallback_eq] at ht
          simp only [run, load, defaultList, Option.map_some, List.map_cons, ht]
          rw [← h1]
          simp [fallback_eq, List.append_assoc]
  exact key calls none file (.inl ⟨rfl, rfl⟩)

/-- **C29 is violated** by the documented form `config([dict(type='torch', device='cuda'), dict(type='numpy')])`: it is accepted, but every
later call of `load` raises an AttributeError. -/
theorem C29_config_list_violates (es : List Entry) (file : File) (st : State) :
    (config contains [.entries es] {} st).1 = .ok () ∧
      (load lower available file (config contains [.entries es] {} st).2).1 = .error .attributeError := by
  have h : config contains [.entries es] {} st = (.ok (), some [.entries es, .dict {}]) := by
    unfold config
    rw [if_neg]
    · rfl
    · simp [Item.isDict, mentionsType]
  rw [h]
  exact ⟨rfl, rfl⟩

/-- **C29 (rejected).** `config` raises a TypeError, and keeps the configuration, exactly when it is given a list of strings with `type` or a text that contains it. -/
theorem C29_rejects (args : List Item) (kwargs : Entry) (st : State) :
    (config contains args kwargs st = (.error .typeError, st) ↔ (∃ ss, .strings ss ∈ args ∧ "type" ∈ ss) ∨ ∃ s, .text s ∈ args ∧ contains s = true) ∧
      ((config contains args kwargs st).1 ≠ .error .typeError → config contains args kwargs st = (.ok (), some (args ++ [.dict kwargs]))) := by
  have key : ((args ++ [Item.dict kwargs]).any fun i => !i.isDict && mentionsType contains i) = true ↔ (∃ ss, .strings ss ∈ args ∧ "type" ∈ ss) ∨ ∃ s, .text s ∈ args ∧ contains s = true := by
    rw [List.any_eq_true]
    constructor
    · rintro ⟨i, hi, h⟩
      rcases List.mem_append.1 hi with hi | hi
      · cases i with
        | dict e => simp [Item.isDict] at h
        | entries es => simp [mentionsType] at h
        | strings ss =>
          refine .inl ⟨ss, hi, ?_⟩
          simpa [Item.isDict, mentionsType] using h
        | text s =>
          refine .inr ⟨s, hi, ?_⟩
          simpa [Item.isDict, mentionsType] using h
      · rw [List.mem_singleton] at hi
        subst hi
        simp [Item.isDict] at h
    · rintro (⟨ss, h1, h2⟩ | ⟨s, h1, h2⟩)
      · exact ⟨_, List.mem_append_left _ h1, by simpa [Item.isDict, mentionsType] using h2⟩
      · exact ⟨_, List.mem_append_left _ h1, by simpa [Item.isDict, mentionsType] using h2⟩
  rw [← key]
  unfold config
  by_cases h : ((args ++ [Item.dict kwargs]).any fun i => !i.isDict && mentionsType contains i) = true
  · dsimp only
    rw [if_pos h]
    exact ⟨⟨fun _ => h, fun _ => rfl⟩, fun h' => absurd rfl h'⟩
  · dsimp only
    rw [if_neg h]
    exact ⟨⟨fun h' => (nomatch congrArg Prod.fst h'), fun h' => absurd h' h⟩, fun _ => rfl⟩

/-- **C29 (files).** A file that cannot be read as JSON is as no file: the first of the fall-backs that can be loaded is. -/
theorem C29_file_unreadable (hn : lower "numpy" = "numpy") (file : File) (hf : file = .missing ∨ file = .malformed) :
    ∃ b, FirstLoadable lower available fallbackEntries b ∧ load lower available file none = (.ok b, none) := by
  obtain ⟨b, hb⟩ := exists_first (available := available) hn []
  refine ⟨b, hb, ?_⟩
  have := tryAll_of_first hb []
  rw [List.append_nil, List.nil_append, ← fallback_eq] at this
  rcases hf with rfl | rfl <;> simp only [load, defaultList, List.nil_append, this, Option.map_none]

/-- **C29 is violated** by a configuration file with a single dictionary, for which line 949 intends to make a list. -/
theorem C29_file_dict_violates (e : Entry) : (load lower available (.dict e) none).1 = .error .typeError := rfl

/-- Every call of `load` makes the global list, or that of the caller, three longer. -/
theorem C29_list_grows (l : List Item) (file : File) :
    (load lower available file (some l)).2 = some (l ++ fallback) ∧ (loadWith lower available l).2 = l ++ fallback := ⟨rfl, rfl⟩

/-! ### Example -/

/-- With a configuration for CUDA and no GPU, the PyTorch fall-back on the CPU is used. -/
example : (loadWith id (fun dev => dev == some "cpu") [.dict { type := some "torch", device := some "cuda" }]).1 =
    .ok (.torch (some "cpu")) := by decide +kernel

end Verif.Config
