import Verif.Model.Install
import Verif.Props.Config

/-!
# C127: installed libraries
-/

namespace Verif.Install

open Verif

variable {lower : String → String} {available : Option String → Bool}

/-! ### Specification -/

/-- A library works, or it is not installed. -/
def Proper (r : Option Raised) : Prop := r = none ∨ r = some .moduleNotFound

/-- The libraries for Fourier transforms, in the order in which they are preferred. -/
inductive Preferred (M : Machine) : Library → Prop
  | mkl : M.mklFft = none → Preferred M .mkl
  | fftw : M.mklFft ≠ none → M.pyfftw = none → M.interface = none → Preferred M .fftw
  | numpy : M.mklFft ≠ none → (M.pyfftw ≠ none ∨ M.interface ≠ none) → Preferred M .numpy

/-- The names of the variables for the number of threads. -/
def threadNames : List String := ["OPENBLAS_NUM_THREADS", "OMP_NUM_THREADS", "MKL_NUM_THREADS"]

/-- All libraries work or are not installed. -/
def AllProper (M : Machine) : Prop := Proper M.mkl ∧ Proper M.mklFft ∧ Proper M.pyfftw ∧ Proper M.interface ∧ Proper M.plans

/-- The back end that was loaded is of this kind. -/
def Loaded.IsA : Loaded → Config.Backend → Prop
  | .torch d, b => b = .torch d
  | .numpy _, b => b = .numpy

/-! ### Lemmas -/

theorem threads_fst (M : Machine) (env : Environ) : (threads M env).1 = none ↔ (M.cpus = none ∨ M.mkl ≠ some .other) := by
  unfold threads
  cases M.cpus with
  | none => simp
  | some n =>
    cases hm : M.mkl with
    | none => simp
    | some e => cases e <;> simp [Raised.importOrType, Option.filter]

theorem threads_of_proper {M : Machine} (h : Proper M.mkl) (env : Environ) : (threads M env).1 = none :=
  (threads_fst M env).2 (.inr (by rcases h with h | h <;> simp [h]))

theorem threads_snd (M : Machine) (env : Environ) (s : String) :
    (threads M env).2 s = if s ∈ threadNames then (M.cpus.map toString).orElse (fun _ => env s) else env s := by
  unfold threads
  cases M.cpus with
  | none => simp
  | some n =>
    simp only [List.foldl, Environ.set, threadNames, List.mem_cons, List.not_mem_nil, or_false, Option.map_some, Option.orElse_some]
    split_ifs <;> simp_all

theorem importFt_fst (M : Machine) (env : Environ) : (importFt M env).1 = match (threads M env).1 with
    | some e => .error e
    | none => library M := by
  unfold importFt
  rcases threads M env with ⟨_ | e, env'⟩ <;> rfl

theorem importFt_snd (M : Machine) (env : Environ) : (importFt M env).2 = (threads M env).2 := by
  unfold importFt
  rcases threads M env with ⟨_ | e, env'⟩ <;> rfl

theorem backEndNumpy_snd (M : Machine) (lib : Library) (env : Environ) : (backEndNumpy M lib env).2 = (threads M env).2 := by
  unfold backEndNumpy
  rcases threads M env with ⟨_ | e, env'⟩
  · rcases M.pyfftw.orElse fun _ => M.plans with _ | e
    · rfl
    · cases e <;> rfl
  · rfl

/-! ### C127 -/

/-- **C127 (import).** MacroMax can be imported, with the transforms of `lib`, if and only if this is the first library in the order MKL, FFTW, NumPy that can be used, and
those before it raise nothing but a ModuleNotFoundError or a TypeError; and, if the number of processors is known, setting the number of threads of MKL raises only an ImportError or a TypeError. -/
theorem C127_import (M : Machine) (env : Environ) (lib : Library) :
    (importFt M env).1 = .ok lib ↔ (M.cpus = none ∨ M.mkl ≠ some .other) ∧ Preferred M lib ∧
      (lib ≠ .mkl → M.mklFft = some .moduleNotFound ∨ M.mklFft = some .typeError) ∧
      (lib = .numpy → (M.pyfftw = some .moduleNotFound ∨ M.pyfftw = some .typeError) ∨
        M.pyfftw = none ∧ (M.interface = some .moduleNotFound ∨ M.interface = some .typeError)) := by
  rw [importFt_fst, ← threads_fst M env]
  cases ht : (threads M env).1 with
  | some e => simp
  | none =>
    simp only [true_and, library]
    constructor
    · intro h
      cases h1 : M.mklFft with
      | none =>
        simp only [h1, Except.ok.injEq] at h
        subst h
        exact ⟨.mkl h1, by simp, by simp⟩
      | some e =>
        cases h2 : M.pyfftw with
        | none =>
          cases h3 : M.interface with
          | none =>
            have hl : lib = .fftw ∧ e.notFoundOrType = true := by
              simp only [h1, h2, h3] at h
              split_ifs at h with he
              exact ⟨by simpa using h.symm, he⟩
            obtain ⟨rfl, he⟩ := hl
            exact ⟨.fftw (by simp [h1]) h2 h3, by cases e <;> simp_all [Raised.notFoundOrType], by simp⟩
          | some e' =>
            have hl : lib = .numpy ∧ e.notFoundOrType = true ∧ e'.notFoundOrType = true := by
              simp only [h1, h2, h3] at h
              split_ifs at h with he
              change (if e'.notFoundOrType = true then Except.ok Library.numpy else Except.error e') = _ at h
              split_ifs at h with he'
              exact ⟨by simpa using h.symm, he, he'⟩
            obtain ⟨rfl, he, he'⟩ := hl
            exact ⟨.numpy (by simp [h1]) (by simp [h3]), by cases e <;> simp_all [Raised.notFoundOrType], by cases e' <;> simp_all [Raised.notFoundOrType]⟩
        | some e' =>
          have hl : lib = .numpy ∧ e.notFoundOrType = true ∧ e'.notFoundOrType = true := by
            simp only [h1, h2] at h
            split_ifs at h with he
            change (if e'.notFoundOrType = true then Except.ok Library.numpy else Except.error e') = _ at h
            split_ifs at h with he'
            exact ⟨by simpa using h.symm, he, he'⟩
          obtain ⟨rfl, he, he'⟩ := hl
          exact ⟨.numpy (by simp [h1]) (by simp [h2]), by cases e <;> simp_all [Raised.notFoundOrType], by cases e' <;> simp_all [Raised.notFoundOrType]⟩
    · rintro ⟨h, hm, hn⟩
      cases h with
      | mkl h1 => simp [h1]
      | fftw h1 h2 h3 => rcases hm (by simp) with h | h <;> simp [h, h2, h3, Raised.notFoundOrType]
      | numpy h1 h2 =>
        rcases hm (by simp) with h | h <;> rcases hn rfl with (h' | h') | ⟨h', h'' | h''⟩ <;> simp_all [Raised.notFoundOrType]

/-- **C127 (import, all libraries work or are not installed).** MacroMax can be imported, with the preferred library among those that are installed. -/
theorem C127_import_partial {M : Machine} (h : AllProper M) (env : Environ) : ∃ lib, Preferred M lib ∧ (importFt M env).1 = .ok lib := by
  obtain ⟨h1, h2, h3, h4, -⟩ := h
  have h0 : M.cpus = none ∨ M.mkl ≠ some .other := .inr (by rcases h1 with h | h <;> simp [h])
  rcases h2 with h2 | h2
  · exact ⟨.mkl, .mkl h2, (C127_import M env _).2 ⟨h0, .mkl h2, by simp, by simp⟩⟩
  · rcases h3 with h3 | h3
    · rcases h4 with h4 | h4
      · have hp : Preferred M .fftw := .fftw (by simp [h2]) h3 h4
        exact ⟨.fftw, hp, (C127_import M env _).2 ⟨h0, hp, fun _ => .inl h2, by simp⟩⟩
      · have hp : Preferred M .numpy := .numpy (by simp [h2]) (by simp [h4])
        exact ⟨.numpy, hp, (C127_import M env _).2 ⟨h0, hp, fun _ => .inl h2, fun _ => .inr ⟨h3, .inl h4⟩⟩⟩
    · have hp : Preferred M .numpy := .numpy (by simp [h2]) (by simp [h3])
      exact ⟨.numpy, hp, (C127_import M env _).2 ⟨h0, hp, fun _ => .inl h2, fun _ => .inl (.inl h3)⟩⟩

/-- **C127 (NumPy back end).** The NumPy back end can be constructed, with the transforms of `lib'`, if and only if this is FFTW, and it works, or `pyfftw` raises a ModuleNotFoundError, and this is
the library that was chosen when MacroMax was imported; and setting the number of threads does not fail. -/
theorem C127_numpy (M : Machine) (lib lib' : Library) (env : Environ) :
    (backEndNumpy M lib env).1 = .ok lib' ↔ (M.cpus = none ∨ M.mkl ≠ some .other) ∧
      (lib' = .fftw ∧ M.pyfftw = none ∧ M.plans = none ∨
        lib' = lib ∧ (M.pyfftw = some .moduleNotFound ∨ M.pyfftw = none ∧ M.plans = some .moduleNotFound)) := by
  rw [← threads_fst M env]
  have h : (backEndNumpy M lib env).1 = match (threads M env).1 with
      | some e => .error e
      | none => match M.pyfftw.orElse fun _ => M.plans with
        | none => .ok .fftw
        | some e => if e.notFound then .ok lib else .error e := by
    unfold backEndNumpy
    rcases threads M env with ⟨_ | e, env'⟩
    · rcases M.pyfftw.orElse fun _ => M.plans with _ | e
      · rfl
      · cases e <;> rfl
    · rfl
  rw [h]
  cases ht : (threads M env).1 with
  | some e => simp
  | none =>
    cases h1 : M.pyfftw with
    | none =>
      cases h2 : M.plans with
      | none => simp [eq_comm]
      | some e => cases e <;> simp [Raised.notFound, eq_comm]
    | some e => cases e <;> simp [Raised.notFound, eq_comm]

theorem backEndNumpy_of_proper {M : Machine} (h : AllProper M) (lib : Library) (env : Environ) : ∃ lib', (backEndNumpy M lib env).1 = .ok lib' := by
  obtain ⟨h1, -, h3, -, h5⟩ := h
  have h0 : M.cpus = none ∨ M.mkl ≠ some .other := .inr (by rcases h1 with h | h <;> simp [h])
  rcases h3 with h3 | h3
  · rcases h5 with h5 | h5
    · exact ⟨.fftw, (C127_numpy M lib _ env).2 ⟨h0, .inl ⟨rfl, h3, h5⟩⟩⟩
    · exact ⟨lib, (C127_numpy M lib _ env).2 ⟨h0, .inr ⟨rfl, .inr ⟨h3, h5⟩⟩⟩⟩
  · exact ⟨lib, (C127_numpy M lib _ env).2 ⟨h0, .inr ⟨rfl, .inl h3⟩⟩⟩

theorem tryAll_of_proper {M : Machine} (h : AllProper M) (lib : Library) (l : List Config.Entry) (env : Environ) (b : Config.Backend)
    (hb : Config.tryAll lower available (l.map .dict) = .ok b) : ∃ x : Loaded, x.IsA b ∧ (tryAll lower available M lib l env).1 = .ok x := by
  induction l generalizing env with
  | nil => simp [Config.tryAll] at hb
  | cons e l ih =>
    simp only [List.map_cons, Config.tryAll] at hb
    simp only [tryAll]
    split_ifs at hb ⊢ with h1 h2 h3
    · cases hb
      exact ⟨.torch _, rfl, rfl⟩
    · exact ih env hb
    · cases hb
      obtain ⟨lib', hl⟩ := backEndNumpy_of_proper h lib env
      refine ⟨.numpy lib', rfl, ?_⟩
      rcases hB : backEndNumpy M lib env with ⟨r, env'⟩
      rw [hB] at hl
      obtain rfl : r = .ok lib' := hl
      rfl
    · exact ih env hb

/-- **C127 (all libraries work or are not installed).** MacroMax can be imported, and the back end is the first in the list of configurations that can be loaded, where NumPy is always available as the last. -/
theorem C127_start_partial (hn : lower "numpy" = "numpy") {M : Machine} (h : AllProper M) (l : List Config.Entry) (env : Environ) :
    ∃ (b : Config.Backend) (x : Loaded), Config.FirstLoadable lower available (l ++ Config.fallbackEntries) b ∧ x.IsA b ∧ (start lower available M l env).1 = .ok x := by
  obtain ⟨lib, -, hi⟩ := C127_import_partial h env
  obtain ⟨b, hb, hl⟩ := Config.C29_first (available := available) hn l
  have hl' : Config.tryAll lower available ((l ++ fallback).map .dict) = .ok b := by
    rw [List.map_append]
    exact hl
  obtain ⟨x, hx, ht⟩ := tryAll_of_proper h lib (l ++ fallback) (importFt M env).2 b hl'
  refine ⟨b, x, hb, hx, ?_⟩
  unfold start
  rcases hI : importFt M env with ⟨r, env'⟩
  rw [hI] at hi ht
  obtain rfl : r = .ok lib := hi
  exact ht

/-- **C127 (broken library).** When `mkl_fft` is installed but raises an ImportError, for instance because a shared library is missing, MacroMax cannot be imported, even if FFTW and NumPy work. -/
theorem C127_mkl_violates (M : Machine) (h : M.mklFft = some .importError) (hm : M.mkl ≠ some .other) (l : List Config.Entry) (env : Environ) :
    (start lower available M l env).1 = .error (.raised .importError) := by
  have h1 : (importFt M env).1 = .error .importError := by
    rw [importFt_fst, (threads_fst M env).2 (.inr hm)]
    simp [library, h, Raised.notFoundOrType]
  unfold start
  rcases hI : importFt M env with ⟨r, env'⟩
  rw [hI] at h1
  obtain rfl : r = .error .importError := h1
  rfl

/-- **C127 (broken library).** The same holds for `pyfftw` if `mkl_fft` is not installed. -/
theorem C127_fftw_violates (M : Machine) (h0 : M.mklFft = some .moduleNotFound) (h : M.pyfftw = some .importError) (hm : M.mkl ≠ some .other) (l : List Config.Entry) (env : Environ) :
    (start lower available M l env).1 = .error (.raised .importError) := by
  have h1 : (importFt M env).1 = .error .importError := by
    rw [importFt_fst, (threads_fst M env).2 (.inr hm)]
    simp [library, h, h0, Raised.notFoundOrType]
  unfold start
  rcases hI : importFt M env with ⟨r, env'⟩
  rw [hI] at h1
  obtain rfl : r = .error .importError := h1
  rfl

/-- **C127 (broken library).** If `mkl_fft` works and `pyfftw` raises an ImportError, then MacroMax is imported, but without PyTorch no back end can be loaded, whatever the configuration: the
constructor of the NumPy back end does not fall back on the library that is in use already. -/
theorem C127_fallback_violates (M : Machine) (h0 : M.mklFft = none) (h : M.pyfftw = some .importError) (hm : M.mkl ≠ some .other) (ha : ∀ dev, available dev = false)
    (l : List Config.Entry) (env : Environ) : (importFt M env).1 = .ok .mkl ∧ (start lower available M l env).1 = .error .noBackEnd := by
  have h1 : (importFt M env).1 = .ok .mkl := (C127_import M env .mkl).2 ⟨.inr hm, .mkl h0, by simp, by simp⟩
  refine ⟨h1, ?_⟩
  have key : ∀ (l : List Config.Entry) (env : Environ), (tryAll lower available M .mkl l env).1 = .error .noBackEnd := by
    intro l
    induction l with
    | nil => exact fun _ => rfl
    | cons e l ih =>
      intro env
      simp only [tryAll, ha, Bool.false_eq_true, if_false]
      split_ifs
      · exact ih env
      · have hB : (backEndNumpy M .mkl env).1 = .error .importError := by
          have ht := (threads_fst M env).2 (.inr hm)
          unfold backEndNumpy
          rcases hT : threads M env with ⟨r, env'⟩
          rw [hT] at ht
          obtain rfl : r = none := ht
          simp [h, Raised.notFound]
        rcases hN : backEndNumpy M .mkl env with ⟨r, env'⟩
        rw [hN] at hB
        obtain rfl : r = .error .importError := hB
        exact ih env'
      · exact ih env
  unfold start
  rcases hI : importFt M env with ⟨r, env'⟩
  rw [hI] at h1
  obtain rfl : r = .ok .mkl := h1
  exact key _ _

/-- **C127 (other exceptions).** When the NumPy back end is the first in the list and FFTW raises another exception than an ImportError, such as a TypeError or a ValueError while planning, then this is
not caught, and no other back end is tried. -/
theorem C127_other_violates (M : Machine) (e : Raised) (he : e = .typeError ∨ e = .other) (hp : M.pyfftw = none) (hq : M.plans = some e) (hi : M.interface = none) (hf : Proper M.mklFft)
    (hm : M.mkl ≠ some .other) (c : Config.Entry) (hc : lower (c.type.getD "unknown") = "numpy") (l : List Config.Entry) (env : Environ) :
    (start lower available M (c :: l) env).1 = .error (.raised e) := by
  have h1 : ∃ lib, (importFt M env).1 = .ok lib := by
    rcases hf with hf | hf
    · exact ⟨.mkl, (C127_import M env .mkl).2 ⟨.inr hm, .mkl hf, by simp, by simp⟩⟩
    · exact ⟨.fftw, (C127_import M env .fftw).2 ⟨.inr hm, .fftw (by simp [hf]) hp hi, fun _ => .inl hf, by simp⟩⟩
  obtain ⟨lib, h1⟩ := h1
  unfold start
  rcases hI : importFt M env with ⟨r, env'⟩
  rw [hI] at h1
  obtain rfl : r = .ok lib := h1
  have hB : (backEndNumpy M lib env').1 = .error e := by
    have ht := (threads_fst M env').2 (.inr hm)
    unfold backEndNumpy
    rcases hT : threads M env' with ⟨r, env''⟩
    rw [hT] at ht
    obtain rfl : r = none := ht
    rcases he with rfl | rfl <;> simp [hp, hq, Raised.notFound]
  simp only [List.cons_append, tryAll, hc, if_neg (show ¬ "numpy" = "torch" by decide)]
  rcases hN : backEndNumpy M lib env' with ⟨r, env''⟩
  rw [hN] at hB
  obtain rfl : r = .error e := hB
  rcases he with rfl | rfl <;> rfl

example : (start id (fun _ => true) ⟨none, none, none, none, none, some .other⟩ [{ type := some "numpy" }, { type := some "torch" }] fun _ => none).1 = .error (.raised .other) :=
  C127_other_violates _ .other (by simp) rfl rfl rfl (.inl rfl) (by simp) _ (by decide +kernel) _ _

/-- **C127 (environment).** Nothing but the three variables for the number of threads is changed, and these only if the number of processors is known. -/
theorem C127_environment (M : Machine) (l : List Config.Entry) (env : Environ) (s : String) :
    (start lower available M l env).2 s = if s ∈ threadNames then (M.cpus.map toString).orElse (fun _ => env s) else env s := by
  have key : ∀ (lib : Library) (l : List Config.Entry) (env : Environ),
      (∀ s, (threads M env).2 s = env s) → (tryAll lower available M lib l env).2 = env := by
    intro lib l
    induction l with
    | nil => exact fun _ _ => rfl
    | cons e l ih =>
      intro env henv
      have hN := (backEndNumpy_snd M lib env).trans (funext henv)
      simp only [tryAll]
      split_ifs
      · rfl
      · exact ih env henv
      · rcases hB : backEndNumpy M lib env with ⟨r, env'⟩
        rw [hB] at hN
        obtain rfl : env' = env := hN
        cases r with
        | ok lib' => rfl
        | error e' =>
          simp only
          split_ifs
          · exact ih _ henv
          · rfl
      · exact ih env henv
  have hS := threads_snd M env
  unfold start
  have hI' := importFt_snd M env
  rcases hI : importFt M env with ⟨r, env'⟩
  rw [hI] at hI'
  obtain rfl : env' = (threads M env).2 := hI'
  cases r with
  | error e => exact hS s
  | ok lib =>
    change (tryAll lower available M lib (l ++ fallback) (threads M env).2).2 s = _
    rw [key lib _ _ fun s => ?_]
    · exact hS s
    · rw [threads_snd M (threads M env).2 s, hS s]
      split_ifs
      · cases M.cpus <;> simp
      · rfl

/-- **C127 (threads).** The number of threads that was chosen with `OMP_NUM_THREADS` is replaced by the number of processors. -/
theorem C127_threads_violates : ∃ (M : Machine) (env : Environ), AllProper M ∧ env "OMP_NUM_THREADS" = some "2" ∧
    ∀ (lower : String → String) (available : Option String → Bool) (l : List Config.Entry), (start lower available M l env).2 "OMP_NUM_THREADS" = some "8" := by
  refine ⟨⟨some 8, none, none, none, none, none⟩, fun _ => some "2", by simp [AllProper, Proper], rfl, fun lower available l => ?_⟩
  rw [C127_environment]
  decide +kernel

/-- Nothing is installed but NumPy. -/
def onlyNumpy : Machine := ⟨some 4, some .moduleNotFound, some .moduleNotFound, some .moduleNotFound, some .moduleNotFound, some .moduleNotFound⟩

example : AllProper onlyNumpy := by simp [AllProper, Proper, onlyNumpy]

example : (start id (fun _ => false) onlyNumpy [{ type := some "torch" }] fun _ => none).1 = .ok (.numpy .numpy) := by decide +kernel

/-- MKL is used for the module `ft`, and FFTW by the back end. -/
example : (importFt ⟨none, none, none, none, none, none⟩ fun _ => none).1 = .ok .mkl ∧ (start id (fun _ => false) ⟨none, none, none, none, none, none⟩ [] fun _ => none).1 = .ok (.numpy .fftw) := by decide +kernel

example : (start id (fun _ => false) ⟨none, none, none, some .importError, none, none⟩ [{ type := some "numpy" }] fun _ => none).1 = .error .noBackEnd :=
  (C127_fallback_violates _ rfl rfl (by simp) (fun _ => rfl) _ _).2

end Verif.Install
