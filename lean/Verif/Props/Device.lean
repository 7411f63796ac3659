import Verif.Model.Device
import Verif.Props.Config

/-!
# C124: devices
-/

namespace Verif.Config

open Verif

/-- A device of CUDA. -/
def IsCuda (dev : String) : Prop := ∃ t, dev = "cuda" ++ t

theorem wantCuda_iff (dev : String) : wantCuda (some dev) = true ↔ IsCuda dev := by
  unfold wantCuda IsCuda
  rw [decide_eq_true_iff]
  constructor
  · intro h
    refine ⟨String.ofList (dev.toList.drop 4), ?_⟩
    rw [← String.toList_inj, String.toList_append, String.toList_ofList, String.toList_ofList, ← h, List.take_append_drop]
  · rintro ⟨t, rfl⟩
    rw [String.toList_append]
    rfl

variable {M : Machine}

theorem use_eq {dev dev' : String} (h : M.use dev = some dev') : dev' = dev ∧ (dev = "cuda" → M.works = true) := by
  unfold Machine.use at h
  split_ifs at h with h1
  refine ⟨(Option.some.inj h).symm, fun h2 => ?_⟩
  simp only [h2, ne_eq, not_true_eq_false, decide_false, Bool.false_or, Bool.and_eq_true] at h1
  exact h1.2

/-- What the back end may use, if it loads: what was asked for, the GPU or the processor if no device was asked for, or the default GPU instead of a GPU with a number that is too high. -/
theorem init_cases {dev : Option String} {dev' : String} (h : M.init dev = some dev') :
    dev' = M.default dev ∧ (dev' = "cuda" → M.works = true) ∨ dev' = "cuda" ∧ M.works = true := by
  unfold Machine.init at h
  dsimp only at h
  split_ifs at h
  · split at h
    · simp at h
    · split_ifs at h
      · obtain ⟨rfl, h2⟩ := use_eq h
        exact .inr ⟨rfl, h2 rfl⟩
      · obtain ⟨h1, h2⟩ := use_eq h
        exact .inl ⟨h1, fun h3 => h2 (h1 ▸ h3)⟩
  · obtain ⟨h1, h2⟩ := use_eq h
    exact .inl ⟨h1, fun h3 => h2 (h1 ▸ h3)⟩

/-- **C124 (no GPU).** For all configurations: PyTorch never uses a GPU on a machine that has none. PyTorch reports CUDA as available only if it counts a GPU, and no test passes on a GPU that does not exist. -/
theorem C124_no_gpu (hc : M.cuda = true → 0 < M.count) (hw : M.works = true → 0 < M.count) (h0 : M.count = 0) (dev : Option String) {dev' : String} (h : M.torch dev = some dev') : ¬ IsCuda dev' := by
  have hc' : M.cuda = false := by
    cases hcuda : M.cuda with
    | false => rfl
    | true => exact absurd (hc hcuda) (by omega)
  have hw' : M.works ≠ true := fun h => absurd (hw h) (by omega)
  unfold Machine.torch at h
  split_ifs at h with h1 h2 h3
  rcases init_cases h with ⟨h4, -⟩ | ⟨-, h5⟩
  · have hcpu : ¬ IsCuda "cpu" := by
      rintro ⟨t, ht⟩
      rw [← String.toList_inj, String.toList_append] at ht
      exact absurd (List.cons_eq_cons.1 (List.cons_eq_cons.1 ht).2).1 (by decide)
    rw [h4]
    unfold Machine.default
    cases dev with
    | none => simpa [hc'] using hcpu
    | some s =>
      simp only [hc', Bool.false_eq_true, if_false]
      split_ifs with hs
      · exact hcpu
      · intro hcu
        rw [(wantCuda_iff s).2 hcu, hc'] at h2
        simp at h2
  · exact absurd h5 hw'

/-- **C124 (requirements).** PyTorch is only used if it is installed with its Fourier transforms, for a device that it knows, for the default GPU only if that works, and if a GPU is asked for, only if PyTorch finds and counts one. -/
theorem C124_requires {dev : Option String} {dev' : String} (h : M.torch dev = some dev') :
    M.installed = true ∧ M.fft = true ∧ M.accepts dev' = true ∧ (dev' = "cuda" → M.works = true) ∧ (∀ s, dev = some s → IsCuda s → M.cuda = true ∧ 0 < M.count) := by
  have hu : ∀ s s', M.use s = some s' → M.accepts s' = true ∧ (s' = "cuda" → M.works = true) := fun s s' hs => by
    unfold Machine.use at hs
    split_ifs at hs with h1
    obtain rfl := Option.some.inj hs
    simp only [Bool.and_eq_true, Bool.or_eq_true, decide_eq_true_eq] at h1
    exact ⟨h1.1, fun h2 => h1.2.resolve_left fun h3 => h3 h2⟩
  unfold Machine.torch at h
  split_ifs at h with h1 h2 h3
  have hi : M.accepts dev' = true ∧ (dev' = "cuda" → M.works = true) := by
    unfold Machine.init at h
    dsimp only at h
    split_ifs at h
    · split at h
      · simp at h
      · split_ifs at h
        · exact hu _ _ h
        · exact hu _ _ h
    · exact hu _ _ h
  refine ⟨by simpa using h1, by simpa using h3, hi.1, hi.2, fun s hs hcu => ?_⟩
  rw [hs, (wantCuda_iff s).2 hcu] at h2
  simpa [Nat.pos_iff_ne_zero] using h2

/-- **C124 (default device).** Without a device, the GPU is used if there is one, and otherwise the processor. -/
theorem C124_default (hi : M.installed = true) (hf : M.fft = true) (ha : ∀ dev ∈ ["cuda", "cpu"], M.accepts dev = true) (hw : M.cuda = true → M.works = true) :
    M.torch none = some (if M.cuda then "cuda" else "cpu") := by
  have h1 : M.accepts "cuda" = true := ha _ (by simp)
  have h2 : M.accepts "cpu" = true := ha _ (by simp)
  unfold Machine.torch Machine.init Machine.default Machine.use
  have l1 : ("cpu" : String).length = 3 := rfl
  have l2 : ("cuda" : String).length = 4 := rfl
  cases hc : M.cuda
  · simp [hi, hf, h2, wantCuda, l1]
  · simp [hi, hf, h1, hw hc, wantCuda, l2]

/-- **C124 (processor).** The processor can be used on all machines with PyTorch, also on those with a GPU. -/
theorem C124_cpu (hi : M.installed = true) (hf : M.fft = true) (ha : M.accepts "cpu" = true) : M.torch (some "cpu") = some "cpu" := by
  have h1 : wantCuda (some "cpu") = false := by decide
  unfold Machine.torch Machine.init Machine.default Machine.use
  have l1 : ("cpu" : String).length = 3 := rfl
  simp [hi, hf, ha, h1, l1]

/-- **C124 (numbered GPUs).** On a machine with GPUs, GPU number `i` is used if there is one with that number, and the default GPU if there is none. -/
theorem C124_ordinal (hi : M.installed = true) (hf : M.fft = true) (hc : M.cuda = true) (hn : 0 < M.count) (hw : M.works = true) (ha : M.accepts "cuda" = true) (t : String) (i : ℕ)
    (hnum : M.number t = some (i : ℤ)) (hclean : M.clean ("cuda:" ++ t) = "cuda:" ++ t) (hacc : i < M.count → M.accepts ("cuda:" ++ t) = true) :
    M.torch (some ("cuda:" ++ t)) = some (if i < M.count then "cuda:" ++ t else "cuda") := by
  have hne : ("cuda:" ++ t) ≠ "cuda" := by
    intro h
    have := congrArg String.length h
    rw [String.length_append] at this
    have h5 : ("cuda:" : String).length = 5 := rfl
    have h4 : ("cuda" : String).length = 4 := rfl
    omega
  have hlen : ("cuda:" ++ t).length > 4 := by
    rw [String.length_append]
    have h5 : ("cuda:" : String).length = 5 := rfl
    omega
  have hdrop : String.ofList (("cuda:" ++ t).toList.drop 5) = t := by
    rw [String.toList_append]
    change String.ofList t.toList = t
    exact String.ofList_toList
  unfold Machine.torch Machine.init Machine.default
  simp only [hi, hf, hc, hn, decide_true, Bool.and_self, Bool.not_true, Bool.and_false, if_neg hne, if_pos hlen, hclean, hdrop, hnum, Bool.false_eq_true, if_false]
  by_cases h : i < M.count
  · rw [if_neg (by omega), if_pos h]
    unfold Machine.use
    simp [hacc h, hne]
  · rw [if_pos (by omega), if_neg h]
    unfold Machine.use
    simp [ha, hw]

/-- **C124 (names).** `gpu` is the same as `cuda`, with or without a number, and capitals do not matter. -/
theorem C124_names (lower : String → String) (e e' : Entry) (s s' t : String) (hs : e.device = some s) (hs' : e'.device = some s') (h : lower s = "gpu" ++ t) (h' : lower s' = "cuda" ++ t ∨ lower s' = "gpu" ++ t) :
    M.torch (device lower e) = M.torch (device lower e') := by
  unfold device
  rw [hs, hs', Option.map_some, Option.map_some, h, gpuAlias_gpu]
  rcases h' with h' | h'
  · rw [h', gpuAlias_other]
    rintro ⟨t', ht⟩
    rw [← String.toList_inj, String.toList_append, String.toList_append] at ht
    exact absurd (List.cons_eq_cons.1 ht).1 (by decide)
  · rw [h', gpuAlias_gpu]

/-- **C124 (load).** For all configurations and machines: `load` gives what the first dictionary that can be loaded asks for. For a machine without GPU that is never a GPU, and NumPy (`none`) if PyTorch is not installed. -/
theorem C124_load {lower : String → String} (hn : lower "numpy" = "numpy") (l : List Entry) :
    ∃ b, FirstLoadable lower (fun dev => (M.torch dev).isSome) (l ++ fallbackEntries) b ∧
      M.load lower (l.map .dict) = .ok (M.deviceOf b) ∧
      (M.installed = false → M.load lower (l.map .dict) = .ok none) ∧
      ((M.cuda = true → 0 < M.count) → (M.works = true → 0 < M.count) → M.count = 0 → ∀ dev, M.load lower (l.map .dict) = .ok (some dev) → ¬ IsCuda dev) := by
  obtain ⟨b, hb, h⟩ := C29_first (available := fun dev => (M.torch dev).isSome) hn l
  have e : M.load lower (l.map .dict) = .ok (M.deviceOf b) := by
    unfold Machine.load
    rw [h]
    rfl
  refine ⟨b, hb, e, fun hi => ?_, fun hc hw h0 dev hd => ?_⟩
  · have hno : ∀ dev, M.torch dev = none := fun dev => by
      unfold Machine.torch
      simp [hi]
    rw [e]
    cases b <;> simp [Machine.deviceOf, hno]
  · rw [e] at hd
    cases b with
    | numpy => simp [Machine.deviceOf] at hd
    | torch dev0 =>
      simp only [Machine.deviceOf, Except.ok.injEq] at hd
      exact C124_no_gpu hc hw h0 dev0 hd

/-- **C124 is violated** by other devices with a number, such as `cpu:0` or `mps:0`: the code assumes that names with more than four characters start with the five characters `cuda:`. As `int('')` is no number, these are never used. -/
theorem C124_other_violates (hnum : M.number "" = none) (dev : String) (h5 : dev.length = 5) (hclean : M.clean dev = dev) : M.torch (some dev) = none := by
  have hne : dev ≠ "cuda" := by
    rintro rfl
    exact absurd h5 (by decide)
  have hdrop : String.ofList (dev.toList.drop 5) = "" := by
    rw [List.drop_of_length_le (by rw [String.length_toList]; omega)]
  unfold Machine.torch Machine.init Machine.default
  simp only [if_neg hne, hclean, hdrop, hnum, if_pos (show dev.length > 4 by omega), ite_self]

/-! ### Cases -/

/-- A machine with two GPUs, and one without. -/
def machine (count : ℕ) : Machine where
  installed := true
  cuda := decide (0 < count)
  count := count
  fft := true
  accepts := fun _ => true
  works := decide (0 < count)
  number := fun s => match s.toList with | [c] => if c.isDigit then some (c.toNat - 48) else none | _ => none
  clean := id

/-- The second GPU, the default GPU for a number that is too high, the processor. -/
example : (machine 2).load id [.dict { type := some "torch", device := some "gpu:1" }] = .ok (some "cuda:1") ∧
    (machine 2).load id [.dict { type := some "torch", device := some "cuda:2" }] = .ok (some "cuda") ∧
    (machine 0).load id [.dict { type := some "torch", device := some "gpu:1" }] = .ok (some "cpu") ∧
    (machine 2).load id [.dict { type := some "torch", device := some "cpu:0" }] = .ok (some "cuda") := by decide +kernel

/-- The hypothesis of `C124_requires` is met, and it excludes machines that report CUDA without a GPU. -/
example := C124_requires (M := machine 2) (dev := some "cuda") (dev' := "cuda") (by decide +kernel)
example (dev : String) : { machine 2 with count := 0 }.torch (some "cuda") ≠ some dev := fun h => absurd ((C124_requires h).2.2.2.2 _ rfl ⟨"", rfl⟩).2 (by decide)

/-- The hypotheses of `C124_no_gpu`, `C124_default` and `C124_other_violates` are met. -/
example : (∀ dev dev', (machine 0).torch dev = some dev' → ¬ IsCuda dev') ∧ (machine 2).torch none = some "cuda" ∧ (machine 2).torch (some "cpu:0") = none :=
  ⟨fun dev _ h => C124_no_gpu (by decide) (by decide) rfl dev h, C124_default rfl rfl (fun _ _ => rfl) (fun _ => rfl), C124_other_violates (by decide +kernel) _ rfl rfl⟩

end Verif.Config
