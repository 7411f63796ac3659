import Verif.Model.BoundClass
import Verif.Props.Bound

/-!
# C138: what the classes of boundaries give and what the solver takes from them
-/

open scoped List

namespace Verif.Bound

variable {P : Type}

/-! ### Specification -/

/-- The orders that Python makes for classes that are derived from those of bound.py: no class twice, each before its bases, and the bases in their order. -/
structure Linearised (mro : List (Cls P)) : Prop where
  nodup : mro.Nodup
  periodic : .periodic ∈ mro → [.periodic, .bound] <+ mro
  absorbing : .absorbing ∈ mro → [.absorbing, .bound, .electric] <+ mro
  linear : .linear ∈ mro → [.linear, .absorbing] <+ mro

/-- No class other than those of bound.py has a definition of its own for `f`. -/
def Inherited {α : Type} (mro : List (Cls P)) (f : Own P → Option α) : Prop := ∀ i own, .user i own ∈ mro → f own = none

/-! ### Lemmas -/

theorem search_cons {α : Type} {l : List (Cls P)} {c : Cls P} {get : Cls P → Option (Except PyErr α)} (hl : ∀ c ∈ l, get c = none) {v : Except PyErr α} (hc : get c = some v) (r : List (Cls P)) :
    search (l ++ c :: r) get = v := by
  unfold search
  rw [List.findSome?_append, List.findSome?_eq_none_iff.2 hl, List.findSome?_cons, hc]
  rfl

theorem search_of_eq {α : Type} {mro l r : List (Cls P)} {c : Cls P} (h : mro = l ++ c :: r) {get : Cls P → Option (Except PyErr α)} {v : Except PyErr α} (hc : get c = some v)
    (hl : ∀ c ∈ l, get c = none) : search mro get = v := by
  rw [h]
  exact search_cons hl hc r

theorem search_none {α : Type} {l : List (Cls P)} {get : Cls P → Option (Except PyErr α)} (hl : ∀ c ∈ l, get c = none) : search l get = .error .attributeError := by
  unfold search
  rw [List.findSome?_eq_none_iff.2 hl]

theorem split_two {α : Type} {l : List α} {a b : α} (h : [a, b] <+ l) (hn : l.Nodup) : ∃ x y, l = x ++ a :: y ∧ a ∉ x ∧ b ∉ x ∧ b ∈ y := by
  obtain ⟨r, s, rfl, ha, hs⟩ := List.cons_sublist_iff.1 h
  obtain ⟨x, y, rfl⟩ := List.append_of_mem ha
  have hb : b ∈ s := List.singleton_sublist.1 hs
  refine ⟨x, y ++ s, by simp, ?_, ?_, List.mem_append_right _ hb⟩
  · intro hx
    rw [List.append_assoc, List.nodup_append] at hn
    exact hn.2.2 a hx a (by simp) rfl
  · intro hx
    rw [List.append_assoc, List.nodup_append] at hn
    exact hn.2.2 b hx b (by simp [hb]) rfl

theorem split_one {α : Type} {l : List α} {a : α} (h : a ∈ l) (hn : l.Nodup) : ∃ x y, l = x ++ a :: y ∧ a ∉ x := by
  obtain ⟨x, y, rfl⟩ := List.append_of_mem h
  refine ⟨x, y, rfl, fun hx => ?_⟩
  rw [List.nodup_append] at hn
  exact hn.2.2 a hx a (by simp) rfl

theorem isElectric_iff {mro : List (Cls P)} : isElectric mro = true ↔ .electric ∈ mro := by
  unfold isElectric
  rw [List.any_eq_true]
  constructor
  · rintro ⟨c, hc, h⟩
    cases c <;> first | exact hc | exact absurd h (by simp)
  · exact fun h => ⟨_, h, rfl⟩

theorem isMagnetic_iff {mro : List (Cls P)} : isMagnetic mro = true ↔ .magnetic ∈ mro := by
  unfold isMagnetic
  rw [List.any_eq_true]
  constructor
  · rintro ⟨c, hc, h⟩
    cases c <;> first | exact hc | exact absurd h (by simp)
  · exact fun h => ⟨_, h, rfl⟩

/-! ### Properties -/

/-- **C138 (background).** For all classes that do not define it themselves: the background permittivity is that with which the object was made if `Bound` comes before the mixin `Electric` or without it,
and zero if it comes after the mixin. -/
theorem C138_background (b : Data P) {mro : List (Cls P)} (hn : mro.Nodup) (ho : Inherited mro Own.background) :
    ([.bound, .electric] <+ mro → getBackground b mro = .ok b.background) ∧ (.bound ∈ mro → .electric ∉ mro → getBackground b mro = .ok b.background) ∧
      ([.electric, .bound] <+ mro → getBackground b mro = .ok 0) := by
  refine ⟨fun h => ?_, fun h he => ?_, fun h => ?_⟩
  · obtain ⟨x, y, rfl, h1, h2, -⟩ := split_two h hn
    refine search_cons (fun c hc => ?_) rfl y
    cases c with
    | user i own => simp [ho i own (by simp [hc])]
    | bound => exact absurd hc h1
    | electric => exact absurd hc h2
    | _ => rfl
  · obtain ⟨x, y, rfl, h1⟩ := split_one h hn
    refine search_cons (fun c hc => ?_) rfl y
    cases c with
    | user i own => simp [ho i own (by simp [hc])]
    | bound => exact absurd hc h1
    | electric => exact absurd (by simp [hc]) he
    | _ => rfl
  · obtain ⟨x, y, rfl, h1, h2, -⟩ := split_two h hn
    refine search_cons (fun c hc => ?_) rfl y
    cases c with
    | user i own => simp [ho i own (by simp [hc])]
    | bound => exact absurd hc h2
    | electric => exact absurd hc h1
    | _ => rfl

theorem permittivity_inherited (b : Data P) {mro : List (Cls P)} (hn : mro.Nodup) (he : .electric ∈ mro) (ho : Inherited mro Own.permittivity) :
    getPermittivity b mro = (do addNumber (← getBackground b mro) (← getElectric b mro)) := by
  obtain ⟨x, y, hxy, h1⟩ := split_one he hn
  unfold getPermittivity
  refine search_of_eq hxy rfl fun c hc => ?_
  cases c with
  | user i own => simp [ho i own (by rw [hxy]; simp [hc])]
  | electric => exact absurd hc h1
  | _ => rfl

/-- **C138 (absorbing boundaries).** For `AbsorbingBound`, `LinearBound` and all classes that are derived from these and from the mixins, in any way that Python permits, and that define nothing themselves: the
background is that with which the object was made, the permittivity is background plus susceptibility, and the solver adds the susceptibility of the extinction to the permittivity; and nothing to the permeability
without the mixin `Magnetic`. -/
theorem C138_absorbing (b : Data P) {mro : List (Cls P)} (hm : Linearised mro) (ha : .absorbing ∈ mro) (ho : ∀ i own, .user i own ∈ mro → own = {}) {kappa : P → ℝ} (hk : b.extinction = .ok kappa) :
    getBackground b mro = .ok b.background ∧ getElectric b mro = .ok (.array fun p => susceptibility b.background (kappa p)) ∧
      getPermittivity b mro = .ok (fun p => permittivity b.background (kappa p)) ∧
      (.magnetic ∉ mro → contributions b mro = .ok (fun p => susceptibility b.background (kappa p), fun _ => 0)) := by
  have h3 := hm.absorbing ha
  have h2 : [.bound, .electric] <+ mro := (List.sublist_cons_self _ _).trans h3
  have hb := (C138_background b hm.nodup fun i own h => by rw [ho i own h]).1 h2
  have he : .electric ∈ mro := h2.subset (by simp)
  have hE : getElectric b mro = .ok (.array fun p => susceptibility b.background (kappa p)) := by
    obtain ⟨x, y, hxy, h1, h2', -⟩ := split_two (a := .absorbing) (b := .bound) ((List.Sublist.cons_cons _ (List.Sublist.cons_cons _ (List.nil_sublist _))).trans h3) hm.nodup
    obtain ⟨x', y', hxy', -, h4, -⟩ := split_two (a := .absorbing) (b := .electric) ((List.Sublist.cons_cons _ (List.Sublist.cons _ (List.Sublist.refl _))).trans h3) hm.nodup
    have hx : .electric ∉ x := by
      have hn := hm.nodup
      have hmem : .electric ∈ y ∨ .electric ∈ x := by
        have := he
        rw [hxy] at this
        simpa [or_comm] using this
      intro hx
      have hx' : x = x' := by
        have e := hxy.symm.trans hxy'
        have hax' : Cls.absorbing ∉ x' := by
          intro h
          rw [hxy', List.nodup_append] at hn
          exact hn.2.2 _ h _ (by simp) rfl
        rcases List.append_eq_append_iff.1 e with ⟨t, rfl, ht⟩ | ⟨t, rfl, ht⟩
        · cases t with
          | nil => simp
          | cons a t =>
            have : a = Cls.absorbing := by simpa using (List.cons.inj ht).1.symm
            exact absurd (by simp [this]) hax'
        · cases t with
          | nil => simp
          | cons a t =>
            have : a = Cls.absorbing := by simpa using (List.cons.inj ht).1.symm
            exact absurd (by simp [this]) h1
      exact h4 (hx' ▸ hx)
    unfold getElectric
    refine search_of_eq hxy ?_ fun c hc => ?_
    rotate_left
    · cases c with
      | user i own => simp [ho i own (by rw [hxy]; simp [hc])]
      | bound => exact absurd hc h2'
      | electric => exact absurd hc hx
      | absorbing => exact absurd hc h1
      | _ => rfl
    · show some _ = some _
      rw [hb, hk]
      rfl
  refine ⟨hb, hE, ?_, fun hmag => ?_⟩
  · rw [permittivity_inherited b hm.nodup he fun i own h => by rw [ho i own h], hb, hE]
    rfl
  · have h1 := isElectric_iff.2 he
    have h2 : isMagnetic mro = false := by
      rw [← Bool.not_eq_true, isMagnetic_iff]
      exact hmag
    unfold contributions
    rw [h1, h2, hE]
    rfl

/-- **C138 (definitions).** For all classes with the mixin `Electric`: what the first definition of the susceptibility in the order of the classes gives is added to the permittivity by the solver, and, if they do not
define the permittivity, the permittivity is that plus the background permittivity. -/
theorem C138_own (b : Data P) {l r : List (Cls P)} {i : ℕ} {own : Own P} {chi : P → ℂ} (hchi : own.electric = some chi)
    (hl : .bound ∉ l ∧ .electric ∉ l ∧ .absorbing ∉ l ∧ Inherited l Own.electric) (he : .electric ∈ l ++ .user i own :: r) :
    getElectric b (l ++ .user i own :: r) = .ok (.array chi) ∧
      (∀ e u, contributions b (l ++ .user i own :: r) = .ok (e, u) → e = chi) ∧ (.magnetic ∉ l ++ .user i own :: r → contributions b (l ++ .user i own :: r) = .ok (chi, fun _ => 0)) ∧
      ((l ++ .user i own :: r).Nodup → Inherited (l ++ .user i own :: r) Own.permittivity → ∀ background, getBackground b (l ++ .user i own :: r) = .ok background →
        getPermittivity b (l ++ .user i own :: r) = .ok fun p => background + chi p) := by
  have hE : getElectric b (l ++ .user i own :: r) = .ok (.array chi) := by
    refine search_cons (fun c hc => ?_) (by simp [hchi]) r
    cases c with
    | user i own => simp [hl.2.2.2 i own hc]
    | bound => exact absurd hc hl.1
    | electric => exact absurd hc hl.2.1
    | absorbing => exact absurd hc hl.2.2.1
    | _ => rfl
  have h1 := isElectric_iff.2 he
  refine ⟨hE, fun e u h => ?_, fun hmag => ?_, fun hn ho background hb => ?_⟩
  · unfold contributions at h
    rw [h1, hE] at h
    simp only [if_true, asArray, bind, Except.bind, pure, Except.pure] at h
    split at h
    · split at h <;> simp_all
    · simp_all
  · have h2 : isMagnetic (l ++ .user i own :: r) = false := by
      rw [← Bool.not_eq_true, isMagnetic_iff]
      exact hmag
    unfold contributions
    rw [h1, h2, hE]
    rfl
  · rw [permittivity_inherited b hn he ho, hb, hE]
    rfl

/-- **C138 (magnetic boundaries).** For all classes with the mixin `Magnetic`: what the first definition of the magnetic susceptibility gives is added to the permeability by the solver, and, if they do not define it,
the permeability is that plus one. -/
theorem C138_magnetic (b : Data P) {l r : List (Cls P)} {i : ℕ} {own : Own P} {chi : P → ℂ} (hchi : own.magnetic = some chi) (hl : .bound ∉ l ∧ .magnetic ∉ l ∧ Inherited l Own.magnetic)
    (he : .magnetic ∈ l ++ .user i own :: r) :
    getMagnetic (l ++ .user i own :: r) = .ok (.array chi) ∧
      (∀ e u, contributions b (l ++ .user i own :: r) = .ok (e, u) → u = chi) ∧ (.electric ∉ l ++ .user i own :: r → contributions b (l ++ .user i own :: r) = .ok (fun _ => 0, chi)) ∧
      ((l ++ .user i own :: r).Nodup → Inherited (l ++ .user i own :: r) Own.permeability → getPermeability (l ++ .user i own :: r) = .ok fun p => 1 + chi p) := by
  have hM : getMagnetic (l ++ .user i own :: r) = .ok (.array chi) := by
    refine search_cons (fun c hc => ?_) (by simp [hchi]) r
    cases c with
    | user i own => simp [hl.2.2 i own hc]
    | bound => exact absurd hc hl.1
    | magnetic => exact absurd hc hl.2.1
    | _ => rfl
  have h1 := isMagnetic_iff.2 he
  refine ⟨hM, fun e u h => ?_, fun hel => ?_, fun hn ho => ?_⟩
  · unfold contributions at h
    rw [h1, hM] at h
    simp only [if_true, asArray, bind, Except.bind, pure, Except.pure] at h
    split at h
    · split at h <;> simp_all
    · simp_all
  · have h2 : isElectric (l ++ .user i own :: r) = false := by
      rw [← Bool.not_eq_true, isElectric_iff]
      exact hel
    unfold contributions
    rw [h1, h2, hM]
    rfl
  · obtain ⟨x, y, hxy, h1⟩ := split_one he hn
    unfold getPermeability
    rw [hM]
    refine search_of_eq hxy rfl fun c hc => ?_
    cases c with
    | user i own => simp [ho i own (by rw [hxy]; simp [hc])]
    | magnetic => exact absurd hc h1
    | _ => rfl

/-- **C138 (without mixins).** Of a boundary without mixins, such as `PeriodicBound`, the solver takes nothing, whatever susceptibilities the class defines; and it has neither permittivity nor permeability. -/
theorem C138_without (b : Data P) {mro : List (Cls P)} (he : .electric ∉ mro) (hm : .magnetic ∉ mro) :
    contributions b mro = .ok (fun _ => 0, fun _ => 0) ∧ (Inherited mro Own.permittivity → getPermittivity b mro = .error .attributeError) ∧
      (Inherited mro Own.permeability → getPermeability mro = .error .attributeError) := by
  have h1 : isElectric mro = false := by
    rw [← Bool.not_eq_true, isElectric_iff]
    exact he
  have h2 : isMagnetic mro = false := by
    rw [← Bool.not_eq_true, isMagnetic_iff]
    exact hm
  refine ⟨?_, fun ho => search_none fun c hc => ?_, fun ho => search_none fun c hc => ?_⟩
  · unfold contributions
    rw [h1, h2]
    rfl
  · cases c with
    | user i own => simp [ho i own hc]
    | electric => exact absurd hc he
    | _ => rfl
  · cases c with
    | user i own => simp [ho i own hc]
    | magnetic => exact absurd hc hm
    | _ => rfl

/-- **C138 (nothing defined).** For all classes with `Bound` and the mixin `Electric`, but not `AbsorbingBound`, that do not define the susceptibility: it is zero if `Bound` comes first; otherwise it is not a number,
and the solver raises a `TypeError`. -/
theorem C138_undefined (b : Data P) {mro : List (Cls P)} (hn : mro.Nodup) (ha : .absorbing ∉ mro) (ho : Inherited mro Own.electric) :
    ([.bound, .electric] <+ mro → getElectric b mro = .ok (.array fun _ => 0)) ∧ ([.electric, .bound] <+ mro → getElectric b mro = .ok .notImplemented ∧ contributions b mro = .error .typeError) := by
  refine ⟨fun h => ?_, fun h => ?_⟩
  · obtain ⟨x, y, hxy, h1, h2, -⟩ := split_two h hn
    unfold getElectric
    refine search_of_eq hxy rfl fun c hc => ?_
    cases c with
    | user i own => simp [ho i own (by rw [hxy]; simp [hc])]
    | bound => exact absurd hc h1
    | electric => exact absurd hc h2
    | absorbing => exact absurd (by rw [hxy]; simp [hc]) ha
    | _ => rfl
  · have hE : getElectric b mro = .ok .notImplemented := by
      obtain ⟨x, y, hxy, h1, h2, -⟩ := split_two h hn
      unfold getElectric
      refine search_of_eq hxy rfl fun c hc => ?_
      cases c with
      | user i own => simp [ho i own (by rw [hxy]; simp [hc])]
      | bound => exact absurd hc h2
      | electric => exact absurd hc h1
      | absorbing => exact absurd (by rw [hxy]; simp [hc]) ha
      | _ => rfl
    refine ⟨hE, ?_⟩
    unfold contributions
    rw [isElectric_iff.2 (h.subset (by simp)), hE]
    rfl

/-- **C138 (order of the bases, violated).** The background permittivity of the object is not that of its permittivity for any class that is derived from the mixin `Electric` first and from `Bound` second:
`class B(Electric, Bound)`, which defines the susceptibility. -/
theorem C138_order_violates (b : Data P) (hb : b.background ≠ 0) (chi : P → ℂ) [Nonempty P] :
    getPermittivity b [.user 0 { electric := some chi }, .electric, .bound] = .ok chi ∧
      getPermittivity b [.user 0 { electric := some chi }, .electric, .bound] ≠ .ok fun p => b.background + chi p := by
  have hn : [Cls.user 0 { electric := some chi }, .electric, .bound].Nodup := by simp
  have h0 : getBackground b [.user 0 { electric := some chi }, .electric, .bound] = .ok 0 :=
    (C138_background b hn fun i own h => by simp at h; simp [h]).2.2 (List.sublist_cons_self _ _)
  have h := (C138_own b (l := []) (r := [.electric, .bound]) (i := 0) (own := { electric := some chi }) rfl ⟨by simp, by simp, by simp, fun _ _ h => absurd h (by simp)⟩ (by simp)).2.2.2 hn
    (fun i own h => by simp at h; simp [h]) 0 h0
  simp only [zero_add] at h
  refine ⟨h, fun h' => hb ?_⟩
  obtain ⟨p⟩ := ‹Nonempty P›
  have := congrFun (Except.ok.inj (h.symm.trans h')) p
  simpa using this

/-! ### Examples -/

/-- `LinearBound`, and `PeriodicBound`. -/
theorem linear_linearised : Linearised ([.linear, .absorbing, .bound, .electric] : List (Cls P)) :=
  ⟨by simp, by simp, fun _ => List.sublist_cons_self _ _, fun _ => by simp⟩

/-- `C138_absorbing`: `LinearBound`. -/
example (background : ℂ) (kappa : P → ℝ) := C138_absorbing ⟨background, .ok kappa⟩ linear_linearised (by simp) (by simp) rfl

/-- `C138_without`: `PeriodicBound`. -/
example (b : Data P) := C138_without b (mro := [.periodic, .bound]) (by simp) (by simp)

/-- `C138_magnetic`: `class B(Bound, Electric, Magnetic)` with both susceptibilities. -/
example (b : Data P) (chi : P → ℂ) := C138_magnetic b (l := []) (r := [.bound, .electric, .magnetic]) (i := 0) (own := { electric := some chi, magnetic := some chi }) rfl
  ⟨by simp, by simp, fun _ _ h => absurd h (by simp)⟩ (by simp)

/-- `C138_undefined`: `class B(Electric, Bound)` that defines nothing. -/
example (b : Data P) := (C138_undefined b (mro := [.user 0 {}, .electric, .bound]) (by simp) (by simp) (fun i own h => by simp at h; simp [h])).2 (List.sublist_cons_self _ _)

end Verif.Bound
