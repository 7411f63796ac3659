import Verif.Model.BeamExit
import Verif.Props.BeamMaterial
import Verif.Props.BeamWaves

/-!
# Property C133: the section at the exit of a beam
-/

namespace Verif.Beam

open Verif.Fourier Verif.Backend Complex

variable {o : Optics} {P : Projection}

/-- The section behind slices of material, when the field is not read in between. -/
noncomputable def behind (h : ∀ a, 0 < o.grid.shape a) (step : ℝ) (s : Section o P) (ns : List (Option (Idx o.grid.shape → ℂ))) : Section o P :=
  ns.foldl (fun s n => propagate h s step n) s

theorem passThrough_eq (h : ∀ a, 0 < o.grid.shape a) {step : ℝ} {ps : List (Option Arg × Option Arg)} {ns : List (Option (Idx o.grid.shape → ℂ))} (hm : List.Forall₂ (Means h P step) ps ns) :
    ∀ s : Section o P, passThrough step ps (some s) s = .ok (some (behind h step s ns)) := by
  induction hm with
  | nil => exact fun _ => rfl
  | @cons p n ps ns h1 h2 ih =>
    intro s
    obtain ⟨e, m⟩ := p
    show (propagateArgs s step e m).bind _ = _
    rw [h1 s]
    exact ih (propagate h s step n)

/-- **C133 (slices).** The section at the exit is the section of the beam after it passed all the slices, also when there are more slices than the grid has samples; without slices it is
the section at the entrance. -/
theorem C133_slices (h : ∀ a, 0 < o.grid.shape a) (N : ℕ) (step : ℝ) (s : Section o P) {eps n : Option (List (Option Arg))} {ns : List (Option (Idx o.grid.shape → ℂ))}
    (hm : List.Forall₂ (Means h P step) (sections N eps n) ns) : sectionAtExit N step s eps n = .ok (ns.foldl (fun s n => propagate h s step n) s) := by
  unfold sectionAtExit
  generalize sections N eps n = ps at hm
  cases hm with
  | nil => rfl
  | @cons p n ps ns h1 h2 =>
    obtain ⟨e, m⟩ := p
    have := passThrough_eq h h2 (propagate h s step n)
    show ((propagateArgs s step e m).bind fun s => passThrough step ps (some s) s).bind _ = _
    rw [h1 s]
    show (passThrough step ps (some (propagate h s step n)) (propagate h s step n)).bind _ = _
    rw [this]
    rfl

/-- Whenever the section passed another of the next `m` slices, it is 0 or more than 1e-8 away from where its field was last determined. -/
def Clear (step : ℝ) (s : Section o P) (m : ℕ) : Prop := ∀ k ≤ m, s.distance + k * step = 0 ∨ 1e-8 < |s.distance + k * step|

theorem Clear.settled {step : ℝ} {s : Section o P} {m : ℕ} (hc : Clear step s m) : Settled s := by
  have := hc 0 (Nat.zero_le _)
  rwa [Nat.cast_zero, zero_mul, add_zero] at this

theorem clear_zero {step : ℝ} (hstep : 1e-8 < |step|) {s : Section o P} (hs : s.distance = 0) (m : ℕ) : Clear step s m := by
  intro k _
  rw [hs, zero_add]
  rcases Nat.eq_zero_or_pos k with rfl | hk
  · exact .inl (by simp)
  · right
    rw [abs_mul, Nat.abs_cast]
    have : (1 : ℝ) ≤ k := by exact_mod_cast hk
    nlinarith [abs_nonneg step]

theorem pending_interact (s : Section o P) (d : ℝ) (n0 : ℂ) (n : Idx o.grid.shape → ℂ) :
    (interact s d n0 n).distance = s.distance ∨ (interact s d n0 n).distance = 0 := by
  unfold interact
  dsimp only
  split_ifs
  · exact .inl rfl
  · exact .inl rfl
  · right
    unfold write
    split_ifs <;> rfl

/-- What is left to propagate after a slice. -/
theorem clear_propagate (h : ∀ a, 0 < o.grid.shape a) {step : ℝ} (hstep : 1e-8 < step) {s : Section o P} {m : ℕ} (hc : Clear step s (m + 1)) (n : Option (Idx o.grid.shape → ℂ)) :
    Clear step (propagate h s step n) m := by
  have h0 : 0 < step := lt_trans (by norm_num) hstep
  have hd : (propagate h s step n).distance = s.distance + step ∨ (propagate h s step n).distance = step := by
    unfold propagate
    rw [if_neg h0.not_gt, if_pos h0]
    cases n with
    | none => exact .inl rfl
    | some n =>
      rcases pending_interact s step (n (origin o h)) n with e | e
      · exact .inl (congrArg (· + step) e)
      · exact .inr ((congrArg (· + step) e).trans (zero_add _))
  intro k hk
  rcases hd with e | e
  · have := hc (k + 1) (by omega)
    rw [e]
    push_cast at this
    rwa [show s.distance + step + k * step = s.distance + (k + 1) * step by ring]
  · right
    rw [e]
    have : (0 : ℝ) ≤ k := Nat.cast_nonneg k
    rw [abs_of_pos (by positivity)]
    nlinarith

theorem current_slice (h : ∀ a, 0 < o.grid.shape a) {step : ℝ} (hstep : 1e-8 < step) {s t : Section o P} (hs : Settled s) (ht : Settled t) (he : current s = current t) (n : Option (Idx o.grid.shape → ℂ)) :
    current (propagate h s step n) = current (propagate h t step n) := by
  have h0 : 0 < step := lt_trans (by norm_num) hstep
  cases n with
  | none => rw [current_propagate_none, current_propagate_none, he]
  | some n =>
    have h1 : ∀ {u : Section o P}, Settled u → Settled (propagate h u (min step 0) none) := fun {u} hu => by rwa [min_eq_right h0.le, C55_zero]
    rw [current_propagate_some h step n fun _ => h1 hs, current_propagate_some h step n fun _ => h1 ht, he]

/-- The last field of a beam of which the field is read behind each slice, and the field behind the same slices without reading it in between. -/
theorem last_field (h : ∀ a, 0 < o.grid.shape a) {step : ℝ} (hstep : 1e-8 < step) (ns : List (Option (Idx o.grid.shape → ℂ))) : ∀ s t : Section o P, current s = current t →
    Clear step s ns.length → Clear step t ns.length →
    current (evaluate h step s ns).2 = current (behind h step t ns) ∧ ((evaluate h step s ns).1.getLast? = if ns = [] then none else some (read (behind h step t ns)).1) := by
  induction ns with
  | nil => exact fun s t he _ _ => ⟨he, rfl⟩
  | cons n ns ih =>
    intro s t he hs ht
    have h1 := current_slice h hstep hs.settled ht.settled he n
    have hs1 := clear_propagate h hstep hs n
    have ht1 := clear_propagate h hstep ht n
    obtain ⟨hv, hd⟩ := readFt_settled hs1.settled
    obtain ⟨e1, e2⟩ := ih (read (propagate h s step n)).2 (propagate h t step n) ((current_readFt _).trans h1)
      (clear_zero (lt_of_lt_of_le hstep (le_abs_self _)) hd _) ht1
    refine ⟨e1, ?_⟩
    show ((read (propagate h s step n)).1 :: (evaluate h step (read (propagate h s step n)).2 ns).1).getLast? = _
    rw [if_neg (by simp), List.getLast?_cons, e2]
    rcases eq_or_ne ns [] with rfl | hne
    · rw [if_pos rfl]
      show some (fieldOf (readFt (propagate h s step n)).1) = some (fieldOf (readFt (propagate h t step n)).1)
      rw [hv, (readFt_settled ht1.settled).1, h1]
    · rw [if_neg hne]
      rfl

/-- **C133 (partial).** The field of the section at the exit is the last slice of the field of the beam in the same material, for all materials, provided that none of the distances over which
the beam is propagated is in between 0 and 1e-8.  Missing: such distances. -/
theorem C133_partial (h : ∀ a, 0 < o.grid.shape a) {step : ℝ} (hstep : 1e-8 < step) {N : ℕ} (s : Section o P) {eps n : Option (List (Option Arg))} {ns : List (Option (Idx o.grid.shape → ℂ))}
    (hm : List.Forall₂ (Means h P step) (sections N eps n) ns) (hN : ns.length = N) (h0 : 0 < N)
    (hc : ∀ k ≤ N, s.distance + k * step = 0 ∨ 1e-8 < |s.distance + k * step|) :
    ∃ out after exit, beamField N step s eps n = .ok (out, after) ∧ sectionAtExit N step s eps n = .ok exit ∧ out.getLast? = some (read exit).1 := by
  subst hN
  obtain ⟨-, h1⟩ := last_field h hstep ns s s rfl hc hc
  refine ⟨_, _, _, beamField_eq h s hm le_rfl, C133_slices h _ step s hm, ?_⟩
  rw [Nat.sub_self, List.replicate_zero, List.append_nil, h1, if_neg fun e => by simp [e] at h0]
  rfl

/-- **C133 (materials, partial).** `C133_partial` for arrays of refractive indices or permittivities, one for each sample along the propagation axis. -/
theorem C133_materials_partial (h : ∀ a, 0 < o.grid.shape a) {step : ℝ} (hstep : 1e-8 < step) (s : Section o P) {as : List (Assign.Arr ℂ)} (ha : ∀ a ∈ as, Fills o a) (h0 : as ≠ [])
    (hc : ∀ k ≤ as.length, s.distance + k * step = 0 ∨ 1e-8 < |s.distance + k * step|) :
    (∃ out after exit, beamField as.length step s none (some (slicesOf as)) = .ok (out, after) ∧ sectionAtExit as.length step s none (some (slicesOf as)) = .ok exit ∧
      out.getLast? = some (read exit).1) ∧
    (∃ out after exit, beamField as.length step s (some (slicesOf as)) none = .ok (out, after) ∧ sectionAtExit as.length step s (some (slicesOf as)) none = .ok exit ∧
      out.getLast? = some (read exit).1) := by
  have hN : 0 < as.length := List.length_pos_iff.2 h0
  constructor
  · have hm := means_index (P := P) h step ha
    exact C133_partial h hstep s (by rw [sections_index, List.take_length]; exact hm) (by rw [← hm.length_eq, List.length_map]) hN hc
  · have hm := means_permittivity (P := P) h step ha
    exact C133_partial h hstep s (by rw [sections_permittivity, List.take_length]; exact hm) (by rw [← hm.length_eq, List.length_map]) hN hc

theorem behind_none (h : ∀ a, 0 < o.grid.shape a) (step : ℝ) (N : ℕ) : ∀ s : Section o P, behind h step s (List.replicate N none) = propagate h s (N * step) none := by
  induction N with
  | zero => intro s; rw [Nat.cast_zero, zero_mul, C55_zero]; rfl
  | succ N ih =>
    intro s
    show behind h step (propagate h s step none) (List.replicate N none) = _
    rw [ih, C55_add]
    congr 1
    push_cast
    ring

theorem means_none (h : ∀ a, 0 < o.grid.shape a) (step : ℝ) (N : ℕ) : List.Forall₂ (Means h P step) (sections N none none) (List.replicate N none) := by
  have : sections N none none = List.replicate N (none, none) := by simp [sections]
  rw [this]
  exact List.forall₂_iff_get.2 ⟨by simp, fun i h1 h2 => by
    simp only [List.get_eq_getElem, List.getElem_replicate]
    exact fun s => rfl⟩

/-- **C133 (homogeneous).** Without material, the section at the exit of a beam is the section at the origin that the beam was made of, propagated to the last coordinate of the grid, for grids with
any number of samples; all these sections, including those at distances of at most 1e-8, are exactly equal. -/
theorem C133_homogeneous (h : ∀ a, 0 < o.grid.shape a) (s : Section o P) (first step : ℝ) (N : ℕ) :
    sectionAtExit N step (entrance h s first step) none none = .ok (propagate h s (first + (N - 1) * step) none) := by
  rw [C133_slices h N step _ (means_none h step N)]
  show Except.ok (behind h step _ _) = _
  rw [behind_none]
  unfold entrance
  rw [C55_add]
  congr 2
  ring

/-- **C133 (again).** The n-th time that the section at the exit is asked for, it is the section at n lengths of the grid from the entrance. -/
theorem C133_again (h : ∀ a, 0 < o.grid.shape a) (s : Section o P) (first step : ℝ) (N times : ℕ) :
    (List.replicate times ()).foldlM (fun s _ => sectionAtExit N step s none none) (entrance h s first step) = .ok (propagate h s (first - step + times * (N * step)) none) := by
  have key : ∀ (times : ℕ) (t : Section o P), (List.replicate times ()).foldlM (fun s _ => sectionAtExit N step s none none) t = .ok (propagate h t (times * (N * step)) none) := by
    intro times
    induction times with
    | zero => intro t; rw [Nat.cast_zero, zero_mul, C55_zero]; rfl
    | succ times ih =>
      intro t
      rw [List.replicate_succ, List.foldlM_cons, C133_slices h N step t (means_none h step N)]
      show (List.replicate times ()).foldlM _ (behind h step t _) = _
      rw [behind_none, ih, C55_add]
      congr 2
      push_cast
      ring
  rw [key]
  unfold entrance
  rw [C55_add]

/-- **C133** is violated: asked for again, the section at the exit of a beam has another field. -/
theorem C133_violates : ∃ (s exit again : Section pair scalar), sectionAtExit 1 1e-7 s none none = .ok exit ∧ sectionAtExit 1 1e-7 exit none none = .ok again ∧ (read again).1 ≠ (read exit).1 := by
  let beam := entrance pair_shape (writeFt (waveFt 1)) 0 1e-7
  refine ⟨beam, _, _, C133_slices pair_shape 1 1e-7 _ (means_none pair_shape 1e-7 1), C133_slices pair_shape 1 1e-7 _ (means_none pair_shape 1e-7 1), fun heq => C58_violates ?_⟩
  have hclear : Clear 1e-7 beam 2 := by
    intro k hk
    have hd : beam.distance = -1e-7 := by
      show (propagate pair_shape (writeFt (waveFt 1)) (0 - 1e-7) none).distance = _
      rw [propagate_none]
      show (0 : ℝ) + (0 - 1e-7) = _
      norm_num
    rw [hd]
    interval_cases k <;> norm_num [abs_of_pos, abs_of_neg]
  have h1 := last_field pair_shape (by norm_num) [none] beam beam rfl (fun k hk => hclear k (by simp at hk; omega)) (fun k hk => hclear k (by simp at hk; omega))
  have h2 := last_field pair_shape (by norm_num) [none, none] beam beam rfl hclear hclear
  simp only [reduceCtorEq, if_false] at h1 h2
  have e1 : (evaluate pair_shape 1e-7 beam [none]).1 = [(read (propagate pair_shape beam 1e-7 none)).1] := rfl
  have e2 : (evaluate pair_shape 1e-7 (evaluate pair_shape 1e-7 beam [none]).2 [none]).1 = [(read (behind pair_shape 1e-7 beam [none, none])).1] := by
    have := h2.2
    change [_, _].getLast? = some _ at this
    simp only [List.getLast?_cons_cons, List.getLast?_singleton, Option.some.injEq] at this
    rw [← this]
    rfl
  show (evaluate pair_shape 1e-7 (evaluate pair_shape 1e-7 beam [none]).2 [none]).1 = (evaluate pair_shape 1e-7 beam [none]).1
  rw [e1, e2]
  congr 1

theorem entrance_pair : (entrance pair_shape (writeFt (P := scalar) (waveFt 1)) 0 1e-7).distance = -1e-7 := by
  show (propagate pair_shape (writeFt (waveFt 1)) (0 - 1e-7) none).distance = _
  rw [propagate_none]
  show (0 : ℝ) + (0 - 1e-7) = _
  norm_num

/-- The hypotheses of `C133_partial` can be met: three slices without material. -/
example : ∃ out after exit, beamField 3 1e-7 (entrance pair_shape (writeFt (waveFt 1)) 0 1e-7) none none = .ok (out, after) ∧
    sectionAtExit 3 1e-7 (entrance pair_shape (writeFt (waveFt 1)) 0 1e-7) none none = .ok exit ∧ out.getLast? = some (read exit).1 :=
  C133_partial pair_shape (by norm_num) _ (means_none pair_shape 1e-7 3) rfl (by norm_num) fun k hk => by
    rw [entrance_pair]
    interval_cases k <;> norm_num [abs_of_pos, abs_of_neg]

/-- Glass. -/
noncomputable def glassSlice : Assign.Arr ℂ := ⟨[], fun _ => 1.5⟩

theorem glassSlice_fills : ∀ a ∈ [glassSlice, glassSlice], Fills pair a := by
  intro a ha
  have : a = glassSlice := by simpa using ha
  rw [this]
  exact ⟨_, [], (List.append_nil _).symm, .nil⟩

/-- `C133_slices` for two slices of glass. -/
example (s : Section pair scalar) := C133_slices pair_shape 2 1e-7 s (eps := none) (n := some (slicesOf [glassSlice, glassSlice])) (by
  rw [sections_index]
  exact means_index pair_shape 1e-7 glassSlice_fills)

/-- `C133_materials_partial` for two slices of glass. -/
example := C133_materials_partial pair_shape (step := 1e-7) (by norm_num) (entrance pair_shape (writeFt (P := scalar) (waveFt 1)) 0 1e-7) glassSlice_fills (by simp) fun k hk => by
  rw [entrance_pair]
  simp only [List.length_cons, List.length_nil] at hk
  interval_cases k <;> norm_num [abs_of_pos, abs_of_neg]

end Verif.Beam
