import Verif.Props.BeamArgs

/-!
# C105: The material of a `Beam` (python/macromax/utils/beam.py 465–508)
-/

namespace Verif.Beam

open Verif Verif.Fourier Verif.Backend Complex

variable {o : Optics} {P : Projection}

/-- The arguments for a slice stand for a refractive index, or for the background. -/
def Means (h : ∀ a, 0 < o.grid.shape a) (P : Projection) (step : ℝ) (p : Option Arg × Option Arg) (n : Option (Idx o.grid.shape → ℂ)) : Prop :=
  ∀ s : Section o P, propagateArgs s step p.1 p.2 = .ok (propagate h s step n)

theorem evaluate_length (h : ∀ a, 0 < o.grid.shape a) (step : ℝ) (ns : List (Option (Idx o.grid.shape → ℂ))) : ∀ s : Section o P, (evaluate h step s ns).1.length = ns.length := by
  induction ns with
  | nil => exact fun _ => rfl
  | cons n ns ih =>
    intro s
    show ((evaluate h step (read (propagate h s step n)).2 ns).1).length + 1 = _
    rw [ih, List.length_cons]

theorem loop_eq (h : ∀ a, 0 < o.grid.shape a) {step : ℝ} {ps : List (Option Arg × Option Arg)} {ns : List (Option (Idx o.grid.shape → ℂ))} (hm : List.Forall₂ (Means h P step) ps ns) :
    ∀ (j : ℕ) (s : Section o P) (out : List (Arr o P)), j + ps.length ≤ out.length →
      loop step ps j s out = .ok (out.take j ++ (evaluate h step s ns).1 ++ out.drop (j + ps.length), (evaluate h step s ns).2) := by
  induction hm with
  | nil =>
    intro j s out _
    show Except.ok _ = Except.ok _
    congr 2
    show out = out.take j ++ [] ++ out.drop (j + 0)
    rw [List.append_nil, add_zero, List.take_append_drop]
  | @cons p n ps ns h1 h2 ih =>
    intro j s out hj
    obtain ⟨e, m⟩ := p
    rw [List.length_cons] at hj
    have hj' : j < out.length := by omega
    show (propagateArgs s step e m).bind _ = _
    rw [h1 s]
    show (if j < out.length then loop step ps (j + 1) (read (propagate h s step n)).2 (out.set j (read (propagate h s step n)).1) else _) = _
    rw [if_pos hj', ih (j + 1) _ _ (by rw [List.length_set]; omega)]
    congr 2
    show _ ++ _ ++ _ = out.take j ++ ((read (propagate h s step n)).1 :: (evaluate h step (read (propagate h s step n)).2 ns).1) ++ _
    rw [List.length_cons, List.drop_set_of_lt (by omega), show j + 1 + ps.length = j + (ps.length + 1) by omega]
    congr 1
    have e : (out.set j (read (propagate h s step n)).1).take (j + 1) = out.take j ++ [(read (propagate h s step n)).1] := by
      rw [List.take_succ_eq_append_getElem (by rw [List.length_set]; exact hj'), List.take_set_of_le le_rfl, List.getElem_set_self]
    rw [e, List.append_assoc]
    rfl

theorem loop_over (h : ∀ a, 0 < o.grid.shape a) {step : ℝ} {ps : List (Option Arg × Option Arg)} {ns : List (Option (Idx o.grid.shape → ℂ))} (hm : List.Forall₂ (Means h P step) ps ns) :
    ∀ (j : ℕ) (s : Section o P) (out : List (Arr o P)), j ≤ out.length → out.length < j + ps.length → loop step ps j s out = .error .indexError := by
  induction hm with
  | nil =>
    intro j s out h1 h2
    simp only [List.length_nil] at h2
    omega
  | @cons p n ps ns h1 h2 ih =>
    intro j s out hj hlt
    obtain ⟨e, m⟩ := p
    rw [List.length_cons] at hlt
    show (propagateArgs s step e m).bind _ = _
    rw [h1 s]
    show (if j < out.length then loop step ps (j + 1) (read (propagate h s step n)).2 (out.set j (read (propagate h s step n)).1) else _) = _
    split_ifs with hj'
    · exact ih (j + 1) _ _ (by rw [List.length_set]; omega) (by rw [List.length_set]; omega)
    · rfl

/-- The fields behind the given slices, of which there are at most as many as the grid has samples, and zeros for the rest. -/
theorem beamField_eq (h : ∀ a, 0 < o.grid.shape a) {step : ℝ} {N : ℕ} (s : Section o P) {eps n : Option (List (Option Arg))} {ns : List (Option (Idx o.grid.shape → ℂ))}
    (hm : List.Forall₂ (Means h P step) (sections N eps n) ns) (hN : ns.length ≤ N) :
    beamField N step s eps n = .ok ((evaluate h step s ns).1 ++ List.replicate (N - ns.length) (fun _ _ => 0), (evaluate h step s ns).2) := by
  unfold beamField
  rw [loop_eq h hm 0 s _ (by rw [hm.length_eq, List.length_replicate]; omega), hm.length_eq]
  simp

/-- The slices as arguments. -/
def slicesOf (as : List (Assign.Arr ℂ)) : List (Option Arg) := as.map fun a => some (.array a)

theorem sections_index (N : ℕ) (as : List (Assign.Arr ℂ)) : sections N none (some (slicesOf as)) = (as.take N).map fun a => (none, some (.array a)) := by
  unfold sections slicesOf
  simp only [Option.getD_none, Option.getD_some]
  induction as generalizing N with
  | nil => cases N <;> rfl
  | cons a as ih =>
    cases N with
    | zero => rfl
    | succ N => rw [List.replicate_succ, List.map_cons, List.zip_cons_cons, ih]; rfl

theorem sections_permittivity (N : ℕ) (as : List (Assign.Arr ℂ)) : sections N (some (slicesOf as)) none = (as.take N).map fun a => (some (.array a), none) := by
  unfold sections slicesOf
  simp only [Option.getD_none, Option.getD_some]
  induction as generalizing N with
  | nil => cases N <;> rfl
  | cons a as ih =>
    cases N with
    | zero => rfl
    | succ N => rw [List.replicate_succ, List.map_cons, List.zip_cons_cons, ih]; rfl

theorem sections_both (N : ℕ) (es as : List (Assign.Arr ℂ)) (hl : es.length = as.length) :
    sections N (some (slicesOf es)) (some (slicesOf as)) = (es.zip as).map fun a => (some (.array a.1), some (.array a.2)) := by
  unfold sections slicesOf
  simp only [Option.getD_some]
  induction es generalizing as with
  | nil => rfl
  | cons e es ih =>
    cases as with
    | nil => simp at hl
    | cons a as => rw [List.map_cons, List.map_cons, List.zip_cons_cons, ih as (by simpa using hl)]; rfl

/-- The refractive indices of slices that are given as such. -/
def indexSlices (o : Optics) (as : List (Assign.Arr ℂ)) : List (Option (Idx o.grid.shape → ℂ)) := as.map fun a => some (atPoint (o := o) a)

/-- The refractive indices of slices for which the permittivity is given. -/
noncomputable def permittivitySlices (o : Optics) (as : List (Assign.Arr ℂ)) : List (Option (Idx o.grid.shape → ℂ)) := as.map fun a => some fun x => atPoint (o := o) a x ^ (1 / 2 : ℂ)

theorem means_index (h : ∀ a, 0 < o.grid.shape a) (step : ℝ) {as : List (Assign.Arr ℂ)} (ha : ∀ a ∈ as, Fills o a) :
    List.Forall₂ (Means h P step) (as.map fun a => (none, some (.array a))) (indexSlices o as) := by
  induction as with
  | nil => exact .nil
  | cons a as ih => exact .cons (fun s => (C105_slice h s step (ha a List.mem_cons_self)).1 none) (ih fun b hb => ha b (List.mem_cons_of_mem _ hb))

theorem means_permittivity (h : ∀ a, 0 < o.grid.shape a) (step : ℝ) {as : List (Assign.Arr ℂ)} (ha : ∀ a ∈ as, Fills o a) :
    List.Forall₂ (Means h P step) (as.map fun a => (some (.array a), none)) (permittivitySlices o as) := by
  induction as with
  | nil => exact .nil
  | cons a as ih => exact .cons (fun s => (C105_slice h s step (ha a List.mem_cons_self)).2.1) (ih fun b hb => ha b (List.mem_cons_of_mem _ hb))

theorem means_both (h : ∀ a, 0 < o.grid.shape a) (step : ℝ) {es as : List (Assign.Arr ℂ)} (hl : es.length = as.length) (ha : ∀ a ∈ as, Fills o a) :
    List.Forall₂ (Means h P step) ((es.zip as).map fun a => (some (.array a.1), some (.array a.2))) (indexSlices o as) := by
  induction es generalizing as with
  | nil => obtain rfl := List.eq_nil_of_length_eq_zero hl.symm; exact .nil
  | cons e es ih =>
    cases as with
    | nil => simp at hl
    | cons a as => exact .cons (fun s => (C105_slice h s step (ha a List.mem_cons_self)).1 (some (.array e))) (ih (by simpa using hl) fun b hb => ha b (List.mem_cons_of_mem _ hb))

/-- **C105 (slices).** For as many slices as the grid has samples along the propagation axis, with their refractive index, with their permittivity, or with both, of which the refractive index is used,
or for none, the field of the beam is that behind each of these slices. -/
theorem C105_slices (h : ∀ a, 0 < o.grid.shape a) (step : ℝ) (s : Section o P) {as : List (Assign.Arr ℂ)} (ha : ∀ a ∈ as, Fills o a) :
    beamField as.length step s none (some (slicesOf as)) = .ok (evaluate h step s (indexSlices o as)) ∧
    beamField as.length step s (some (slicesOf as)) none = .ok (evaluate h step s (permittivitySlices o as)) ∧
    (∀ es : List (Assign.Arr ℂ), es.length = as.length → beamField as.length step s (some (slicesOf es)) (some (slicesOf as)) = .ok (evaluate h step s (indexSlices o as))) ∧
    ∀ N, beamField N step s none none = .ok (evaluate h step s (List.replicate N none)) := by
  refine ⟨?_, ?_, fun es he => ?_, fun N => ?_⟩
  · rw [beamField_eq h s (ns := indexSlices o as) (by rw [sections_index, List.take_length]; exact means_index h step ha) (by simp [indexSlices])]
    simp [indexSlices]
  · rw [beamField_eq h s (ns := permittivitySlices o as) (by rw [sections_permittivity, List.take_length]; exact means_permittivity h step ha) (by simp [permittivitySlices])]
    simp [permittivitySlices]
  · rw [beamField_eq h s (ns := indexSlices o as) (by rw [sections_both _ _ _ he]; exact means_both h step he ha) (by simp [indexSlices])]
    simp [indexSlices]
  · have hm : List.Forall₂ (Means h P step) (sections N none none) (List.replicate N none) := by
      unfold sections
      simp only [Option.getD_none]
      induction N with
      | zero => exact .nil
      | succ N ih => exact .cons (fun s => rfl) ih
    rw [beamField_eq h s hm (by simp)]
    simp

/-- **C105 (number of slices)** is violated: when there are fewer slices than samples, the field is 0 behind the others; when there are more, the others are ignored.  No error is raised, unless both the
permittivity and the refractive index are given for more slices. -/
theorem C105_number_violates (h : ∀ a, 0 < o.grid.shape a) (step : ℝ) (s : Section o P) (N : ℕ) {as : List (Assign.Arr ℂ)} (ha : ∀ a ∈ as, Fills o a) :
    beamField N step s none (some (slicesOf as)) =
      .ok ((evaluate h step s (indexSlices o (as.take N))).1 ++ List.replicate (N - as.length) (fun _ _ => 0), (evaluate h step s (indexSlices o (as.take N))).2) ∧
    beamField N step s (some (slicesOf as)) none =
      .ok ((evaluate h step s (permittivitySlices o (as.take N))).1 ++ List.replicate (N - as.length) (fun _ _ => 0), (evaluate h step s (permittivitySlices o (as.take N))).2) ∧
    ∀ es : List (Assign.Arr ℂ), es.length = as.length → N < as.length → beamField N step s (some (slicesOf es)) (some (slicesOf as)) = .error .indexError := by
  have ht : ∀ a ∈ as.take N, Fills o a := fun a hm => ha a (List.mem_of_mem_take hm)
  have hsub : N - min N as.length = N - as.length := by omega
  refine ⟨?_, ?_, fun es he hN => ?_⟩
  · rw [beamField_eq h s (ns := indexSlices o (as.take N)) (by rw [sections_index]; exact means_index h step ht) (by simp [indexSlices])]
    simp [indexSlices, hsub]
  · rw [beamField_eq h s (ns := permittivitySlices o (as.take N)) (by rw [sections_permittivity]; exact means_permittivity h step ht) (by simp [permittivitySlices])]
    simp [permittivitySlices, hsub]
  · unfold beamField
    rw [sections_both _ _ _ he]
    exact loop_over h (means_both h step he ha) 0 s _ (by simp) (by simp [he]; omega)

/-! ### Arrays with the material of the whole grid -/

theorem iterate_cons (a : Assign.Arr ℂ) {l : ℕ} {rest : List ℕ} (hs : a.shape = l :: rest) :
    iterate a = .ok (slicesOf ((List.range l).map fun j => ⟨rest, fun i => a.val (j :: i)⟩)) := by
  unfold iterate
  rw [hs]
  dsimp only
  congr 1
  unfold slicesOf
  rw [List.map_map]
  rfl

theorem beamFieldArrays_index {N : ℕ} {step : ℝ} {s : Section o P} {a : Assign.Arr ℂ} {l : List (Option Arg)} (hl : iterate a = .ok l) :
    beamFieldArrays N step s none (some a) = beamField N step s none (some l) := by
  unfold beamFieldArrays
  simp only [Option.mapM_some, Option.mapM_none, hl]
  rfl

theorem beamFieldArrays_permittivity {N : ℕ} {step : ℝ} {s : Section o P} {a : Assign.Arr ℂ} {l : List (Option Arg)} (hl : iterate a = .ok l) :
    beamFieldArrays N step s (some a) none = beamField N step s (some l) none := by
  unfold beamFieldArrays
  simp only [Option.mapM_some, Option.mapM_none, hl]
  rfl

/-- **C105 (arrays).** For propagation along the first axis, the material can be given as an array on the whole grid: the field at each point is that behind the slice, with the material at that point. -/
theorem C105_arrays_partial (h : ∀ a, 0 < o.grid.shape a) (haxis : o.axis = 0) (h1 : o.grid.shape 0 = 1) (step : ℝ) (s : Section o P) (N : ℕ) (a : Assign.Arr ℂ)
    (ha : a.shape = [N, o.grid.shape 1, o.grid.shape 2]) :
    ∃ out₁ out₂, beamFieldArrays N step s none (some a) = .ok out₁ ∧ beamFieldArrays N step s (some a) none = .ok out₂ ∧
      (let slices : List (Idx o.grid.shape → ℂ) := (List.range N).map fun z x => a.val [z, x 1, x 2]
      out₁ = evaluate h step s (slices.map some) ∧ out₂ = evaluate h step s (slices.map fun e => some fun x => e x ^ (1 / 2 : ℂ))) ∧
      ∀ out : List (Arr o P), ∀ c z (x : Idx o.grid.shape), z < N → outputAt h out c ![z, x 1, x 2] = (out.getD z fun _ _ => 0) c x := by
  have hfill : ∀ b ∈ (List.range N).map (fun j => (⟨[o.grid.shape 1, o.grid.shape 2], fun i => a.val (j :: i)⟩ : Assign.Arr ℂ)), Fills o b := by
    intro b hb
    obtain ⟨j, _, rfl⟩ := List.mem_map.1 hb
    exact ⟨[1, o.grid.shape 0], [o.grid.shape 1, o.grid.shape 2], rfl, .cons (.inr rfl) (.cons (.inr rfl) .nil)⟩
  have hpoint : ∀ j, atPoint (o := o) (⟨[o.grid.shape 1, o.grid.shape 2], fun i => a.val (j :: i)⟩ : Assign.Arr ℂ) = fun x => a.val [j, x 1, x 2] := by
    intro j
    funext x
    have hx : ∀ b, (if o.grid.shape b = 1 then 0 else (x b : ℕ)) = (x b : ℕ) := fun b => by
      split_ifs with h1
      · have := (x b).isLt
        omega
      · rfl
    show a.val [j, _, _] = _
    exact congrArg₂ (fun p q => a.val [j, p, q]) (hx 1) (hx 2)
  have hlen : ((List.range N).map (fun j => (⟨[o.grid.shape 1, o.grid.shape 2], fun i => a.val (j :: i)⟩ : Assign.Arr ℂ))).length = N := by simp
  have key := C105_slices h step s hfill
  rw [hlen] at key
  refine ⟨_, _, ?_, ?_, ⟨rfl, rfl⟩, ?_⟩
  · rw [beamFieldArrays_index (iterate_cons a ha)]
    refine key.1.trans ?_
    congr 2
    unfold indexSlices
    rw [List.map_map, List.map_map]
    exact List.map_congr_left fun j _ => congrArg some (hpoint j)
  · rw [beamFieldArrays_permittivity (iterate_cons a ha)]
    refine key.2.1.trans ?_
    congr 2
    unfold permittivitySlices
    rw [List.map_map, List.map_map]
    exact List.map_congr_left fun j _ => congrArg (fun e : Idx o.grid.shape → ℂ => some fun x => e x ^ (1 / 2 : ℂ)) (hpoint j)
  · intro out c z x hz
    unfold outputAt
    have ez : (![z, (x 1 : ℕ), (x 2 : ℕ)] : Fin 3 → ℕ) o.axis = z := by rw [haxis]; rfl
    rw [ez]
    refine congrArg ((out.getD z fun _ _ => 0) c) ?_
    funext b
    have hb : ∀ b : Fin 3, b ≠ 0 → (![z, (x 1 : ℕ), (x 2 : ℕ)] : Fin 3 → ℕ) b = x b := by
      intro b hb
      fin_cases b
      · exact absurd rfl hb
      · rfl
      · rfl
    by_cases h0 : b = 0
    · subst h0
      rw [dif_neg (fun h => h.1 haxis.symm)]
      refine Fin.ext ?_
      have := (x 0).isLt
      show 0 = (x 0 : ℕ)
      omega
    · rw [dif_pos ⟨haxis ▸ h0, by rw [hb b h0]; exact (x b).isLt⟩]
      exact Fin.ext (hb b h0)

/-- **C105 (other axes)** is violated: for propagation along another axis, arrays on the whole grid are rejected, unless the first slice perpendicular to the first axis is uniform. -/
theorem C105_axis_violates (step : ℝ) (s : Section o P) {N : Fin 3 → ℕ} (hN : ∀ b, 0 < N b) (haxis : o.axis ≠ 0) (ho : o.grid.shape = Function.update N o.axis 1) (h1 : 1 < N o.axis)
    (a : Assign.Arr ℂ) (ha : a.shape = List.ofFn N) (hu : ∃ y x, y < N 1 ∧ x < N 2 ∧ 1e-8 + 1e-5 * ‖a.val [0, 0, 0]‖ < ‖a.val [0, y, x] - a.val [0, 0, 0]‖) :
    beamFieldArrays (N o.axis) step s none (some a) = .error .valueError := by
  have ha' : a.shape = [N 0, N 1, N 2] := ha
  rw [beamFieldArrays_index (iterate_cons a ha')]
  unfold beamField
  rw [sections_index]
  obtain ⟨m, hm⟩ : ∃ m, N 0 = m + 1 := ⟨N 0 - 1, by have := hN 0; omega⟩
  obtain ⟨k, hk⟩ : ∃ k, N o.axis = k + 1 := ⟨N o.axis - 1, by omega⟩
  rw [hk, hm, List.range_succ_eq_map, List.map_cons, List.take_succ_cons, List.map_cons]
  show (propagateArgs s step none (some (.array ⟨[N 1, N 2], fun i => a.val (0 :: i)⟩))).bind _ = _
  have hz : (⟨[N 1, N 2], fun i => a.val (0 :: i)⟩ : Assign.Arr ℂ).val ([N 1, N 2].map fun _ => 0) = a.val [0, 0, 0] := rfl
  rw [(C105_misfit s step ⟨[N 1, N 2], fun i => a.val (0 :: i)⟩ none).2]
  · rfl
  · have h1 := hN 1
    have h2 := hN 2
    simp only [List.prod_cons, List.prod_nil, mul_one]
    positivity
  · obtain ⟨y, x, hy, hx, hlt⟩ := hu
    intro hn
    have := hn ⟨[y, x], .cons hy (.cons hx .nil)⟩
    exact absurd hlt (not_lt.2 this)
  · rintro ⟨l, r, e, h2⟩
    have e' : [P.c, o.grid.shape 0, o.grid.shape 1, o.grid.shape 2] = l ++ r := e
    cases h2 with
    | cons h3 h4 =>
      cases h4 with
      | cons h5 h6 =>
        cases h6
        have hl : l.length = 2 := by
          have := congrArg List.length e'
          simp at this
          omega
        obtain ⟨p, q, rfl⟩ := List.length_eq_two.1 hl
        simp only [List.cons_append, List.nil_append, List.cons.injEq, and_true] at e'
        obtain ⟨-, -, rfl, rfl⟩ := e'
        rw [ho] at h3 h5
        have : o.axis = 1 ∨ o.axis = 2 := by
          generalize o.axis = b at haxis
          fin_cases b
          · exact absurd rfl haxis
          · exact .inl rfl
          · exact .inr rfl
        rcases this with e2 | e2
        · rw [e2] at h1 h3
          rw [Function.update_self] at h3
          omega
        · rw [e2] at h1 h5
          rw [Function.update_self] at h5
          omega

theorem interactArray_uniform (s : Section o P) (d : ℝ) {n : Assign.Arr ℂ} {v : ℂ} (h0 : n.shape.prod ≠ 0) (hv : ∀ i, List.Forall₂ (· < ·) i n.shape → n.val i = v) :
    interactArray s d n = .ok (interact s d v (fun _ => v)) := by
  have hz : n.val (n.shape.map fun _ => 0) = v := by
    refine hv _ ?_
    generalize n.shape = l at h0
    induction l with
    | nil => exact .nil
    | cons a l ih =>
      rw [List.prod_cons] at h0
      exact .cons (Nat.pos_of_ne_zero (left_ne_zero_of_mul h0)) (ih (right_ne_zero_of_mul h0))
  have hu : ∀ {X : Type}, NearUniform v fun _ : X => v := fun {X} x => by rw [sub_self, norm_zero]; positivity
  unfold interactArray
  rw [if_neg h0]
  dsimp only
  have hn : NearUniform v fun i : Within n.shape => n.val i.1 := fun i => by
    show ‖n.val i.1 - v‖ ≤ _
    rw [hv i.1 i.2]
    exact hu (X := Unit) ()
  rw [hz, if_pos hn]
  unfold interact
  rw [if_pos hu]
  dsimp only
  split_ifs <;> rfl

/-- **C105 (layers)** is violated: for propagation along another axis, layers along the first axis are used as layers along the propagation axis. -/
theorem C105_layers_violates (h : ∀ a, 0 < o.grid.shape a) (step : ℝ) (s : Section o P) {N : Fin 3 → ℕ} (hN : ∀ b, 0 < N b) (haxis : N o.axis = N 0)
    (a : Assign.Arr ℂ) (ha : a.shape = List.ofFn N) (layer : ℕ → ℂ) (hl : ∀ z y x, a.val [z, y, x] = layer z) :
    beamFieldArrays (N o.axis) step s none (some a) = .ok (evaluate h step s ((List.range (N 0)).map fun z => some fun _ => layer z)) := by
  have ha' : a.shape = [N 0, N 1, N 2] := ha
  rw [beamFieldArrays_index (iterate_cons a ha')]
  have hm : List.Forall₂ (Means h P step) (sections (N o.axis) none (some (slicesOf ((List.range (N 0)).map fun j => (⟨[N 1, N 2], fun i => a.val (j :: i)⟩ : Assign.Arr ℂ)))))
      ((List.range (N 0)).map fun z => some fun _ => layer z) := by
    rw [sections_index, List.take_of_length_le (by simp [haxis]), List.map_map]
    generalize List.range (N 0) = l
    induction l with
    | nil => exact .nil
    | cons z l ih =>
      refine .cons (fun s => ?_) ih
      show (interactArray _ step (⟨[N 1, N 2], fun i => a.val (z :: i)⟩ : Assign.Arr ℂ)).bind _ = _
      rw [interactArray_uniform (v := layer z)]
      · rfl
      · have h1 := hN 1
        have h2 := hN 2
        simp only [List.prod_cons, List.prod_nil, mul_one]
        positivity
      · intro i hi
        cases hi with
        | cons h1 h2 =>
          cases h2 with
          | cons h3 h4 =>
            cases h4
            exact hl z _ _
  rw [beamField_eq h s hm (by simp [haxis])]
  simp [haxis]

/-! ### Examples -/

/-- A distribution on two slices of two points. -/
def fourPoints : Assign.Arr ℂ := ⟨[2, 1, 2], fun i => 1 + i.getD 0 0 + 2 * i.getD 2 0⟩

/-- The hypotheses of `C105_arrays_partial` can be met: the field behind the slices of a distribution on the whole grid. -/
example (s : Section pair scalar) : ∃ out, beamFieldArrays 2 1e-7 s none (some fourPoints) = .ok out ∧
    out = evaluate pair_shape 1e-7 s [some fun x => 1 + 2 * ((x 2 : ℕ) : ℂ), some fun x => 2 + 2 * ((x 2 : ℕ) : ℂ)] ∧ out.1.length = 2 := by
  obtain ⟨out, _, h1, _, ⟨h2, _⟩, _⟩ := C105_arrays_partial pair_shape rfl rfl 1e-7 s 2 fourPoints rfl
  have e : out = evaluate pair_shape 1e-7 s [some fun x => 1 + 2 * ((x 2 : ℕ) : ℂ), some fun x => 2 + 2 * ((x 2 : ℕ) : ℂ)] := by
    have e1 : (fun x : Idx pair.grid.shape => fourPoints.val [0, (x 1 : ℕ), (x 2 : ℕ)]) = fun x => 1 + 2 * ((x 2 : ℕ) : ℂ) := by
      funext x
      show (1 : ℂ) + ((0 : ℕ) : ℂ) + 2 * ((x 2 : ℕ) : ℂ) = _
      rw [Nat.cast_zero, add_zero]
    have e2 : (fun x : Idx pair.grid.shape => fourPoints.val [1, (x 1 : ℕ), (x 2 : ℕ)]) = fun x => 2 + 2 * ((x 2 : ℕ) : ℂ) := by
      funext x
      show (1 : ℂ) + ((1 : ℕ) : ℂ) + 2 * ((x 2 : ℕ) : ℂ) = _
      rw [Nat.cast_one]
      norm_num
    rw [h2, ← e1, ← e2]
    rfl
  refine ⟨out, h1, e, ?_⟩
  rw [e, evaluate_length]
  rfl

/-- A section for propagation along the last axis of a grid with the shape 2 × 1 × 2. -/
noncomputable def sideways : Optics := ⟨{ pairGrid with shape := fun a => if a = 0 then 2 else 1 }, 2, 1e7, 1⟩

/-- The hypotheses of `C105_axis_violates` can be met. -/
example (s : Section sideways scalar) : beamFieldArrays 2 1e-7 s none (some fourPoints) = .error .valueError := by
  refine C105_axis_violates (N := ![2, 1, 2]) 1e-7 s (fun b => by fin_cases b <;> norm_num) (by decide) ?_ Nat.one_lt_two fourPoints rfl ⟨0, 1, Nat.one_pos, Nat.one_lt_two, ?_⟩
  · funext b
    fin_cases b <;> rfl
  · show (1e-8 : ℝ) + 1e-5 * ‖(1 : ℂ) + ((0 : ℕ) : ℂ) + 2 * ((0 : ℕ) : ℂ)‖ < ‖((1 : ℂ) + ((0 : ℕ) : ℂ) + 2 * ((1 : ℕ) : ℂ)) - ((1 : ℂ) + ((0 : ℕ) : ℂ) + 2 * ((0 : ℕ) : ℂ))‖
    norm_num

end Verif.Beam
