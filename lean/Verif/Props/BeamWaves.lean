import Verif.Props.BeamPair
import Verif.Props.Grid02

/-!
# Properties C58 (evaluation of a beam), C69 (plane waves), C72 (grid of a beam), and C73 (energy)
-/

namespace Verif.Beam

open Verif.Fourier Verif.Backend Verif.Spec.Modes Complex

variable {o : Optics} {P : Projection}

/-! ### C69 -/

/-- The wavevector of a Fourier component in the background medium. -/
noncomputable def Optics.wavevector (o : Optics) (q : Idx o.grid.shape) (a : Fin 3) : ℝ := if a = o.axis then axial o.k (o.kappa q) else o.kappa q a

/-- The superposition of the plane waves with the amplitudes `F`, at a distance `z` along the propagation axis. -/
noncomputable def Optics.superposed (o : Optics) {c : ℕ} (F : Fin c → Idx o.grid.shape → ℂ) (z : ℝ) : Fin c → Idx o.grid.shape → ℂ :=
  fun i x => (∑ q, F i q * planeWave o.k (o.kappa q) z (o.position x)) / ∏ a, (o.grid.shape a : ℂ)

theorem read_waves (ho : o.Proper) (h : ∀ a, 0 < o.grid.shape a) {F : Arr o P} (hF : ∀ q c, P.project (o.kDir q) (fun c' => F c' q) c = F c q) (h1 : Significant F) (z : ℝ)
    (hz : z = 0 ∨ 1e-8 < |z|) : (read (propagate h (writeFt F) z none)).1 = o.superposed F z := by
  have e : propagate h (writeFt F) z none = ⟨F, z⟩ := by
    rw [propagate_none]
    unfold writeFt update
    simp only [hF, zero_add]
  rw [e]
  unfold read
  have hs : Settled (⟨F, z⟩ : Section o P) := hz
  rw [(readFt_settled hs).1]
  funext c x
  exact fieldOf_advance ho h1 z c x

/-- **C69 (scalar, partial).** A scalar field that is specified by its Fourier transform, and propagated over a distance, is the superposition of plane waves with wavevectors of length `k` and
these amplitudes, at that distance.  Missing: small fields and distances; the wavevectors of evanescent waves have no component along the propagation axis. -/
theorem C69_partial (ho : o.Proper) (h : ∀ a, 0 < o.grid.shape a) (F : Arr o scalar) (h1 : Significant F) (z : ℝ) (hz : z = 0 ∨ 1e-8 < |z|) :
    (read (propagate h (writeFt F) z none)).1 = o.superposed F z := read_waves ho h (fun _ _ => rfl) h1 z hz

/-- **C69 (vectorial, partial).** The same for vectorial fields with polarizations that are perpendicular to the wavevectors. -/
theorem C69_vectorial_partial (ho : o.Proper) (h : ∀ a, 0 < o.grid.shape a) (F : Arr o vectorial) (hF : ∀ q, ∑ a, (o.wavevector q a : ℂ) * F a q = 0) (h1 : Significant F) (z : ℝ)
    (hz : z = 0 ∨ 1e-8 < |z|) : (read (propagate h (writeFt F) z none)).1 = o.superposed F z :=
  read_waves ho h (fun q c => congrFun (project_vectorial ho q (fun c' => F c' q) (hF q)) c) h1 z hz

/-- The wavevectors of propagating waves have length `k`. -/
theorem wavevector_length (ho : o.Proper) (q : Idx o.grid.shape) (hq : Propagating o.k (o.kappa q)) : ∑ a, o.wavevector q a ^ 2 = o.k ^ 2 := by
  have h1 : ∀ a, o.wavevector q a ^ 2 = o.kappa q a ^ 2 + if a = o.axis then axial o.k (o.kappa q) ^ 2 else 0 := by
    intro a
    unfold Optics.wavevector
    split_ifs with h
    · rw [h, kappa_axis ho]; ring
    · rw [add_zero]
  have h2 : axial o.k (o.kappa q) ^ 2 = o.k ^ 2 - ∑ a, o.kappa q a ^ 2 := Real.sq_sqrt (sub_nonneg.2 hq.le)
  rw [Finset.sum_congr rfl fun a _ => h1 a, Finset.sum_add_distrib, Finset.sum_ite_eq' Finset.univ, if_pos (Finset.mem_univ _), h2]
  ring

/-- **C69 (assignment).** The scalar field that is read after it is assigned is the same, unless it is small. -/
theorem C69_assign (hs : o.Stepped) (f : Arr o scalar) (h1 : Significant (current (write f))) : (read (write f)).1 = f := by
  unfold read
  rw [(readFt_settled (.inl (distance_write f))).1]
  rw [current_write_scalar hs] at h1 ⊢
  exact fieldOf_transform hs f h1

/-- All Fourier components of a section are perpendicular to their wavevectors. -/
def Transverse (s : Section o vectorial) : Prop := ∀ q, ∑ a, (o.kDir q a : ℂ) * s.fieldFt a q = 0

theorem transverse_wavevector (ho : o.Proper) {s : Section o vectorial} (h : Transverse s) (q : Idx o.grid.shape) : ∑ a, (o.wavevector q a : ℂ) * s.fieldFt a q = 0 := by
  have e : ∀ a, (o.wavevector q a : ℂ) * s.fieldFt a q = ((o.k * Real.sqrt (∑ b, o.kProj b q ^ 2) : ℝ) : ℂ) * ((o.kDir q a : ℂ) * s.fieldFt a q) := by
    intro a
    unfold Optics.wavevector
    rw [← kDir_eq ho]
    push_cast
    ring
  rw [Finset.sum_congr rfl fun a _ => e a, ← Finset.mul_sum, h q, mul_zero]

theorem transverse_update (ho : o.Proper) (F : Arr o vectorial) : Transverse (update F) := by
  intro q
  show ∑ a, (o.kDir q a : ℂ) * (F a q - o.kDir q a * ∑ i, (o.kDir q i : ℂ) * F i q) = 0
  have h1 : ∑ a, (o.kDir q a : ℂ) ^ 2 = 1 := by exact_mod_cast sum_kDir ho q
  have e : ∀ a, (o.kDir q a : ℂ) * (F a q - o.kDir q a * ∑ i, (o.kDir q i : ℂ) * F i q) = o.kDir q a * F a q - (o.kDir q a : ℂ) ^ 2 * ∑ i, (o.kDir q i : ℂ) * F i q := fun a => by ring
  rw [Finset.sum_congr rfl fun a _ => e a, Finset.sum_sub_distrib, ← Finset.sum_mul, h1, one_mul, sub_self]

theorem transverse_mul {s : Section o vectorial} (h : Transverse s) (w : Idx o.grid.shape → ℂ) (d : ℝ) : Transverse (⟨fun c q => s.fieldFt c q * w q, d⟩ : Section o vectorial) := by
  intro q
  show ∑ a, (o.kDir q a : ℂ) * (s.fieldFt a q * w q) = 0
  simp only [← mul_assoc]
  rw [← Finset.sum_mul, h q, zero_mul]

theorem transverse_write (ho : o.Proper) (f : Arr o vectorial) : Transverse (write f) := by
  rw [write_eq ho.stepped]
  exact transverse_update ho _

theorem transverse_readFt {s : Section o vectorial} (h : Transverse s) : Transverse (readFt s).2 := by
  unfold readFt
  split_ifs
  · exact h
  · exact transverse_mul h _ _

theorem transverse_propagate (ho : o.Proper) (hN : ∀ a, 0 < o.grid.shape a) {s : Section o vectorial} (h : Transverse s) (d : ℝ) (n : Option (Idx o.grid.shape → ℂ)) :
    Transverse (propagate hN s d n) := by
  have hd : ∀ {s : Section o vectorial} (d : ℝ), Transverse s → Transverse (propagate hN s d none) := by
    intro s d h
    rw [propagate_none]
    exact h
  cases n with
  | none => exact hd d h
  | some n =>
    rw [propagate_some]
    refine hd _ ?_
    unfold interact
    dsimp only
    split_ifs
    · exact hd _ h
    · exact transverse_mul (hd _ h) _ _
    · exact transverse_write ho _

/-- **C69 (polarization).** Whatever is assigned to a vectorial section, and for all histories thereafter, its Fourier components are perpendicular to their wavevectors. -/
theorem C69_transverse (ho : o.Proper) (h : ∀ a, 0 < o.grid.shape a) (ops : List (Step o vectorial)) (F : Arr o vectorial) (q : Idx o.grid.shape) :
    ∑ a, (o.wavevector q a : ℂ) * (run h (writeFt F) ops).fieldFt a q = 0 := by
  refine transverse_wavevector ho ?_ q
  have key : ∀ (ops : List (Step o vectorial)) (s : Section o vectorial), Transverse s → Transverse (run h s ops) := by
    intro ops
    induction ops with
    | nil => exact fun s hs => hs
    | cons op ops ih =>
      intro s hs
      refine ih _ ?_
      cases op with
      | read => exact transverse_readFt hs
      | readFt => exact transverse_readFt hs
      | write f => exact transverse_write ho f
      | writeFt F => exact transverse_update ho F
      | propagate d n => exact transverse_propagate ho h hs d n
  exact key ops _ (transverse_update ho F)

/-- **C69** is violated: "only propagating modes will be kept" does not hold for evanescent waves.  These are kept, and they neither propagate nor decay. -/
theorem C69_violates (F : Arr pair scalar) (z : ℝ) : ¬ Propagating pair.k (pair.kappa (at' 1)) ∧
    (readFt (propagate pair_shape (writeFt F) z none)).1 (0 : Fin 1) (at' 1) = F (0 : Fin 1) (at' 1) := by
  constructor
  · intro h
    have h1 : 0 < axial pair.k (pair.kappa (at' 1)) := Real.sqrt_pos.2 (sub_pos.2 h)
    rw [axial_one] at h1
    exact lt_irrefl _ h1
  · obtain ⟨lag, -, hl, -⟩ := readFt_lag (propagate pair_shape (writeFt F) z none)
    rw [hl, current_propagate_none, advance_advance]
    have hc : current (writeFt F) = F := advance_zero F
    rw [hc]
    show F (0 : Fin 1) (at' 1) * exp (I * (_ * pair.k * pair.kDir (at' 1) pair.axis : ℝ)) = _
    rw [mul_assoc, k_kDir pair_proper, axial_one]
    simp

/-- The hypotheses of `C69_partial` and of `C69_vectorial_partial` can be met. -/
example : (read (propagate pair_shape (writeFt (waveFt 1)) 1e-6 none)).1 = pair.superposed (waveFt 1) 1e-6 :=
  C69_partial pair_proper pair_shape _ (waveFt_significant (by simp)) _ (.inr (by norm_num [abs_of_pos]))

example : (read (propagate pair_shape (writeFt polarizedWave) 1e-6 none)).1 = pair.superposed polarizedWave 1e-6 := by
  refine C69_vectorial_partial pair_proper pair_shape _ (fun q => ?_) (fun _ => polarizedWave_big) _ (.inr (by norm_num [abs_of_pos]))
  have := transverse_wavevector pair_proper (transverse_update pair_proper polarizedWave) q
  rwa [show (update polarizedWave).fieldFt = polarizedWave from polarizedWave_update] at this

/-! ### C58 -/

theorem significant_advance {F : Arr o P} (h : Significant F) (z : ℝ) : Significant (advance z F) := fun he => by rw [allClose0_advance]; exact h he

/-- The fields of a beam in the background medium. -/
theorem evaluate_none (h : ∀ a, 0 < o.grid.shape a) {step : ℝ} (hstep : 1e-8 < |step|) (n : ℕ) : ∀ s : Section o P, Settled (propagate h s step none) →
    (evaluate h step s (List.replicate n none)).1 = (List.range n).map (fun j => fieldOf (advance ((j + 1 : ℕ) * step) (current s))) ∧
    current (evaluate h step s (List.replicate n none)).2 = advance (n * step) (current s) ∧
    (0 < n → (evaluate h step s (List.replicate n none)).2.distance = 0) := by
  induction n with
  | zero =>
    intro s _
    refine ⟨rfl, ?_, fun h => absurd h (lt_irrefl 0)⟩
    rw [Nat.cast_zero, zero_mul, advance_zero]
    rfl
  | succ n ih =>
    intro s hs
    obtain ⟨hv, hd⟩ := readFt_settled hs
    have hc : current (readFt (propagate h s step none)).2 = advance step (current s) := by rw [current_readFt, current_propagate_none]
    have hnext : Settled (propagate h (readFt (propagate h s step none)).2 step none) := by
      right
      rw [propagate_none]
      show 1e-8 < |_ + step|
      rw [hd, zero_add]
      exact hstep
    obtain ⟨e1, e2, e3⟩ := ih _ hnext
    have hv2 : (read (propagate h s step none)).1 = fieldOf (advance step (current s)) := by
      unfold read
      rw [hv, current_propagate_none]
    refine ⟨?_, ?_, fun _ => ?_⟩
    · show (read (propagate h s step none)).1 :: (evaluate h step (readFt (propagate h s step none)).2 (List.replicate n none)).1 = _
      rw [e1, hv2, hc, List.range_succ_eq_map, List.map_cons, List.map_map]
      congr 1
      · simp
      · refine List.map_congr_left fun j _ => ?_
        rw [advance_advance]
        simp only [Function.comp]
        congr 2
        push_cast
        ring
    · show current (evaluate h step (readFt (propagate h s step none)).2 (List.replicate n none)).2 = _
      rw [e2, hc, advance_advance]
      congr 1
      push_cast
      ring
    · show (evaluate h step (readFt (propagate h s step none)).2 (List.replicate n none)).2.distance = 0
      cases n with
      | zero => exact hd
      | succ n => exact e3 (Nat.succ_pos n)

/-- **C58 (partial).** The first time that a beam is evaluated in the background medium, its field in slice `j` is the superposition of plane waves at the `j`-th coordinate of the grid along
the propagation axis.  Missing: later evaluations, and steps and non-zero first coordinates of at most 1e-8. -/
theorem C58_partial (ho : o.Proper) (h : ∀ a, 0 < o.grid.shape a) (g : Grid.Obj 3 ℝ) (hg : g.originAtCenter o.axis = true) (hstep : 1e-8 < |g.step o.axis|)
    (hfirst : g.first o.axis = 0 ∨ 1e-8 < |g.first o.axis|) (F : Arr o scalar) (h1 : Significant F) :
    (evaluate h (g.step o.axis) (entrance h (writeFt F) (g.first o.axis) (g.step o.axis)) (List.replicate (g.shape o.axis) none)).1 =
      (g.coords o.axis).map fun z => o.superposed F z := by
  have hc : current (entrance h (writeFt F) (g.first o.axis) (g.step o.axis)) = advance (g.first o.axis - g.step o.axis) F := by
    unfold entrance
    rw [current_propagate_none]
    congr 1
    exact advance_zero F
  have hs : Settled (propagate h (entrance h (writeFt F) (g.first o.axis) (g.step o.axis)) (g.step o.axis) none) := by
    unfold entrance
    rw [C55_add, sub_add_cancel, propagate_none]
    show (0 : ℝ) + g.first o.axis = 0 ∨ 1e-8 < |0 + g.first o.axis|
    rw [zero_add]
    exact hfirst
  rw [(evaluate_none h hstep _ _ hs).1, hc, Grid.C02_ordered g _ hg, Spec.Grid.samples, List.map_map]
  refine List.map_congr_left fun j _ => ?_
  rw [advance_advance, ← Grid.C02_first]
  funext c x
  simp only [Function.comp]
  rw [fieldOf_advance ho h1]
  show _ = (∑ q, F c q * planeWave o.k (o.kappa q) _ (o.position x)) / _
  congr 1
  refine Finset.sum_congr rfl fun q _ => ?_
  congr 2
  push_cast
  ring

/-- **C58 (again).** The property does not hold for later evaluations: the second time, slice `j` is that at a distance of the thickness of the grid further. -/
theorem C58_again (h : ∀ a, 0 < o.grid.shape a) (first step : ℝ) (hstep : 1e-8 < |step|) (hfirst : first = 0 ∨ 1e-8 < |first|) (F : Arr o scalar) (n : ℕ) (hn : 0 < n) :
    let beam := entrance h (writeFt F) first step
    (evaluate h step (evaluate h step beam (List.replicate n none)).2 (List.replicate n none)).1 = (List.range n).map fun j => fieldOf (advance (first + ((n + j : ℕ) : ℝ) * step) F) := by
  intro beam
  have hc : current beam = advance (first - step) F := by
    show current (propagate h (writeFt F) (first - step) none) = _
    rw [current_propagate_none]
    congr 1
    exact advance_zero F
  have hs : Settled (propagate h beam step none) := by
    show Settled (propagate h (propagate h (writeFt F) (first - step) none) step none)
    rw [C55_add, sub_add_cancel, propagate_none]
    show (0 : ℝ) + first = 0 ∨ 1e-8 < |0 + first|
    rw [zero_add]
    exact hfirst
  obtain ⟨-, e2, e3⟩ := evaluate_none h hstep n beam hs
  have hs2 : Settled (propagate h (evaluate h step beam (List.replicate n none)).2 step none) := by
    right
    rw [propagate_none]
    show 1e-8 < |_ + step|
    rw [e3 hn, zero_add]
    exact hstep
  rw [(evaluate_none h hstep n _ hs2).1, e2, hc]
  refine List.map_congr_left fun j _ => ?_
  rw [advance_advance, advance_advance]
  congr 2
  push_cast
  ring

/-- **C58** is violated: the second evaluation of a beam with a single slice does not give the same field. -/
theorem C58_violates : let beam := entrance pair_shape (writeFt (waveFt 1)) 0 1e-7
    (evaluate pair_shape 1e-7 (evaluate pair_shape 1e-7 beam [none]).2 [none]).1 ≠ (evaluate pair_shape 1e-7 beam [none]).1 := by
  intro beam heq
  have h1 := C58_again pair_shape 0 1e-7 (by norm_num [abs_of_pos]) (.inl rfl) (waveFt 1) 1 one_pos
  have hs : Settled (propagate pair_shape beam 1e-7 none) := by
    show Settled (propagate pair_shape (propagate pair_shape (writeFt (waveFt 1)) (0 - 1e-7) none) 1e-7 none)
    rw [C55_add, sub_add_cancel, propagate_none]
    exact .inl (add_zero 0)
  have h2 := (evaluate_none pair_shape (by norm_num [abs_of_pos]) 1 beam hs).1
  have hc : current beam = advance (0 - 1e-7) (waveFt 1) := by
    show current (propagate pair_shape (writeFt (waveFt 1)) (0 - 1e-7) none) = _
    rw [current_propagate_none]
    congr 1
    exact advance_zero _
  change (evaluate pair_shape 1e-7 (evaluate pair_shape 1e-7 beam [none]).2 [none]).1 = _ at h1
  change (evaluate pair_shape 1e-7 beam [none]).1 = _ at h2
  rw [h1, h2, hc] at heq
  simp only [List.range_one, List.map_cons, List.map_nil, List.cons.injEq, and_true, advance_advance] at heq
  have h3 := congrFun (congrFun heq (0 : Fin 1)) (at' 0)
  have hv : ∀ z : ℝ, fieldOf (advance z (waveFt 1)) (0 : Fin 1) (at' 0) = exp (I * (z * 1e7 : ℝ)) := by
    intro z
    have hbig := waveFt_significant (a := 1) (by simp) pair_extended
    rw [fieldOf_pair (by rw [allClose0_advance]; exact hbig)]
    · show (if along (at' 0) = 0 then 2 * (1 : ℂ) else 0) * exp (I * (z * pair.k * pair.kDir (at' 0) pair.axis : ℝ)) / 2 = _
      rw [along_at, if_pos rfl, kDir_zero_axis, pair_k, mul_one]
      ring_nf
    · show (if along (at' 1) = 0 then 2 * (1 : ℂ) else 0) * _ = 0
      rw [along_at, if_neg (by decide), zero_mul]
  rw [hv, hv] at h3
  have h5 := congrArg Complex.im h3
  simp only [mul_comm I, exp_ofReal_mul_I_im] at h5
  norm_num at h5
  have := Real.sin_pos_of_pos_of_lt_pi (x := 1) (by norm_num) (by have := Real.pi_gt_three; linarith)
  linarith

/-- **C58 (collected).** The sections that a beam yields are one and the same object: when they are collected before they are used, then all have the field of the last one. -/
theorem C58_collect (h : ∀ a, 0 < o.grid.shape a) (step : ℝ) (s : Section o P) (slices : List (Option (Idx o.grid.shape → ℂ))) :
    collect h step s slices = List.replicate slices.length (read (slices.foldl (fun s n => propagate h s step n) s)).1 := by
  unfold collect
  simp

/-- The hypotheses of `C58_partial` can be met. -/
example : (evaluate pair_shape 1e-7 (entrance pair_shape (writeFt (waveFt 1)) 0 1e-7) [none]).1 = [pair.superposed (waveFt 1) 0] := by
  have := C58_partial pair_proper pair_shape pairGrid rfl (by show 1e-8 < |(1e-7 : ℝ)|; norm_num [abs_of_pos]) (.inl (by
    rw [Grid.C02_first]; show (0 : ℝ) - ((1 / 2 : ℕ) : ℝ) * 1e-7 = 0; norm_num)) (waveFt 1) (waveFt_significant (by simp))
  have hf : pairGrid.first pair.axis = 0 := by rw [Grid.C02_first]; show (0 : ℝ) - ((1 / 2 : ℕ) : ℝ) * 1e-7 = 0; norm_num
  have hc : pairGrid.coords pair.axis = [0] := by
    rw [Grid.C02_ordered _ _ rfl, Spec.Grid.samples, ← Grid.C02_first, hf]
    show [(0 : ℝ) + ((0 : ℕ) : ℝ) * _] = [0]
    simp
  rw [hf, hc] at this
  exact this

end Verif.Beam
