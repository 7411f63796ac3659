import Verif.Lemmas.BeamWaves
import Mathlib.Analysis.Real.Pi.Bounds

/-!
# Properties C55 (homogeneous propagation) and C56 (deferred propagation)
-/

namespace Verif.Beam

open Verif.Fourier Verif.Backend Verif.Spec.Modes Complex

variable {o : Optics} {P : Projection}

/-! ### C55 -/

/-- **C55 (sum).** Propagation over two distances is propagation over their sum, for all states. -/
theorem C55_add (h : ∀ a, 0 < o.grid.shape a) (s : Section o P) (a b : ℝ) : propagate h (propagate h s a none) b none = propagate h s (a + b) none := by
  simp only [propagate_none, add_assoc]

/-- **C55 (zero).** Propagation over 0 does nothing. -/
theorem C55_zero (h : ∀ a, 0 < o.grid.shape a) (s : Section o P) : propagate h s 0 none = s := by
  rw [propagate_none, add_zero]

/-- **C55 (inverse).** Propagation back restores the section. -/
theorem C55_inverse (h : ∀ a, 0 < o.grid.shape a) (s : Section o P) (d : ℝ) : propagate h (propagate h s d none) (-d) none = s := by
  rw [C55_add, add_neg_cancel, C55_zero]

/-- The energy in a section. -/
noncomputable def energy (f : Arr o P) : ℝ := ∑ c, ∑ x, ‖f c x‖ ^ 2

theorem energy_ift (F : Idx o.grid.shape → ℂ) : ∑ x, ‖ift F x‖ ^ 2 = (∑ q, ‖F q‖ ^ 2) / ∏ a, (o.grid.shape a : ℝ) := by
  by_cases hq : Nonempty (Idx o.grid.shape)
  · obtain ⟨q⟩ := hq
    have hp : (∏ a, (o.grid.shape a : ℝ)) ≠ 0 := by
      refine Finset.prod_ne_zero_iff.2 fun a _ => ?_
      have := (q a).isLt
      exact_mod_cast (by omega : o.grid.shape a ≠ 0)
    have := C23_energy (ift F)
    rw [C23_ft_ift] at this
    rw [this]
    field_simp
  · rw [not_nonempty_iff] at hq
    rw [Finset.univ_eq_empty, Finset.sum_empty, Finset.sum_empty, zero_div]

theorem energy_fieldOf {F G : Arr o P} (h : ∀ c q, ‖F c q‖ = ‖G c q‖) : energy (fieldOf F) = energy (fieldOf G) := by
  have h0 : AllClose0 F ↔ AllClose0 G := by unfold AllClose0; simp only [h]
  unfold fieldOf
  by_cases he : o.Extended
  · rw [if_pos he, if_pos he]
    by_cases hc : AllClose0 F
    · rw [if_pos hc, if_pos (h0.1 hc)]
    · rw [if_neg hc, if_neg fun hg => hc (h0.2 hg)]
      unfold energy
      simp only [energy_ift, norm_mul, norm_shift, mul_one, h]
  · rw [if_neg he, if_neg he]
    unfold energy
    simp only [h]

theorem norm_readFt (s : Section o P) (c : Fin P.c) (q : Idx o.grid.shape) : ‖(readFt s).1 c q‖ = ‖s.fieldFt c q‖ := by
  unfold readFt
  split_ifs
  · rfl
  · exact norm_advance _ _ _ _

/-- **C55 (energy).** The energy of the field is the same after propagation, for all distances and states. -/
theorem C55_energy (h : ∀ a, 0 < o.grid.shape a) (s : Section o P) (d : ℝ) : energy (read (propagate h s d none)).1 = energy (read s).1 := by
  refine energy_fieldOf fun c q => ?_
  rw [norm_readFt, norm_readFt, propagate_none]

/-! ### C56 -/

/-- The operations on a section. -/
inductive Step (o : Optics) (P : Projection) where
  | read
  | readFt
  | write (f : Arr o P)
  | writeFt (F : Arr o P)
  | propagate (d : ℝ) (n : Option (Idx o.grid.shape → ℂ))

/-- The effect of an operation. -/
noncomputable def Step.run (h : ∀ a, 0 < o.grid.shape a) (s : Section o P) : Step o P → Section o P
  | .read => (Beam.read s).2
  | .readFt => (Beam.readFt s).2
  | .write f => Beam.write f
  | .writeFt F => Beam.writeFt F
  | .propagate d n => Beam.propagate h s d n

/-- The operations that should not have an effect. -/
def Step.isRead : Step o P → Bool
  | .read => true
  | .readFt => true
  | _ => false

/-- A history of operations. -/
noncomputable def run (h : ∀ a, 0 < o.grid.shape a) : Section o P → List (Step o P) → Section o P := List.foldl (Step.run h)

/-- No propagation over a non-zero distance of at most 1e-8 is pending when the section interacts with a heterogeneous material, or at the end. -/
def AllSettled (h : ∀ a, 0 < o.grid.shape a) : Section o P → List (Step o P) → Prop
  | s, [] => Settled s
  | s, op :: ops => (∀ d n, op = .propagate d (some n) → ¬ NearUniform (n (origin o h)) n → Settled (propagate h s (min d 0) none)) ∧ AllSettled h (op.run h s) ops

/-- What an operation does to the field that a section represents. -/
noncomputable def Step.act (h : ∀ a, 0 < o.grid.shape a) (C : Arr o P) : Step o P → Arr o P
  | .read => C
  | .readFt => C
  | .write f => current (Beam.write f)
  | .writeFt F => current (Beam.writeFt F)
  | .propagate d none => advance d C
  | .propagate d (some n) => advance (max d 0) (interactField (advance (min d 0) C) d (n (origin o h)) n)

theorem current_run (h : ∀ a, 0 < o.grid.shape a) (s : Section o P) (op : Step o P)
    (hs : ∀ d n, op = .propagate d (some n) → ¬ NearUniform (n (origin o h)) n → Settled (propagate h s (min d 0) none)) :
    current (op.run h s) = op.act h (current s) := by
  match op with
  | .read => exact current_readFt s
  | .readFt => exact current_readFt s
  | .write f => rfl
  | .writeFt F => rfl
  | .propagate d none => exact current_propagate_none h s d
  | .propagate d (some n) => exact current_propagate_some h d n (hs d n rfl)

theorem current_foldl (h : ∀ a, 0 < o.grid.shape a) (ops : List (Step o P)) : ∀ s : Section o P, AllSettled h s ops →
    current (run h s ops) = ops.foldl (fun C op => op.act h C) (current s) ∧ Settled (run h s ops) := by
  induction ops with
  | nil => exact fun s hs => ⟨rfl, hs⟩
  | cons op ops ih =>
    intro s hs
    have := ih _ hs.2
    rw [current_run h s op hs.1] at this
    exact this

theorem foldl_act_filter (h : ∀ a, 0 < o.grid.shape a) (ops : List (Step o P)) : ∀ C : Arr o P,
    (ops.filter fun op => !op.isRead).foldl (fun C op => op.act h C) C = ops.foldl (fun C op => op.act h C) C := by
  induction ops with
  | nil => exact fun _ => rfl
  | cons op ops ih =>
    intro C
    cases op with
    | read => exact ih C
    | readFt => exact ih C
    | write f => exact ih _
    | writeFt F => exact ih _
    | propagate d n => exact ih _

/-- **C56 (partial).** For all histories of assignments, propagation steps, and reads, the fields at the end are the same as when nothing is read in between, provided that whenever the field
is used, the distance over which it has been propagated since is either 0 or larger than 1e-8.  Missing: distances of at most 1e-8. -/
theorem C56_partial (h : ∀ a, 0 < o.grid.shape a) (s : Section o P) (ops : List (Step o P)) (h1 : AllSettled h s ops) (h2 : AllSettled h s (ops.filter fun op => !op.isRead)) :
    (read (run h s ops)).1 = (read (run h s (ops.filter fun op => !op.isRead))).1 ∧
    (readFt (run h s ops)).1 = (readFt (run h s (ops.filter fun op => !op.isRead))).1 := by
  obtain ⟨e1, s1⟩ := current_foldl h ops s h1
  obtain ⟨e2, s2⟩ := current_foldl h _ s h2
  rw [foldl_act_filter] at e2
  have : (readFt (run h s ops)).1 = (readFt (run h s (ops.filter fun op => !op.isRead))).1 := by
    rw [(readFt_settled s1).1, (readFt_settled s2).1, e1, e2]
  exact ⟨by unfold read; rw [this], this⟩

/-- The homogeneous propagation steps in a history. -/
def Step.distance : Step o P → ℝ
  | .propagate d _ => d
  | _ => 0

/-- A history in which the section is only read and propagated in the background medium. -/
def Homogeneous (ops : List (Step o P)) : Prop := ∀ op ∈ ops, op.isRead = true ∨ ∃ d, op = .propagate d none

/-- **C56 (homogeneous).** For all histories of reads and homogeneous propagation, the field that is read lags behind the total distance by at most 1e-8. -/
theorem C56_homogeneous (h : ∀ a, 0 < o.grid.shape a) (F : Arr o P) (ops : List (Step o P)) (hh : Homogeneous ops) :
    ∃ lag : ℝ, |lag| ≤ 1e-8 ∧ (readFt (run h ⟨F, 0⟩ ops)).1 = advance ((ops.map Step.distance).sum - lag) F := by
  have key : ∀ (ops : List (Step o P)) (s : Section o P), Homogeneous ops → current (run h s ops) = advance (ops.map Step.distance).sum (current s) := by
    intro ops
    induction ops with
    | nil => exact fun s _ => (advance_zero _).symm
    | cons op ops ih =>
      intro s hh
      have h1 := ih (op.run h s) fun op' hm => hh op' (List.mem_cons_of_mem _ hm)
      change current (run h (op.run h s) ops) = _
      rw [h1, List.map_cons, List.sum_cons]
      have h2 : current (op.run h s) = advance op.distance (current s) := by
        rcases hh op List.mem_cons_self with hr | ⟨d, rfl⟩
        · cases op with
          | read => exact (current_readFt s).trans (advance_zero _).symm
          | readFt => exact (current_readFt s).trans (advance_zero _).symm
          | write f => exact absurd hr Bool.false_ne_true
          | writeFt F => exact absurd hr Bool.false_ne_true
          | propagate d n => exact absurd hr Bool.false_ne_true
        · exact current_propagate_none h s d
      rw [h2, advance_advance]
  obtain ⟨lag, hl, hv, -⟩ := readFt_lag (run h ⟨F, 0⟩ ops)
  refine ⟨lag, hl, ?_⟩
  rw [hv, key ops _ hh, advance_advance]
  unfold current
  rw [advance_advance, sub_eq_add_neg, zero_add]

/-- A plane wave along the propagation axis is only delayed. -/
theorem kDir_point (ho : o.Proper) (he : ¬ o.Extended) (q : Idx o.grid.shape) : o.kDir q o.axis = 1 := by
  have h0 : ∀ a, o.kappa q a = 0 := fun a => kOf_singleton ho.stepped (fun ha => he ⟨a, ha⟩) q
  have h1 := k_kDir ho q
  have h2 : axial o.k (o.kappa q) = o.k := by
    unfold axial
    simp only [h0]
    simp [Real.sqrt_sq ho.k.le]
  rw [h2] at h1
  exact mul_left_cancel₀ ho.k.ne' (h1.trans (mul_one _).symm)

/-- **C56** is violated for short distances: after propagating a plane wave over 15 nm, reading the field, and propagating 6 nm further, the field that is read is not the field
that is read when it is propagated over 15 nm and over 6 nm without reading in between. -/
theorem C56_violates (ho : o.Proper) (he : ¬ o.Extended) (h : ∀ a, 0 < o.grid.shape a) (hk : o.k * 0.6e-8 < 2 * Real.pi) (F : Arr o P) (c : Fin P.c) (q : Idx o.grid.shape) (hF : F c q ≠ 0) :
    (read (run h ⟨F, 0⟩ [.propagate 1.5e-8 none, .read, .propagate 0.6e-8 none])).1 ≠ (read (run h ⟨F, 0⟩ [.propagate 1.5e-8 none, .propagate 0.6e-8 none])).1 := by
  have e1 : run h ⟨F, 0⟩ [.propagate 1.5e-8 none, .read, .propagate 0.6e-8 none] = ⟨advance 1.5e-8 F, 0.6e-8⟩ := by
    show propagate h (read (propagate h ⟨F, 0⟩ 1.5e-8 none)).2 0.6e-8 none = _
    rw [propagate_none, propagate_none, zero_add]
    unfold read readFt
    rw [if_neg (by norm_num [abs_of_pos]), zero_add]
  have e2 : run h ⟨F, 0⟩ [.propagate 1.5e-8 none, .propagate 0.6e-8 none] = ⟨F, 1.5e-8 + 0.6e-8⟩ := by
    show propagate h (propagate h ⟨F, 0⟩ 1.5e-8 none) 0.6e-8 none = _
    rw [propagate_none, propagate_none, zero_add]
  rw [e1, e2]
  unfold read readFt fieldOf
  rw [if_neg he, if_neg he, if_pos (by norm_num [abs_of_pos]), if_neg (by norm_num [abs_of_pos])]
  intro heq
  have h1 := congrFun (congrFun heq c) q
  rw [← advance_advance] at h1
  have hne : advance 1.5e-8 F c q ≠ 0 := by
    rw [← norm_ne_zero_iff, norm_advance]
    exact norm_ne_zero_iff.2 hF
  change advance 1.5e-8 F c q = advance 1.5e-8 F c q * exp (I * (0.6e-8 * o.k * o.kDir q o.axis : ℝ)) at h1
  rw [kDir_point ho he, mul_one] at h1
  have h2 := mul_left_cancel₀ hne ((mul_one _).trans h1)
  rw [eq_comm, exp_eq_one_iff] at h2
  obtain ⟨n, hn⟩ := h2
  have h3 : (0.6e-8 * o.k : ℝ) = n * (2 * Real.pi) := by
    have h4 : I * ((0.6e-8 * o.k : ℝ) : ℂ) = I * ((n * (2 * Real.pi) : ℝ) : ℂ) := by
      rw [hn]; push_cast; ring
    exact_mod_cast mul_left_cancel₀ I_ne_zero h4
  have hpos : 0 < 0.6e-8 * o.k := mul_pos (by norm_num) ho.k
  have hn1 : (0 : ℝ) < n := by
    by_contra hle
    have := mul_nonpos_of_nonpos_of_nonneg (not_lt.1 hle) (by positivity : 0 ≤ 2 * Real.pi)
    linarith
  have hn2 : (1 : ℝ) ≤ n := by exact_mod_cast (by exact_mod_cast hn1 : (0 : ℤ) < n)
  have := le_mul_of_one_le_left (by positivity : 0 ≤ 2 * Real.pi) hn2
  linarith

/-! ### A concrete case: visible light and a plane wave -/

/-- A single sample. -/
noncomputable def pointGrid : Grid.Obj 3 ℝ where
  shape := fun _ => 1
  step := fun _ => 1
  center := fun _ => 0
  dt := .float
  flat := fun _ => false
  originAtCenter := fun _ => true
  centerAtIndex := fun _ => true
  multidimensional := true
  stepShort := false

/-- Light with a wavelength of about 628 nm in vacuum. -/
noncomputable def pointOptics : Optics := ⟨pointGrid, 0, 1e7, 1⟩

theorem pointOptics_proper : pointOptics.Proper := ⟨rfl, fun _ _ => one_ne_zero, by unfold Optics.k pointOptics; norm_num⟩

theorem pointOptics_point : ¬ pointOptics.Extended := fun ⟨_, h⟩ => absurd h (lt_irrefl 1)

theorem pointOptics_shape : ∀ a, 0 < pointOptics.grid.shape a := fun _ => Nat.one_pos

/-- The hypotheses of `C56_violates` can be met. -/
example : ∃ F : Arr pointOptics scalar,
    (read (run pointOptics_shape ⟨F, 0⟩ [.propagate 1.5e-8 none, .read, .propagate 0.6e-8 none])).1 ≠ (read (run pointOptics_shape ⟨F, 0⟩ [.propagate 1.5e-8 none, .propagate 0.6e-8 none])).1 :=
  ⟨fun _ _ => 1, C56_violates pointOptics_proper pointOptics_point pointOptics_shape (by have := Real.pi_gt_three; show (1e7 * 1 * 0.6e-8 : ℝ) < _; linarith) _ (0 : Fin 1)
    (origin _ pointOptics_shape) one_ne_zero⟩

/-- The hypotheses of `C56_partial` can be met by a history with reads, also in a heterogeneous material. -/
example (n : Idx pointOptics.grid.shape → ℂ) : AllSettled pointOptics_shape (⟨fun _ _ => 1, 0⟩ : Section pointOptics scalar) [.propagate 1e-6 none, .read, .propagate (-1e-6) (some n), .readFt] := by
  have hset : ∀ d : ℝ, Settled (propagate pointOptics_shape (Step.run pointOptics_shape (propagate pointOptics_shape (⟨fun _ _ => 1, 0⟩ : Section pointOptics scalar) 1e-6 none) .read)
      (min (-1e-6) 0) none) := by
    intro d
    rw [propagate_none, propagate_none]
    right
    simp only [Step.run, read]
    rw [(readFt_settled (.inr (by norm_num [abs_of_pos]))).2]
    rw [min_eq_left (by norm_num), zero_add, abs_neg]
    norm_num [abs_of_pos]
  refine ⟨fun d n h => ?_, fun d n h => (nomatch h), fun d n h _ => ?_, fun d n h => (nomatch h), ?_⟩
  · cases h
  · cases h
    exact hset 0
  · show Settled (readFt (propagate pointOptics_shape _ (-1e-6) (some n))).2
    have hp : ∀ x, n x = n (origin _ pointOptics_shape) := fun x => congrArg n (idx_point pointOptics_point _ _)
    have hu : NearUniform (n (origin pointOptics pointOptics_shape)) n := fun x => by
      rw [hp x, sub_self, norm_zero]; positivity
    left
    refine (readFt_settled ?_).2
    rw [propagate_some, propagate_none]
    unfold Settled
    simp only
    rw [distance_interact, if_pos hu, max_eq_right (by norm_num), add_zero]
    exact hset 0

end Verif.Beam
