import Verif.Model.BeamHeap
import Verif.Props.BeamPair

/-!
# Property C71: the arrays that a section has returned
-/

namespace Verif.Beam

open Verif.Fourier Complex

variable {o : Optics} {P : Projection}

/-- The section without its references. -/
def Heap.section (s : Heap o P) : Section o P := ⟨s.cells s.ref, s.distance⟩

/-- An operation, and the reference that it returns. -/
noncomputable def Step.heapRun (h : ∀ a, 0 < o.grid.shape a) (s : Heap o P) : Step o P → Option ℕ × Heap o P
  | .read => (some s.read.1, s.read.2)
  | .readFt => (some s.readFt.1, s.readFt.2)
  | .write f => (none, s.write f)
  | .writeFt F => (none, s.writeFt F)
  | .propagate d n => (none, s.propagate h d n)

theorem heap_readFt (s : Heap o P) : s.readFt.2.section = (readFt s.section).2 ∧ s.readFt.2.cells s.readFt.1 = (readFt s.section).1 ∧ s.readFt.1 = s.ref ∧ s.readFt.2.ref = s.ref ∧
    s.readFt.2.next = s.next ∧ ∀ r ≠ s.ref, s.readFt.2.cells r = s.cells r := by
  unfold Heap.readFt readFt Heap.section
  split_ifs
  · exact ⟨rfl, rfl, rfl, rfl, rfl, fun _ _ => rfl⟩
  · refine ⟨?_, ?_, rfl, rfl, rfl, fun r hr => Function.update_of_ne hr _ _⟩
    · simp [Heap.set]
    · simp [Heap.set]

theorem heap_read (s : Heap o P) (hs : s.ref < s.next) : s.read.2.section = (read s.section).2 ∧ s.read.2.cells s.read.1 = (read s.section).1 ∧ s.read.2.ref = s.ref ∧
    s.next ≤ s.read.2.next ∧ s.read.1 < s.read.2.next ∧ (o.Extended → s.read.1 = s.next) ∧ (¬ o.Extended → s.read.1 = s.ref) ∧ ∀ r < s.next, r ≠ s.ref → s.read.2.cells r = s.cells r := by
  obtain ⟨h1, h2, h3, h4, h5, h6⟩ := heap_readFt s
  unfold Heap.read read
  by_cases he : o.Extended
  · simp only [if_pos he]
    refine ⟨?_, ?_, h4, ?_, ?_, fun _ => h5, fun h => absurd he h, fun r hr hne => ?_⟩
    · rw [← h1]
      unfold Heap.section Heap.alloc
      simp only
      rw [Function.update_of_ne (by rw [h4, h5]; exact hs.ne)]
    · unfold Heap.alloc
      simp only [Function.update_self]
      rw [h2]
    · show s.next ≤ s.readFt.2.next + 1
      omega
    · exact Nat.lt_succ_self _
    · unfold Heap.alloc
      simp only
      rw [Function.update_of_ne (by omega), h6 r hne]
  · simp only [if_neg he]
    refine ⟨h1, ?_, h4, h5.ge, by rw [h3, h5]; exact hs, fun h => absurd h he, fun _ => h3, fun r _ hne => h6 r hne⟩
    rw [h2]
    unfold fieldOf
    rw [if_neg he]

theorem heap_update (s : Heap o P) (F : Arr o P) : (s.update F).section = update F ∧ (s.update F).ref = s.next ∧ (s.update F).next = s.next + 1 ∧
    ∀ r < s.next, (s.update F).cells r = s.cells r := by
  unfold Heap.update Heap.section Heap.alloc
  refine ⟨?_, rfl, rfl, fun r hr => Function.update_of_ne hr.ne _ _⟩
  simp only [Function.update_self]
  rfl

theorem heap_write (s : Heap o P) (f : Arr o P) : (s.write f).section = write f ∧ (s.write f).ref = s.next ∧ (s.write f).next = s.next + 1 ∧ ∀ r < s.next, (s.write f).cells r = s.cells r := by
  unfold Heap.write write
  by_cases he : o.Extended
  · simp only [if_pos he]; exact heap_update s _
  · simp only [if_neg he]; exact heap_update s _

/-- What an operation preserves: it refines the model without references, its own reference stays valid, and it only changes the array that it refers to. -/
structure Refines (s s' : Heap o P) (t : Section o P) : Prop where
  eq : s'.section = t
  valid : s'.ref < s'.next
  mono : s.next ≤ s'.next
  frame : ∀ r < s.next, r ≠ s.ref → s'.cells r = s.cells r ∧ r ≠ s'.ref

theorem heap_interact (s : Heap o P) (hs : s.ref < s.next) (d : ℝ) (n0 : ℂ) (n : Idx o.grid.shape → ℂ) : Refines s (s.interact d n0 n) (interact s.section d n0 n) := by
  unfold Heap.interact interact
  by_cases hn : NearUniform n0 n
  · simp only [if_pos hn]
    split_ifs
    · exact ⟨rfl, hs, le_rfl, fun r _ h => ⟨rfl, h⟩⟩
    · refine ⟨?_, hs, le_rfl, fun r _ h => ⟨Function.update_of_ne h _ _, h⟩⟩
      simp [Heap.section, Heap.set]
  · simp only [if_neg hn]
    obtain ⟨h1, h2, h3, h4, h5, h6, h7, h8⟩ := heap_read s hs
    have hw := fun F => heap_write (s.read.2.set s.read.1 F) ((s.read.2.set s.read.1 F).cells s.read.1)
    have hset : ∀ F, (s.read.2.set s.read.1 F).cells s.read.1 = F := fun F => Function.update_self _ _ _
    refine ⟨?_, ?_, ?_, fun r hr hne => ⟨?_, ?_⟩⟩
    · rw [(hw _).1, hset]
      congr 1
      funext c x
      rw [h2]
    · rw [(hw _).2.1, (hw _).2.2.1]
      exact Nat.lt_succ_self _
    · rw [(hw _).2.2.1]
      exact h4.trans (Nat.le_succ _)
    · rw [(hw _).2.2.2 r (lt_of_lt_of_le hr h4)]
      have hrr : r ≠ s.read.1 := by
        by_cases he : o.Extended
        · rw [h6 he]; omega
        · rw [h7 he]; exact hne
      exact (Function.update_of_ne hrr _ _).trans (h8 r hr hne)
    · rw [(hw _).2.1]
      exact (lt_of_lt_of_le hr h4).ne

theorem heap_propagate (h : ∀ a, 0 < o.grid.shape a) (s : Heap o P) (hs : s.ref < s.next) (d : ℝ) (n : Option (Idx o.grid.shape → ℂ)) :
    Refines s (s.propagate h d n) (propagate h s.section d n) := by
  unfold Heap.propagate propagate
  have hd : ∀ s : Heap o P, s.ref < s.next → ∀ d, Refines s { s with distance := s.distance + d } { s.section with distance := s.section.distance + d } :=
    fun s hs d => ⟨rfl, hs, le_rfl, fun r _ h => ⟨rfl, h⟩⟩
  have hid : ∀ s : Heap o P, s.ref < s.next → Refines s s s.section := fun s hs => ⟨rfl, hs, le_rfl, fun r _ h => ⟨rfl, h⟩⟩
  have trans : ∀ {a b c : Heap o P} {t u : Section o P}, Refines a b t → Refines b c u → Refines a c u := by
    intro a b c t u h1 h2
    refine ⟨h2.eq, h2.valid, h1.mono.trans h2.mono, fun r hr hne => ?_⟩
    obtain ⟨e1, n1⟩ := h1.frame r hr hne
    obtain ⟨e2, n2⟩ := h2.frame r (lt_of_lt_of_le hr h1.mono) n1
    exact ⟨e2.trans e1, n2⟩
  have first : Refines s (if d < 0 then { s with distance := s.distance + d } else s) (if d < 0 then { s.section with distance := s.section.distance + d } else s.section) := by
    split_ifs
    · exact hd s hs d
    · exact hid s hs
  simp only
  generalize (if d < 0 then { s with distance := s.distance + d } else s) = s1 at first ⊢
  generalize (if d < 0 then { s.section with distance := s.section.distance + d } else s.section) = t1 at first ⊢
  have second : Refines s ((n.map fun n => s1.interact d (n (origin o h)) n).getD s1) ((n.map fun n => interact t1 d (n (origin o h)) n).getD t1) := by
    cases n with
    | none => exact first
    | some n =>
      have := heap_interact s1 first.valid d (n (origin o h)) n
      rw [first.eq] at this
      exact trans first this
  generalize ((n.map fun n => s1.interact d (n (origin o h)) n).getD s1) = s2 at second ⊢
  generalize ((n.map fun n => interact t1 d (n (origin o h)) n).getD t1) = t2 at second ⊢
  split_ifs
  · have := hd s2 second.valid d
    rw [second.eq] at this
    exact trans second this
  · exact second

theorem heapRun_refines (h : ∀ a, 0 < o.grid.shape a) (s : Heap o P) (hs : s.ref < s.next) (op : Step o P) : Refines s (op.heapRun h s).2 (op.run h s.section) := by
  cases op with
  | read =>
    obtain ⟨h1, -, h3, h4, -, -, -, h8⟩ := heap_read s hs
    refine ⟨h1, ?_, h4, fun r hr hne => ⟨h8 r hr hne, ?_⟩⟩
    · show s.read.2.ref < s.read.2.next
      omega
    · show r ≠ s.read.2.ref
      rw [h3]; exact hne
  | readFt =>
    obtain ⟨h1, -, -, h4, h5, h6⟩ := heap_readFt s
    refine ⟨h1, ?_, h5.ge, fun r _ hne => ⟨h6 r hne, ?_⟩⟩
    · show s.readFt.2.ref < s.readFt.2.next
      omega
    · show r ≠ s.readFt.2.ref
      rw [h4]; exact hne
  | write f =>
    obtain ⟨h1, h2, h3, h4⟩ := heap_write s f
    refine ⟨h1, ?_, ?_, fun r hr _ => ⟨h4 r hr, ?_⟩⟩
    · show (s.write f).ref < (s.write f).next
      omega
    · show s.next ≤ (s.write f).next
      omega
    · show r ≠ (s.write f).ref
      omega
  | writeFt F =>
    obtain ⟨h1, h2, h3, h4⟩ := heap_update s F
    refine ⟨h1, ?_, ?_, fun r hr _ => ⟨h4 r hr, ?_⟩⟩
    · show (s.update F).ref < (s.update F).next
      omega
    · show s.next ≤ (s.update F).next
      omega
    · show r ≠ (s.update F).ref
      omega
  | propagate d n => exact heap_propagate h s hs d n

/-- A history of operations. -/
noncomputable def heapRun (h : ∀ a, 0 < o.grid.shape a) : Heap o P → List (Step o P) → Heap o P := List.foldl fun s op => (op.heapRun h s).2

theorem heapRun_all (h : ∀ a, 0 < o.grid.shape a) (ops : List (Step o P)) : ∀ s : Heap o P, s.ref < s.next → Refines s (heapRun h s ops) (run h s.section ops) := by
  induction ops with
  | nil => exact fun s hs => ⟨rfl, hs, le_rfl, fun r _ h => ⟨rfl, h⟩⟩
  | cons op ops ih =>
    intro s hs
    have h1 := heapRun_refines h s hs op
    have h2 := ih _ h1.valid
    rw [h1.eq] at h2
    refine ⟨h2.eq, h2.valid, h1.mono.trans h2.mono, fun r hr hne => ?_⟩
    obtain ⟨e1, n1⟩ := h1.frame r hr hne
    obtain ⟨e2, n2⟩ := h2.frame r (lt_of_lt_of_le hr h1.mono) n1
    exact ⟨e2.trans e1, n2⟩

/-- **C71 (refinement).** For all histories, the section with references represents the section without references, of which the other properties are proved. -/
theorem C71_refines (h : ∀ a, 0 < o.grid.shape a) (s : Heap o P) (hs : s.ref < s.next) (ops : List (Step o P)) : (heapRun h s ops).section = run h s.section ops := (heapRun_all h ops s hs).eq

/-- **C71 (values).** The arrays that are returned have the values of the model without references when they are returned. -/
theorem C71_values (s : Heap o P) (hs : s.ref < s.next) : s.read.2.cells s.read.1 = (read s.section).1 ∧ s.readFt.2.cells s.readFt.1 = (readFt s.section).1 :=
  ⟨(heap_read s hs).2.1, (heap_readFt s).2.1⟩

/-- **C71 (partial).** For sections with more than one sample, an array that has been returned by `field` is not changed by the section, whatever is done next.  Missing: the arrays that are
returned by `field_ft`, and sections with a single sample. -/
theorem C71_partial (h : ∀ a, 0 < o.grid.shape a) (he : o.Extended) (s : Heap o P) (hs : s.ref < s.next) (ops : List (Step o P)) :
    (heapRun h s.read.2 ops).cells s.read.1 = s.read.2.cells s.read.1 := by
  obtain ⟨-, -, h3, -, h5, h6, -, -⟩ := heap_read s hs
  have hv : s.read.2.ref < s.read.2.next := by
    have := (heap_read s hs).2.2.2.1
    omega
  exact ((heapRun_all h ops _ hv).frame s.read.1 h5 (by rw [h6 he, h3]; exact hs.ne')).1

/-- A section with a plane wave. -/
noncomputable def heapWave : Heap pair scalar := ⟨fun _ => waveFt 1, 1, 0, 0⟩

/-- **C71** is violated by `field_ft`: the array that it has returned changes when the section is propagated over one micrometre and read again. -/
theorem C71_violates : (heapRun pair_shape heapWave.readFt.2 [.propagate 1e-6 none, .readFt]).cells heapWave.readFt.1 ≠ heapWave.readFt.2.cells heapWave.readFt.1 := by
  have hv : heapWave.ref < heapWave.next := Nat.one_pos
  have e0 : heapWave.readFt = (0, heapWave) := by
    unfold Heap.readFt
    rw [if_pos (by show |(0 : ℝ)| ≤ 1e-8; norm_num)]
    rfl
  rw [e0]
  dsimp only
  have hr := heapRun_all pair_shape [.propagate 1e-6 none, .readFt] heapWave hv
  have hs : heapWave.section = ⟨waveFt 1, 0⟩ := rfl
  have hval : (run pair_shape heapWave.section [.propagate 1e-6 none, .readFt]).fieldFt = advance 1e-6 (waveFt 1) := by
    rw [hs]
    show (readFt (propagate pair_shape ⟨waveFt 1, 0⟩ 1e-6 none)).2.fieldFt = _
    rw [propagate_none, zero_add]
    unfold readFt
    rw [if_neg (by norm_num [abs_of_pos])]
  have href : (heapRun pair_shape heapWave [.propagate 1e-6 none, .readFt]).ref = 0 := by
    show (Heap.propagate pair_shape heapWave 1e-6 none).readFt.2.ref = 0
    rw [(heap_readFt _).2.2.2.1]
    unfold Heap.propagate
    simp only [Option.map_none, Option.getD_none]
    split_ifs <;> rfl
  intro heq
  have h1 := congrArg Section.fieldFt hr.eq
  rw [hval] at h1
  change (heapRun pair_shape heapWave [.propagate 1e-6 none, .readFt]).cells (heapRun pair_shape heapWave [.propagate 1e-6 none, .readFt]).ref = _ at h1
  rw [href, heq] at h1
  change waveFt 1 = _ at h1
  have h3 := congrFun (congrFun h1 (0 : Fin 1)) (at' 0)
  change waveFt 1 (0 : Fin 1) (at' 0) = waveFt 1 (0 : Fin 1) (at' 0) * exp (I * (1e-6 * pair.k * pair.kDir (at' 0) pair.axis : ℝ)) at h3
  rw [kDir_zero_axis, pair_k, show waveFt 1 (0 : Fin 1) (at' 0) = 2 * 1 from if_pos (along_at 0), mul_one (1e-6 * 1e7)] at h3
  have h4 := mul_left_cancel₀ (by norm_num : (2 : ℂ) * 1 ≠ 0) ((mul_one _).trans h3)
  have h5 := congrArg Complex.im h4
  rw [mul_comm, exp_ofReal_mul_I_im] at h5
  norm_num at h5
  have hpi := Real.pi_gt_three
  have hlt := Real.pi_lt_four
  have h6 : Real.sin 10 = -Real.sin (10 - 3 * Real.pi) := by
    rw [show (10 : ℝ) = (10 - 3 * Real.pi) + Real.pi + 2 * Real.pi by ring, Real.sin_add_two_pi, Real.sin_add_pi]
    ring_nf
  have hlt2 := Real.pi_lt_d2
  have := Real.sin_pos_of_pos_of_lt_pi (x := 10 - 3 * Real.pi) (by linarith) (by linarith)
  linarith

end Verif.Beam
