import Verif.Lemmas.SolverCover
import Verif.Props.SolverExamples

/-!
# C114: calculations do not depend on the number of periods, and uniform axes can be left out

The back end repeats all arrays periodically.  The statements are about complete executions, for grids with any number of samples.
-/

namespace Verif.Solver

open Verif Verif.Fourier Verif.Backend Complex Matrix

variable {d d' e n : ℕ} {N : Fin d → ℕ} {N' : Fin d' → ℕ}

/-- The second field has the value of the first one at all points that are related. -/
def CopiedField (R : Idx N → Idx N' → Prop) (F : Field n N) (F' : Field n N') : Prop := ∀ c x x', R x x' → F' c x' = F c x

/-- The second tensor field has the value of the first one at all points that are related. -/
def CopiedTensor (R : Idx N → Idx N' → Prop) (A : Tensor n N) (A' : Tensor n N') : Prop := ∀ x x', R x x' → A' x' = A x

/-- The second material is that of the first at all points that are related. -/
structure CopiedMedium (R : Idx N → Idx N' → Prop) (m : Medium n N) (m' : Medium n N') : Prop where
  epsilon : CopiedTensor R m.epsilon m'.epsilon
  xi : CopiedTensor R m.xi m'.xi
  zeta : CopiedTensor R m.zeta m'.zeta
  mu : CopiedTensor R m.mu m'.mu

/-- All that can be obtained from the second `Solution` is what can be obtained from the first one, at the points that are related. -/
structure CopiedSolution (co : Const) (k0 : ℝ) (k : Fin d → Idx N → ℝ) (k' : Fin d' → Idx N' → ℝ) (i0 : Fin n) (x0 : Idx N) (x0' : Idx N') (R : Idx N → Idx N' → Prop)
    (s : State n N) (s' : State n N') : Prop where
  E : CopiedField R (getE k0 s) (getE k0 s')
  B : CopiedField R (getB co k0 k s) (getB co k0 k' s')
  H : CopiedField R (getH co k0 k i0 x0 s) (getH co k0 k' i0 x0' s')
  D : CopiedField R (getD co k0 k i0 x0 s) (getD co k0 k' i0 x0' s')
  source : CopiedField R (getSource s) (getSource s')
  S : ∀ c x x', R x x' → getS co k0 k' i0 x0' s' c x' = getS co k0 k i0 x0 s c x
  divS : ∀ v v', getDivS co k0 k i0 x0 s = .ok v → getDivS co k0 k' i0 x0' s' = .ok v' → ∀ x x', R x x' → v' x' = v x
  energy : ∀ x x', R x x' → getEnergy co k0 k' i0 x0' s' x' = getEnergy co k0 k i0 x0 s x
  stress : ∀ i j x x', R x x' → getStress co k0 k' i0 x0' s' i j x' = getStress co k0 k i0 x0 s i j x
  force : ∀ v v', getForce co k0 k i0 x0 s = .ok v → getForce co k0 k' i0 x0' s' = .ok v' → ∀ j x x', R x x' → v' j x' = v j x
  alpha : s'.alpha = s.alpha
  iteration : s'.iteration = s.iteration
  residue : (relativeResidue s').1 = (relativeResidue s).1

/-- Both executions raise the same exception, or end in states that are related. -/
def BothRuns (R : State n N → State n N' → Prop) : Except PyErr (State n N) → Except PyErr (State n N') → Prop
  | .ok s, .ok s' => R s s'
  | .error e, .error e' => e = e'
  | _, _ => False

section
variable {k : Fin d → Idx N → ℝ} {k' : Fin d' → Idx N' → ℝ} (t : Cover k k')

theorem sum_waveComponent {N : Fin d → ℕ} (k : Fin d → Idx N → ℝ) (hd : d ≤ n) (F : Fin n → Idx N → ℂ) (x : Idx N) :
    ∑ a : Fin d, I * (k a x : ℂ) * F (Fin.castLE hd a) x = ∑ j : Fin n, I * (waveComponent k j x : ℂ) * F j x := by
  have h1 : ∀ j : Fin n, I * (waveComponent k j x : ℂ) * F j x = ∑ a : Fin d, if Fin.castLE hd a = j then I * (k a x : ℂ) * F (Fin.castLE hd a) x else 0 := by
    intro j
    unfold waveComponent
    by_cases hj : (j : ℕ) < d
    · rw [dif_pos hj, Finset.sum_eq_single ⟨j, hj⟩]
      · have hj' : Fin.castLE hd ⟨j, hj⟩ = j := Fin.ext rfl
        rw [if_pos hj', hj']
      · intro a _ ha
        rw [if_neg]
        intro h
        have hv : (a : ℕ) = j := congrArg Fin.val h
        exact ha (Fin.ext hv)
      · exact fun h => absurd (Finset.mem_univ _) h
    · rw [dif_neg hj]
      simp only [ofReal_zero, zero_mul, mul_zero]
      symm
      refine Finset.sum_eq_zero fun a _ => if_neg fun h => hj ?_
      rw [← h]
      exact a.2
  simp only [h1]
  rw [Finset.sum_comm]
  exact Finset.sum_congr rfl fun a _ => by simp

theorem divTensor_cover {p : ℕ} (F : Fin n → Fin p → Idx N → ℂ) {v : Fin p → Idx N → ℂ} {v' : Fin p → Idx N' → ℂ} (h : divTensor k F = .ok v)
    (h' : divTensor k' (fun i j x' => F i j (t.fold x')) = .ok v') (j : Fin p) (x' : Idx N') : v' j x' = v j (t.fold x') := by
  unfold divTensor divFt at h h'
  by_cases hd : d ≤ n
  · by_cases hd' : d' ≤ n
    · rw [dif_pos hd] at h
      rw [dif_pos hd'] at h'
      obtain rfl := Except.ok.inj h
      obtain rfl := Except.ok.inj h'
      have key := convolve_cover t (n := n) (l := 1) (op := fun F _ q => ∑ j : Fin n, I * (waveComponent k j q : ℂ) * F j q) (op' := fun F _ q => ∑ j : Fin n, I * (waveComponent k' j q : ℂ) * F j q)
        (fun F F' z q hF _ => by
          rw [Finset.mul_sum]
          exact Finset.sum_congr rfl fun j _ => by rw [t.wave, hF]; ring)
        (fun F' q' hF _ => Finset.sum_eq_zero fun j _ => by rw [hF, mul_zero]) (fun i => F i j)
      have key2 := congrFun (congrFun key 0) x'
      have e1 : ∀ {d : ℕ} {N : Fin d → ℕ} (k : Fin d → Idx N → ℝ) (hd : d ≤ n) (G : Fin n → Idx N → ℂ), (fun x => ∑ a : Fin d, I * (k a x : ℂ) * ft (G (Fin.castLE hd a)) x) =
          fun x => ∑ j : Fin n, I * (waveComponent k j x : ℂ) * ft (G j) x := fun k hd G => funext fun x => sum_waveComponent k hd (fun c => ft (G c)) x
      show ift (fun x => ∑ a : Fin d', I * (k' a x : ℂ) * ft (fun x' => F (Fin.castLE hd' a) j (t.fold x')) x) x' = ift (fun x => ∑ a : Fin d, I * (k a x : ℂ) * ft (F (Fin.castLE hd a) j) x) (t.fold x')
      rw [e1 k hd fun i => F i j, e1 k' hd' fun i x' => F i j (t.fold x')]
      exact key2
    · rw [dif_neg hd'] at h'
      cases h'
  · rw [dif_neg hd] at h
    cases h

theorem copied_solution (kind : Kind d n) (co : Const) (k0 : ℝ) (i0 : Fin n) (x0' : Idx N') (s : State n N) :
    CopiedSolution co k0 k k' i0 (t.fold x0') x0' (fun x x' => t.fold x' = x) s (t.state s) := by
  have hE : getE k0 (t.state s) = t.field (getE k0 s) := rfl
  have hH := getH_cover t kind co k0 i0 x0' s
  have hD := getD_cover t kind co k0 i0 x0' s
  have hB : getB co k0 k' (t.state s) = t.field (getB co k0 k s) := by
    unfold getB
    rw [hE, curl_cover t kind]
    rfl
  have hS : ∀ c x', getS co k0 k' i0 x0' (t.state s) c x' = getS co k0 k i0 (t.fold x0') s c (t.fold x') := by
    intro c x'
    unfold getS
    rw [hE, hH]
    rfl
  have hT : ∀ i j x', getStress co k0 k' i0 x0' (t.state s) i j x' = getStress co k0 k i0 (t.fold x0') s i j (t.fold x') := by
    intro i j x'
    unfold getStress
    rw [hE, hH]
    rfl
  refine ⟨?_, ?_, ?_, ?_, ?_, ?_, ?_, ?_, ?_, ?_, rfl, rfl, residue_cover t s⟩
  · rintro c x x' rfl; rfl
  · rintro c x x' rfl; rw [hB]; rfl
  · rintro c x x' rfl; rw [hH]; rfl
  · rintro c x x' rfl; rw [hD]; rfl
  · rintro c x x' rfl; rfl
  · rintro c x x' rfl; exact hS c x'
  · rintro v v' h h' x x' rfl
    unfold getDivS at h h'
    simp only [hS] at h'
    have e : ∀ {d : ℕ} {N : Fin d → ℕ} (k : Fin d → Idx N → ℝ) (F : Fin n → Idx N → ℂ) v, div k F = .ok v → divTensor (p := 1) k (fun i _ => F i) = .ok fun _ => v := by
      intro d N k F v h
      unfold div at h
      unfold divTensor
      unfold divFt at h ⊢
      split_ifs at h ⊢ with hd
      · obtain rfl := Except.ok.inj h
        rfl
      · cases h
    exact divTensor_cover t (fun i _ x => (getS co k0 k i0 (t.fold x0') s i x : ℂ)) (e k _ v h) (e k' _ v' h') 0 x'
  · rintro x x' rfl
    unfold getEnergy
    rw [hE, hD, hB, hH]
    rfl
  · rintro i j x x' rfl; exact hT i j x'
  · rintro v v' h h' j x x' rfl
    unfold getForce at h h'
    simp only [hT] at h'
    cases h1 : divTensor k fun i j x => (getStress co k0 k i0 (t.fold x0') s i j x : ℂ) with
    | error => rw [h1] at h; cases h
    | ok w =>
      cases h2 : divTensor k' fun i j x' => (getStress co k0 k i0 (t.fold x0') s i j (t.fold x') : ℂ) with
      | error => rw [h2] at h'; cases h'
      | ok w' =>
        rw [h1] at h
        rw [h2] at h'
        obtain rfl := Except.ok.inj h
        obtain rfl := Except.ok.inj h'
        have := divTensor_cover t _ h1 h2 j x'
        dsimp only
        rw [this]

theorem copied_run (kind : Kind d n) (kind' : Kind d' n) (co : Const) (k0 : ℝ) (i0 : Fin n) (x0 : Idx N) (x0' : Idx N') {R : Idx N → Idx N' → Prop} (hR : ∀ x x', R x x' ↔ t.fold x' = x) (h0 : R x0 x0')
    {m : Medium n N} {m' : Medium n N'} {S F : Field n N} {S' F' : Field n N'} (hm : CopiedMedium R m m') (hS : CopiedField R S S') (hF : CopiedField R F F') (mag : Bool) (alpha : ℂ) (beta : ℝ) (i : ℕ) :
    BothRuns (CopiedSolution co k0 k k' i0 x0 x0' R) (run kind k (prepare m mag alpha beta S F) i) (run kind' k' (prepare m' mag alpha beta S' F') i) := by
  obtain rfl : (fun x x' => t.fold x' = x) = R := funext fun x => funext fun x' => propext (hR x x').symm
  have hf : ∀ {F : Field n N} {F' : Field n N'}, CopiedField (fun x x' => t.fold x' = x) F F' → F' = t.field F := fun h => funext fun c => funext fun x' => h c _ x' rfl
  have ht : ∀ {A : Tensor n N} {A' : Tensor n N'}, CopiedTensor (fun x x' => t.fold x' = x) A A' → A' = t.tensor A := fun h => funext fun x' => h _ x' rfl
  have hm' : m' = t.medium m := by
    cases m' with
    | mk e x z u =>
      obtain ⟨h1, h2, h3, h4⟩ := hm
      have e1 := ht h1
      have e2 := ht h2
      have e3 := ht h3
      have e4 := ht h4
      dsimp only at e1 e2 e3 e4
      subst e1 e2 e3 e4
      rfl
  obtain rfl : t.fold x0' = x0 := h0
  rw [hm', hf hS, hf hF, prepare_cover, run_cover t kind kind']
  cases h : run kind k (prepare m mag alpha beta S F) i with
  | error e => exact rfl
  | ok s => exact copied_solution t kind co k0 i0 x0' s

end

/-! ### C114 -/

/-- The points of several periods, relative to those of the unit cell: the indices are equal modulo the number of samples of the unit cell. -/
def SamePhase (r : Fin d → ℕ) (x : Idx N) (x' : Idx fun a => r a * N a) : Prop := ∀ a, (x' a : ℕ) % N a = x a

/-- **C114 (periods).** Where the material, the source and the initial field of a calculation on `r a` periods along each axis are copies of those of a calculation on one period, all fields in all iterations
are copies, for all grids, materials and sources, for scalar and vectorial calculations.  Biases, residues and exceptions are the same. -/
theorem C114_periods (kind : Kind d n) (g : Grid.Obj d ℝ) (hN : ∀ a, 0 < g.shape a) (hs : ∀ a, g.step a ≠ 0) {k0 : ℝ} (hk0 : k0 ≠ 0) {r : Fin d → ℕ} (hr : ∀ a, 0 < r a) (co : Const) (i0 : Fin n)
    (x0 : Idx g.shape) (x0' : Idx (repeatedGrid g r).shape) (h0 : SamePhase r x0 x0') {m : Medium n g.shape} {m' : Medium n (repeatedGrid g r).shape} {S F : Field n g.shape}
    {S' F' : Field n (repeatedGrid g r).shape} (hm : CopiedMedium (SamePhase r) m m') (hS : CopiedField (SamePhase r) S S') (hF : CopiedField (SamePhase r) F F') (mag : Bool) (alpha : ℂ) (beta : ℝ) (i : ℕ) :
    BothRuns (CopiedSolution co k0 (backendK g k0) (backendK (repeatedGrid g r) k0) i0 x0 x0' (SamePhase r)) (run kind (backendK g k0) (prepare m mag alpha beta S F) i)
      (run kind (backendK (repeatedGrid g r) k0) (prepare m' mag alpha beta S' F') i) :=
  copied_run (periods g hN hs hk0 hr) kind kind co k0 i0 x0 x0' (fun _ _ => ⟨fun h => funext fun a => Fin.ext (h a), fun h a => congrArg (fun y : Idx g.shape => ((y a : Fin _) : ℕ)) h⟩) h0 hm hS hF mag alpha beta i

/-- The points of a grid with additional axes, relative to those of the grid without: along the first axes the indices are equal modulo the number of samples; the others do not matter. -/
def SameSection (g : Grid.Obj d ℝ) (h : Grid.Obj e ℝ) (r : Fin (d + e) → ℕ) (x : Idx g.shape) (x' : Idx (repeatedGrid (extendedGrid g h) r).shape) : Prop :=
  ∀ a : Fin d, (x' (Fin.castAdd e a) : ℕ) % g.shape a = x a

/-- The step of no axis is zero. -/
theorem extended_step {g : Grid.Obj d ℝ} {h : Grid.Obj e ℝ} (hs : ∀ a, g.step a ≠ 0) (hs' : ∀ b, h.step b ≠ 0) (a : Fin (d + e)) : (extendedGrid g h).step a ≠ 0 := by
  refine Fin.addCases (fun a => ?_) (fun b => ?_) a
  · rw [show (extendedGrid g h).step (Fin.castAdd e a) = g.step a from Fin.append_left _ _ _]; exact hs a
  · rw [show (extendedGrid g h).step (Fin.natAdd d b) = h.step b from Fin.append_right _ _ _]; exact hs' b

theorem extended_shape {g : Grid.Obj d ℝ} {h : Grid.Obj e ℝ} (hN : ∀ a, 0 < g.shape a) (hM : ∀ b, h.shape b = 1) (a : Fin (d + e)) : 0 < (extendedGrid g h).shape a := by
  refine Fin.addCases (fun a => ?_) (fun b => ?_) a
  · rw [extendedGrid_first]; exact hN a
  · rw [extendedGrid_last, hM]; exact one_pos

/-- More axes and more periods. -/
noncomputable def sections (g : Grid.Obj d ℝ) (h : Grid.Obj e ℝ) (hN : ∀ a, 0 < g.shape a) (hM : ∀ b, h.shape b = 1) (hs : ∀ a, g.step a ≠ 0) (hs' : ∀ b, h.step b ≠ 0) {k0 : ℝ} (hk0 : k0 ≠ 0)
    {r : Fin (d + e) → ℕ} (hr : ∀ a, 0 < r a) : Cover (backendK g k0) (backendK (repeatedGrid (extendedGrid g h) r) k0) :=
  (moreAxes g h hM hs hs' hk0).trans (periods (extendedGrid g h) (extended_shape hN hM) (extended_step hs hs') hk0 hr)

theorem sameSection_iff (g : Grid.Obj d ℝ) (h : Grid.Obj e ℝ) (hN : ∀ a, 0 < g.shape a) (hM : ∀ b, h.shape b = 1) (hs : ∀ a, g.step a ≠ 0) (hs' : ∀ b, h.step b ≠ 0) {k0 : ℝ} (hk0 : k0 ≠ 0)
    {r : Fin (d + e) → ℕ} (hr : ∀ a, 0 < r a) (x : Idx g.shape) (x' : Idx (repeatedGrid (extendedGrid g h) r).shape) :
    SameSection g h r x x' ↔ (sections g h hN hM hs hs' hk0 hr).fold x' = x := by
  have key : ∀ a : Fin d, (((sections g h hN hM hs hs' hk0 hr).fold x' a : Fin (g.shape a)) : ℕ) = (x' (Fin.castAdd e a) : ℕ) % g.shape a := by
    intro a
    show (x' (Fin.castAdd e a) : ℕ) % (extendedGrid g h).shape (Fin.castAdd e a) = _
    rw [extendedGrid_first]
  constructor
  · intro hx
    exact funext fun a => Fin.ext ((key a).trans (hx a))
  · rintro rfl a
    exact (key a).symm

/-- **C114 (axes).** Where material, source and initial field do not depend on the positions along the last `e` axes, however many samples there are along these, the fields are in all iterations those of the calculation
without these axes, for any number of components and any number of periods along the other axes.  (Here `h` gives the steps of the additional axes and `r` their numbers of samples.) -/
theorem C114_axes (kind : Kind d n) (kind' : Kind (d + e) n) (g : Grid.Obj d ℝ) (h : Grid.Obj e ℝ) (hN : ∀ a, 0 < g.shape a) (hM : ∀ b, h.shape b = 1) (hs : ∀ a, g.step a ≠ 0) (hs' : ∀ b, h.step b ≠ 0)
    {k0 : ℝ} (hk0 : k0 ≠ 0) {r : Fin (d + e) → ℕ} (hr : ∀ a, 0 < r a) (co : Const) (i0 : Fin n) (x0 : Idx g.shape) (x0' : Idx (repeatedGrid (extendedGrid g h) r).shape) (h0 : SameSection g h r x0 x0')
    {m : Medium n g.shape} {m' : Medium n (repeatedGrid (extendedGrid g h) r).shape} {S F : Field n g.shape} {S' F' : Field n (repeatedGrid (extendedGrid g h) r).shape}
    (hm : CopiedMedium (SameSection g h r) m m') (hS : CopiedField (SameSection g h r) S S') (hF : CopiedField (SameSection g h r) F F') (mag : Bool) (alpha : ℂ) (beta : ℝ) (i : ℕ) :
    BothRuns (CopiedSolution co k0 (backendK g k0) (backendK (repeatedGrid (extendedGrid g h) r) k0) i0 x0 x0' (SameSection g h r)) (run kind (backendK g k0) (prepare m mag alpha beta S F) i)
      (run kind' (backendK (repeatedGrid (extendedGrid g h) r) k0) (prepare m' mag alpha beta S' F') i) :=
  copied_run (sections g h hN hM hs hs' hk0 hr) kind kind' co k0 i0 x0 x0' (sameSection_iff g h hN hM hs hs' hk0 hr) h0 hm hS hF mag alpha beta i

/-! ### The preconditioner constants -/

section
variable {R : Idx N → Idx N' → Prop} (hleft : ∀ x, ∃ x', R x x') (hright : ∀ x', ∃ x, R x x')
include hleft hright

theorem exists_copied {A : Tensor n N} {A' : Tensor n N'} (h : CopiedTensor R A A') (P : Matrix (Fin n) (Fin n) ℂ → Prop) : (∃ x', P (A' x')) ↔ ∃ x, P (A x) := by
  constructor
  · rintro ⟨x', hx⟩
    obtain ⟨x, hR⟩ := hright x'
    exact ⟨x, h x x' hR ▸ hx⟩
  · rintro ⟨x, hx⟩
    obtain ⟨x', hR⟩ := hleft x
    exact ⟨x', (h x x' hR).symm ▸ hx⟩

theorem forall_copied {A : Tensor n N} {A' : Tensor n N'} (h : CopiedTensor R A A') (P : Matrix (Fin n) (Fin n) ℂ → Prop) : (∀ x', P (A' x')) ↔ ∀ x, P (A x) := by
  have := exists_copied hleft hright h fun M => ¬ P M
  rw [← not_iff_not]
  push Not
  exact this

theorem largestEigenvalue_copied {A : Tensor n N} {A' : Tensor n N'} (h : CopiedTensor R A A') : largestEigenvalue A' = largestEigenvalue A := by
  unfold largestEigenvalue
  congr 1
  ext v
  exact exists_copied hleft hright h fun M => ∃ z ∈ M.charpoly.roots, v = ‖z‖

theorem largestSingularValue_copied {A : Tensor n N} {A' : Tensor n N'} (h : CopiedTensor R A A') : largestSingularValue A' = largestSingularValue A := by
  unfold largestSingularValue
  rw [largestEigenvalue_copied hleft hright (A := fun x => (A x)ᴴ * A x)]
  intro x x' hR
  show (A' x')ᴴ * A' x' = (A x)ᴴ * A x
  rw [h x x' hR]

theorem hasGain_copied (tol : ℝ) {A : Tensor n N} {A' : Tensor n N'} (h : CopiedTensor R A A') : hasGain tol A' ↔ hasGain tol A :=
  exists_copied hleft hright h fun M => ∃ z ∈ ((-I / 2) • (M - Mᴴ)).charpoly.roots, z.re < -tol

theorem hasLoss_copied (tol : ℝ) {A : Tensor n N} {A' : Tensor n N'} (h : CopiedTensor R A A') : hasLoss tol A' ↔ hasLoss tol A :=
  hasGain_copied hleft hright tol fun x x' hR => by rw [h x x' hR]

/-- **C114 (constants).** Whether the calculation is magnetic, and the constants of the preconditioner, are the same for copies.  For magnetic media this requires that the step sizes are the same; what the
optimization routine has returned is given. -/
theorem C114_constants {m : Medium n N} {m' : Medium n N'} (hm : CopiedMedium R m m') (x0 : Idx N) (x0' : Idx N') (h0 : R x0 x0') (i0 : Fin n) (tol k0 : ℝ) (thickness : List ℝ) :
    (∀ b, m'.isMagnetic b x0' = m.isMagnetic b x0) ∧ (∀ alphaR, m'.constantsNonMagnetic tol k0 thickness i0 x0' alphaR = m.constantsNonMagnetic tol k0 thickness i0 x0 alphaR) ∧
      ∀ (pitch : Fin d → ℝ) (pitch' : Fin d' → ℝ) vec, sigmaD pitch' k0 = sigmaD pitch k0 → m'.constantsMagnetic pitch' k0 thickness vec = m.constantsMagnetic pitch k0 thickness vec := by
  have hinv : CopiedTensor R m.muInv m'.muInv := fun x x' hR => by unfold Medium.muInv; rw [hm.mu x x' hR]
  have heps : CopiedTensor R m.epsilonPrime m'.epsilonPrime := fun x x' hR => by
    unfold Medium.epsilonPrime Medium.chiHEBeta
    simp only [hm.epsilon x x' hR, hm.xi x x' hR, hm.zeta x x' hR, hinv x x' hR]
  have hEE : ∀ a b, m'.sigmaEE a b = m.sigmaEE a b := fun a b => by
    unfold Medium.sigmaEE
    rw [largestEigenvalue_copied hleft hright (A := m.deltaEEBeta2 a b)]
    intro x x' hR
    unfold Medium.deltaEEBeta2
    rw [heps x x' hR]
  refine ⟨fun b => ?_, fun a => ?_, fun p p' vec hp => ?_⟩
  · unfold Medium.isMagnetic
    rw [hm.mu x0 x0' h0]
    have e1 := forall_copied hleft hright hm.xi (· = 0)
    have e2 := forall_copied hleft hright hm.zeta (· = 0)
    have e3 := forall_copied hleft hright hm.mu (· = m.mu x0)
    simp only [e1, e2, e3]
  · have hb : m'.betaNonMagnetic i0 x0' = m.betaNonMagnetic i0 x0 := by
      unfold Medium.betaNonMagnetic
      rw [hinv x0 x0' h0]
    have ht : m'.transposed tol ↔ m.transposed tol := by
      unfold Medium.transposed
      rw [hasGain_copied hleft hright tol hm.epsilon, hasGain_copied hleft hright tol hm.xi, hasGain_copied hleft hright tol hm.zeta, hasGain_copied hleft hright tol hm.mu,
        hasLoss_copied hleft hright tol hm.epsilon, hasLoss_copied hleft hright tol hm.xi, hasLoss_copied hleft hright tol hm.zeta, hasLoss_copied hleft hright tol hm.mu]
    unfold Medium.constantsNonMagnetic
    simp only [hb, hEE]
    by_cases h : m.transposed tol
    · rw [if_pos h, if_pos (ht.2 h)]
    · rw [if_neg h, if_neg fun h' => h (ht.1 h')]
  · unfold Medium.constantsMagnetic Medium.singularValueSum
    have hHH : ∀ b, m'.sigmaHH b = m.sigmaHH b := fun b => by
      unfold Medium.sigmaHH
      rw [largestEigenvalue_copied hleft hright (A := m.chiHHBeta2 b)]
      intro x x' hR
      unfold Medium.chiHHBeta2
      rw [hinv x x' hR]
    have hEH : largestSingularValue m'.chiEHBeta = largestSingularValue m.chiEHBeta := largestSingularValue_copied hleft hright fun x x' hR => by
      unfold Medium.chiEHBeta
      simp only [hinv x x' hR, hm.xi x x' hR]
    have hHE : largestSingularValue m'.chiHEBeta = largestSingularValue m.chiHEBeta := largestSingularValue_copied hleft hright fun x x' hR => by
      unfold Medium.chiHEBeta
      simp only [hinv x x' hR, hm.zeta x x' hR]
    simp only [hp, hHH, hEH, hHE, hEE]

end

/-- **C114 (constants of several periods).** There are points that are related to each, and the steps are the same, so that the constants of the preconditioner do not depend on the number of periods, for magnetic
materials also. -/
theorem C114_constants_periods (g : Grid.Obj d ℝ) (hN : ∀ a, 0 < g.shape a) {r : Fin d → ℕ} (hr : ∀ a, 0 < r a) {m : Medium n g.shape} {m' : Medium n (repeatedGrid g r).shape}
    (hm : CopiedMedium (SamePhase r) m m') (x0 : Idx g.shape) (x0' : Idx (repeatedGrid g r).shape) (h0 : SamePhase r x0 x0') (i0 : Fin n) (tol k0 : ℝ) (thickness : List ℝ) :
    (∀ b, m'.isMagnetic b x0' = m.isMagnetic b x0) ∧ (∀ alphaR, m'.constantsNonMagnetic tol k0 thickness i0 x0' alphaR = m.constantsNonMagnetic tol k0 thickness i0 x0 alphaR) ∧
      ∀ vec, m'.constantsMagnetic (repeatedGrid g r).step k0 thickness vec = m.constantsMagnetic g.step k0 thickness vec := by
  have hleft : ∀ x : Idx g.shape, ∃ x' : Idx (repeatedGrid g r).shape, SamePhase r x x' := fun x =>
    ⟨fun a => ⟨x a, lt_of_lt_of_le (x a).2 (Nat.le_mul_of_pos_left _ (hr a))⟩, fun a => Nat.mod_eq_of_lt (x a).2⟩
  have hright : ∀ x' : Idx (repeatedGrid g r).shape, ∃ x : Idx g.shape, SamePhase r x x' := fun x' => ⟨fun a => ⟨(x' a : ℕ) % g.shape a, Nat.mod_lt _ (hN a)⟩, fun a => rfl⟩
  obtain ⟨h1, h2, h3⟩ := C114_constants hleft hright hm x0 x0' h0 i0 tol k0 thickness
  exact ⟨h1, h2, fun vec => h3 _ _ vec rfl⟩

theorem sigmaD_lt (p : Fin d → ℝ) (p' : Fin e → ℝ) (he : 0 < e) (hp : ∀ b, p' b ≠ 0) {k0 : ℝ} (hk0 : 0 < k0) : sigmaD p k0 < sigmaD (Fin.append p p') k0 := by
  unfold sigmaD
  refine div_lt_div_of_pos_right (Real.sqrt_lt_sqrt (Finset.sum_nonneg fun a _ => sq_nonneg _) ?_) hk0
  rw [Fin.sum_univ_add]
  simp only [Fin.append_left, Fin.append_right]
  refine lt_add_of_pos_right _ (Finset.sum_pos (fun b _ => ?_) ⟨⟨0, he⟩, Finset.mem_univ _⟩)
  have := hp b
  have := Real.pi_ne_zero
  positivity

/-- **C114 (magnetic materials, more axes; refuted).** For magnetic materials, the bias is larger in calculations with additional axes, and more so when these are sampled more finely, even if nothing depends on the positions
along these axes: the bound of the derivatives accounts for all axes with a step size (solver.py 407), so that iterations differ and convergence is slower. -/
theorem C114_magnetic_axes_violates (m : Medium n N) (m' : Medium n N') {R : Idx N → Idx N' → Prop} (hleft : ∀ x, ∃ x', R x x') (hright : ∀ x', ∃ x, R x x') (hm : CopiedMedium R m m') (p : Fin d → ℝ)
    (p' : Fin e → ℝ) (he : 0 < e) (hp : ∀ b, p' b ≠ 0) (hd : d' = d + e) {k0 : ℝ} (hk0 : 0 < k0) (vec : ℝ × ℝ) (hH : 0 < m.sigmaHH (vec.2 ^ 2)) :
    (m.constantsMagnetic p k0 [] vec).1.im < (m'.constantsMagnetic (fun a => Fin.append p p' (Fin.cast hd a)) k0 [] vec).1.im := by
  subst hd
  have hs := sigmaD_lt p p' he hp hk0
  have hs0 : 0 ≤ sigmaD p k0 := div_nonneg (Real.sqrt_nonneg _) hk0.le
  have hinv : CopiedTensor R m.muInv m'.muInv := fun x x' hR => by unfold Medium.muInv; rw [hm.mu x x' hR]
  have hHH : m'.sigmaHH (vec.2 ^ 2) = m.sigmaHH (vec.2 ^ 2) := by
    unfold Medium.sigmaHH
    rw [largestEigenvalue_copied hleft hright (A := m.chiHHBeta2 (vec.2 ^ 2))]
    intro x x' hR
    unfold Medium.chiHHBeta2
    rw [hinv x x' hR]
  have hEH : largestSingularValue m'.chiEHBeta = largestSingularValue m.chiEHBeta := largestSingularValue_copied hleft hright fun x x' hR => by
    unfold Medium.chiEHBeta
    simp only [hinv x x' hR, hm.xi x x' hR]
  have hHE : largestSingularValue m'.chiHEBeta = largestSingularValue m.chiHEBeta := largestSingularValue_copied hleft hright fun x x' hR => by
    unfold Medium.chiHEBeta
    simp only [hinv x x' hR, hm.zeta x x' hR]
  have hEE : m'.sigmaEE vec.1 (vec.2 ^ 2) = m.sigmaEE vec.1 (vec.2 ^ 2) := by
    unfold Medium.sigmaEE
    rw [largestEigenvalue_copied hleft hright (A := m.deltaEEBeta2 vec.1 (vec.2 ^ 2))]
    intro x x' hR
    unfold Medium.deltaEEBeta2 Medium.epsilonPrime Medium.chiHEBeta
    simp only [hm.epsilon x x' hR, hm.xi x x' hR, hm.zeta x x' hR, hinv x x' hR]
  have key : m.singularValueSum p k0 vec.1 (vec.2 ^ 2) < m'.singularValueSum (Fin.append p p') k0 vec.1 (vec.2 ^ 2) := by
    unfold Medium.singularValueSum
    rw [hHH, hEH, hHE, hEE]
    have h1 : sigmaD p k0 ^ 2 < sigmaD (Fin.append p p') k0 ^ 2 := pow_lt_pow_left₀ hs hs0 two_ne_zero
    have h2 := mul_lt_mul_of_pos_right h1 hH
    have h3 : 0 ≤ largestSingularValue m.chiEHBeta + largestSingularValue m.chiHEBeta := add_nonneg (Real.sqrt_nonneg _) (Real.sqrt_nonneg _)
    have h4 : sigmaD p k0 * (largestSingularValue m.chiEHBeta + largestSingularValue m.chiHEBeta) / |vec.2 ^ 2| ≤
        sigmaD (Fin.append p p') k0 * (largestSingularValue m.chiEHBeta + largestSingularValue m.chiHEBeta) / |vec.2 ^ 2| :=
      div_le_div_of_nonneg_right (mul_le_mul_of_nonneg_right hs.le h3) (abs_nonneg _)
    linarith
  show (increaseBias k0 [] _).im < (increaseBias k0 [] _).im
  unfold increaseBias
  simpa using key

/-! ### Solutions -/

section
variable {k : Fin d → Idx N → ℝ} {k' : Fin d' → Idx N' → ℝ} (t : Cover k k')

theorem specCurl_cover (F : Field 3 N) : Spec.Solver.curl k' (t.field F) = t.field (Spec.Solver.curl k F) := by
  have hk : ∀ q, Spec.Backend.kVector k' (t.emb q) = Spec.Backend.kVector k q := by
    intro q
    funext c
    have := t.wave c q
    unfold waveComponent at this
    unfold Spec.Backend.kVector
    by_cases h : (c : ℕ) < d <;> by_cases h' : (c : ℕ) < d' <;> simp only [h, h', dif_pos, dif_neg, not_false_eq_true] at this ⊢
    · rw [this]
    · exact absurd (lt_of_lt_of_le h t.axes) h'
    · rw [this, ofReal_zero]
  exact convolve_cover t (op := fun F c q => I * crossProduct (Spec.Backend.kVector k q) (fun c' => F c' q) c) (op' := fun F c q => I * crossProduct (Spec.Backend.kVector k' q) (fun c' => F c' q) c)
    (fun F F' z q h c => by
      rw [hk, funext h, show (fun c' => z * F c' q) = z • fun c' => F c' q from rfl, LinearMap.map_smul]
      simp only [Pi.smul_apply, smul_eq_mul]
      ring)
    (fun F' q' h c => by
      rw [funext h, show (fun _ : Fin 3 => (0 : ℂ)) = 0 from rfl, LinearMap.map_zero]
      simp) F

theorem specLaplacian_cover (f : Idx N → ℂ) : Spec.Solver.negLaplacian k' (fun x' => f (t.fold x')) = fun x' => Spec.Solver.negLaplacian k f (t.fold x') := by
  have h2 : ∀ q, ∑ a, (k' a (t.emb q) : ℂ) ^ 2 = ∑ a, (k a q : ℂ) ^ 2 := by
    intro q
    have := t.square q
    unfold k2 at this
    exact_mod_cast congrArg (fun v : ℝ => (v : ℂ)) this
  have := convolve_cover t (n := 1) (l := 1) (op := fun F _ q => (∑ a, (k a q : ℂ) ^ 2) * F 0 q) (op' := fun F _ q => (∑ a, (k' a q : ℂ) ^ 2) * F 0 q)
    (fun F F' z q h c => by rw [h2, h]; ring) (fun F' q' h c => by rw [h, mul_zero]) (fun _ => f)
  exact congrFun this 0

theorem Cover.fold_surjective (x : Idx N) : ∃ x', t.fold x' = x := by
  by_contra h
  push Not at h
  have := t.sum fun y => if y = x then 1 else 0
  simp [h] at this
  exact t.w_pos.ne (by exact_mod_cast this)

theorem copied_equation (k0 : ℝ) {R : Idx N → Idx N' → Prop} (hR : ∀ x x', R x x' ↔ t.fold x' = x) {epsilon mu : Tensor 3 N} {epsilon' mu' : Tensor 3 N'} {S E : Field 3 N} {S' E' : Field 3 N'}
    (he : CopiedTensor R epsilon epsilon') (hu : CopiedTensor R mu mu') (hS : CopiedField R S S') (hE : CopiedField R E E') :
    Spec.Solver.WaveEquation k' k0 epsilon' mu' S' E' ↔ Spec.Solver.WaveEquation k k0 epsilon mu S E := by
  obtain rfl : (fun x x' => t.fold x' = x) = R := funext fun x => funext fun x' => propext (hR x x').symm
  obtain rfl : E' = t.field E := funext fun c => funext fun x' => hE c _ x' rfl
  obtain rfl : S' = t.field S := funext fun c => funext fun x' => hS c _ x' rfl
  obtain rfl : epsilon' = t.tensor epsilon := funext fun x' => he _ x' rfl
  obtain rfl : mu' = t.tensor mu := funext fun x' => hu _ x' rfl
  unfold Spec.Solver.WaveEquation
  rw [specCurl_cover, show Spec.Solver.act (fun x => (t.tensor mu x)⁻¹) (t.field (Spec.Solver.curl k E)) = t.field (Spec.Solver.act (fun x => (mu x)⁻¹) (Spec.Solver.curl k E)) from rfl, specCurl_cover]
  constructor
  · intro h c x
    obtain ⟨x', rfl⟩ := t.fold_surjective x
    exact h c x'
  · intro h c x'
    exact h c (t.fold x')

theorem copied_scalar_equation (k0 : ℝ) {R : Idx N → Idx N' → Prop} (hR : ∀ x x', R x x' ↔ t.fold x' = x) {epsilon S E : Idx N → ℂ} {epsilon' S' E' : Idx N' → ℂ} (mu : ℂ)
    (he : ∀ x x', R x x' → epsilon' x' = epsilon x) (hS : ∀ x x', R x x' → S' x' = S x) (hE : ∀ x x', R x x' → E' x' = E x) :
    Spec.Solver.ScalarWaveEquation k' k0 epsilon' mu S' E' ↔ Spec.Solver.ScalarWaveEquation k k0 epsilon mu S E := by
  obtain rfl : (fun x x' => t.fold x' = x) = R := funext fun x => funext fun x' => propext (hR x x').symm
  obtain rfl : E' = fun x' => E (t.fold x') := funext fun x' => hE _ x' rfl
  obtain rfl : S' = fun x' => S (t.fold x') := funext fun x' => hS _ x' rfl
  obtain rfl : epsilon' = fun x' => epsilon (t.fold x') := funext fun x' => he _ x' rfl
  unfold Spec.Solver.ScalarWaveEquation
  rw [specLaplacian_cover]
  constructor
  · intro h x
    obtain ⟨x', rfl⟩ := t.fold_surjective x
    exact h x'
  · intro h x'
    exact h (t.fold x')

end

theorem kOf_eq (g : Grid.Obj d ℝ) (hs : ∀ a, g.step a ≠ 0) : kOf g = backendK g 1 := funext fun a => funext fun x => by rw [C31_backend g hs one_ne_zero, one_mul]

/-- **C114 (equations).** The wave equation holds for copies, on a grid with additional axes and periods, if and only if it holds for the original: this is what permits the calculations to be the same. -/
theorem C114_equation (g : Grid.Obj d ℝ) (h : Grid.Obj e ℝ) (hN : ∀ a, 0 < g.shape a) (hM : ∀ b, h.shape b = 1) (hs : ∀ a, g.step a ≠ 0) (hs' : ∀ b, h.step b ≠ 0) (k0 : ℝ)
    {r : Fin (d + e) → ℕ} (hr : ∀ a, 0 < r a) {epsilon mu : Tensor 3 g.shape} {epsilon' mu' : Tensor 3 (repeatedGrid (extendedGrid g h) r).shape} {S E : Field 3 g.shape}
    {S' E' : Field 3 (repeatedGrid (extendedGrid g h) r).shape} (he : CopiedTensor (SameSection g h r) epsilon epsilon') (hu : CopiedTensor (SameSection g h r) mu mu')
    (hS : CopiedField (SameSection g h r) S S') (hE : CopiedField (SameSection g h r) E E') :
    Spec.Solver.WaveEquation (kOf (repeatedGrid (extendedGrid g h) r)) k0 epsilon' mu' S' E' ↔ Spec.Solver.WaveEquation (kOf g) k0 epsilon mu S E := by
  rw [kOf_eq g hs, kOf_eq (repeatedGrid (extendedGrid g h) r) (extended_step hs hs')]
  exact copied_equation (sections g h hN hM hs hs' one_ne_zero hr) k0 (sameSection_iff g h hN hM hs hs' one_ne_zero hr) he hu hS hE

/-- **C114 (scalar equation).** Likewise for scalar fields. -/
theorem C114_scalar_equation (g : Grid.Obj d ℝ) (h : Grid.Obj e ℝ) (hN : ∀ a, 0 < g.shape a) (hM : ∀ b, h.shape b = 1) (hs : ∀ a, g.step a ≠ 0) (hs' : ∀ b, h.step b ≠ 0) (k0 : ℝ)
    {r : Fin (d + e) → ℕ} (hr : ∀ a, 0 < r a) {epsilon S E : Idx g.shape → ℂ} {epsilon' S' E' : Idx (repeatedGrid (extendedGrid g h) r).shape → ℂ} (mu : ℂ)
    (he : ∀ x x', SameSection g h r x x' → epsilon' x' = epsilon x) (hS : ∀ x x', SameSection g h r x x' → S' x' = S x) (hE : ∀ x x', SameSection g h r x x' → E' x' = E x) :
    Spec.Solver.ScalarWaveEquation (kOf (repeatedGrid (extendedGrid g h) r)) k0 epsilon' mu S' E' ↔ Spec.Solver.ScalarWaveEquation (kOf g) k0 epsilon mu S E := by
  rw [kOf_eq g hs, kOf_eq (repeatedGrid (extendedGrid g h) r) (extended_step hs hs')]
  exact copied_scalar_equation (sections g h hN hM hs hs' one_ne_zero hr) k0 (sameSection_iff g h hN hM hs hs' one_ne_zero hr) mu he hS hE

/-- All materials and sources on one period have copies, on three periods of two samples here, and these are not all the same: the hypotheses of `C114_periods` do not restrict the calculation on the small grid. -/
example (m : Medium 3 demoGrid.shape) (S : Field 3 demoGrid.shape) :
    (∃ m', CopiedMedium (SamePhase fun _ => 3) m (m' : Medium 3 (repeatedGrid demoGrid fun _ => 3).shape)) ∧ (∃ S', CopiedField (SamePhase fun _ => 3) S (S' : Field 3 (repeatedGrid demoGrid fun _ => 3).shape)) ∧
      SamePhase (N := demoGrid.shape) (fun _ => 3) (fun _ => (1 : Fin 2)) (fun _ => (5 : Fin 6)) ∧ ¬ SamePhase (N := demoGrid.shape) (fun _ => 3) (fun _ => (0 : Fin 2)) (fun _ => (5 : Fin 6)) := by
  let p := periods demoGrid (fun _ => two_pos) demo_step one_ne_zero (r := fun _ => 3) fun _ => three_pos
  have hp : ∀ x x', SamePhase (fun _ => 3) x x' → p.fold x' = x := fun x x' h => funext fun a => Fin.ext (h a)
  refine ⟨⟨p.medium m, ?_, ?_, ?_, ?_⟩, ⟨p.field S, fun c x x' h => ?_⟩, fun a => (by norm_num [demoGrid] : 5 % 2 = 1), fun h => ?_⟩
  · intro x x' h; exact congrArg m.epsilon (hp x x' h)
  · intro x x' h; exact congrArg m.xi (hp x x' h)
  · intro x x' h; exact congrArg m.zeta (hp x x' h)
  · intro x x' h; exact congrArg m.mu (hp x x' h)
  · exact congrArg (S c) (hp x x' h)
  · have := h 0
    revert this
    show ¬ (5 % 2 = 0)
    decide

/-- The hypothesis on `sigmaHH` of the refutation is met by non-magnetic material if the second parameter is not one: `beta = 4` for `mu = 1`. -/
example : 0 < (Medium.mk (fun _ => 1) (fun _ => 0) (fun _ => 0) (fun _ => 1) : Medium 1 demoGrid.shape).sigmaHH (2 ^ 2) := by
  unfold Medium.sigmaHH largestEigenvalue
  have hroots : ∀ x, ((Medium.mk (fun _ => 1) (fun _ => 0) (fun _ => 0) (fun _ => 1) : Medium 1 demoGrid.shape).chiHHBeta2 (2 ^ 2) x).charpoly.roots = {9} := by
    intro x
    have e : (Medium.mk (fun _ => 1) (fun _ => 0) (fun _ => 0) (fun _ => 1) : Medium 1 demoGrid.shape).chiHHBeta2 (2 ^ 2) x = Matrix.of fun _ _ => 9 := by
      funext i j
      obtain rfl : i = 0 := Subsingleton.elim _ _
      obtain rfl : j = 0 := Subsingleton.elim _ _
      unfold Medium.chiHHBeta2 Medium.muInv
      simp
      norm_num
    rw [e]
    have : Matrix.charpoly (Matrix.of fun _ _ => 9 : Matrix (Fin 1) (Fin 1) ℂ) = Polynomial.X - Polynomial.C 9 := by
      unfold Matrix.charpoly
      rw [Matrix.det_fin_one, Matrix.charmatrix_apply_eq, Matrix.of_apply]
    rw [this, Polynomial.roots_X_sub_C]
  have hset : {r : ℝ | ∃ x, ∃ z ∈ ((Medium.mk (fun _ => 1) (fun _ => 0) (fun _ => 0) (fun _ => 1) : Medium 1 demoGrid.shape).chiHHBeta2 (2 ^ 2) x).charpoly.roots, r = ‖z‖} = {9} := by
    ext v
    simp only [hroots, Multiset.mem_singleton, exists_eq_left, Set.mem_ofPred_eq, Set.mem_singleton_iff]
    have h9 : ‖(9 : ℂ)‖ = 9 := by norm_num
    rw [h9]
    exact ⟨fun ⟨_, h⟩ => h, fun h => ⟨fun _ => (0 : Fin 2), h⟩⟩
  rw [hset, csSup_singleton]
  have : (0 : ℝ) < Real.sqrt 9 := Real.sqrt_pos.2 (by norm_num)
  positivity

end Verif.Solver
