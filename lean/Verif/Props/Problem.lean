import Verif.Lemmas.Problem
import Verif.Props.SolverScalarMedia

/-!
# C86, C87: from the arguments of the constructor to the problem that is solved
-/

namespace Verif.Problem

open Verif Verif.Fourier Verif.Solver Verif.Construct Complex
open Verif.Assign (Arr toMatrixField full CanBroadcast broadcast InShape C30_broadcast_partial)
open Verif.Spec.Solver (NoGain Within WaveEquation ScalarWaveEquation)

variable {d n : ℕ}

/-! ### Specification: what the arguments mean -/

/-- The arguments describe a problem: materials `epsilon`, `xi`, `zeta`, `mu`, a source `S` and an initial field `E`, all given at every point. -/
structure Describes (co : Const) (n : ℕ) (p : Args d) (m : Medium n p.grid.shape) (S E : Solver.Field n p.grid.shape) : Prop where
  nonempty : ∀ a, 0 < p.grid.shape a
  epsilon : ∃ e M, p.epsilon = some e ∧ Means n p.grid.shape e M ∧
    ((p.electric = none ∧ m.epsilon = M) ∨ ∃ chi X, p.electric = some chi ∧ IsChi n p.grid.shape chi X ∧ m.epsilon = fun x => M x + X x • 1)
  magnetic : p.magnetic = none
  xi : Means n p.grid.shape p.xi m.xi
  zeta : Means n p.grid.shape p.zeta m.zeta
  mu : Means n p.grid.shape p.mu m.mu
  source : CanBroadcast (toMatrixField d (p.source.resolve (List.ofFn p.grid.shape) (p.currentFactor co)).2) (full n p.grid.shape)
  sourceValue : ∀ c x, S c x = broadcast (toMatrixField d (p.source.resolve (List.ofFn p.grid.shape) (p.currentFactor co)).2) (Fin.cons (c : ℕ) (Fin.cons 0 fun b => x b))
  initial : CanBroadcast (toMatrixField d p.initial) (full n p.grid.shape)
  initialValue : ∀ c x, E c x = broadcast (toMatrixField d p.initial) (Fin.cons (c : ℕ) (Fin.cons 0 fun b => x b))

/-- The first point of the grid. -/
def first {N : Fin d → ℕ} (h : ∀ a, 0 < N a) : Idx N := fun a => ⟨0, h a⟩

/-! ### C86: the state that the iteration starts with -/

theorem toMatrixField_scaled (a : Arr ℂ) (w : ℂ) :
    toMatrixField d (⟨a.shape, fun i => a.val i * w⟩ : Arr ℂ) = ⟨(toMatrixField d a).shape, fun i => (toMatrixField d a).val i * w⟩ := by
  unfold toMatrixField Assign.expand
  dsimp only
  split_ifs <;> rfl

theorem inShape_cons {N : Fin d → ℕ} (c : Fin n) (x : Idx N) : InShape (full n N) (Fin.cons (c : ℕ) (Fin.cons 0 fun b => (x b : ℕ))) := by
  intro a
  refine Fin.cases ?_ (fun a => Fin.cases ?_ (fun a => ?_) a) a
  · exact c.isLt
  · exact Nat.one_pos
  · exact (x a).isLt

/-- **C86.** The constructor makes exactly the problem that its arguments describe, with the initial field, whatever the form in which the materials are given: with the susceptibility of the boundary
added to the permittivity, and with the constants that follow from the decision whether it is magnetic. -/
theorem C86_construct [NeZero n] {co : Const} {p : Args d} {m : Medium n p.grid.shape} {S E : Solver.Field n p.grid.shape} (h : Describes co n p m S E)
    (tol : ℝ) (o : Optimum) :
    p.construct co n tol o = .ok (if foundMagnetic (toMatrixField d p.xi) (toMatrixField d p.zeta) (toMatrixField d p.mu) then
        prepare m true (m.constantsMagnetic p.grid.step (p.frequency.k0 co.c) p.thickness o.vec).1
          (m.constantsMagnetic p.grid.step (p.frequency.k0 co.c) p.thickness o.vec).2 S (fun c x => E c x * ((p.frequency.k0 co.c ^ 2 : ℝ) : ℂ))
      else prepare m false (m.constantsNonMagnetic tol (p.frequency.k0 co.c) p.thickness 0 (first h.nonempty) o.alphaR).1
          (m.constantsNonMagnetic tol (p.frequency.k0 co.c) p.thickness 0 (first h.nonempty) o.alphaR).2 S (fun c x => E c x * ((p.frequency.k0 co.c ^ 2 : ℝ) : ℂ))) := by
  obtain ⟨e, M, he, hM, hel⟩ := h.epsilon
  have hbounded : ∃ e', p.bounded n = .ok (e', p.mu) ∧ Means n p.grid.shape e' m.epsilon := by
    unfold Args.bounded Args.materials
    rw [he, h.magnetic]
    rcases hel with ⟨h1, h2⟩ | ⟨chi, X, h1, h2, h3⟩
    · exact ⟨e, by rw [h1]; rfl, by rw [h2]; exact hM⟩
    · obtain ⟨e', h4, h5⟩ := withElectric_means hM h2
      refine ⟨e', ?_, by rw [h3]; exact h5⟩
      rw [h1]
      change ((withElectric d n e chi >>= fun epsilon => pure (epsilon, p.mu)) : Except PyErr (Arr ℂ × Arr ℂ)) = _
      rw [h4]
      rfl
  obtain ⟨e', hb, he'⟩ := hbounded
  have hmedium : p.medium n = .ok (m, foundMagnetic (toMatrixField d p.xi) (toMatrixField d p.zeta) (toMatrixField d p.mu)) := by
    unfold Args.medium
    rw [hb]
    change ((toTensor n p.grid.shape (toMatrixField d e') >>= fun epsilon => toTensor n p.grid.shape (toMatrixField d p.xi) >>= fun xi =>
      toTensor n p.grid.shape (toMatrixField d p.zeta) >>= fun zeta => toTensor n p.grid.shape (toMatrixField d p.mu) >>= fun mu =>
      pure ((⟨epsilon, xi, zeta, mu⟩ : Medium n p.grid.shape), foundMagnetic (toMatrixField d p.xi) (toMatrixField d p.zeta) (toMatrixField d p.mu))) :
      Except PyErr _) = _
    rw [he'.toTensor, h.xi.toTensor, h.zeta.toTensor, h.mu.toTensor]
    rfl
  set k0 := p.frequency.k0 co.c with hk0
  have hcan : CanBroadcast (toMatrixField d (⟨p.initial.shape, fun i => p.initial.val i * ((k0 ^ 2 : ℝ) : ℂ)⟩ : Arr ℂ)) (full n p.grid.shape) := by
    rw [toMatrixField_scaled]
    exact h.initial
  obtain ⟨v, hv, hv'⟩ := C30_broadcast_partial n p.grid.shape _ hcan
  have hF : (toField v : Solver.Field n p.grid.shape) = fun c x => E c x * ((k0 ^ 2 : ℝ) : ℂ) := by
    funext c x
    unfold toField
    rw [hv' _ (inShape_cons c x), h.initialValue, toMatrixField_scaled]
    rfl
  have hsrc : addedSource n p.grid.shape (toMatrixField d (p.source.resolve (List.ofFn p.grid.shape) (p.currentFactor co)).2) =
      .ok (broadcast (toMatrixField d (p.source.resolve (List.ofFn p.grid.shape) (p.currentFactor co)).2)) := by
    unfold addedSource
    exact if_pos h.source
  have hS : (toField (broadcast (toMatrixField d (p.source.resolve (List.ofFn p.grid.shape) (p.currentFactor co)).2)) : Solver.Field n p.grid.shape) = S := by
    funext c x
    exact (h.sourceValue c x).symm
  unfold Args.construct
  rw [dif_pos h.nonempty]
  dsimp only
  rw [← hk0, hv]
  change (p.medium n >>= _) = _
  rw [hmedium]
  dsimp only [Bind.bind, Except.bind]
  rw [hsrc]
  dsimp only
  rw [hS, hF]
  cases foundMagnetic (toMatrixField d p.xi) (toMatrixField d p.zeta) (toMatrixField d p.mu) <;> rfl

/-- **C86.** A vectorial calculation is one with three components and a scalar calculation is one with one component. -/
theorem C86_components {co : Const} {p : Args d} (tol : ℝ) (o : Optimum) :
    p.start co tol o = if p.source.isVectorial (List.ofFn p.grid.shape) (p.currentFactor co) then (p.construct co 3 tol o).map fun s => ⟨3, s⟩
      else (p.construct co 1 tol o).map fun s => ⟨1, s⟩ := rfl

/-! ### C87: the decision whether the material is magnetic -/

theorem close_entries [NeZero n] {N : Fin d → ℕ} (hN : ∀ b, 0 < N b) {a : Arr ℂ} {M : Tensor n N} (h : Means n N a M) :
    closeTo (toMatrixField d a) 0 ↔ ∀ x r c, ‖M x r c‖ ≤ 1e-8 := by
  unfold closeTo
  rw [h.forall_iff (Nat.pos_of_ne_zero (NeZero.ne n)) hN fun z => ‖z - 0‖ ≤ 1e-8 + 1e-5 * ‖(0 : ℂ)‖]
  simp only [sub_zero, norm_zero, mul_zero, add_zero]
  cases h with
  | scalar form _ value =>
    constructor
    · intro h x r c
      rw [value x, scalar_entry]
      split_ifs
      · rw [← scalar_value form r c]
        exact h x r c
      · rw [norm_zero]
        norm_num
    · intro h x r c
      have := h x 0 0
      rw [value x, scalar_entry, if_pos rfl] at this
      rwa [scalar_value form]
  | tensor _ _ value =>
    refine forall_congr' fun x => forall_congr' fun r => forall_congr' fun c => ?_
    rw [value x]
    rfl

theorem close_scalar [NeZero n] {N : Fin d → ℕ} (hN : ∀ b, 0 < N b) {a : Arr ℂ} {M : Tensor n N} (h : Means n N a M) (form : ScalarForm d a) :
    closeTo (toMatrixField d a) ((toMatrixField d a).val fun _ => 0) ↔ ∀ x, ‖M x 0 0 - M (first hN) 0 0‖ ≤ 1e-8 + 1e-5 * ‖M (first hN) 0 0‖ := by
  have hentry : ∀ x, M x 0 0 = bval a (0 :: 0 :: List.ofFn fun b => (x b : ℕ)) := fun x => by
    cases h with
    | scalar _ _ value => rw [value x, scalar_entry, if_pos rfl]
    | tensor _ _ value =>
      rw [value x]
      unfold tensorMeaning
      rw [scalar_value form]
  unfold closeTo
  rw [h.first, h.forall_iff (Nat.pos_of_ne_zero (NeZero.ne n)) hN fun z => ‖z - bval a (0 :: 0 :: List.ofFn fun _ : Fin d => 0)‖ ≤
    1e-8 + 1e-5 * ‖bval a (0 :: 0 :: List.ofFn fun _ : Fin d => 0)‖]
  have h0 : M (first hN) 0 0 = bval a (0 :: 0 :: List.ofFn fun _ : Fin d => 0) := hentry _
  rw [h0]
  constructor
  · intro h x
    rw [hentry]
    have := h x 0 0
    rwa [scalar_value form] at this
  · intro h x r c
    rw [scalar_value form, ← hentry]
    exact h x

theorem close_tensor [NeZero n] {N : Fin d → ℕ} (hN : ∀ b, 0 < N b) {a : Arr ℂ} {M : Tensor n N} (h : Means n N a M) (form : TensorForm d n a) :
    closeTo (toMatrixField d a) ((toMatrixField d a).val fun _ => 0) ↔ ∀ x r c, ‖M x r c - M (first hN) 0 0‖ ≤ 1e-8 + 1e-5 * ‖M (first hN) 0 0‖ := by
  have hentry : ∀ x r c, M x r c = bval a (r :: c :: List.ofFn fun b => (x b : ℕ)) := fun x r c => by
    cases h with
    | tensor _ _ value => rw [value x]; rfl
    | scalar f _ value =>
      have hx := C85_tensor n a form fun b => (x b : ℕ)
      rw [C85_scalar n a f] at hx
      rw [value x, hx]
      rfl
  unfold closeTo
  rw [h.first, h.forall_iff (Nat.pos_of_ne_zero (NeZero.ne n)) hN fun z => ‖z - bval a (0 :: 0 :: List.ofFn fun _ : Fin d => 0)‖ ≤
    1e-8 + 1e-5 * ‖bval a (0 :: 0 :: List.ofFn fun _ : Fin d => 0)‖]
  have h0 : M (first hN) 0 0 = bval a (0 :: 0 :: List.ofFn fun _ : Fin d => 0) := hentry _ _ _
  rw [h0]
  refine forall_congr' fun x => forall_congr' fun r => forall_congr' fun c => ?_
  rw [hentry]

theorem foundMagnetic_false (xi zeta mu : Assign.Field d ℂ) :
    foundMagnetic xi zeta mu = false ↔ closeTo xi 0 ∧ closeTo zeta 0 ∧ closeTo mu (mu.val fun _ => 0) := by
  unfold foundMagnetic
  simp

/-- **C87 (decision).** With a permeability in scalar form, the material is found not to be magnetic exactly if no element of the coupling tensors is larger than 10⁻⁸, and the permeability
at all points is within 10⁻⁸ + 10⁻⁵ |μ| of that at the first one. -/
theorem C87_decision [NeZero n] {co : Const} {p : Args d} {m : Medium n p.grid.shape} {S E : Solver.Field n p.grid.shape} (h : Describes co n p m S E) (form : ScalarForm d p.mu) :
    foundMagnetic (toMatrixField d p.xi) (toMatrixField d p.zeta) (toMatrixField d p.mu) = false ↔
      (∀ x r c, ‖m.xi x r c‖ ≤ 1e-8) ∧ (∀ x r c, ‖m.zeta x r c‖ ≤ 1e-8) ∧
      ∀ x, ‖m.mu x 0 0 - m.mu (first h.nonempty) 0 0‖ ≤ 1e-8 + 1e-5 * ‖m.mu (first h.nonempty) 0 0‖ := by
  rw [foundMagnetic_false, close_entries h.nonempty h.xi, close_entries h.nonempty h.zeta, close_scalar h.nonempty h.mu form]

/-- **C87 (decision).** With a permeability in tensor form, all elements of the tensors are compared with the very first one. -/
theorem C87_decision_tensor [NeZero n] {co : Const} {p : Args d} {m : Medium n p.grid.shape} {S E : Solver.Field n p.grid.shape} (h : Describes co n p m S E)
    (form : TensorForm d n p.mu) :
    foundMagnetic (toMatrixField d p.xi) (toMatrixField d p.zeta) (toMatrixField d p.mu) = false ↔
      (∀ x r c, ‖m.xi x r c‖ ≤ 1e-8) ∧ (∀ x r c, ‖m.zeta x r c‖ ≤ 1e-8) ∧
      ∀ x r c, ‖m.mu x r c - m.mu (first h.nonempty) 0 0‖ ≤ 1e-8 + 1e-5 * ‖m.mu (first h.nonempty) 0 0‖ := by
  rw [foundMagnetic_false, close_entries h.nonempty h.xi, close_entries h.nonempty h.zeta, close_tensor h.nonempty h.mu form]

/-- **C87 (decision).** So a material with a permeability that is a real multiple of the identity, of at least 2 · 10⁻⁸, is found to be magnetic when it is given in tensor form. -/
theorem C87_identity {co : Const} {p : Args d} {m : Medium 3 p.grid.shape} {S E : Solver.Field 3 p.grid.shape} (h : Describes co 3 p m S E)
    (form : TensorForm d 3 p.mu) {r : ℝ} (hr : 2e-8 ≤ r) (hmu : ∀ x, m.mu x = (r : ℂ) • 1) :
    foundMagnetic (toMatrixField d p.xi) (toMatrixField d p.zeta) (toMatrixField d p.mu) = true := by
  by_contra hf
  rw [Bool.not_eq_true, C87_decision_tensor h form] at hf
  have h1 := hf.2.2 (first h.nonempty) 0 1
  rw [hmu] at h1
  have hp : 0 ≤ r := by linarith [show (0 : ℝ) ≤ 2e-8 by norm_num]
  simp [abs_of_nonneg hp] at h1
  norm_num at h1 hr
  linarith

end Verif.Problem
