import Verif.Props.ProblemFunctions
import Verif.Props.SolverFunctionsIndex
import Verif.Props.RefinementRateSolve
import Verif.Props.ExistenceScalar

/-!
# C134: sources that are numbers at each position, and scalar problems given by functions of the position
-/

namespace Verif.Problem

open Verif Verif.Fourier Verif.Backend Verif.Solver Verif.Construct Verif.Refinement Verif.Existence Verif.Spec.Existence Complex Matrix
open Verif.Spec.Continuous (Point AtSample)
open Verif.Spec.Refinement
open Verif.Assign (Arr toMatrixField full CanBroadcast broadcast expand)

variable {d n : ℕ}

theorem scalar_source_canonical {N : Fin d → ℕ} {a : Arr ℂ} (hs : a.shape = List.ofFn N) :
    CanBroadcast (toMatrixField d a) (full n N) ∧
      ∀ (c : Fin n) (x : Idx N), broadcast (toMatrixField d a) (Fin.cons (c : ℕ) (Fin.cons 0 fun b => (x b : ℕ))) = a.val (List.ofFn fun b => (x b : ℕ)) := by
  have hl : d + 2 - a.shape.length = 2 := by rw [hs]; simp
  have hshape : (expand d a).shape = Fin.cons 1 (Fin.cons 1 N) := by
    funext k
    unfold expand
    dsimp only
    rw [hl, hs]
    refine Fin.cases ?_ (fun k => Fin.cases ?_ (fun k => ?_) k) k
    · rfl
    · rfl
    · simp
  have hval : ∀ i : Fin (d + 2) → ℕ, (expand d a).val i = a.val (List.ofFn fun b : Fin d => i b.succ.succ) := by
    intro i
    unfold expand
    dsimp only
    rw [hl, List.ofFn_succ, List.ofFn_succ]
    rfl
  have hm : toMatrixField d a = expand d a := by
    unfold toMatrixField
    exact if_neg fun h => absurd h.2 (by rw [hshape]; exact lt_irrefl 1)
  have hzero : ∀ {m : ℕ} (y : Fin m), (if m = 1 then 0 else (y : ℕ)) = y := fun {m} y => by
    split_ifs with h
    · have := y.isLt
      omega
    · rfl
  refine ⟨fun k => ?_, fun c x => ?_⟩
  · rw [hm, hshape]
    refine Fin.cases (.inr rfl) (fun k => Fin.cases (.inr rfl) (fun k => .inl rfl) k) k
  · unfold broadcast
    rw [hm, hval, hshape]
    congr 2
    funext b
    exact hzero (x b)

/-- **C134 (scalar sources).** A function that returns a number for each point is used as the source with that value for all components. -/
theorem C134_scalar_source {g : Grid.Obj d ℝ} (hg : Plaid g) (F : (Fin d → ℂ) → ℂ) :
    ∃ a, func2arr g (scalarFn F) = .ok (.array a) ∧ a.shape = List.ofFn g.shape ∧ CanBroadcast (toMatrixField d a) (full n g.shape) ∧
      ∀ (c : Fin n) (x : Idx g.shape), broadcast (toMatrixField d a) (Fin.cons (c : ℕ) (Fin.cons 0 fun b => (x b : ℕ))) = F (coordinatesAt g x) := by
  obtain ⟨a, h1, h2, h3⟩ := C134_values hg [] fun _ => F
  obtain ⟨h4, h5⟩ := scalar_source_canonical (n := n) (h2.trans (List.nil_append _))
  exact ⟨a, h1, h2, h4, fun c x => (h5 c x).trans (h3 [] x rfl)⟩

/-- **C134 (as called, scalar source).** -/
theorem C134_called_scalar (co : Const) {p : FnArgs d} (hg : Plaid p.grid) (hN : ∀ a, 0 < p.grid.shape a) {e : Arg} (he : p.epsilon = some e) (hmag : p.magnetic = none)
    {m : Medium n p.grid.shape} {M : Tensor n p.grid.shape} (hepsilon : ArgMeans n p.grid e M)
    (hbound : (p.electric = none ∧ m.epsilon = M) ∨ ∃ chi X, p.electric = some chi ∧ IsChi n p.grid.shape chi X ∧ m.epsilon = fun x => M x + X x • 1)
    (hxi : ArgMeans n p.grid p.xi m.xi) (hzeta : ArgMeans n p.grid p.zeta m.zeta) (hmu : ArgMeans n p.grid p.mu m.mu)
    (F : (Fin d → ℂ) → ℂ) (hs : p.source = some (scalarFn F)) (hE : p.initial = ⟨[], fun _ => 0⟩) :
    ∃ source epsilon xi zeta mu : Arr ℂ, p.values = .ok (p.withArrays source epsilon xi zeta mu) ∧ source.shape = List.ofFn p.grid.shape ∧
      Describes co n (p.withArrays source epsilon xi zeta mu) m (fun _ x => F (coordinatesAt p.grid x)) 0 := by
  obtain ⟨ae, e1, e2⟩ := C134_materials hg hepsilon
  obtain ⟨ax, x1, x2⟩ := C134_materials hg hxi
  obtain ⟨az, z1, z2⟩ := C134_materials hg hzeta
  obtain ⟨am, m1, m2⟩ := C134_materials hg hmu
  obtain ⟨as, s1, s2, s3, s4⟩ := C134_scalar_source (n := n) hg F
  refine ⟨as, ae, ax, az, am, ?_, s2, ?_⟩
  · unfold FnArgs.values FnArgs.sourceValues FnArgs.electricValues
    rw [hs, he, x1, z1, m1]
    simp only [s1, e1]
    rfl
  · exact {
      nonempty := hN
      epsilon := ⟨ae, M, rfl, e2, hbound⟩
      magnetic := hmag
      xi := x2
      zeta := z2
      mu := m2
      source := s3
      sourceValue := fun c x => (s4 c x).symm
      initial := by
        show Assign.CanBroadcast (toMatrixField d p.initial) _
        rw [hE]
        intro k
        right
        unfold toMatrixField Assign.expand
        simp
      initialValue := fun c x => by
        show 0 = Assign.broadcast (toMatrixField d p.initial) _
        rw [hE]
        unfold Assign.broadcast toMatrixField Assign.expand
        dsimp only
        split_ifs <;> rfl }

/-- The arguments are functions of the position for a scalar problem: the permittivity `epsilon` and the source `S`, with the uniform permeability `r` and no coupling. -/
structure InSpaceScalar (co : Const) (hd : d ≤ 3) (p : FnArgs d) (period : Fin d → ℝ) (k0 : ℝ) (epsilon : Point → ℂ) (r : ℝ) (S : Point → ℂ) : Prop where
  plaid : Plaid p.grid
  nonempty : ∀ a, 0 < p.grid.shape a
  wavenumber : p.frequency.k0 co.c = k0
  period : ∀ b, p.grid.shape b * p.grid.step b = period b
  epsilon : ∃ F : (Fin d → ℂ) → ℂ, p.epsilon = some (scalarFn F) ∧ ∀ ρ, F (fun a => ((ρ (a.castLE hd) : ℝ) : ℂ)) = epsilon ρ
  source : ∃ F : (Fin d → ℂ) → ℂ, p.source = some (scalarFn F) ∧ ∀ ρ, F (fun a => ((ρ (a.castLE hd) : ℝ) : ℂ)) = S ρ
  mu : p.mu = .value ⟨[], fun _ => r⟩
  xi : p.xi = .value ⟨[], fun _ => 0⟩
  zeta : p.zeta = .value ⟨[], fun _ => 0⟩
  vectorial : p.vectorial = none
  electric : p.electric = none
  magnetic : p.magnetic = none
  initial : p.initial = ⟨[], fun _ => 0⟩

/-- **C134 (samples, scalar).** The functions are sampled at the points of the grid, and the calculation is scalar. -/
theorem C134_samples_scalar {co : Const} {hd : d ≤ 3} {p : FnArgs d} {period : Fin d → ℝ} {k0 : ℝ} {epsilon : Point → ℂ} {r : ℝ} {S : Point → ℂ} (h : InSpaceScalar co hd p period k0 epsilon r S) :
    ∃ q : Args d, p.values = .ok q ∧ q.grid = p.grid ∧ ∃ m s, SamplesScalar co q m s 0 period k0 epsilon r S := by
  obtain ⟨Fe, e1, e2⟩ := h.epsilon
  obtain ⟨Fs, s1, s2⟩ := h.source
  have hz : ArgMeans 1 p.grid (.value ⟨[], fun _ => 0⟩) (fun _ => 0) := .value (by
    have := number_means 1 p.grid.shape 0
    simpa only [zero_smul] using this)
  obtain ⟨source, eps, xi, zeta, mu, h1, h2, h4⟩ := C134_called_scalar co (n := 1) h.plaid h.nonempty e1 h.magnetic
    (m := ⟨fun x => Fe (coordinatesAt p.grid x) • 1, fun _ => 0, fun _ => 0, fun _ => (r : ℂ) • 1⟩) (.scalar Fe) (.inl ⟨h.electric, rfl⟩)
    (by rw [h.xi]; exact hz) (by rw [h.zeta]; exact hz) (by rw [h.mu]; exact .value (number_means 1 _ _)) Fs s1 h.initial
  refine ⟨_, h1, rfl, _, _, { describes := h4, scalar := ?_, wavenumber := h.wavenumber, period := h.period, epsilon := ?_, mu := ?_, xi := fun _ => rfl, zeta := fun _ => rfl, source := ?_ }⟩
  · show (match (p.vectorial, source).1 with
      | some v => v
      | none => (List.ofFn p.grid.shape).length < source.shape.length && source.shape.headD 0 == 3) = false
    rw [h.vectorial, h2]
    simp
  · intro x ρ hρ
    show (Fe (coordinatesAt p.grid x) • (1 : Matrix (Fin 1) (Fin 1) ℂ)) 0 0 = _
    rw [(coordinates_sample hd hρ : coordinatesAt p.grid x = _), e2, Matrix.smul_apply, Matrix.one_apply_eq, smul_eq_mul, mul_one]
  · intro x
    show ((r : ℂ) • (1 : Matrix (Fin 1) (Fin 1) ℂ)) 0 0 = _
    rw [Matrix.smul_apply, Matrix.one_apply_eq, smul_eq_mul, mul_one]
  · intro x ρ hρ
    show Fs (coordinatesAt p.grid x) = _
    rw [(coordinates_sample hd hρ : coordinatesAt p.grid x = _), s2]

/-- **C134 (exact solution, scalar).** When the permittivity and the source are smooth functions of the position, with a little absorption: there is an exact scalar field, and the solver returns it to within any accuracy,
for all grids that are fine enough, once the iterations are enough. -/
theorem C134_exact_scalar (hd : d ≤ 3) {period : Fin d → ℝ} (hper : ∀ b, period b ≠ 0) {k0 : ℝ} (hk0 : 0 < k0) {epsilon : Point → ℂ} (hsm : Smooth period epsilon) {δ : ℝ} (hδ : 0 < δ)
    (habs : ∀ r, δ ≤ (epsilon r).im) {r : ℝ} (hr : 0 < r) {S : Point → ℂ} (hS : Smooth period S) :
    ∃ E : Point → ℂ, ScalarWaveEquationInSpace k0 epsilon r S E ∧ ∀ η > 0, ∃ M : ℕ, ∀ (co : Const) (p : FnArgs d), InSpaceScalar co hd p period k0 epsilon r S → (∀ b, M ≤ p.grid.shape b) →
      ∀ (o : Optimum) (tol : ℝ), 0 ≤ tol → ∃ q : Args d, p.values = .ok q ∧ ∀ F : Solver.Field 1 q.grid.shape, SampledFrom q.grid E (F 0) →
        ∃ t, q.start co tol o = .ok ⟨1, t⟩ ∧ ∃ j0, ∀ i ≥ j0, (∃ u, run .scalar (backendK q.grid k0) t i = .ok u ∧ rms (getE k0 u - F) < η) ∨
          (run .scalar (backendK q.grid k0) t i = .error .zeroDivision ∧ ∃ j < i, ∃ u, run .scalar (backendK q.grid k0) t j = .ok u ∧ rms (getE k0 u - F) < η) := by
  obtain ⟨E, h1, h2⟩ := C130_called_scalar_limit hd hper hk0 hsm hδ habs hr hS
  refine ⟨E, h1, fun η hη => ?_⟩
  obtain ⟨M, hM⟩ := h2 η hη
  refine ⟨M, fun co p h hMp o tol htol => ?_⟩
  obtain ⟨q, h3, h4, m, s, h5⟩ := C134_samples_scalar h
  exact ⟨q, h3, fun F hF => hM co q m s 0 h5 (fun b => by rw [h4]; exact hMp b) o tol htol F hF⟩

/-! ### Cases -/

/-- The permittivity `(1 + i)`, and the source 1, as functions that return numbers. -/
noncomputable def scalarArgs : FnArgs 1 :=
  { functionArgs with source := some (scalarFn (d := 1) fun _ => 1), epsilon := some (scalarFn (d := 1) fun _ => 1 + I) }

theorem scalarArgs_inSpace (co : Const) : InSpaceScalar co (show 1 ≤ 3 by decide) scalarArgs (fun _ => 2) 1 (fun _ => 1 + I) 2 fun _ => 1 where
  plaid := ⟨rfl, .inl rfl, fun _ => rfl⟩
  nonempty := fun _ => two_pos
  wavenumber := rfl
  period := fun _ => mul_one _
  epsilon := ⟨_, rfl, fun _ => rfl⟩
  source := ⟨_, rfl, fun _ => rfl⟩
  mu := rfl
  xi := rfl
  zeta := rfl
  vectorial := rfl
  electric := rfl
  magnetic := rfl
  initial := rfl

/-- The hypotheses of `C134_samples_scalar`, and with them those of `C134_called_scalar`, are met. -/
example (co : Const) := C134_samples_scalar (scalarArgs_inSpace co)

/-- `C134_scalar_source` for a function that varies. -/
example := C134_scalar_source (g := tupleGrid) (n := 3) ⟨rfl, .inl rfl, fun _ => rfl⟩ fun r => Complex.exp (r 0)

/-- The hypotheses of `C134_exact_scalar` are met. -/
example := C134_exact_scalar (d := 1) (by decide) (fun _ => one_ne_zero) one_pos (demoEpsilon_smooth 0 0) one_pos demoEpsilon_loss two_pos (demoDrive_smooth 1)

/-- Refractive indices as functions: `1 + x²`, `-1 + i`, and a matrix. -/
noncomputable def indexFn (A : Arg) : FnArgs 1 := { functionArgs with source := none, epsilon := none, index := some A }

theorem indexFn_values {A : Arg} {v : Arr ℂ} (h : func2arr tupleGrid A = .ok (.array v)) : ∃ q, (indexFn A).values = .ok q := by
  refine ⟨_, (C134_equivalent (indexFn A) (A := A) (a := v) h).2.2.2.1.trans rfl⟩

/-- The hypotheses of `C134_index`, `C134_index_negative` and `C134_index_tensor` are met. -/
example (co : Const) (o : Optimum) : ∃ q, (indexFn (scalarFn (d := 1) fun r => 1 + r 0 ^ 2)).values = .ok q ∧ ∃ e, Args.construct co q 3 1e-8 o = Args.construct co { q with epsilon := some e } 3 1e-8 o := by
  obtain ⟨v, h1, -⟩ := C134_materials (g := tupleGrid) (n := 3) ⟨rfl, .inl rfl, fun _ => rfl⟩ (.scalar fun r => 1 + r 0 ^ 2)
  obtain ⟨q, hq⟩ := indexFn_values h1
  obtain ⟨e, -, he⟩ := C134_index (n := 3) (co := co) (p := indexFn (scalarFn (d := 1) fun r => 1 + r 0 ^ 2)) ⟨rfl, .inl rfl, fun _ => rfl⟩ (fun _ => two_pos) rfl rfl (fun x => by
    show 0 ≤ (1 + (((_ : ℝ) : ℂ)) ^ 2).re
    rw [← ofReal_pow, add_re, one_re, ofReal_re]
    positivity) hq 1e-8 o
  exact ⟨q, hq, e, he⟩

example (co : Const) (o : Optimum) : ∃ q, (indexFn (scalarFn (d := 1) fun _ => -1 + I)).values = .ok q ∧ ∃ e u, Args.construct co q 3 1e-8 o = Args.construct co { q with epsilon := some e, mu := u } 3 1e-8 o := by
  obtain ⟨v, h1, -⟩ := C134_materials (g := tupleGrid) (n := 3) ⟨rfl, .inl rfl, fun _ => rfl⟩ (.scalar fun _ => -1 + I)
  obtain ⟨q, hq⟩ := indexFn_values h1
  obtain ⟨e, u, -, -, he⟩ := C134_index_negative (n := 3) (co := co) (p := indexFn (scalarFn (d := 1) fun _ => -1 + I)) ⟨rfl, .inl rfl, fun _ => rfl⟩ (fun _ => two_pos) rfl rfl
    (.value (number_means 3 _ _)) ⟨fun _ => (0 : Fin 2), by simp⟩ hq 1e-8 o
  exact ⟨q, hq, e, u, he⟩

example (co : Const) (o : Optimum) : ∃ q, (indexFn (tensorFn (d := 1) (n := 3) fun i j r => if i = j then 1 + r 0 else I)).values = .ok q ∧
    ∃ e, Args.construct co q 3 1e-8 o = Args.construct co { q with epsilon := some e } 3 1e-8 o := by
  obtain ⟨v, h1, -⟩ := C134_materials (g := tupleGrid) (n := 3) ⟨rfl, .inl rfl, fun _ => rfl⟩ (.tensor fun i j r => if i = j then 1 + r 0 else I)
  obtain ⟨q, hq⟩ := indexFn_values h1
  obtain ⟨e, -, he⟩ := C134_index_tensor (n := 3) (co := co) (p := indexFn (tensorFn (d := 1) (n := 3) fun i j r => if i = j then 1 + r 0 else I)) ⟨rfl, .inl rfl, fun _ => rfl⟩ (by decide) rfl rfl hq 1e-8 o
  exact ⟨q, hq, e, he⟩

end Verif.Problem
