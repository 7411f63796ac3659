import Verif.Props.ProblemFunctions
import Verif.Props.Existence

/-!
# C134: materials with magneto-electric coupling given by functions of the position, up to the exact solution
-/

namespace Verif.Problem

open Verif Verif.Fourier Verif.Backend Verif.Solver Verif.Construct Verif.Refinement Verif.Existence Verif.Spec.Existence Complex Matrix
open Verif.Spec.Continuous (Point AtSample)
open Verif.Spec.Refinement
open Verif.Assign (Arr toMatrixField)

variable {d : ℕ}

/-- The argument is a function of the position with the values `M`. -/
def GivenBy (hd : d ≤ 3) (A : Arg) (M : Point → Matrix (Fin 3) (Fin 3) ℂ) : Prop :=
  ∃ F : Matrix (Fin 3) (Fin 3) ((Fin d → ℂ) → ℂ), A = tensorFn F ∧ ∀ i j ρ, F i j (fun a => ((ρ (a.castLE hd) : ℝ) : ℂ)) = M ρ i j

/-- The arguments are functions of the position: the permittivity `epsilon`, the coupling `xi` and `zeta`, the permeability `mu`, and the source `S`. -/
structure InSpaceCoupled (co : Const) (hd : d ≤ 3) (p : FnArgs d) (period : Fin d → ℝ) (k0 : ℝ) (epsilon xi zeta mu : Point → Matrix (Fin 3) (Fin 3) ℂ) (S : Fin 3 → Point → ℂ) : Prop where
  plaid : Plaid p.grid
  nonempty : ∀ a, 0 < p.grid.shape a
  wavenumber : p.frequency.k0 co.c = k0
  period : ∀ b, p.grid.shape b * p.grid.step b = period b
  epsilon : ∃ A, p.epsilon = some A ∧ GivenBy hd A epsilon
  xi : GivenBy hd p.xi xi
  zeta : GivenBy hd p.zeta zeta
  mu : GivenBy hd p.mu mu
  source : ∃ F : Fin 3 → (Fin d → ℂ) → ℂ, p.source = some (vectorFn F) ∧ ∀ c ρ, F c (fun a => ((ρ (a.castLE hd) : ℝ) : ℂ)) = S c ρ
  vectorial : p.vectorial = none
  electric : p.electric = none
  magnetic : p.magnetic = none
  initial : p.initial = ⟨[], fun _ => 0⟩

/-- The code finds the arguments to be magnetic. -/
def Args.FoundMagnetic (q : Args d) : Prop := foundMagnetic (toMatrixField d q.xi) (toMatrixField d q.zeta) (toMatrixField d q.mu) = true

theorem values_fixed {p : FnArgs d} {q : Args d} (h : p.values = .ok q) : q.grid = p.grid ∧ ∀ a, func2arr p.grid p.mu = .ok (.array a) → q.mu = a := by
  unfold FnArgs.values at h
  constructor
  · simp only [bind, Except.bind, pure, Except.pure] at h
    repeat' split at h
    all_goals first
      | cases h
        rfl
      | cases h
  · intro a ha
    simp only [ha, Value.astype, bind, Except.bind, pure, Except.pure] at h
    repeat' split at h
    all_goals first
      | cases h
        rfl
      | cases h

/-- **C87 (decision).** A material that absorbs magnetic fields more than the tolerance is found to be magnetic when its permeability is given in tensor form. -/
theorem C87_absorbs {co : Const} {q : Args d} {m : Medium 3 q.grid.shape} {S E : Solver.Field 3 q.grid.shape} (h : Describes co 3 q m S E) (form : TensorForm d 3 q.mu) {δ B : ℝ}
    (hδ : ∀ x (v : Fin 3 → ℂ), δ * ∑ i, ‖v i‖ ^ 2 ≤ (star v ⬝ᵥ (m.mu x).mulVec v).im) (hB : ∀ x, ‖m.mu x 0 0‖ ≤ B) (hδB : 2e-8 + 2e-5 * B < δ) : q.FoundMagnetic := by
  by_contra hf
  unfold Args.FoundMagnetic at hf
  rw [Bool.not_eq_true, C87_decision_tensor h form] at hf
  set x := first h.nonempty
  have h1 := hδ x ![1, -1, 0]
  have h2 : (star (![1, -1, 0] : Fin 3 → ℂ) ⬝ᵥ (m.mu x).mulVec ![1, -1, 0]) = (m.mu x 0 0 - m.mu x 0 0) - (m.mu x 0 1 - m.mu x 0 0) - (m.mu x 1 0 - m.mu x 0 0) + (m.mu x 1 1 - m.mu x 0 0) := by
    simp [Matrix.mulVec, dotProduct, Fin.sum_univ_three]
    ring
  have h3 : ∀ i j, |(m.mu x i j - m.mu x 0 0).im| ≤ 1e-8 + 1e-5 * B := fun i j => (Complex.abs_im_le_norm _).trans ((hf.2.2 x i j).trans (by
    have := hB x
    norm_num at this ⊢
    linarith))
  rw [h2, show ∑ i, ‖(![1, -1, 0] : Fin 3 → ℂ) i‖ ^ 2 = 2 by simp [Fin.sum_univ_three]; norm_num, sub_self, zero_sub] at h1
  simp only [add_im, sub_im, neg_im] at h1 h3
  have a1 := abs_le.1 (h3 0 1)
  have a2 := abs_le.1 (h3 1 0)
  have a3 := abs_le.1 (h3 1 1)
  norm_num at h1 a1 a2 a3 hδB
  linarith

/-- **C134 (samples, coupled).** The functions are sampled at the points of the grid. -/
theorem C134_samples_coupled {co : Const} {hd : d ≤ 3} {p : FnArgs d} {period : Fin d → ℝ} {k0 : ℝ} {epsilon xi zeta mu : Point → Matrix (Fin 3) (Fin 3) ℂ} {S : Fin 3 → Point → ℂ}
    (h : InSpaceCoupled co hd p period k0 epsilon xi zeta mu S) :
    ∃ q : Args d, p.values = .ok q ∧ q.grid = p.grid ∧ q.frequency.k0 co.c = k0 ∧ (∀ b, q.grid.shape b * q.grid.step b = period b) ∧ ∃ (m : Medium 3 q.grid.shape) (s : Solver.Field 3 q.grid.shape),
      Describes co 3 q m s 0 ∧ TensorForm d 3 q.mu ∧ SamplesMedium q.grid m epsilon xi zeta mu ∧ (∀ c, SampledFrom q.grid (S c) (s c)) ∧ ∀ o : Optimum, o.vec.2 ≠ 0 → q.FoundMagnetic → CalledMagnetic co q m s 0 o := by
  obtain ⟨Ae, e0, Fe, e1, e2⟩ := h.epsilon
  obtain ⟨Fx, x1, x2⟩ := h.xi
  obtain ⟨Fz, z1, z2⟩ := h.zeta
  obtain ⟨Fm, m1, m2⟩ := h.mu
  obtain ⟨Fs, s1, s2⟩ := h.source
  subst e1
  obtain ⟨source, eps, axi, azeta, amu, h1, h2, -, h4⟩ := C134_called co (n := 3) (by decide) h.plaid h.nonempty e0 h.magnetic
    (m := ⟨fun x => Matrix.of fun i j => Fe i j (coordinatesAt p.grid x), fun x => Matrix.of fun i j => Fx i j (coordinatesAt p.grid x), fun x => Matrix.of fun i j => Fz i j (coordinatesAt p.grid x),
      fun x => Matrix.of fun i j => Fm i j (coordinatesAt p.grid x)⟩) (.tensor Fe) (.inl ⟨h.electric, rfl⟩)
    (by rw [x1]; exact .tensor Fx) (by rw [z1]; exact .tensor Fz) (by rw [m1]; exact .tensor Fm) Fs s1 h.initial
  have key : ∀ {F : Matrix (Fin 3) (Fin 3) ((Fin d → ℂ) → ℂ)} {M : Point → Matrix (Fin 3) (Fin 3) ℂ}, (∀ i j ρ, F i j (fun a => ((ρ (a.castLE hd) : ℝ) : ℂ)) = M ρ i j) →
      SampledFrom p.grid M fun x => Matrix.of fun i j => F i j (coordinatesAt p.grid x) := by
    intro F M hF x ρ hρ
    ext i j
    show F i j (coordinatesAt p.grid x) = _
    rw [coordinates_sample hd hρ, hF]
  refine ⟨_, h1, rfl, h.wavenumber, h.period, _, _, h4, ?_, ?_, ?_, fun o ho hf => ⟨h4, ?_, hf, ho⟩⟩
  · obtain ⟨a, a1, a2, -⟩ := C134_values h.plaid [3, 3] fun i r => if h : i.getD 0 0 < 3 ∧ i.getD 1 0 < 3 then Fm ⟨_, h.1⟩ ⟨_, h.2⟩ r else 0
    rw [(values_fixed h1).2 a (by rw [m1]; exact a1)]
    unfold TensorForm
    rw [a2]
    simp
  · exact ⟨key e2, key x2, key z2, key m2⟩
  · intro c x ρ hρ
    show Fs c (coordinatesAt p.grid x) = _
    rw [(coordinates_sample hd hρ : coordinatesAt p.grid x = _), s2]
  · show (match (p.vectorial, source).1 with
      | some v => v
      | none => (List.ofFn p.grid.shape).length < source.shape.length && source.shape.headD 0 == 3) = true
    rw [h.vectorial, h2]
    simp

/-- **C134 (exact solution, coupled).** When the permittivity, the coupling, the permeability, and the source are smooth functions of the position, with some absorption of both fields, and the coupling is reciprocal: there are
exact electric and magnetic fields that solve Maxwell's equations in space, and the solver returns the electric field to within any accuracy for all grids that are fine enough, once the iterations are enough. -/
theorem C134_exact_coupled (hd : d ≤ 3) {period : Fin d → ℝ} (hper : ∀ b, period b ≠ 0) {k0 : ℝ} (hk0 : 0 < k0) {epsilon xi zeta mu : Point → Matrix (Fin 3) (Fin 3) ℂ}
    (hse : ∀ c c', Smooth period fun r => epsilon r c c') (hsx : ∀ c c', Smooth period fun r => xi r c c') (hsz : ∀ c c', Smooth period fun r => zeta r c c') (hsm : ∀ c c', Smooth period fun r => mu r c c') {δ : ℝ}
    (hδ : 0 < δ) (habs : AbsorbsBothInSpace epsilon xi zeta mu δ) {B : ℝ} (hB : ∀ r, ‖mu r 0 0‖ ≤ B) (hδB : 2e-8 + 2e-5 * B < δ)
    (hx : ∀ r, xi r * (mu r)⁻¹ = -((mu r)⁻¹ * zeta r)) {S : Fin 3 → Point → ℂ} (hS : ∀ c, Smooth period (S c)) :
    ∃ E H : Fin 3 → Point → ℂ, CoupledInSpace k0 epsilon xi zeta mu S E H ∧ ∀ η > 0, ∃ M : ℕ, ∀ (co : Const) (p : FnArgs d), InSpaceCoupled co hd p period k0 epsilon xi zeta mu S → (∀ b, M ≤ p.grid.shape b) →
      ∃ q : Args d, p.values = .ok q ∧ ∀ (o : Optimum) (tol : ℝ), o.vec.2 ≠ 0 → ∀ F : Solver.Field 3 q.grid.shape, (∀ c, SampledFrom q.grid (E c) (F c)) →
        ∃ t, q.start co tol o = .ok ⟨3, t⟩ ∧ ∃ j0, ∀ i ≥ j0, (∃ u, run (.vectorial hd) (backendK q.grid k0) t i = .ok u ∧ rms (getE k0 u - F) < η) ∨
          (run (.vectorial hd) (backendK q.grid k0) t i = .error .zeroDivision ∧ ∃ j < i, ∃ u, run (.vectorial hd) (backendK q.grid k0) t j = .ok u ∧ rms (getE k0 u - F) < η) := by
  obtain ⟨E, H, h1, h2⟩ := C130_called_coupled_limit hd hper hk0 hse hsx hsz hsm hδ habs hS
  refine ⟨E, H, h1, fun η hη => ?_⟩
  obtain ⟨M, hM⟩ := h2 η hη
  refine ⟨M, fun co p h hMp => ?_⟩
  obtain ⟨q, h3, h4, h5, h6, m, s, hdesc, hform, h7, h8, h9⟩ := C134_samples_coupled h
  have hf : q.FoundMagnetic := by
    refine C87_absorbs hdesc hform (δ := δ) (B := B) (fun x v => ?_) (fun x => ?_) hδB
    · obtain ⟨ρ, hρ⟩ := Continuous.exists_atSample hd q.grid x
      rw [h7.mu x ρ hρ]
      have := habs ρ 0 v
      simpa using this
    · obtain ⟨ρ, hρ⟩ := Continuous.exists_atSample hd q.grid x
      rw [h7.mu x ρ hρ]
      exact hB ρ
  refine ⟨q, h3, fun o tol ho F hF => hM co q m s 0 o (h9 o ho hf) ?_ h5 h6 h8 (fun b => by rw [h4]; exact hMp b) tol F hF⟩
  have hinv : ∀ x, IsUnit (m.mu x).det := fun x => by
    obtain ⟨ρ, hρ⟩ := Continuous.exists_atSample hd q.grid x
    rw [h7.mu x ρ hρ]
    exact absorbs_invertible hδ (habs ρ)
  rw [exchanged_reciprocal hinv fun x => by
    obtain ⟨ρ, hρ⟩ := Continuous.exists_atSample hd q.grid x
    rw [h7.xi x ρ hρ, h7.mu x ρ hρ, h7.zeta x ρ hρ]
    exact hx ρ]
  exact h7

/-- **C134 (exact solution, existence).** When the permittivity and the source are smooth functions of the position, with a little absorption: there is an exact electric field, and the solver returns it to within any
accuracy, for all grids that are fine enough, once the iterations are enough. -/
theorem C134_exact_limit (hd : d ≤ 3) {period : Fin d → ℝ} (hper : ∀ b, period b ≠ 0) {k0 : ℝ} (hk0 : 0 < k0) {epsilon : Point → Matrix (Fin 3) (Fin 3) ℂ} (hsm : ∀ c c', Smooth period fun r => epsilon r c c')
    {δ : ℝ} (hδ : 0 < δ) (habs : AbsorbsInSpace epsilon δ) {r : ℝ} (hr : 0 < r) {S : Fin 3 → Point → ℂ} (hS : ∀ c, Smooth period (S c)) :
    ∃ E : Fin 3 → Point → ℂ, WaveEquationInSpace k0 epsilon r S E ∧ ∀ η > 0, ∃ M : ℕ, ∀ (co : Const) (p : FnArgs d), InSpace co hd p period k0 epsilon r S → (∀ b, M ≤ p.grid.shape b) →
      ∀ (o : Optimum) (tol : ℝ), 0 ≤ tol → ∃ q : Args d, p.values = .ok q ∧ ∀ F : Solver.Field 3 q.grid.shape, (∀ c, SampledFrom q.grid (E c) (F c)) →
        ∃ t, q.start co tol o = .ok ⟨3, t⟩ ∧ ∃ j0, ∀ i ≥ j0, (∃ u, run (.vectorial hd) (backendK q.grid k0) t i = .ok u ∧ rms (getE k0 u - F) < η) ∨
          (run (.vectorial hd) (backendK q.grid k0) t i = .error .zeroDivision ∧ ∃ j < i, ∃ u, run (.vectorial hd) (backendK q.grid k0) t j = .ok u ∧ rms (getE k0 u - F) < η) := by
  obtain ⟨E, h1, h2⟩ := C130_called_limit hd hper hk0 hsm hδ habs hr hS
  refine ⟨E, h1, fun η hη => ?_⟩
  obtain ⟨M, hM⟩ := h2 η hη
  refine ⟨M, fun co p h hMp o tol htol => ?_⟩
  obtain ⟨q, h3, m, s, h5⟩ := C134_samples h
  have h4 := (values_fixed h3).1
  exact ⟨q, h3, fun F hF => hM co q m s 0 h5 (fun b => by rw [h4]; exact hMp b) o tol htol F hF⟩

/-! ### Cases -/

/-- The hypotheses of `C134_exact_limit` are met. -/
example := C134_exact_limit (d := 1) (by decide) (fun _ => one_ne_zero) one_pos demoEpsilon_smooth one_pos demoEpsilon_absorbs two_pos demoDrive_smooth

/-- The hypotheses of `C134_exact_coupled` are met, and with them those of `C87_absorbs`. -/
example := C134_exact_coupled (d := 1) (by decide) (fun _ => one_ne_zero) one_pos demoCoupled_smooth.1 demoCoupled_smooth.2.1 demoCoupled_smooth.2.2.1 demoCoupled_smooth.2.2.2 one_pos demoCoupled_absorbs
  (B := 3) (fun r => by
    rw [Matrix.smul_apply, Matrix.one_apply_eq, smul_eq_mul, mul_one]
    refine (norm_add_le _ _).trans ?_
    simp
    norm_num) (by norm_num) (fun r => by simp) demoDrive_smooth

/-- A chiral material that absorbs, as functions. -/
noncomputable def chiralFunctions : FnArgs 1 :=
  { functionArgs with
    xi := tensorFn (d := 1) (n := 3) fun i j r => if i = j then I * r 0 else 0
    zeta := tensorFn (d := 1) (n := 3) fun i j r => if i = j then -I * r 0 else 0
    mu := tensorFn (d := 1) (n := 3) fun i j _ => if i = j then 2 + I else 0 }

/-- The hypotheses of `C134_samples_coupled` are met. -/
example (co : Const) := C134_samples_coupled (co := co) (hd := show 1 ≤ 3 by decide) (p := chiralFunctions) (period := fun _ => 2) (k0 := 1) (epsilon := fun _ i j => if i = j then 1 + I else 0)
  (xi := fun ρ i j => if i = j then I * (ρ 0 : ℝ) else 0) (zeta := fun ρ i j => if i = j then -I * (ρ 0 : ℝ) else 0) (mu := fun _ i j => if i = j then 2 + I else 0) (S := fun _ _ => 1)
  { plaid := ⟨rfl, .inl rfl, fun _ => rfl⟩
    nonempty := fun _ => two_pos
    wavenumber := rfl
    period := fun _ => mul_one _
    epsilon := ⟨_, rfl, _, rfl, fun _ _ _ => rfl⟩
    xi := ⟨fun i j r => if i = j then I * r 0 else 0, rfl, fun _ _ _ => rfl⟩
    zeta := ⟨fun i j r => if i = j then -I * r 0 else 0, rfl, fun _ _ _ => rfl⟩
    mu := ⟨fun i j _ => if i = j then 2 + I else 0, rfl, fun _ _ _ => rfl⟩
    source := ⟨_, rfl, fun _ _ => rfl⟩
    vectorial := rfl
    electric := rfl
    magnetic := rfl
    initial := rfl }

end Verif.Problem
