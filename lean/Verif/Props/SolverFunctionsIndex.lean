import Verif.Props.SolverFunctions
import Verif.Props.ProblemIndex

/-!
# C134: the refractive index as a function of the position
-/

namespace Verif.Problem

open Verif Verif.Construct Verif.Solver Complex
open Verif.Assign (Arr toMatrixField)
open Verif.Fourier (Idx)

variable {d n : ℕ}

/-- The arguments with the functions replaced by their values, when there is no permittivity. -/
theorem index_values {p : FnArgs d} (he : p.epsilon = none) {A : Arg} (hi : p.index = some A) {v : Arr ℂ} (hv : func2arr p.grid A = .ok (.array v)) {q : Args d} (hq : p.values = .ok q) :
    ∃ s xi zeta mu, q = ⟨p.grid, p.frequency, s, none, some v, xi, zeta, mu, p.electric, p.magnetic, p.thickness, p.initial⟩ ∧ ∃ V, func2arr p.grid p.mu = .ok V ∧ V.astype = .ok mu := by
  unfold FnArgs.values at hq
  have hel : p.electricValues = .ok (none, some v) := by
    unfold FnArgs.electricValues
    rw [he, hi]
    dsimp only
    rw [hv]
    rfl
  rw [hel] at hq
  change p.sourceValues.bind _ = _ at hq
  cases hs : p.sourceValues with
  | error => rw [hs] at hq; exact (nomatch hq)
  | ok s =>
    rw [hs] at hq
    change (func2arr p.grid p.mu).bind _ = _ at hq
    cases hm : func2arr p.grid p.mu with
    | error => rw [hm] at hq; exact (nomatch hq)
    | ok V =>
      rw [hm] at hq
      change V.astype.bind _ = _ at hq
      cases hV : V.astype with
      | error => rw [hV] at hq; exact (nomatch hq)
      | ok mu =>
        rw [hV] at hq
        change (func2arr p.grid p.xi).bind _ = _ at hq
        cases hx : func2arr p.grid p.xi with
        | error => rw [hx] at hq; exact (nomatch hq)
        | ok xi =>
          rw [hx] at hq
          change (func2arr p.grid p.zeta).bind _ = _ at hq
          cases hz : func2arr p.grid p.zeta with
          | error => rw [hz] at hq; exact (nomatch hq)
          | ok zeta =>
            rw [hz] at hq
            exact ⟨s, xi.asarray, zeta.asarray, mu, (Except.ok.inj hq).symm, V, rfl, hV⟩

theorem scalarFn_form {g : Grid.Obj d ℝ} (hg : Plaid g) (F : (Fin d → ℂ) → ℂ) {a : Arr ℂ} (h : func2arr g (scalarFn F) = .ok (.array a)) : ScalarForm d a := by
  obtain ⟨a', h1, h2, -⟩ := C134_values hg [] fun _ => F
  obtain rfl : a' = a := Value.array.inj (Except.ok.inj (h1.symm.trans h))
  unfold ScalarForm
  rw [h2, List.nil_append, List.drop_eq_nil_of_le (by simp)]
  simp

/-- **C134 (refractive index).** A function for the refractive index, without negative real parts, has the effect of the permittivity that is its square at each point of the grid. -/
theorem C134_index [NeZero n] {co : Const} {p : FnArgs d} (hg : Plaid p.grid) (hN : ∀ a, 0 < p.grid.shape a) (he : p.epsilon = none) {nu : (Fin d → ℂ) → ℂ} (hi : p.index = some (scalarFn nu))
    (hre : ∀ x, 0 ≤ (nu (coordinatesAt p.grid x)).re) {q : Args d} (hq : p.values = .ok q) (tol : ℝ) (o : Optimum) :
    ∃ e, Means n p.grid.shape e (fun x => (nu (coordinatesAt p.grid x) ^ 2) • 1) ∧ q.construct co n tol o = Args.construct co { q with epsilon := some e } n tol o := by
  obtain ⟨v, h1, h2⟩ := C134_materials (n := n) hg (.scalar nu)
  obtain ⟨s, xi, zeta, mu, rfl, -⟩ := index_values he hi h1 hq
  obtain ⟨e, h3, h4⟩ := C86_index (co := co) (p := ⟨p.grid, p.frequency, s, none, some v, xi, zeta, mu, p.electric, p.magnetic, p.thickness, p.initial⟩) hN rfl rfl h2 (scalarFn_form hg nu h1) (fun x => by
    rw [Matrix.smul_apply, Matrix.one_apply_eq, smul_eq_mul, mul_one]
    exact hre x) tol o
  refine ⟨e, ?_, h4⟩
  convert h3 using 2 with x
  rw [smul_mul_smul_comm, one_mul, sq]

/-- **C134 (negative refractive index).** Where the real part of the function is negative, the signs of the permittivity and of the permeability are changed. -/
theorem C134_index_negative [NeZero n] {co : Const} {p : FnArgs d} (hg : Plaid p.grid) (hN : ∀ a, 0 < p.grid.shape a) (he : p.epsilon = none) {nu : (Fin d → ℂ) → ℂ} (hi : p.index = some (scalarFn nu))
    {M : Tensor n p.grid.shape} (hmu : ArgMeans n p.grid p.mu M) (hre : ∃ x, (nu (coordinatesAt p.grid x)).re < 0) {q : Args d} (hq : p.values = .ok q) (tol : ℝ) (o : Optimum) :
    ∃ e u, Means n p.grid.shape e (fun x => ((if (nu (coordinatesAt p.grid x)).re < 0 then -1 else 1 : ℂ) * nu (coordinatesAt p.grid x) ^ 2) • 1) ∧
      Means n p.grid.shape u (fun x => (if (nu (coordinatesAt p.grid x)).re < 0 then -1 else 1 : ℂ) • M x) ∧
      q.construct co n tol o = Args.construct co { q with epsilon := some e, mu := u } n tol o := by
  obtain ⟨v, h1, h2⟩ := C134_materials (n := n) hg (.scalar nu)
  obtain ⟨am, m1, m2⟩ := C134_materials hg hmu
  obtain ⟨s, xi, zeta, mu, rfl, V, hV, hV'⟩ := index_values he hi h1 hq
  obtain rfl : Value.array am = V := Except.ok.inj (m1.symm.trans hV)
  obtain rfl : am = mu := Except.ok.inj hV'
  have hone : ∀ x : Idx p.grid.shape, ((nu (coordinatesAt p.grid x) • (1 : Matrix (Fin n) (Fin n) ℂ)) 0 0) = nu (coordinatesAt p.grid x) := fun x => by
    rw [Matrix.smul_apply, Matrix.one_apply_eq, smul_eq_mul, mul_one]
  obtain ⟨e, u, h3, h4, h5, -⟩ := C86_index_negative (co := co) (p := ⟨p.grid, p.frequency, s, none, some v, xi, zeta, am, p.electric, p.magnetic, p.thickness, p.initial⟩) hN rfl rfl h2 (scalarFn_form hg nu h1)
    m2 (by obtain ⟨x, hx⟩ := hre; exact ⟨x, by rw [hone]; exact hx⟩) tol o
  simp only [hone] at h3 h4
  refine ⟨e, u, ?_, h4, h5⟩
  convert h3 using 2 with x
  rw [smul_mul_smul_comm, one_mul, smul_smul, sq]

/-- **C134 (anisotropic refractive index).** A function that returns a matrix for each point has the effect of the permittivity that is its square. -/
theorem C134_index_tensor [NeZero n] {co : Const} {p : FnArgs d} (hg : Plaid p.grid) (hn : 1 < n) (he : p.epsilon = none) {F : Matrix (Fin n) (Fin n) ((Fin d → ℂ) → ℂ)} (hi : p.index = some (tensorFn F))
    {q : Args d} (hq : p.values = .ok q) (tol : ℝ) (o : Optimum) :
    ∃ e, Means n p.grid.shape e (fun x => (Matrix.of fun r c => F r c (coordinatesAt p.grid x)) * Matrix.of fun r c => F r c (coordinatesAt p.grid x)) ∧
      q.construct co n tol o = Args.construct co { q with epsilon := some e } n tol o := by
  obtain ⟨v, h1, h2⟩ := C134_materials (n := n) hg (.tensor F)
  have hform : TensorForm d n v := by
    obtain ⟨a', h3, h4, -⟩ := C134_values hg [n, n] fun i r => if h : i.getD 0 0 < n ∧ i.getD 1 0 < n then F ⟨_, h.1⟩ ⟨_, h.2⟩ r else 0
    obtain rfl : a' = v := Value.array.inj (Except.ok.inj (h3.symm.trans h1))
    unfold TensorForm
    rw [h4]
    simp
  obtain ⟨s, xi, zeta, mu, rfl, -⟩ := index_values he hi h1 hq
  cases h2 with
  | scalar form =>
    unfold TensorForm at hform
    have := form.2 n (by rw [hform]; simp)
    omega
  | tensor form fits value =>
    exact C86_index_tensor (co := co) (p := ⟨p.grid, p.frequency, s, none, some v, xi, zeta, mu, p.electric, p.magnetic, p.thickness, p.initial⟩) hn rfl rfl form fits value tol o

end Verif.Problem
