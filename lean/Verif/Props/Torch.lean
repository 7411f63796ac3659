import Verif.Model.Torch
import Verif.Props.Assign
import Verif.Props.Eigenvalues
import Verif.Props.SolverBias
import Verif.Props.WorkArrays

/-!
# C129: the back ends for PyTorch and NumPy give the same results

The specification is the model of the back end for NumPy.
-/

namespace Verif.Torch

open Verif Verif.MatrixField Verif.Solver Verif.Fourier Complex

/-! ### Products of matrices -/

/-- Arrays of scalars, or matrices that can be multiplied. -/
def Multipliable {X : Type} (a b : MF X) : Prop := a.isScalar = true ∨ b.isScalar = true ∨ a.cols = b.rows

theorem sum_parts {ι : Type*} (s : Finset ι) (f g : ι → ℂ) :
    ((∑ j ∈ s, (f j).re * (g j).re - ∑ j ∈ s, (f j).im * (g j).im : ℝ) : ℂ) + I * (∑ j ∈ s, (f j).re * (g j).im : ℝ) + I * (∑ j ∈ s, (f j).im * (g j).re : ℝ) =
      ∑ j ∈ s, f j * g j := by
  apply Complex.ext
  · rw [Complex.re_sum]
    simp only [add_re, ofReal_re, mul_re, I_re, I_im, ofReal_im, zero_mul, mul_zero, sub_zero, add_zero]
    rw [Finset.sum_sub_distrib]
  · rw [Complex.im_sum]
    simp only [add_im, ofReal_re, mul_im, I_re, I_im, ofReal_im, zero_mul, one_mul, zero_add]
    rw [Finset.sum_add_distrib]

/-- Two arrays hold the same values. -/
def Agree {X : Type} (a b : MF X) : Prop := a.rows = b.rows ∧ a.cols = b.cols ∧ ∀ i < a.rows, ∀ j < a.cols, ∀ x, a.val i j x = b.val i j x

theorem Agree.refl {X : Type} (a : MF X) : Agree a a := ⟨rfl, rfl, fun _ _ _ _ _ => rfl⟩

/-- **C129 (products).** Matrices that can be multiplied have the product that NumPy calculates, and scalars too, with the same exceptions. -/
theorem C129_mul {X : Type} (a b : MF X) (h : Multipliable a b) :
    (∃ r s, mul a b = some r ∧ MatrixField.mul a b = .ok s ∧ Agree r s) ∨ mul a b = none ∧ ∃ e, MatrixField.mul a b = .error e := by
  unfold mul MatrixField.mul
  by_cases hs : (a.isScalar || b.isScalar) = true
  · rw [if_pos hs, if_pos hs]
    cases he : elementwise (· * ·) a b with
    | error e => exact .inr ⟨rfl, e, rfl⟩
    | ok r => exact .inl ⟨r, r, rfl, rfl, .refl r⟩
  · rw [if_neg hs, if_neg hs]
    have hc : a.cols = b.rows := by
      rw [Bool.or_eq_true] at hs
      rcases h with h | h | h
      · exact absurd (.inl h) hs
      · exact absurd (.inr h) hs
      · exact h
    rw [if_pos hc]
    have he : einsum a b = .ok ⟨a.rows, b.cols, fun i k x => ∑ j ∈ Finset.range a.cols, a.val i (bIdx a.cols j) x * b.val (bIdx b.rows j) k x⟩ := by
      unfold einsum bLen
      rw [if_pos hc]
      rfl
    refine .inl ⟨_, _, rfl, he, rfl, rfl, fun i _ j _ x => ?_⟩
    unfold matmul
    dsimp only
    rw [sum_parts]
    refine Finset.sum_congr rfl fun l hl => ?_
    have : ∀ len, len = a.cols → bIdx len l = l := fun len e => by
      unfold bIdx
      split
      · have := Finset.mem_range.1 hl; omega
      · rfl
    rw [this _ rfl, this _ hc.symm]

/-- **C129 (products).** Exactly when PyTorch raises an exception. -/
theorem C129_mul_raises {X : Type} (a b : MF X) : mul a b = none ↔
    if a.isScalar || b.isScalar then ∃ e, MatrixField.mul a b = .error e else a.cols ≠ b.rows := by
  unfold mul MatrixField.mul
  by_cases hs : (a.isScalar || b.isScalar) = true
  · rw [if_pos hs, if_pos hs, if_pos hs]
    cases elementwise (· * ·) a b with
    | error e => exact ⟨fun _ => ⟨e, rfl⟩, fun _ => rfl⟩
    | ok r => exact ⟨(nomatch ·), fun ⟨_, h⟩ => nomatch h⟩
  · rw [if_neg hs, if_neg hs]
    by_cases hc : a.cols = b.rows
    · rw [if_pos hc]; exact ⟨(nomatch ·), fun h => absurd hc h⟩
    · rw [if_neg hc]; exact ⟨fun _ => hc, fun _ => rfl⟩

/-- **C129 (products) is violated**: NumPy broadcasts a row to the rows of a matrix, PyTorch raises an exception. -/
theorem C129_mul_violates : ∃ a b s : MF Unit, mul a b = none ∧ MatrixField.mul a b = .ok s ∧ s.rows = 3 ∧ s.cols = 3 := by
  refine ⟨⟨3, 1, fun _ _ _ => 1⟩, ⟨3, 3, fun _ _ _ => 1⟩, _, (C129_mul_raises _ _).2 (by simp [MF.isScalar]), rfl, rfl, rfl⟩

/-- **C129 (products into a given array).** The returned array is the one of NumPy; but it is `out` only if one of the factors is a scalar. -/
theorem C129_out {X : Type} (a b out : MF X) (h : Multipliable a b) (r : MF X) (hr : MatrixField.mulOut a b out = .ok r) :
    ∃ s o, mulOut a b out = some (s, o) ∧ Agree s r ∧ if a.isScalar || b.isScalar then o = s else o = out := by
  unfold MatrixField.mulOut at hr
  unfold mulOut
  by_cases hs : (a.isScalar || b.isScalar) = true
  · simp only [if_pos hs] at hr ⊢
    cases he : elementwise (· * ·) out a with
    | error e => rw [he] at hr; cases hr
    | ok q =>
      rw [he] at hr
      dsimp only at hr ⊢
      by_cases hq : q.rows = out.rows ∧ q.cols = out.cols
      · rw [if_pos hq] at hr ⊢
        cases hr
        exact ⟨_, _, rfl, .refl _, rfl⟩
      · rw [if_neg hq] at hr; cases hr
  · simp only [if_neg hs] at hr ⊢
    have he : MatrixField.mul a b = einsum a b := by unfold MatrixField.mul; rw [if_neg hs]
    rw [← he] at hr
    rcases C129_mul a b h with ⟨s, t, h1, h2, h3⟩ | ⟨-, e, h2⟩
    · rw [h2] at hr
      dsimp only at hr
      rw [h1]
      by_cases hq : t.rows = out.rows ∧ t.cols = out.cols
      · rw [if_pos hq] at hr
        cases hr
        exact ⟨s, out, rfl, h3, rfl⟩
      · rw [if_neg hq] at hr; cases hr
    · rw [h2] at hr; cases hr

/-- **C129 is violated**: the product of matrices is not written to the destination array `out`. -/
theorem C129_out_violates : ∃ a b out r s o : MF Unit, MatrixField.mulOut a b out = .ok r ∧ mulOut a b out = some (s, o) ∧ ¬ Agree o r := by
  let a : MF Unit := ⟨3, 3, fun i j _ => if i = j then 2 else 0⟩
  let b : MF Unit := ⟨3, 1, fun _ _ _ => 1⟩
  have hm : Multipliable a b := .inr (.inr rfl)
  obtain ⟨r, hr⟩ : ∃ r, MatrixField.mulOut a b b = .ok r := ⟨_, rfl⟩
  have hr' : r.val 0 0 () = 2 := by
    cases hr
    simp [a, b, bIdx]
  obtain ⟨s, o, h1, -, h3⟩ := C129_out a b b hm r hr
  refine ⟨a, b, b, r, s, o, hr, h1, fun H => ?_⟩
  rw [if_neg (by simp [MF.isScalar, a, b])] at h3
  subst h3
  have := H.2.2 0 (by simp [b]) 0 (by simp [b]) ()
  rw [hr'] at this
  norm_num [b] at this

/-! ### Assignment -/

open Assign in
/-- **C129 (assignment).** To fields of 1 or 3 components on the grid: the same values are assigned, or both raise an exception. -/
theorem C129_assign {d : ℕ} {α : Type*} (rows : ℕ) (hrows : rows = 1 ∨ rows = 3) (N : Fin d → ℕ) (a : Arr α) :
    (assign N a (full rows N) = none ∧ Assign.assign rows N a (full rows N) = .error .valueError) ∨
    ∃ v w, assign N a (full rows N) = some v ∧ Assign.assign rows N a (full rows N) = .ok w ∧ ∀ i, InShape (full rows N) i → v i = w i := by
  unfold assign
  by_cases hm : ∃ b : Fin d, (toMatrixField d a).shape b.succ.succ ≠ N b
  · have e : Assign.assign rows N a (full rows N) = assignExact (tile (toMatrixField d a) fun b => full rows N b / (toMatrixField d a).shape b) (full rows N) := by
      unfold Assign.assign
      simp only [if_pos (Or.inl hm : _ ∨ (toMatrixField d a).shape 0 ≠ rows)]
    simp only [if_pos hm]
    rw [e]
    unfold assignExact
    split
    · exact .inr ⟨_, _, rfl, rfl, fun _ _ => rfl⟩
    · exact .inl ⟨rfl, rfl⟩
  · simp only [if_neg hm]
    have hN : ∀ b : Fin d, (toMatrixField d a).shape b.succ.succ = N b := fun b => by_contra fun h => hm ⟨b, h⟩
    rcases C30_exact rows N a with ⟨h1, b, hb⟩ | ⟨h1, w, h2, h3⟩
    · refine .inl ⟨?_, h1⟩
      unfold assignExact
      rw [if_neg]; · rfl
      intro H
      rcases H b with e | e
      · exact hb (e ▸ dvd_rfl)
      · exact hb (e ▸ one_dvd _)
    · have key : ∀ b, (toMatrixField d a).shape b = full rows N b ∨ (toMatrixField d a).shape b = 1 := by
        intro b
        have hb := h1 b
        revert hb
        refine Fin.cases (fun hb => ?_) (fun b => Fin.cases (fun hb => ?_) (fun b _ => .inl (hN b)) b) b
        · have hb : (toMatrixField d a).shape 0 ∣ rows := hb
          change (toMatrixField d a).shape 0 = rows ∨ _
          rcases hrows with rfl | rfl
          · exact .inl (Nat.dvd_one.1 hb)
          · exact ((Nat.dvd_prime Nat.prime_three).1 hb).symm
        · exact .inr (Nat.dvd_one.1 hb)
      refine .inr ⟨_, w, by unfold assignExact; rw [if_pos key]; rfl, h2, fun i hi => ?_⟩
      rw [h3 i hi]
      congr 1
      funext b
      rcases key b with e | e
      · rw [e]
        split
        · rename_i h; have := hi b; rw [h] at this ⊢; rw [Nat.mod_one]
        · exact (Nat.mod_eq_of_lt (hi b)).symm
      · rw [if_pos e, e, Nat.mod_one]

/-! ### Norms -/

variable {d n m : ℕ} {N : Fin d → ℕ}

/-- **C129 (norms).** -/
theorem C129_norm (F : Fin m → Idx N → ℂ) : norm F = Backend.norm F := by
  unfold norm Backend.norm
  refine congrArg _ (Finset.sum_congr rfl fun c _ => Finset.sum_congr rfl fun x _ => ?_)
  rw [Complex.sq_norm, Complex.normSq_apply]
  ring

/-! ### Eigenvalues -/

theorem hermitian_im {A : Matrix (Fin n) (Fin n) ℂ} (h : A.IsHermitian) {z : ℂ} (hz : z ∈ A.charpoly.roots) : z.im = 0 := by
  rw [h.roots_charpoly_eq_eigenvalues, Multiset.mem_map] at hz
  obtain ⟨i, -, rfl⟩ := hz
  exact ofReal_im _

/-- **C129 (eigenvalues).** The largest eigenvalue of Hermitian matrices is found from the real parts of the eigenvalues. -/
theorem C129_eigenvalue {A : Tensor n N} (h : ∀ x, (A x).IsHermitian) : largestEigenvalue A = Solver.largestEigenvalue A := by
  unfold largestEigenvalue Solver.largestEigenvalue
  congr 1
  ext r
  refine exists_congr fun x => exists_congr fun z => and_congr_right fun hz => ?_
  rw [← Complex.abs_re_eq_norm.2 (hermitian_im (h x) hz)]

/-- **C129 (eigenvalues) is violated** for matrices that are not Hermitian. -/
theorem C129_eigenvalue_violates : ∃ A : Tensor 3 (fun _ : Fin 1 => 2), largestEigenvalue A = 0 ∧ Solver.largestEigenvalue A = 1 := by
  have hne : Nonempty (Idx (fun _ : Fin 1 => 2)) := ⟨fun _ => 0⟩
  refine ⟨fun _ => I • 1, ?_, by rw [largestEigenvalue_smul_one, norm_I]⟩
  have hr : ∀ z, z ∈ ((I • 1 : Matrix (Fin 3) (Fin 3) ℂ)).charpoly.roots ↔ z = I := by
    intro z
    rw [Polynomial.mem_roots (Matrix.charpoly_monic _).ne_zero, Polynomial.IsRoot, Matrix.eval_charpoly, Matrix.scalar_apply, Matrix.det_fin_three]
    simp
    rw [sub_eq_zero]
  unfold largestEigenvalue
  have : {r : ℝ | ∃ _ : Idx (fun _ : Fin 1 => 2), ∃ z ∈ ((I • 1 : Matrix (Fin 3) (Fin 3) ℂ)).charpoly.roots, r = |z.re|} = {0} := by
    ext r
    constructor
    · rintro ⟨-, z, hz, rfl⟩
      rw [hr] at hz
      simp [hz]
    · rintro rfl
      exact ⟨fun _ => 0, I, (hr I).2 rfl, by simp⟩
  rw [this, csSup_singleton]

/-- **C129 (bias).** The bounds from which the preconditioner is calculated are the same. -/
theorem C129_bias (M : Medium n N) (A : Tensor n N) (alphaR beta : ℝ) :
    Real.sqrt (largestEigenvalue (M.chiHHBeta2 beta)) / |beta| = M.sigmaHH beta ∧
    Real.sqrt (largestEigenvalue (M.deltaEEBeta2 alphaR beta)) / |beta| = M.sigmaEE alphaR beta ∧
    Real.sqrt (largestEigenvalue fun x => (A x).conjTranspose * A x) = largestSingularValue A := by
  refine ⟨?_, ?_, ?_⟩
  · rw [C129_eigenvalue fun x => ?_]; · rfl
    rw [Medium.chiHHBeta2, ← gram_sub]
    exact Matrix.isHermitian_conjTranspose_mul_self _
  · rw [C129_eigenvalue fun x => ?_]; · rfl
    rw [Medium.deltaEEBeta2, add_comm, ← gram_sub]
    exact Matrix.isHermitian_conjTranspose_mul_self _
  · rw [C129_eigenvalue fun x => Matrix.isHermitian_conjTranspose_mul_self _]; rfl

/-- **C129 (roots).** The roots of a polynomial are the same if those that NumPy finds are real. -/
theorem C129_roots {eps : ℝ} {C : List ℂ} {X : List (Option ℂ)} (h : Roots.calcRoots eps C = .ok X) (hX : ∀ z, some z ∈ X → z.im = 0) :
    ∃ Y, Roots.calcRootsTorch eps C = .ok Y ∧ Y.Perm X := by
  refine ⟨_, by unfold Roots.calcRootsTorch; rw [h]; rfl, (Roots.sort_perm _).trans (List.Perm.of_eq ?_)⟩
  conv_rhs => rw [← List.map_id X]
  refine List.map_congr_left fun x hx => ?_
  cases x with
  | none => rfl
  | some z => exact congrArg some (Complex.ext (ofReal_re _) (by rw [ofReal_im]; exact (hX z hx).symm))

/-- **C129 (roots).** In particular the eigenvalues of Hermitian matrices that NumPy finds exactly. -/
theorem C129_hermitian {eps : ℝ} {a : Matrix (Fin 3) (Fin 3) ℂ} (ha : a.IsHermitian) {Y : List ℂ}
    (h : Roots.calcRoots eps (Roots.charCoefficients a) = .ok (Y.map some)) (hY : Spec.Roots.Eigenvalues a Y) :
    ∃ Z : List ℂ, Roots.calcRootsTorch eps (Roots.charCoefficients a) = .ok (Z.map some) ∧ Spec.Roots.Eigenvalues a Z := by
  obtain ⟨W, h1, h2⟩ := C129_roots h fun z hz => by
    obtain ⟨y, hy, e⟩ := List.mem_map.1 hz
    cases e
    exact Roots.C27_real ha hY z hy
  obtain ⟨Z, rfl, hZ⟩ : ∃ Z : List ℂ, W = Z.map some ∧ Z.Perm Y := by
    refine ⟨W.filterMap id, ?_, ?_⟩
    · have : ∀ w ∈ W, ∃ z, w = some z := fun w hw => by
        obtain ⟨y, -, e⟩ := List.mem_map.1 (h2.mem_iff.1 hw)
        exact ⟨y, e.symm⟩
      clear h1 h2
      induction W with
      | nil => rfl
      | cons w W ih =>
        obtain ⟨z, rfl⟩ := this w List.mem_cons_self
        exact congrArg (some z :: ·) (ih fun w hw => this w (List.mem_cons_of_mem _ hw))
    · have := h2.filterMap id
      rwa [List.filterMap_map, show (id ∘ some : ℂ → Option ℂ) = some from rfl, List.filterMap_some] at this
  exact ⟨Z, h1, fun x => (hY x).trans (hZ.map _).prod_eq.symm⟩

/-! ### The solver -/

open WorkArrays in
/-- **C129 (solutions).** Programs that iterate, read and assign with either back end find the same solution, or the same exception. -/
theorem C129_history (p : Setup d n N) (e : Env n N) (l : List (Op n N)) (y : Sys n N) (h : y.Inv) :
    (execAll { p with env := e } y l).map (fun y => abs y.state y.mem) = (execAll p y l).map fun y => abs y.state y.mem := by
  rw [← C81_history p l y h, ← C81_history _ l y h]
  generalize abs y.state y.mem = s
  induction l generalizing s with
  | nil => rfl
  | cons a l ih =>
    have h1 : execValue { p with env := e } s a = execValue p s a := by cases a <;> rfl
    unfold execAllValue
    rw [h1]
    cases execValue p s a with
    | error err => rfl
    | ok s => exact ih s

open WorkArrays in
/-- **C129 (fields).** The fields that are read from the same solution are the same. -/
theorem C129_fields (e e' : Env n N) (co : Const) (k0 : ℝ) (k : Fin d → Idx N → ℝ) (i0 : Fin n) (x0 : Idx N) (s s' : State n N) (m m' : Mem n N) (hm : WF m) (hm' : WF m')
    (h : abs s m = abs s' m') :
    (readE k0 m).2.cells (readE k0 m).1 = (readE k0 m').2.cells (readE k0 m').1 ∧
    (readB e co k0 k m).2.cells (readB e co k0 k m).1 = (readB e' co k0 k m').2.cells (readB e' co k0 k m').1 ∧
    (readH e co k0 k i0 x0 s m).2.cells (readH e co k0 k i0 x0 s m).1 = (readH e' co k0 k i0 x0 s' m').2.cells (readH e' co k0 k i0 x0 s' m').1 ∧
    (readD e co k0 k i0 x0 s m).2.cells (readD e co k0 k i0 x0 s m).1 = (readD e' co k0 k i0 x0 s' m').2.cells (readD e' co k0 k i0 x0 s' m').1 ∧
    (readSource s m).2.cells (readSource s m).1 = (readSource s' m').2.cells (readSource s' m').1 ∧
    (readS e co k0 k i0 x0 s m).1 = (readS e' co k0 k i0 x0 s' m').1 ∧
    (readEnergy e co k0 k i0 x0 s m).1 = (readEnergy e' co k0 k i0 x0 s' m').1 := by
  obtain ⟨⟨a1, -⟩, ⟨a2, -⟩, ⟨a3, -⟩, ⟨a4, -⟩, ⟨a5, -⟩⟩ := C81_accessors e co k0 k i0 x0 s m hm
  obtain ⟨⟨b1, -⟩, ⟨b2, -⟩, ⟨b3, -⟩, ⟨b4, -⟩, ⟨b5, -⟩⟩ := C81_accessors e' co k0 k i0 x0 s' m' hm'
  obtain ⟨a6, a7⟩ := C81_energy e co k0 k i0 x0 s m hm
  obtain ⟨b6, b7⟩ := C81_energy e' co k0 k i0 x0 s' m' hm'
  rw [a1, a2, a3, a4, a5, a6, a7, b1, b2, b3, b4, b5, b6, b7, h]
  exact ⟨rfl, rfl, rfl, rfl, rfl, rfl, rfl⟩

/-! ### Examples -/

/-- Matrices and vectors can be multiplied, and so can scalars and matrices. -/
example : Multipliable (⟨3, 3, fun i j _ => i + j⟩ : MF Unit) ⟨3, 1, fun i _ _ => i⟩ ∧ Multipliable (⟨1, 1, fun _ _ _ => I⟩ : MF Unit) ⟨3, 3, fun i j _ => i + j⟩ :=
  ⟨.inr (.inr rfl), .inl rfl⟩

/-- `C129_roots`: the roots of the polynomial `x² - 1` are real. -/
example {eps : ℝ} (h4 : 16 * eps ≤ 1) : ∃ X, Roots.calcRoots eps [-1, 0, 1] = .ok X ∧ ∀ z, some z ∈ X → z.im = 0 := by
  have hs : √eps < 1 := by
    rw [Real.sqrt_lt' one_pos]
    by_contra h
    linarith
  obtain ⟨Y, h1, h2⟩ := Roots.C26_full (eps := eps) [-1, 0] one_ne_zero (by norm_num; linarith) (by simp) (by simp)
    (Roots.C26_quadratic_partial one_ne_zero (.inr (.inl (by simpa using hs))))
  refine ⟨_, h1, fun z hz => ?_⟩
  obtain ⟨y, hy, e⟩ := List.mem_map.1 hz
  cases e
  have := h2 z
  rw [show ([-1, 0] ++ [1] : List ℂ) = [-1, 0, 1] from rfl, Roots.value_three, List.prod_eq_zero (List.mem_map.2 ⟨z, hy, sub_self z⟩), mul_zero] at this
  have : (z - 1) * (z + 1) = 0 := by linear_combination this
  rcases mul_eq_zero.1 this with h | h
  · rw [sub_eq_zero.1 h]; rfl
  · rw [eq_neg_of_add_eq_zero_left h]; simp

open WorkArrays in
/-- FFTW that leaves `junk` in its input, and PyTorch. -/
example (junk : Field 3 two) (scalar : Tensor 3 two → Bool) :
    (execAll { demo true junk with env := env scalar } demoSys [.readE, .iterate, .edit 0 junk, .readD, .iterate]).map (fun y => abs y.state y.mem) =
      (execAll (demo true junk) demoSys [.readE, .iterate, .edit 0 junk, .readD, .iterate]).map fun y => abs y.state y.mem :=
  C129_history (demo true junk) (env scalar) _ demoSys demoSys_inv

open WorkArrays in
/-- **C129 (arrays).** Fourier transforms with PyTorch return new arrays and leave all others as they are, and so do products with matrices that are not scalar, also if they are told where to store the
result; those with scalars store it there. -/
theorem C129_arrays (scalar : Tensor n N → Bool) (m : Mem n N) (r : ℕ) :
    (∀ u < m.next, (forward (env scalar) r m).2.cells u = m.cells u ∧ (backward (env scalar) r m).2.cells u = m.cells u) ∧
    m.next ≤ (forward (env scalar) r m).1 ∧ m.next ≤ (backward (env scalar) r m).1 ∧
    (∀ A, scalar A = false → m.next ≤ (mulOutM (env scalar) A r m).1 ∧ ∀ u < m.next, (mulOutM (env scalar) A r m).2.cells u = m.cells u) ∧
    ∀ A, scalar A = true → (mulOutM (env scalar) A r m).1 = r ∧ (mulOutM (env scalar) A r m).2.cells r = mulField A (m.cells r) := by
  refine ⟨fun u hu => ⟨alloc_keep hu _, alloc_keep hu _⟩, le_refl _, le_refl _, fun A hA => ?_, fun A hA => ?_⟩
  · have h : mulOutM (env scalar) A r m = m.alloc (mulField A (m.cells r)) := if_neg (by rw [show (env scalar).writes A = scalar A from rfl, hA]; decide)
    rw [h]
    exact ⟨le_refl _, fun u hu => alloc_keep hu _⟩
  · have h : mulOutM (env scalar) A r m = (r, m.set r (mulField A (m.cells r))) := if_pos hA
    rw [h]
    exact ⟨rfl, Function.update_self _ _ _⟩

open WorkArrays in
/-- `C129_arrays` for the arrays of a solution of two samples, and matrices that are not scalar. -/
example := C129_arrays (n := 3) (N := two) (fun _ => false) demoSys.mem 2

end Verif.Torch
