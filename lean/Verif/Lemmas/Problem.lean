import Verif.Model.Problem
import Verif.Props.Construct

/-!
# The arrays for materials
-/

namespace Verif.Problem

open Verif Verif.Fourier Verif.Solver Verif.Construct Complex
open Verif.Assign (Arr toMatrixField full expand)

variable {d n : ℕ} {N : Fin d → ℕ}

/-- An array for a material: what it means at the points of the grid. -/
inductive Means (n : ℕ) (N : Fin d → ℕ) (a : Arr ℂ) (M : Tensor n N) : Prop
  | scalar (form : ScalarForm d a) (fits : Fits n N a) (value : ∀ x : Idx N, M x = scalarMeaning a (fun b => (x b : ℕ)) n)
  | tensor (form : TensorForm d n a) (fits : Fits n N a) (value : ∀ x : Idx N, M x = tensorMeaning a (fun b => (x b : ℕ)) n)

theorem refines_length : ∀ {s T : List ℕ}, Refines s T → s.length ≤ T.length
  | [], _, _ => Nat.zero_le _
  | _ :: _, [], h => h.elim
  | _ :: _, _ :: _, h => Nat.succ_le_succ (refines_length h.2)

theorem refines_getD : ∀ {s T : List ℕ} (_ : Refines s T) (k : ℕ), s.getD k 1 = 1 ∨ s.getD k 1 = T.getD k 1
  | [], _, _, k => Or.inl (by simp)
  | _ :: _, [], h, _ => h.elim
  | _ :: _, _ :: _, h, 0 => h.1
  | _ :: _, _ :: _, h, k + 1 => refines_getD h.2 k

theorem fits_length {a : Arr ℂ} (h : Fits n N a) : a.shape.length ≤ d + 2 := by
  have := refines_length h
  simpa using this

theorem expand_getD {a : Arr ℂ} (h : a.shape.length ≤ d + 2) (k : Fin (d + 2)) :
    (expand d a).shape k = a.shape.reverse.getD (d + 1 - k) 1 := by
  unfold expand
  simp only
  rw [List.getD_eq_getElem?_getD (l := a.shape.reverse)]
  have hk := k.isLt
  by_cases hl : (k : ℕ) < d + 2 - a.shape.length
  · rw [if_pos hl, List.getElem?_eq_none (by rw [List.length_reverse]; omega)]
    rfl
  · rw [if_neg hl, List.getElem?_reverse (by omega), List.getD_eq_getElem?_getD]
    congr 2
    omega

theorem target_getD (n : ℕ) (N : Fin d → ℕ) (k : Fin (d + 2)) :
    ((List.ofFn N).reverse ++ [n, n]).getD (d + 1 - k) 1 = (Fin.cons n (Fin.cons n N) : Fin (d + 2) → ℕ) k := by
  have e : (List.ofFn N).reverse ++ [n, n] = (List.ofFn (Fin.cons n (Fin.cons n N) : Fin (d + 2) → ℕ)).reverse := by
    rw [ofFn_cons2]
    simp
  have hk := k.isLt
  rw [e, List.getD_eq_getElem?_getD, List.getElem?_reverse (by rw [List.length_ofFn]; omega), List.length_ofFn]
  have : d + 2 - 1 - (d + 1 - (k : ℕ)) = k := by omega
  rw [this, List.getElem?_ofFn, dif_pos hk]
  rfl

/-- The shape of a field that can be broadcast to a matrix for each point. -/
theorem fits_shape {a : Arr ℂ} (h : Fits n N a) (k : Fin (d + 2)) :
    (expand d a).shape k = 1 ∨ (expand d a).shape k = (Fin.cons n (Fin.cons n N) : Fin (d + 2) → ℕ) k := by
  rw [expand_getD (fits_length h), ← target_getD]
  exact refines_getD h _

theorem fits_space {a : Arr ℂ} (h : Fits n N a) (b : Fin d) : (expand d a).shape b.succ.succ = N b ∨ (expand d a).shape b.succ.succ = 1 :=
  (fits_shape h b.succ.succ).symm

theorem Means.fits {a : Arr ℂ} {M : Tensor n N} (h : Means n N a M) : Fits n N a := by
  cases h <;> assumption

theorem Means.expand {a : Arr ℂ} {M : Tensor n N} (h : Means n N a M) : toMatrixField d a = expand d a := by
  refine toMatrixField_expand ?_
  cases h with
  | scalar form => rw [(scalarForm_shape form).2]; exact fun h => absurd h.2 (by decide)
  | tensor form => rw [(tensorForm_shape form).1, (tensorForm_shape form).2]; exact fun h => by omega

/-- The matrices that the code uses. -/
theorem Means.toTensor {a : Arr ℂ} {M : Tensor n N} (h : Means n N a M) : toTensor n N (toMatrixField d a) = .ok M := by
  unfold Problem.toTensor
  have hM : (fun x : Idx N => Matrix.of (tensorAt n (toMatrixField d a) fun b => (x b : ℕ))) = M := by
    funext x
    cases h with
    | scalar form _ value => rw [C85_scalar n a form, value]; rfl
    | tensor form _ value => rw [C85_tensor n a form, value]; rfl
  rw [hM]
  refine if_pos ⟨fun b => ?_, ?_⟩
  · rw [h.expand]
    exact fits_space h.fits b
  · rw [h.expand]
    cases h with
    | scalar form => exact Or.inl (scalarForm_shape form)
    | tensor form => exact Or.inr (tensorForm_shape form)

/-- The elements of the field are those at the points of the grid. -/
theorem Means.forall_iff {a : Arr ℂ} {M : Tensor n N} (h : Means n N a M) (hn : 0 < n) (hN : ∀ b, 0 < N b) (P : ℂ → Prop) :
    (∀ i, InRange (toMatrixField d a).shape i → P ((toMatrixField d a).val i)) ↔
      ∀ (x : Idx N) (r c : Fin n), P (bval a (r :: c :: List.ofFn fun b => (x b : ℕ))) := by
  rw [h.expand]
  constructor
  · intro hall x r c
    rw [← ofFn_cons2, ← expand_value (fits_length h.fits)]
    refine hall _ fun k => ?_
    have hlt : (Fin.cons (r : ℕ) (Fin.cons (c : ℕ) fun b => (x b : ℕ)) : Fin (d + 2) → ℕ) k < (Fin.cons n (Fin.cons n N) : Fin (d + 2) → ℕ) k := by
      refine Fin.cases ?_ (fun k => Fin.cases ?_ (fun k => ?_) k) k
      · exact r.isLt
      · exact c.isLt
      · exact (x k).isLt
    rcases fits_shape h.fits k with e | e
    · rw [if_pos e, e]
      exact Nat.one_pos
    · by_cases e1 : (Assign.expand d a).shape k = 1
      · rw [if_pos e1, e1]
        exact Nat.one_pos
      · rw [if_neg e1, e]
        exact hlt
  · intro hall i hi
    have h0 : ∀ k, (Assign.expand d a).shape k = 1 → i k = 0 := fun k e => by
      have := hi k
      omega
    have hlt : ∀ k, i k < (Fin.cons n (Fin.cons n N) : Fin (d + 2) → ℕ) k := fun k => by
      rcases fits_shape h.fits k with e | e
      · rw [h0 k e]
        refine Fin.cases ?_ (fun k => Fin.cases ?_ (fun k => ?_) k) k
        · exact hn
        · exact hn
        · exact hN k
      · rw [← e]
        exact hi k
    have hv := hall (fun b => ⟨i b.succ.succ, hlt b.succ.succ⟩) ⟨i 0, hlt 0⟩ ⟨i 1, hlt 1⟩
    rw [← ofFn_cons2, ← expand_value (fits_length h.fits)] at hv
    have he : (fun k => if (Assign.expand d a).shape k = 1 then 0
        else (Fin.cons (i 0) (Fin.cons (i 1) fun b => i b.succ.succ) : Fin (d + 2) → ℕ) k) = i := by
      funext k
      split_ifs with h1
      · exact (h0 k h1).symm
      · refine Fin.cases rfl (fun k => Fin.cases rfl (fun k => rfl) k) k
    have he' : (Assign.expand d a).val (fun k => if (Assign.expand d a).shape k = 1 then 0
        else (Fin.cons (i 0) (Fin.cons (i 1) fun b => i b.succ.succ) : Fin (d + 2) → ℕ) k) = (Assign.expand d a).val i := by rw [he]
    rw [← he']
    exact hv

/-- The first element. -/
theorem Means.first {a : Arr ℂ} {M : Tensor n N} (h : Means n N a M) :
    (toMatrixField d a).val (fun _ => 0) = bval a (0 :: 0 :: List.ofFn fun _ : Fin d => 0) := by
  rw [h.expand, ← ofFn_cons2, ← expand_value (fits_length h.fits)]
  congr 1
  funext k
  split_ifs
  · rfl
  · refine Fin.cases rfl (fun k => Fin.cases rfl (fun k => rfl) k) k

theorem scalar_entry {a : Arr ℂ} (x : Fin d → ℕ) (r c : Fin n) :
    scalarMeaning a x n r c = if r = c then bval a (0 :: 0 :: List.ofFn x) else 0 := by
  unfold scalarMeaning
  rw [Matrix.smul_apply, Matrix.one_apply, smul_eq_mul, mul_ite, mul_one, mul_zero]

/-- A material in tensor form for a scalar calculation is in scalar form. -/
theorem tensorForm_one {a : Arr ℂ} (h : TensorForm d 1 a) : ScalarForm d a := by
  refine ⟨(tensorForm_length h).le, fun l hl => ?_⟩
  have h' : a.shape.reverse.drop d = [1, 1] := h
  rw [h'] at hl
  simpa using hl

theorem tensorMeaning_one {a : Arr ℂ} (h : TensorForm d 1 a) (x : Fin d → ℕ) : tensorMeaning a x 1 = scalarMeaning a x 1 := by
  have h1 := C85_tensor 1 a h x
  rw [C85_scalar 1 a (tensorForm_one h)] at h1
  exact h1.symm

/-- The susceptibility of a boundary. -/
structure IsChi (n : ℕ) (N : Fin d → ℕ) (chi : Arr ℂ) (X : Idx N → ℂ) : Prop where
  rank : chi.shape.length ≤ d
  fits : Fits n N chi
  value : ∀ x : Idx N, X x = bval chi (0 :: 0 :: List.ofFn fun b => (x b : ℕ))

theorem withElectric_means {e chi : Arr ℂ} {M : Tensor n N} {X : Idx N → ℂ} (h : Means n N e M) (hc : IsChi n N chi X) :
    ∃ e', withElectric d n e chi = .ok e' ∧ Means n N e' fun x => M x + X x • (1 : Matrix (Fin n) (Fin n) ℂ) := by
  have hchi : ∀ x : Idx N, scalarMeaning chi (fun b => (x b : ℕ)) n = X x • (1 : Matrix (Fin n) (Fin n) ℂ) := fun x => by
    unfold scalarMeaning
    rw [hc.value x]
  have hscalar : ∀ (form : ScalarForm d e) (value : ∀ x : Idx N, M x = scalarMeaning e (fun b => (x b : ℕ)) n),
      ∃ e', withElectric d n e chi = .ok e' ∧ Means n N e' fun x => M x + X x • (1 : Matrix (Fin n) (Fin n) ℂ) := fun form value => by
    obtain ⟨e', h1, h2, h3⟩ := scalar_add form hc.rank h.fits hc.fits
    obtain ⟨e'', h4, h5⟩ := bop_exists (· + ·) h.fits hc.fits
    have he : e'' = e' := by
      rw [h1] at h4
      exact (Except.ok.inj h4).symm
    subst he
    refine ⟨e'', ?_, .scalar h2 h5 fun x => by rw [h3, value, hchi]⟩
    have ht : hasTensorAxes d e ≠ true := fun h => by
      obtain ⟨l, hl, h⟩ := (hasTensorAxes_eq d e).mp h
      rw [form.2 l hl] at h
      exact absurd h (by decide)
    unfold withElectric
    rw [if_neg ht]
    exact h1
  cases h with
  | scalar form fits value => exact hscalar form value
  | tensor form fits value =>
    by_cases hn : 1 < n
    · obtain ⟨b, hb, hfb, hbt, hbv⟩ := eye_mul hc.rank hc.fits
      obtain ⟨e', h1, h2, h3⟩ := tensor_add form hbt fits hfb
      obtain ⟨e'', h4, h5⟩ := bop_exists (· + ·) fits hfb
      have he : e'' = e' := by
        rw [h1] at h4
        exact (Except.ok.inj h4).symm
      subst he
      refine ⟨e'', ?_, .tensor h2 h5 fun x => by rw [h3, value, hbv, hchi]⟩
      have ht : hasTensorAxes d e = true := by
        have he' : e.shape.reverse.drop d = [n, n] := form
        rw [hasTensorAxes_eq, he']
        exact ⟨n, by simp, hn⟩
      unfold withElectric
      rw [if_pos ht, hb]
      exact h1
    · rcases Nat.eq_zero_or_pos n with rfl | hp
      · obtain ⟨e', h4, h5⟩ := bop_exists (· + ·) fits hc.fits
        have ht : hasTensorAxes d e ≠ true := fun h => by
          obtain ⟨l, hl, h⟩ := (hasTensorAxes_eq d e).mp h
          have he' : e.shape.reverse.drop d = [0, 0] := form
          rw [he'] at hl
          simp only [List.mem_cons, List.not_mem_nil, or_false, or_self] at hl
          omega
        refine ⟨e', ?_, .tensor ?_ h5 fun x => Subsingleton.elim _ _⟩
        · unfold withElectric
          rw [if_neg ht]
          exact h4
        · have h := bshapeRev_drop d (bop_spec h4).1
          have he' : e.shape.reverse.drop d = [0, 0] := form
          rw [List.drop_of_length_le (l := chi.shape.reverse) (by rw [List.length_reverse]; exact hc.rank), bshapeRev_nil, he'] at h
          exact (Option.some_inj.mp h).symm
      · have h1 : n = 1 := by omega
        subst h1
        exact hscalar (tensorForm_one form) fun x => by rw [value, tensorMeaning_one form]

end Verif.Problem
