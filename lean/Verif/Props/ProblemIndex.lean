import Verif.Props.Problem

/-!
# C86: refractive indices
-/

namespace Verif.Problem

open Verif Verif.Fourier Verif.Solver Verif.Construct Complex
open Verif.Assign (Arr toMatrixField full expand)

variable {d n : ℕ} {N : Fin d → ℕ}

theorem toArr_rank (f : Assign.Field d ℂ) : (toArr f).shape.length = d + 2 := by simp [toArr]

theorem expand_toArr (f : Assign.Field d ℂ) : expand d (toArr f) = f := by
  obtain ⟨s, v⟩ := f
  unfold expand toArr
  simp only [List.length_ofFn, Nat.sub_self, Nat.not_lt_zero, if_false, Nat.sub_zero, List.drop_zero]
  congr 1
  · funext k
    rw [List.getD_eq_getElem?_getD, List.getElem?_ofFn, dif_pos k.isLt]
    rfl
  · funext i
    congr 1
    funext a
    rw [List.getD_eq_getElem?_getD, List.getElem?_ofFn, dif_pos a.isLt]
    rfl

theorem fits_expand {a : Arr ℂ} {s : Fin (d + 2) → ℕ} (hs : ∀ k, s k = 1 ∨ s k = (Fin.cons n (Fin.cons n N) : Fin (d + 2) → ℕ) k) (ha : a.shape = List.ofFn s) :
    Fits n N a := by
  unfold Fits
  have key : ∀ (l t : List ℕ), l.length = t.length → (∀ k, l.getD k 1 = 1 ∨ l.getD k 1 = t.getD k 1) → Refines l t := by
    intro l
    induction l with
    | nil => intro t _ _; exact trivial
    | cons x l ih =>
      intro t hl h
      cases t with
      | nil => exact absurd hl (by simp)
      | cons y t => exact ⟨h 0, ih t (by simpa using hl) fun k => h (k + 1)⟩
  have e : (List.ofFn N).reverse ++ [n, n] = (List.ofFn (Fin.cons n (Fin.cons n N) : Fin (d + 2) → ℕ)).reverse := by
    rw [ofFn_cons2]
    simp
  rw [ha, e]
  refine key _ _ (by simp) fun k => ?_
  by_cases hk : k < d + 2
  · have h1 : ∀ s : Fin (d + 2) → ℕ, (List.ofFn s).reverse.getD k 1 = s ⟨d + 1 - k, by omega⟩ := fun s => by
      rw [List.getD_eq_getElem?_getD, List.getElem?_reverse (by rw [List.length_ofFn]; exact hk), List.length_ofFn, List.getElem?_ofFn, dif_pos (by omega)]
      rfl
    rw [h1, h1]
    exact hs _
  · left
    rw [List.getD_eq_getElem?_getD, List.getElem?_eq_none (by rw [List.length_reverse, List.length_ofFn]; omega)]
    rfl

theorem toArr_fits {a : Arr ℂ} (h : Fits n N a) (v : (Fin (d + 2) → ℕ) → ℂ) : Fits n N (toArr ⟨(expand d a).shape, v⟩) :=
  fits_expand (fits_shape h) rfl

theorem toArr_drop (f : Assign.Field d ℂ) : (toArr f).shape.reverse.drop d = [f.shape 1, f.shape 0] := by
  have e : List.ofFn f.shape = f.shape 0 :: f.shape 1 :: List.ofFn fun b : Fin d => f.shape b.succ.succ := by
    rw [List.ofFn_succ, List.ofFn_succ]
    rfl
  change (List.ofFn f.shape).reverse.drop d = _
  rw [e, List.reverse_cons, List.reverse_cons, List.append_assoc, List.drop_append_of_le_length (by simp)]
  rw [List.drop_of_length_le (by simp)]
  rfl

theorem bval_toArr (f : Assign.Field d ℂ) (i : Fin (d + 2) → ℕ) : bval (toArr f) (List.ofFn i) = f.val fun k => if f.shape k = 1 then 0 else i k := by
  rw [← expand_value (toArr_rank f).le, expand_toArr]

/-- A function of the values of a material in scalar form. -/
theorem means_map {a : Arr ℂ} (form : ScalarForm d a) (fits : Fits n N a) (f : ℂ → ℂ)
    (W : Tensor n N) (hW : ∀ x, W x = f (bval a (0 :: 0 :: List.ofFn fun b => (x b : ℕ))) • 1) :
    Means n N (toArr ⟨(expand d a).shape, fun i => f ((expand d a).val i)⟩) W := by
  obtain ⟨h0, h1⟩ := scalarForm_shape form
  refine .scalar ⟨(toArr_rank _).le, ?_⟩ (toArr_fits fits _) fun x => ?_
  · rw [toArr_drop]
    simp [h0, h1]
  · unfold scalarMeaning
    rw [hW, ← ofFn_cons2, bval_toArr, ← expand_value form.1]

theorem field_scalar {a : Arr ℂ} (form : ScalarForm d a) : toMatrixField d a = expand d a :=
  toMatrixField_expand (by rw [(scalarForm_shape form).2]; exact fun h => absurd h.2 (by decide))

/-- There is a negative real part. -/
theorem negative_iff [NeZero n] (hN : ∀ b, 0 < N b) {a : Arr ℂ} {V : Tensor n N} (h : Means n N a V) (form : ScalarForm d a) :
    (∃ i, InRange (toMatrixField d a).shape i ∧ ((toMatrixField d a).val i).re < 0) ↔ ∃ x : Idx N, (bval a (0 :: 0 :: List.ofFn fun b => (x b : ℕ))).re < 0 := by
  have key := h.forall_iff (Nat.pos_of_ne_zero (NeZero.ne n)) hN fun z => 0 ≤ z.re
  constructor
  · rintro ⟨i, h1, h2⟩
    by_contra hn
    push Not at hn
    have := key.mpr (fun x r c => by rw [scalar_value form]; exact hn x) i h1
    linarith
  · rintro ⟨x, hx⟩
    by_contra hn
    push Not at hn
    have := key.mp (fun i hi => hn i hi) x 0 0
    have h1 : (bval a (0 :: 0 :: List.ofFn fun b => (x b : ℕ))).re = (bval a (((0 : Fin n) : ℕ) :: ((0 : Fin n) : ℕ) :: List.ofFn fun b => (x b : ℕ))).re := by
      rw [scalar_value form ((0 : Fin n) : ℕ)]
    rw [h1] at hx
    linarith

theorem scalar_first [NeZero n] {a : Arr ℂ} {V : Tensor n N} (form : ScalarForm d a) (h : Means n N a V) (x : Idx N) :
    V x = bval a (0 :: 0 :: List.ofFn fun b => (x b : ℕ)) • 1 ∧ V x 0 0 = bval a (0 :: 0 :: List.ofFn fun b => (x b : ℕ)) := by
  have e : V x = bval a (0 :: 0 :: List.ofFn fun b => (x b : ℕ)) • 1 := by
    cases h with
    | scalar _ _ value => exact value x
    | tensor f _ value =>
      have hx := C85_tensor n a f fun b => (x b : ℕ)
      rw [C85_scalar n a form] at hx
      rw [value x, ← hx]
      rfl
  exact ⟨e, by rw [e]; simp⟩

theorem construct_materials [NeZero n] {co : Const} {p : Args d} {e mu : Arr ℂ} (hm : p.materials = .ok (e, mu)) (tol : ℝ) (o : Optimum) :
    p.construct co n tol o = Args.construct co { p with epsilon := some e, mu := mu } n tol o := by
  have hb : p.bounded n = Args.bounded { p with epsilon := some e, mu := mu } n := by
    unfold Args.bounded
    rw [hm]
    rfl
  unfold Args.construct Args.medium
  rw [hb]
  rfl

/-- **C86 (refractive index).** A refractive index in scalar form without negative real part has the same effect as its square as the permittivity. -/
theorem C86_index [NeZero n] {co : Const} {p : Args d} (hN : ∀ b, 0 < p.grid.shape b) {v : Arr ℂ} {V : Tensor n p.grid.shape} (he : p.epsilon = none) (hv : p.index = some v)
    (hV : Means n p.grid.shape v V) (form : ScalarForm d v) (hre : ∀ x, 0 ≤ (V x 0 0).re) (tol : ℝ) (o : Optimum) :
    ∃ e, Means n p.grid.shape e (fun x => V x * V x) ∧ p.construct co n tol o = Args.construct co { p with epsilon := some e } n tol o := by
  obtain ⟨h0, h1⟩ := scalarForm_shape form
  refine ⟨toArr ⟨(expand d v).shape, fun i => (expand d v).val i * (expand d v).val i⟩, ?_, ?_⟩
  · refine means_map form hV.fits (fun z => z * z) _ fun x => ?_
    rw [(scalar_first form hV x).1, Matrix.smul_mul, Matrix.one_mul, smul_smul]
  · have hm : p.materials = .ok (toArr ⟨(expand d v).shape, fun i => (expand d v).val i * (expand d v).val i⟩, p.mu) := by
      unfold Args.materials
      rw [he, hv, Option.getD_some]
      have hs : isScalar (toMatrixField d v) = true := by
        unfold isScalar
        rw [field_scalar form, h0, h1]
        rfl
      have hneg : ¬ ((isScalar (toMatrixField d v) = true) ∧ ∃ i, InRange (toMatrixField d v).shape i ∧ ((toMatrixField d v).val i).re < 0) := by
        rw [negative_iff hN hV form]
        rintro ⟨-, x, hx⟩
        have := hre x
        rw [(scalar_first form hV x).2] at this
        linarith
      simp only [squared, hs, if_true]
      rw [field_scalar form] at hneg ⊢
      simp only [Bind.bind, Except.bind, Pure.pure, Except.pure]
      rw [if_neg (fun h => hneg ⟨by rw [← field_scalar form]; exact hs, h.2⟩)]
    exact construct_materials hm tol o

/-- **C86 (refractive index).** A refractive index in tensor form has the same effect as the square of the matrices as the permittivity. -/
theorem C86_index_tensor [NeZero n] {co : Const} {p : Args d} {v : Arr ℂ} {V : Tensor n p.grid.shape} (hn : 1 < n) (he : p.epsilon = none) (hv : p.index = some v)
    (form : TensorForm d n v) (fits : Fits n p.grid.shape v) (value : ∀ x : Idx p.grid.shape, V x = tensorMeaning v (fun b => (x b : ℕ)) n) (tol : ℝ) (o : Optimum) :
    ∃ e, Means n p.grid.shape e (fun x => V x * V x) ∧ p.construct co n tol o = Args.construct co { p with epsilon := some e } n tol o := by
  obtain ⟨h0, h1⟩ := tensorForm_shape form
  have hfield : toMatrixField d v = expand d v := toMatrixField_expand (by rw [h0, h1]; exact fun h => by omega)
  have hns : isScalar (expand d v) = false := by
    unfold isScalar
    rw [h0]
    simp; omega
  set f : Assign.Field d ℂ := ⟨(expand d v).shape, fun i => ∑ j ∈ Finset.range ((expand d v).shape 1),
      (expand d v).val (Fin.cons (i 0) (Fin.cons j (Fin.tail (Fin.tail i)))) * (expand d v).val (Fin.cons j (Fin.cons (i 1) (Fin.tail (Fin.tail i))))⟩ with hf
  have hm : p.materials = .ok (toArr f, p.mu) := by
    unfold Args.materials
    rw [he, hv, Option.getD_some, hfield]
    simp only [squared, hns, Bool.false_eq_true, if_false, false_and]
    rw [if_pos (h0.trans h1.symm)]
    rfl
  refine ⟨toArr f, .tensor ?_ (toArr_fits fits _) fun x => ?_, construct_materials hm tol o⟩
  · unfold TensorForm
    rw [toArr_drop]
    change [(expand d v).shape 1, (expand d v).shape 0] = _
    rw [h0, h1]
  · ext r c
    unfold tensorMeaning
    rw [value, Matrix.mul_apply, ← ofFn_cons2, bval_toArr]
    change _ = ∑ j ∈ Finset.range ((expand d v).shape 1), _
    rw [h1, Finset.sum_range]
    refine Finset.sum_congr rfl fun j _ => ?_
    have key : ∀ (a b : Fin n), tensorMeaning v (fun b => (x b : ℕ)) n a b = (expand d v).val fun k => if (expand d v).shape k = 1 then 0 else
        (Fin.cons (a : ℕ) (Fin.cons (b : ℕ) fun b => (x b : ℕ)) : Fin (d + 2) → ℕ) k := fun a b => by
      unfold tensorMeaning
      rw [← ofFn_cons2, expand_value (tensorForm_length form).le]
    rw [key, key]
    have hn1 : n ≠ 1 := by omega
    congr 2
    · funext k
      refine Fin.cases ?_ (fun k => Fin.cases ?_ (fun k => rfl) k) k
      · rfl
      · exact if_neg (by rw [show Fin.succ 0 = (1 : Fin (d + 2)) from rfl, h1]; exact hn1)
    · funext k
      refine Fin.cases ?_ (fun k => Fin.cases ?_ (fun k => rfl) k) k
      · exact if_neg (by rw [h0]; exact hn1)
      · rfl

/-- The product of arrays in scalar form. -/
theorem scalarForm_bop {f : ℂ → ℂ → ℂ} {a b c : Arr ℂ} (fa : ScalarForm d a) (fb : ScalarForm d b) (h : bop f a b = .ok c) : ScalarForm d c := by
  obtain ⟨h3, -⟩ := bop_spec h
  have hdrop := bshapeRev_drop d h3
  have key : ∀ {a : Arr ℂ}, ScalarForm d a → a.shape.reverse.drop d = [] ∨ a.shape.reverse.drop d = [1] ∨ a.shape.reverse.drop d = [1, 1] := by
    intro a fa
    have hl : (a.shape.reverse.drop d).length ≤ 2 := by
      rw [List.length_drop, List.length_reverse]
      have := fa.1
      omega
    have ho := fa.2
    generalize a.shape.reverse.drop d = s at hl ho
    match s, hl, ho with
    | [], _, _ => exact .inl rfl
    | [p], _, ho => exact .inr (.inl (by rw [ho p (by simp)]))
    | [p, q], _, ho => exact .inr (.inr (by rw [ho p (by simp), ho q (by simp)]))
  have hc : c.shape.reverse.drop d = [] ∨ c.shape.reverse.drop d = [1] ∨ c.shape.reverse.drop d = [1, 1] := by
    generalize c.shape.reverse.drop d = t at hdrop ⊢
    rcases key fa with e1 | e1 | e1 <;> rcases key fb with e2 | e2 | e2 <;> rw [e1, e2] at hdrop <;> simp [bshapeRev] at hdrop <;> simp [← hdrop]
  refine ⟨?_, fun l hl => ?_⟩
  · have h4 : (c.shape.reverse.drop d).length ≤ 2 := by rcases hc with e | e | e <;> rw [e] <;> simp
    rw [List.length_drop, List.length_reverse] at h4
    omega
  · rcases hc with e | e | e <;> rw [e] at hl <;> simp at hl <;> exact hl

/-- The product of a material and a number for each point. -/
theorem means_smul [NeZero n] {a b : Arr ℂ} {M : Tensor n N} {X : Idx N → ℂ} (h : Means n N a M) (form : ScalarForm d b) (fits : Fits n N b)
    (value : ∀ x : Idx N, X x = bval b (0 :: 0 :: List.ofFn fun i => (x i : ℕ))) :
    ∃ c, bop (· * ·) a b = .ok c ∧ Means n N c fun x => X x • M x := by
  obtain ⟨c, h1, h2⟩ := bop_exists (· * ·) h.fits fits
  obtain ⟨h3, h4⟩ := bop_spec h1
  have hdrop := bshapeRev_drop d h3
  have hb2 : b.shape.reverse.drop d = [] ∨ b.shape.reverse.drop d = [1] ∨ b.shape.reverse.drop d = [1, 1] := by
    have hl : (b.shape.reverse.drop d).length ≤ 2 := by
      rw [List.length_drop, List.length_reverse]
      have := form.1
      omega
    have ho := form.2
    generalize b.shape.reverse.drop d = s at hl ho
    match s, hl, ho with
    | [], _, _ => exact .inl rfl
    | [p], _, ho => exact .inr (.inl (by rw [ho p (by simp)]))
    | [p, q], _, ho => exact .inr (.inr (by rw [ho p (by simp), ho q (by simp)]))
  refine ⟨c, h1, ?_⟩
  cases h with
  | scalar fa _ va =>
    refine .scalar ?_ h2 fun x => ?_
    · have ha2 : a.shape.reverse.drop d = [] ∨ a.shape.reverse.drop d = [1] ∨ a.shape.reverse.drop d = [1, 1] := by
        have hl : (a.shape.reverse.drop d).length ≤ 2 := by
          rw [List.length_drop, List.length_reverse]
          have := fa.1
          omega
        have ho := fa.2
        generalize a.shape.reverse.drop d = s at hl ho
        match s, hl, ho with
        | [], _, _ => exact .inl rfl
        | [p], _, ho => exact .inr (.inl (by rw [ho p (by simp)]))
        | [p, q], _, ho => exact .inr (.inr (by rw [ho p (by simp), ho q (by simp)]))
      have hc : c.shape.reverse.drop d = [] ∨ c.shape.reverse.drop d = [1] ∨ c.shape.reverse.drop d = [1, 1] := by
        generalize c.shape.reverse.drop d = t at hdrop ⊢
        rcases ha2 with e1 | e1 | e1 <;> rcases hb2 with e2 | e2 | e2 <;> rw [e1, e2] at hdrop <;> simp [bshapeRev] at hdrop <;> simp [← hdrop]
      refine ⟨fits_length h2, fun l hl => ?_⟩
      rcases hc with e | e | e <;> rw [e] at hl <;> simp at hl <;> exact hl
    · rw [va, value]
      unfold scalarMeaning
      rw [h4, smul_smul, mul_comm]
  | tensor fa _ va =>
    refine .tensor ?_ h2 fun x => ?_
    · have fa' : a.shape.reverse.drop d = [n, n] := fa
      unfold TensorForm
      rcases hb2 with e2 | e2 | e2 <;> rw [fa', e2] at hdrop <;> simp [bshapeRev] at hdrop <;> rw [← hdrop] <;> split_ifs with hn1 <;> simp_all
    · rw [va, value]
      funext r c
      change bval b (0 :: 0 :: List.ofFn fun i => (x i : ℕ)) * bval a (r :: c :: List.ofFn fun b => (x b : ℕ)) = bval _ (r :: c :: List.ofFn fun b => (x b : ℕ))
      rw [h4, scalar_value form r c, mul_comm]

/-- **C86 (refractive index).** Where the real part of a refractive index in scalar form is negative, the signs of the permittivity and of the permeability are both changed. A permeability
in scalar form remains in scalar form. -/
theorem C86_index_negative [NeZero n] {co : Const} {p : Args d} (hN : ∀ b, 0 < p.grid.shape b) {v : Arr ℂ} {V M : Tensor n p.grid.shape} (he : p.epsilon = none)
    (hv : p.index = some v) (hV : Means n p.grid.shape v V) (form : ScalarForm d v) (hM : Means n p.grid.shape p.mu M) (hre : ∃ x, (V x 0 0).re < 0) (tol : ℝ) (o : Optimum) :
    ∃ e u, Means n p.grid.shape e (fun x => (if (V x 0 0).re < 0 then -1 else 1 : ℂ) • (V x * V x)) ∧
      Means n p.grid.shape u (fun x => (if (V x 0 0).re < 0 then -1 else 1 : ℂ) • M x) ∧
      p.construct co n tol o = Args.construct co { p with epsilon := some e, mu := u } n tol o ∧ (ScalarForm d p.mu → ScalarForm d u) := by
  obtain ⟨h0, h1⟩ := scalarForm_shape form
  have hs : isScalar (expand d v) = true := by
    unfold isScalar
    rw [h0, h1]
    rfl
  have hsign : ∀ z : ℂ, (1 - 2 * (if z.re < 0 then 1 else 0) : ℂ) = if z.re < 0 then -1 else 1 := fun z => by split_ifs <;> norm_num
  have hsf : ScalarForm d (toArr (signs (expand d v))) := ⟨(toArr_rank _).le, by rw [toArr_drop]; simp [signs, h0, h1]⟩
  obtain ⟨u, hu1, hu2⟩ := means_smul (X := fun x => if (V x 0 0).re < 0 then -1 else 1) hM hsf (toArr_fits hV.fits _) fun x => by
    rw [← ofFn_cons2, bval_toArr]
    change _ = 1 - 2 * (if ((expand d v).val fun k => if (expand d v).shape k = 1 then 0 else (Fin.cons 0 (Fin.cons 0 fun i => (x i : ℕ)) : Fin (d + 2) → ℕ) k).re < 0 then 1 else 0)
    rw [expand_value form.1, ofFn_cons2, hsign, (scalar_first form hV x).2]
  have hm : p.materials = .ok (toArr ⟨(expand d v).shape, fun i => (expand d v).val i * (expand d v).val i * (1 - 2 * (if ((expand d v).val i).re < 0 then 1 else 0))⟩, u) := by
    unfold Args.materials
    rw [he, hv, Option.getD_some, field_scalar form]
    simp only [squared, hs, if_true, Bind.bind, Except.bind, Pure.pure, Except.pure]
    have hneg := (negative_iff hN hV form).mpr (by
      obtain ⟨x, hx⟩ := hre
      rw [(scalar_first form hV x).2] at hx
      exact ⟨x, hx⟩)
    rw [field_scalar form] at hneg
    rw [if_pos ⟨hs, hneg⟩, hu1]
    rfl
  refine ⟨_, u, ?_, hu2, construct_materials hm tol o, fun fm => scalarForm_bop fm hsf hu1⟩
  refine means_map form hV.fits (fun z => z * z * (1 - 2 * (if z.re < 0 then 1 else 0))) _ fun x => ?_
  simp only [(scalar_first form hV x).2, (scalar_first form hV x).1, Matrix.smul_mul, Matrix.one_mul, smul_smul, hsign]
  congr 1
  ring

/-- **C86 (refractive index).** Without permittivity and refractive index the permittivity is 1. -/
theorem C86_index_default [NeZero n] {co : Const} {p : Args d} (he : p.epsilon = none) (hv : p.index = none) (tol : ℝ) (o : Optimum) :
    p.construct co n tol o = Args.construct co { p with index := some ⟨[], fun _ => 1⟩ } n tol o := by
  have hm : p.materials = Args.materials { p with index := some ⟨[], fun _ => 1⟩ } := by
    unfold Args.materials
    rw [he, hv]
    rfl
  have hb : p.bounded n = Args.bounded { p with index := some ⟨[], fun _ => 1⟩ } n := by
    unfold Args.bounded
    rw [hm]
  unfold Args.construct Args.medium
  rw [hb]
  rfl

end Verif.Problem
