import Verif.Lemmas.MatOp
import Verif.Spec.Mat
import Mathlib.Algebra.Module.LinearMap.Basic
import Mathlib.Data.Fin.VecNotation
import Mathlib.Algebra.Field.Rat
import Mathlib.Tactic.FinCases

/-!
# Properties C50, C51, C64 and C65: quarters and elements of matrix objects, and the construction of square matrices
-/

namespace Verif.Mat

open Verif.Spec.Mat

variable {K : Type} [Field K]

/-! ### C51: indexing -/

/-- The columns of `np.asarray(M)` are the products with the standard basis, for all shapes. -/
theorem C51_columns (M : LinOp K) (hc : Consistent M) :
    M.asarray.shape = [M.rows, M.cols] ∧ ∀ (i : Fin M.rows) (j : Fin M.cols), M.asarray.get [i, j] = M.matvec (single j 1) i := by
  refine ⟨asarray_shape M, fun i j => ?_⟩
  rw [asarray_apply M hc i j i.2 j.2, LinOp.apply, dif_pos i.2]
  congr 1
  funext k
  simp only [single, Fin.ext_iff]

/-- **C51**, for square matrices, up to two indices besides new axes, and a selection of columns that is not empty: `M[item]` raises if and only if `np.asarray(M)[item]` does, and
otherwise gives the same array. -/
theorem C51_partial (M : LinOp K) (hc : Consistent M) (hsq : M.rows = M.cols) (item : Item) (hlen : (slicesOf item.keys).length ≤ 2)
    (hne : ∀ k0 a b c, slicesOf item.keys = [k0, .slice a b c] → positions M.cols a b c ≠ .ok []) : Agree (M.getItem item) (M.asarray.index item.keys) := by
  have hsl := slicesOf_not_newaxis item.keys
  have herr := (indexAux_slicesOf (newDims 0 0 item.keys) item.keys [M.rows, M.cols] 0 0 (le_refl _) fun x _ => Iff.rfl).1
  have herr2 : (∃ e, indexAux (slicesOf item.keys) [M.rows, M.cols] = .error e) → ∃ e, M.asarray.index item.keys = .error e := by
    rintro ⟨e, he⟩
    obtain ⟨e', he'⟩ := herr e he
    exact ⟨e', by rw [index_shape, asarray_shape, he']⟩
  unfold LinOp.getItem
  dsimp only
  match hs : slicesOf item.keys with
  | [] => exact agree_refl _
  | [_] => exact agree_refl _
  | _ :: _ :: _ :: _ => rw [hs] at hlen; simp at hlen
  | [k0, k1] =>
    have h0 : k0 ≠ .newaxis := hsl k0 (by rw [hs]; simp)
    have h1 : k1 ≠ .newaxis := hsl k1 (by rw [hs]; simp)
    have hsame := fun sh f g => expandDims_same M.asarray item.keys sh f g _ (asarray_shape M)
    rw [hs] at herr2 hsame
    rcases matmul_eye M hc hsq k1 h1 (fun a b c h => hne k0 a b c (by rw [hs, h])) with ⟨e, he, hi⟩ | ⟨sh, f, right, g, hf, hi, hm, hg⟩
    · simp only [hi]
      refine .inl ⟨⟨e, rfl⟩, herr2 ?_⟩
      cases k0 with
      | newaxis => exact absurd rfl h0
      | int i => cases hp : position M.rows i <;> simp [indexAux, hp, he]
      | slice a b c => cases hp : positions M.rows a b c <;> simp [indexAux, hp, he]
    · simp only [hi, hm]
      cases k0 with
      | newaxis => exact absurd rfl h0
      | int i =>
        cases hp : position M.rows i with
        | error e => exact .inl ⟨⟨e, by simp [NdArr.index, indexAux, hp]⟩, herr2 ⟨e, by simp [indexAux, hp]⟩⟩
        | ok p =>
          have hlt := position_lt _ _ _ hp
          simp only [NdArr.index, indexAux, hp]
          refine hsame sh (fun idx => p :: f idx) _ (by simp only [indexAux, hp, hf]) fun idx hr => hg p idx hlt hr
      | slice a b c =>
        cases hp : positions M.rows a b c with
        | error e => exact .inl ⟨⟨e, by simp [NdArr.index, indexAux, hp]⟩, herr2 ⟨e, by simp [indexAux, hp]⟩⟩
        | ok ps =>
          have hlt := positions_lt _ _ _ _ _ hp
          simp only [NdArr.index, indexAux, hp]
          refine hsame (ps.length :: sh) (fun idx => ps.getD (idx.headD 0) 0 :: f idx.tail) _ (by simp only [indexAux, hp, hf]) fun idx hr => ?_
          cases hr with
          | @cons j _ idx _ hj hr =>
            refine hg _ idx ?_ hr
            rw [List.headD_cons, getD_lt _ _ hj]
            exact hlt _ (List.getElem_mem hj)

/-- **C51**: the element of a square matrix is that of the product with a basis vector; negative indices count from the end. -/
theorem C51_element (M : LinOp K) (hc : Consistent M) (hsq : M.rows = M.cols) (i : Fin M.rows) (j : Fin M.cols) (i' j' : ℤ) (hi : i' = i ∨ i' = (i : ℤ) - M.rows)
    (hj : j' = j ∨ j' = (j : ℤ) - M.cols) : ∃ x, M.getItem (.tuple [.int i', .int j']) = .ok x ∧ x.shape = [] ∧ x.get [] = M.matvec (single j 1) i := by
  have hpi : position M.rows i' = .ok i := by
    have := i.2
    unfold position
    rcases hi with rfl | rfl
    · rw [if_pos ⟨by omega, by omega⟩]; simp
    · rw [if_neg (by omega), if_pos ⟨by omega, by omega⟩]; simp
  have hpj : position M.cols j' = .ok j := by
    have := j.2
    unfold position
    rcases hj with rfl | rfl
    · rw [if_pos ⟨by omega, by omega⟩]; simp
    · rw [if_neg (by omega), if_pos ⟨by omega, by omega⟩]; simp
  have hi2 : M.asarray.index [.int i', .int j'] = .ok ⟨[], fun idx => M.asarray.get (i :: j :: idx)⟩ := by
    simp only [index_shape, asarray_shape, indexAux, hpi, hpj]
  have h := C51_partial M hc hsq (.tuple [.int i', .int j']) (by simp [slicesOf, Item.keys]) (by simp [slicesOf, Item.keys])
  rw [Item.keys, hi2] at h
  rcases h with ⟨-, e, he⟩ | ⟨x, y, hx, hy, hsh, hget⟩
  · simp at he
  · simp only [Except.ok.injEq] at hy
    subst hy
    refine ⟨x, hx, hsh, ?_⟩
    rw [hget [] (by rw [hsh]; exact .nil), ← (C51_columns M hc).2 i j]

/-- **C51** is violated by all matrices that are not square: every index with two elements, or one that is not a tuple (a row), raises a ValueError. -/
theorem C51_rectangular_violates (M : LinOp K) (hsq : M.rows ≠ M.cols) :
    (∀ i j : ℤ, -(M.rows : ℤ) ≤ j → j < M.rows → M.getItem (.tuple [.int i, .int j]) = .error .valueError) ∧
    ∀ i : ℤ, M.getItem (.single (.int i)) = .error .valueError := by
  constructor
  · intro i j hj1 hj2
    have : ∃ p, position M.rows j = .ok p := by
      unfold position
      split_ifs with h1 h2
      · exact ⟨_, rfl⟩
      · exact ⟨_, rfl⟩
      · omega
    obtain ⟨p, hp⟩ := this
    simp [LinOp.getItem, Item.keys, slicesOf, NdArr.index, eye, indexAux, Key.all, positions_all, hp, LinOp.matmul, hsq]
  · intro i
    simp [LinOp.getItem, Item.keys, slicesOf, NdArr.index, eye, indexAux, Key.all, positions_all, LinOp.matmul, hsq]

/-- **C51** is violated by selections without columns, which NumPy gives as an empty array. -/
theorem C51_empty_violates (M : LinOp K) :
    M.getItem (.tuple [.all, .slice (some 0) (some 0) none]) = .error .valueError ∧
    ∃ x, M.asarray.index [.all, .slice (some 0) (some 0) none] = .ok x ∧ x.shape = [M.rows, 0] := by
  have h : ∀ n : ℕ, positions n (some 0) (some 0) none = .ok [] := by intro n; simp [positions]
  constructor
  · simp [LinOp.getItem, Item.keys, slicesOf, NdArr.index, eye, indexAux, Key.all, positions_all, h, LinOp.matmul]
  · refine ⟨_, by simp only [index_shape, asarray_shape, indexAux, Key.all, positions_all, h]; rfl, by simp⟩

/-- More than two indices raise a TypeError (NumPy raises too). -/
theorem C51_many (M : LinOp K) (keys : List Key) (h : 2 < (slicesOf keys).length) : M.getItem (.tuple keys) = .error .typeError := by
  unfold LinOp.getItem
  dsimp only [Item.keys]
  match hs : slicesOf keys with
  | [] => rw [hs] at h; simp at h
  | [_] => rw [hs] at h; simp at h
  | [_, _] => rw [hs] at h; simp at h
  | _ :: _ :: _ :: _ => rfl

/-- An operator that is neither symmetric nor given by an array, indexed by `M[np.newaxis, 1, np.newaxis, ::-1]`. -/
example : Consistent (LinOp.operator fun (v : Fin 2 → ℚ) (i : Fin 2) => if i = 0 then v 0 + 2 * v 1 else 3 * v 0 + 4 * v 1) ∧
    ∃ x, (LinOp.operator fun (v : Fin 2 → ℚ) (i : Fin 2) => if i = 0 then v 0 + 2 * v 1 else 3 * v 0 + 4 * v 1).getItem
      (.tuple [.newaxis, .int 1, .newaxis, .slice none none (some (-1))]) = .ok x ∧ x.shape = [1, 1, 2] ∧ x.get [0, 0, 0] = 4 ∧ x.get [0, 0, 1] = 3 :=
  ⟨fun a h => by simp [LinOp.operator] at h, _, rfl, by decide +kernel, by decide +kernel, by decide +kernel⟩

/-! ### C50: quarters -/

/-- The block of a matrix object: element (i, j) of the quarter is that of the output and input halves. -/
theorem C50_entries (M : LinOp K) (hc : Consistent M) (h : ℕ) (hr : M.rows = 2 * h) (hcols : M.cols = 2 * h) (bo bi : Bool) :
    ∃ Q, quarter M bo bi = .ok Q ∧ Q.rows = h ∧ Q.cols = h ∧
      ∀ i j, i < h → j < h → Q.asarray.get [i, j] = M.asarray.get [if bo then h + i else i, if bi then h + j else j] := by
  have hd : M.rows / 2 = h := by omega
  refine ⟨_, by unfold quarter; rw [if_neg (by omega)], hd, hd, fun i j hi hj => ?_⟩
  have hi' : (if bo then h + i else i) < M.rows := by split <;> omega
  have hj' : (if bi then h + j else j) < M.cols := by split <;> omega
  rw [asarray_apply M hc _ _ hi' hj']
  simp only [LinOp.asarray]
  rw [LinOp.apply, dif_pos (by simpa [hd] using hi)]
  simp only [hd]
  congr 1
  funext k
  by_cases hbi : bi
  · simp only [hbi, if_true]
    split_ifs <;> first | rfl | omega
  · simp only [hbi, if_false, Bool.false_eq_true]
    split_ifs <;> first | rfl | omega

/-- **C50**: forward transmission and back reflection, front reflection and backward transmission, are the four blocks of the array. -/
theorem C50_blocks (M : LinOp K) (hc : Consistent M) (h : ℕ) (hr : M.rows = 2 * h) (hcols : M.cols = 2 * h) :
    ∃ tf rb rf tb, forwardTransmission M = .ok tf ∧ backReflection M = .ok rb ∧ frontReflection M = .ok rf ∧ backwardTransmission M = .ok tb ∧
      ∀ i j, i < h → j < h →
        tf.asarray.get [i, j] = M.asarray.get [i, j] ∧ rb.asarray.get [i, j] = M.asarray.get [i, h + j] ∧
        rf.asarray.get [i, j] = M.asarray.get [h + i, j] ∧ tb.asarray.get [i, j] = M.asarray.get [h + i, h + j] := by
  obtain ⟨tf, h1, -, -, e1⟩ := C50_entries M hc h hr hcols false false
  obtain ⟨rb, h2, -, -, e2⟩ := C50_entries M hc h hr hcols false true
  obtain ⟨rf, h3, -, -, e3⟩ := C50_entries M hc h hr hcols true false
  obtain ⟨tb, h4, -, -, e4⟩ := C50_entries M hc h hr hcols true true
  exact ⟨tf, rb, rf, tb, h1, h2, h3, h4, fun i j hi hj => ⟨e1 i j hi hj, e2 i j hi hj, e3 i j hi hj, e4 i j hi hj⟩⟩

/-- **C50**: the products with the quarters rebuild the product with an additive scattering matrix: with inputs `p` from the front and `n` from the back, the first half of the output is
that of the forward transmission and back reflection, the second half that of front reflection and backward transmission. -/
theorem C50_rebuild (M : LinOp K) (h : ℕ) (hr : M.rows = 2 * h) (hcols : M.cols = 2 * h) (hadd : ∀ v w, M.matvec (v + w) = M.matvec v + M.matvec w) (p n : ℕ → K) :
    ∃ tf rb rf tb, forwardTransmission M = .ok tf ∧ backReflection M = .ok rb ∧ frontReflection M = .ok rf ∧ backwardTransmission M = .ok tb ∧
      ∀ i < h, M.apply (fun k => if k < h then p k else n (k - h)) i = tf.apply p i + rb.apply n i ∧
        M.apply (fun k => if k < h then p k else n (k - h)) (h + i) = rf.apply p i + tb.apply n i := by
  have hd : M.rows / 2 = h := by omega
  have hq : ∀ bo bi, quarter M bo bi = .ok _ := fun bo bi => by unfold quarter; rw [if_neg (by omega)]
  refine ⟨_, _, _, _, hq _ _, hq _ _, hq _ _, hq _ _, fun i hi => ?_⟩
  have hsum : (fun k : Fin M.cols => if (k : ℕ) < h then p k else n (k - h)) =
      (fun k : Fin M.cols => if (k : ℕ) < h then p k else 0) + fun k : Fin M.cols => if h ≤ (k : ℕ) ∧ (k : ℕ) - h < h then n (k - h) else 0 := by
    funext k
    have := k.2
    simp only [Pi.add_apply]
    split_ifs <;> first | omega | simp
  constructor
  · rw [LinOp.apply, dif_pos (by omega), hsum, hadd, Pi.add_apply, LinOp.apply, dif_pos (by simpa [hd] using hi), LinOp.apply, dif_pos (by simpa [hd] using hi)]
    simp only [hd, LinOp.apply]
    rw [dif_pos (by simp; omega), dif_pos (by simp; omega)]
    simp
  · rw [LinOp.apply, dif_pos (by omega), hsum, hadd, Pi.add_apply, LinOp.apply, dif_pos (by simpa [hd] using hi), LinOp.apply, dif_pos (by simpa [hd] using hi)]
    simp only [hd, LinOp.apply]
    rw [dif_pos (by simp; omega), dif_pos (by simp; omega)]
    simp

/-- **C50**: an odd number of rows raises a TypeError. -/
theorem C50_odd (M : LinOp K) (h : M.rows % 2 = 1) (bo bi : Bool) : quarter M bo bi = .error .typeError := by
  unfold quarter
  rw [if_pos (by omega)]

example : ∃ Q, quarter (LinOp.literal fun (i j : Fin 2) => (10 * i + j : ℚ)) true false = .ok Q ∧ Q.rows = 1 ∧ Q.asarray.get [0, 0] = 10 :=
  ⟨_, rfl, rfl, by decide +kernel⟩

/-! ### C64 and C65 -/

/-- **C64** is violated: a LiteralScatteringMatrix without array is not the identity, each product raises a ValueError. -/
theorem C64_violates {n : ℕ} (v : Fin n → K) : literalProduct none v = .error .valueError := rfl

/-- With an array the product is that of linear algebra. -/
theorem C64_partial {n : ℕ} (a : Fin n → Fin n → K) (v : Fin n → K) : ∃ w, literalProduct (some a) v = .ok w ∧ ∀ i, w i = ∑ j, a i j * v j := ⟨_, rfl, fun _ => rfl⟩

/-- **C65**: which arrays are accepted: those with two or more axes of which the second has the length `side`, or that of the first axis when there is no `side`. -/
theorem C65_accepts (array : List ℕ) (side : Option ℕ) (s t : ℕ) :
    squareShape (some array) side = .ok (s, t) ↔ s = t ∧ ∃ n rest, array = n :: s :: rest ∧ s = side.getD n := by
  unfold squareShape
  match array with
  | [] => simp
  | [_] => simp
  | n :: m :: rest =>
    simp only
    split_ifs with h
    · simp only [reduceCtorEq, false_iff]
      rintro ⟨-, n', rest', he, hs⟩
      simp only [List.cons.injEq] at he
      exact h (by rw [he.2.1, hs, he.1])
    · push Not at h
      simp only [Except.ok.injEq, Prod.mk.injEq, List.cons.injEq]
      constructor
      · rintro ⟨rfl, rfl⟩
        exact ⟨rfl, n, rest, ⟨rfl, h, rfl⟩, rfl⟩
      · rintro ⟨rfl, n', rest', ⟨rfl, rfl, rfl⟩, hs⟩
        exact ⟨hs.symm, hs.symm⟩

/-- **C65** without the argument `side`, for arrays with at most two axes: only square arrays are accepted. -/
theorem C65_partial (array : List ℕ) (h : array.length ≤ 2) (s t : ℕ) : squareShape (some array) none = .ok (s, t) ↔ s = t ∧ array = [s, s] := by
  rw [C65_accepts]
  constructor
  · rintro ⟨rfl, n, rest, rfl, hs⟩
    simp only [Option.getD_none] at hs
    subst hs
    simp only [List.length_cons] at h
    exact ⟨rfl, by rw [List.eq_nil_of_length_eq_zero (by omega : rest.length = 0)]⟩
  · rintro ⟨rfl, rfl⟩
    exact ⟨rfl, s, [], rfl, rfl⟩

/-- **C65** is violated: with `side` equal to the number of columns, arrays with any number of rows are accepted; and arrays with more than two axes are. -/
theorem C65_violates : (∀ n s : ℕ, squareShape (some [n, s]) (some s) = .ok (s, s)) ∧ ∀ (s : ℕ) (rest : List ℕ), squareShape (some (s :: s :: rest)) none = .ok (s, s) := by
  constructor
  · intro n s; simp [squareShape]
  · intro s rest; simp [squareShape]

end Verif.Mat
