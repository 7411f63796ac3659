import Verif.Spec.MatArray
import Mathlib.Tactic.Ring
import Mathlib.Tactic.Positivity
import Mathlib.Tactic.SplitIfs

namespace Verif.Mat

open Verif.Spec.Mat

variable {K : Type} [Field K]

theorem newDims_ge (keys : List Key) : ∀ (p d : ℕ), d ≤ p → ∀ x ∈ newDims p d keys, p - d ≤ x := by
  induction keys with
  | nil => intro p d _ x hx; simp [newDims] at hx
  | cons k keys ih =>
    intro p d hd x hx
    cases k with
    | newaxis =>
      rw [newDims, List.mem_cons] at hx
      rcases hx with rfl | hx
      · exact le_refl _
      · have := ih (p + 1) d (by omega) x hx; omega
    | int i =>
      rw [newDims] at hx
      have := ih (p + 1) (d + 1) (by omega) x hx; omega
    | slice a b c =>
      rw [newDims] at hx
      have := ih (p + 1) d (by omega) x hx; omega

theorem expandShape_none (axes : List ℕ) (shape : List ℕ) : ∀ q, (∀ x, q ≤ x → x ∉ axes) → expandShape axes shape.length q shape = shape := by
  induction shape with
  | nil => intro q _; rfl
  | cons n shape ih =>
    intro q h
    rw [List.length_cons, expandShape, if_neg (h q (le_refl _)), List.headD_cons, List.tail_cons, ih (q + 1) fun x hx => h x (by omega)]

theorem dropAxes_none (axes : List ℕ) (idx : List ℕ) : ∀ q, (∀ x, q ≤ x → x ∉ axes) → dropAxes axes q idx = idx := by
  induction idx with
  | nil => intro q _; rfl
  | cons n idx ih =>
    intro q h
    rw [dropAxes, if_neg (h q (le_refl _)), ih (q + 1) fun x hx => h x (by omega)]

/-- Indexing with new axes is indexing without them, followed by the insertion of the axes. -/
theorem indexAux_slicesOf (axes : List ℕ) (keys : List Key) : ∀ (shape : List ℕ) (p d : ℕ), d ≤ p → (∀ x, p - d ≤ x → (x ∈ axes ↔ x ∈ newDims p d keys)) →
    (∀ e, indexAux (slicesOf keys) shape = .error e → ∃ e', indexAux keys shape = .error e') ∧
    (∀ sh f, indexAux (slicesOf keys) shape = .ok (sh, f) → ∃ f', indexAux keys shape = .ok (expandShape axes ((newDims p d keys).length + sh.length) (p - d) sh, f') ∧
      ∀ idx : List ℕ, idx.length = (newDims p d keys).length + sh.length → f' idx = f (dropAxes axes (p - d) idx)) ∧
    (∀ sh f, indexAux (slicesOf keys) shape = .ok (sh, f) → ∀ idx, InRange (expandShape axes ((newDims p d keys).length + sh.length) (p - d) sh) idx →
      InRange sh (dropAxes axes (p - d) idx)) := by
  induction keys with
  | nil =>
    intro shape p d hd hax
    have hno : ∀ x, p - d ≤ x → x ∉ axes := fun x hx h => by simpa [newDims] using (hax x hx).mp h
    refine ⟨fun e h => by simp [slicesOf, indexAux] at h, fun sh f h => ?_, fun sh f h idx hr => ?_⟩
    swap
    · simp only [newDims, List.length_nil, zero_add, expandShape_none axes sh _ hno] at hr
      rwa [dropAxes_none axes idx _ hno]
    simp only [slicesOf, List.filter_nil, indexAux, Except.ok.injEq, Prod.mk.injEq] at h
    obtain ⟨rfl, rfl⟩ := h
    refine ⟨fun idx => idx, ?_, fun idx _ => (dropAxes_none axes idx _ hno).symm⟩
    simp only [indexAux, newDims, List.length_nil, zero_add, expandShape_none axes shape _ hno]
  | cons k keys ih =>
    intro shape p d hd hax
    cases k with
    | newaxis =>
      have hs : slicesOf (Key.newaxis :: keys) = slicesOf keys := by simp [slicesOf]
      have hmem : p - d ∈ axes := (hax _ (le_refl _)).mpr (by simp [newDims])
      have hnext : p + 1 - d = p - d + 1 := by omega
      obtain ⟨h1, h2, h3⟩ := ih shape (p + 1) d (by omega) fun x hx => by
        rw [hax x (by omega), newDims, List.mem_cons]
        constructor
        · rintro (h | h)
          · omega
          · exact h
        · exact Or.inr
      rw [hs]
      refine ⟨fun e h => ?_, fun sh f h => ?_, fun sh f h idx hr => ?_⟩
      · obtain ⟨e', he'⟩ := h1 e h
        exact ⟨e', by simp [indexAux, he']⟩
      · obtain ⟨f', hf', hidx⟩ := h2 sh f h
        refine ⟨fun idx => f' idx.tail, ?_, fun idx hlen => ?_⟩
        · simp only [indexAux, hf', newDims, List.length_cons, hnext]
          rw [show (newDims (p + 1) d keys).length + 1 + sh.length = ((newDims (p + 1) d keys).length + sh.length) + 1 by omega, expandShape, if_pos hmem]
        · rw [newDims, List.length_cons] at hlen
          cases idx with
          | nil => simp at hlen; omega
          | cons i idx =>
            rw [dropAxes, if_pos hmem, ← hnext]
            exact hidx idx (by simp at hlen; omega)
      · rw [newDims, List.length_cons, show (newDims (p + 1) d keys).length + 1 + sh.length = ((newDims (p + 1) d keys).length + sh.length) + 1 by omega, expandShape,
          if_pos hmem] at hr
        cases hr with
        | cons _ hr =>
          rw [dropAxes, if_pos hmem, ← hnext]
          exact h3 sh f h _ (by rw [hnext]; exact hr)
    | int i =>
      have hs : slicesOf (Key.int i :: keys) = Key.int i :: slicesOf keys := by simp [slicesOf]
      rw [hs]
      cases shape with
      | nil => exact ⟨fun e _ => ⟨.indexError, rfl⟩, fun sh f h => by simp [indexAux] at h, fun sh f h => by simp [indexAux] at h⟩
      | cons n shape =>
        have hnext : p + 1 - (d + 1) = p - d := by omega
        obtain ⟨h1, h2, h3⟩ := ih shape (p + 1) (d + 1) (by omega) fun x hx => by rw [hax x (by omega), newDims]
        cases hp : position n i with
        | error e => exact ⟨fun _ _ => ⟨e, by simp [indexAux, hp]⟩, fun sh f h => by simp [indexAux, hp] at h, fun sh f h => by simp [indexAux, hp] at h⟩
        | ok pos =>
          cases hr : indexAux (slicesOf keys) shape with
          | error e =>
            obtain ⟨e', he'⟩ := h1 e hr
            exact ⟨fun _ _ => ⟨e', by simp [indexAux, hp, he']⟩, fun sh f h => by simp [indexAux, hp, hr] at h, fun sh f h => by simp [indexAux, hp, hr] at h⟩
          | ok r =>
            obtain ⟨sh, f⟩ := r
            obtain ⟨f', hf', hidx⟩ := h2 sh f hr
            refine ⟨fun e h => by simp [indexAux, hp, hr] at h, fun sh2 f2 h => ?_, fun sh2 f2 h idx hra => ?_⟩
            swap
            · simp only [indexAux, hp, hr, Except.ok.injEq, Prod.mk.injEq] at h
              obtain ⟨rfl, rfl⟩ := h
              rw [newDims] at hra
              rw [← hnext] at hra ⊢
              exact h3 sh f hr idx hra
            simp only [indexAux, hp, hr, Except.ok.injEq, Prod.mk.injEq] at h
            obtain ⟨rfl, rfl⟩ := h
            refine ⟨fun idx => pos :: f' idx, ?_, fun idx hlen => ?_⟩
            · simp only [indexAux, hp, hf', newDims, hnext]
            · show pos :: f' idx = pos :: f (dropAxes axes (p - d) idx)
              rw [hidx idx (by rw [newDims] at hlen; exact hlen), hnext]
    | slice a b c =>
      have hs : slicesOf (Key.slice a b c :: keys) = Key.slice a b c :: slicesOf keys := by simp [slicesOf]
      rw [hs]
      cases shape with
      | nil => exact ⟨fun e _ => ⟨.indexError, rfl⟩, fun sh f h => by simp [indexAux] at h, fun sh f h => by simp [indexAux] at h⟩
      | cons n shape =>
        have hnext : p + 1 - d = p - d + 1 := by omega
        have hnot : p - d ∉ axes := fun h => by
          have h := (hax _ (le_refl _)).mp h
          rw [newDims] at h
          have := newDims_ge keys (p + 1) d (by omega) _ h
          omega
        obtain ⟨h1, h2, h3⟩ := ih shape (p + 1) d (by omega) fun x hx => by rw [hax x (by omega), newDims]
        cases hp : positions n a b c with
        | error e => exact ⟨fun _ _ => ⟨e, by simp [indexAux, hp]⟩, fun sh f h => by simp [indexAux, hp] at h, fun sh f h => by simp [indexAux, hp] at h⟩
        | ok ps =>
          cases hr : indexAux (slicesOf keys) shape with
          | error e =>
            obtain ⟨e', he'⟩ := h1 e hr
            exact ⟨fun _ _ => ⟨e', by simp [indexAux, hp, he']⟩, fun sh f h => by simp [indexAux, hp, hr] at h, fun sh f h => by simp [indexAux, hp, hr] at h⟩
          | ok r =>
            obtain ⟨sh, f⟩ := r
            obtain ⟨f', hf', hidx⟩ := h2 sh f hr
            refine ⟨fun e h => by simp [indexAux, hp, hr] at h, fun sh2 f2 h => ?_, fun sh2 f2 h idx hra => ?_⟩
            swap
            · simp only [indexAux, hp, hr, Except.ok.injEq, Prod.mk.injEq] at h
              obtain ⟨rfl, rfl⟩ := h
              rw [newDims, List.length_cons, show (newDims (p + 1) d keys).length + (sh.length + 1) = ((newDims (p + 1) d keys).length + sh.length) + 1 by omega, expandShape,
                if_neg hnot] at hra
              cases hra with
              | cons h0 hra =>
                rw [dropAxes, if_neg hnot, ← hnext]
                exact .cons h0 (h3 sh f hr _ (by rw [hnext]; exact hra))
            simp only [indexAux, hp, hr, Except.ok.injEq, Prod.mk.injEq] at h
            obtain ⟨rfl, rfl⟩ := h
            refine ⟨fun idx => ps.getD (idx.headD 0) 0 :: f' idx.tail, ?_, fun idx hlen => ?_⟩
            · simp only [indexAux, hp, hf', newDims, List.length_cons, hnext]
              rw [show (newDims (p + 1) d keys).length + (sh.length + 1) = ((newDims (p + 1) d keys).length + sh.length) + 1 by omega, expandShape, if_neg hnot]
              rfl
            · rw [newDims, List.length_cons] at hlen
              cases idx with
              | nil => simp at hlen
              | cons i idx =>
                rw [dropAxes, if_neg hnot, ← hnext]
                simp only [List.headD_cons, List.tail_cons]
                rw [hidx idx (by simp at hlen; omega)]

/-- Slices select positions in range. -/
theorem positions_lt (n : ℕ) (a b c : Option ℤ) (ps : List ℕ) (h : positions n a b c = .ok ps) : ∀ x ∈ ps, x < n := by
  unfold positions at h
  dsimp only at h
  generalize c.getD 1 = step at h
  split_ifs at h with h0 h1
  · generalize hf : Option.getD (Option.map _ a) _ = first at h
    generalize hl : Option.getD (Option.map _ b) _ = last at h
    have h2 : 0 ≤ first := by subst hf; cases a <;> simp only [Option.map_none, Option.getD_none, Option.map_some, Option.getD_some] <;> (try split_ifs) <;> omega
    have h3 : last ≤ n := by subst hl; cases b <;> simp only [Option.map_none, Option.getD_none, Option.map_some, Option.getD_some] <;> (try split_ifs) <;> omega
    simp only [Except.ok.injEq] at h
    subst h
    intro x hx
    obtain ⟨i, hi, rfl⟩ := List.mem_map.mp hx
    rw [List.mem_range] at hi
    have h4 : (i : ℤ) + 1 ≤ (last - first + step - 1) / step := by omega
    have h5 := (Int.le_ediv_iff_mul_le h1).mp h4
    have h6 : 0 ≤ (i : ℤ) * step := by positivity
    have h7 : ((i : ℤ) + 1) * step = i * step + step := by ring
    omega
  · have hs : 0 < -step := by omega
    generalize hf : Option.getD (Option.map _ a) _ = first at h
    generalize hl : Option.getD (Option.map _ b) _ = last at h
    have h2 : first ≤ n - 1 := by subst hf; cases a <;> simp only [Option.map_none, Option.getD_none, Option.map_some, Option.getD_some] <;> (try split_ifs) <;> omega
    have h3 : -1 ≤ last := by subst hl; cases b <;> simp only [Option.map_none, Option.getD_none, Option.map_some, Option.getD_some] <;> (try split_ifs) <;> omega
    simp only [Except.ok.injEq] at h
    subst h
    intro x hx
    obtain ⟨i, hi, rfl⟩ := List.mem_map.mp hx
    rw [List.mem_range] at hi
    have h4 : (i : ℤ) + 1 ≤ (first - last - step - 1) / (-step) := by omega
    have h5 := (Int.le_ediv_iff_mul_le hs).mp h4
    have h6 : 0 ≤ (i : ℤ) * (-step) := by positivity
    have h7 : ((i : ℤ) + 1) * (-step) = -(i * step) + -step := by ring
    have h8 : (i : ℤ) * (-step) = -(i * step) := by ring
    omega

theorem position_lt (n : ℕ) (i : ℤ) (p : ℕ) (h : position n i = .ok p) : p < n := by
  unfold position at h
  split_ifs at h with h1 h2
  · simp only [Except.ok.injEq] at h; omega
  · simp only [Except.ok.injEq] at h; omega

theorem positions_all (n : ℕ) : positions n none none none = .ok (List.range n) := by
  unfold positions
  simp

theorem index_shape (a : NdArr K) (keys : List Key) : a.index keys = match indexAux keys a.shape with
    | .error e => .error e
    | .ok (sh, f) => .ok ⟨sh, fun idx => a.get (f idx)⟩ := rfl

/-- A column of the array of a matrix is its product with a basis vector. -/
theorem asarray_apply (M : LinOp K) (hc : Consistent M) (i j : ℕ) (hi : i < M.rows) (hj : j < M.cols) :
    M.asarray.get [i, j] = M.apply (fun k => if k = j then 1 else 0) i := by
  unfold LinOp.asarray
  split
  · rename_i a ha
    rw [LinOp.apply, dif_pos hi, hc a ha]
    simp only [dif_pos (And.intro hi hj)]
    rw [Finset.sum_eq_single (⟨j, hj⟩ : Fin M.cols)]
    · simp
    · intro k _ hk
      rw [if_neg fun h => hk (Fin.ext h), mul_zero]
    · simp
  · rfl

theorem asarray_shape (M : LinOp K) : M.asarray.shape = [M.rows, M.cols] := by
  unfold LinOp.asarray
  split <;> rfl

theorem length_expandShape (axes : List ℕ) : ∀ (count q : ℕ) (shape : List ℕ), (expandShape axes count q shape).length = count := by
  intro count
  induction count with
  | zero => intro q shape; rfl
  | succ count ih => intro q shape; rw [expandShape]; split <;> simp [ih]

theorem getD_lt (l : List ℕ) (j : ℕ) (h : j < l.length) : l.getD j 0 = l[j] := by simp [List.getD, h]

/-- The product with columns of the identity selects columns of the array. -/
theorem matmul_eye (M : LinOp K) (hc : Consistent M) (hsq : M.rows = M.cols) (k1 : Key) (h1 : k1 ≠ .newaxis)
    (hne : ∀ a b c, k1 = .slice a b c → positions M.cols a b c ≠ .ok []) :
    (∃ e, indexAux [k1] [M.cols] = .error e ∧ (eye M.rows : NdArr K).index [.all, k1] = .error e) ∨
    ∃ sh f right g, indexAux [k1] [M.cols] = .ok (sh, f) ∧ (eye M.rows : NdArr K).index [.all, k1] = .ok right ∧ M.matmul right = .ok ⟨M.rows :: sh, g⟩ ∧
      ∀ i idx, i < M.rows → InRange sh idx → g (i :: idx) = M.asarray.get (i :: f idx) := by
  cases k1 with
  | newaxis => exact absurd rfl h1
  | int j =>
    cases hj : position M.cols j with
    | error e => exact .inl ⟨e, by simp [indexAux, hj], by simp [NdArr.index, eye, indexAux, Key.all, positions_all, hsq, hj]⟩
    | ok q =>
      have hq : q < M.cols := position_lt _ _ _ hj
      refine .inr ⟨[], fun idx => q :: idx, ⟨[M.rows], fun idx => (eye M.rows : NdArr K).get ((List.range M.rows).getD (idx.headD 0) 0 :: q :: idx.tail)⟩, fun idx => match idx with
          | [i] => M.apply (fun k => (eye M.rows : NdArr K).get ((List.range M.rows).getD k 0 :: q :: [])) i
          | _ => 0,
        by simp [indexAux, hj], ?_, ?_, ?_⟩
      · simp [NdArr.index, eye, indexAux, Key.all, positions_all, hsq, hj]
      · simp only [LinOp.matmul]
        rw [if_neg (by simp [hsq])]
        rfl
      · intro i idx hi hidx
        cases hidx
        simp only [eye]
        rw [asarray_apply M hc i q hi hq]
        simp only [LinOp.apply, dif_pos hi]
        congr 1
        funext k
        have hk : (k : ℕ) < M.rows := by have := k.2; omega
        simp [List.getD, hk]
  | slice a b c =>
    cases hj : positions M.cols a b c with
    | error e => exact .inl ⟨e, by simp [indexAux, hj], by simp [NdArr.index, eye, indexAux, Key.all, positions_all, hsq, hj]⟩
    | ok ps =>
      have hq := positions_lt _ _ _ _ _ hj
      have hps : ps ≠ [] := fun h => hne a b c rfl (h ▸ hj)
      refine .inr ⟨[ps.length], fun idx => ps.getD (idx.headD 0) 0 :: idx.tail, ⟨[M.rows, ps.length], fun idx => (eye M.rows : NdArr K).get
        ((List.range M.rows).getD (idx.headD 0) 0 :: ps.getD (idx.tail.headD 0) 0 :: idx.tail.tail)⟩, fun idx => match idx with
          | [i, j] => M.apply (fun k => (eye M.rows : NdArr K).get ((List.range M.rows).getD k 0 :: ps.getD j 0 :: [])) i
          | _ => 0, by simp [indexAux, hj], ?_, ?_, ?_⟩
      · simp [NdArr.index, eye, indexAux, Key.all, positions_all, hsq, hj]
      · simp only [LinOp.matmul]
        rw [if_neg (by simp [hsq, hps])]
        rfl
      · intro i idx hi hidx
        cases hidx with
        | @cons j _ _ _ hj hidx =>
          cases hidx
          simp only [eye, List.headD_cons, List.tail_cons]
          have hlt : ps.getD j 0 < M.cols := by
            rw [getD_lt _ _ hj]
            exact hq _ (List.getElem_mem hj)
          rw [asarray_apply M hc i _ hi hlt]
          simp only [LinOp.apply, dif_pos hi]
          congr 1
          funext k
          have hk : (k : ℕ) < M.rows := by have := k.2; omega
          rw [show (List.range M.rows).getD k 0 = k by simp [List.getD, hk]]

theorem agree_refl {A : Type} (x : Except PyErr (NdArr A)) : Agree x x := by
  cases x with
  | error e => exact .inl ⟨⟨e, rfl⟩, e, rfl⟩
  | ok x => exact .inr ⟨x, x, rfl, rfl, rfl, fun _ _ => rfl⟩

theorem slicesOf_not_newaxis (keys : List Key) : ∀ k ∈ slicesOf keys, k ≠ .newaxis := by
  intro k hk h
  subst h
  simp [slicesOf] at hk

theorem expandDims_same (x : NdArr K) (keys : List Key) (sh : List ℕ) (f : List ℕ → List ℕ) (g : List ℕ → K) (shape : List ℕ) (hx : x.shape = shape)
    (h : indexAux (slicesOf keys) shape = .ok (sh, f)) (hg : ∀ idx, InRange sh idx → g idx = x.get (f idx)) :
    Agree (.ok (NdArr.expandDims ⟨sh, g⟩ (newDims 0 0 keys))) (x.index keys) := by
  obtain ⟨-, h2, h3⟩ := indexAux_slicesOf (newDims 0 0 keys) keys shape 0 0 (le_refl _) fun x _ => Iff.rfl
  obtain ⟨f', hf', hidx⟩ := h2 sh f h
  refine .inr ⟨_, ⟨expandShape (newDims 0 0 keys) ((newDims 0 0 keys).length + sh.length) (0 - 0) sh, fun idx => x.get (f' idx)⟩, rfl, ?_, rfl, ?_⟩
  · rw [index_shape, hx, hf']
  · intro idx hr
    have hr2 := h3 sh f h idx hr
    have hlen : idx.length = (newDims 0 0 keys).length + sh.length := by
      rw [hr.length_eq]
      exact length_expandShape _ _ _ _
    show g (dropAxes _ 0 idx) = x.get (f' idx)
    rw [hidx idx hlen]
    exact hg _ hr2

end Verif.Mat
