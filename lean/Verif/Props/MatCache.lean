import Verif.Lemmas.MatCache
import Mathlib.Data.Fin.VecNotation
import Mathlib.Data.Rat.Defs

/-!
# Property C47: caching of matrix columns is transparent
-/

namespace Verif.Mat

open Verif.Spec.Mat

variable {K : Type} [Field K] [DecidableEq K] {n m : ℕ}

/-- What a history of uses should return for an operator `f`: the products, whatever the value of `caching`. -/
def expected (f : Vec K n → Vec K m) : List (CacheOp K n) → List (List (Vec K m))
  | [] => []
  | .product vs :: ops => vs.map f :: expected f ops
  | .setCaching _ :: ops => expected f ops

theorem run_spec {f : Vec K n → Vec K m} (hf : BasisHomogeneous f) (ops : List (CacheOp K n)) : ∀ {c : Cache K m n}, Consistent f c →
    (c.run f ops).1 = expected f ops ∧ Consistent f (c.run f ops).2 := by
  induction ops with
  | nil => intro c hc; exact ⟨rfl, hc⟩
  | cons op ops ih =>
    intro c hc
    cases op with
    | product vs =>
      obtain ⟨h1, h2⟩ := matvec_spec hf vs hc
      obtain ⟨h3, h4⟩ := ih h2
      exact ⟨by simp only [Cache.run, expected, h1, h3], h4⟩
    | setCaching b => exact ih (c := c.setCaching b) hc

/-- **C47**: Every history of products and assignments to `caching` of a new ScatteringMatrix returns the products with the operator, if and only if the operator is
compatible with scaling of the basis vectors, as all linear operators are. -/
theorem C47_scattering (f : Vec K n → Vec K m) : (∀ b ops, ((Cache.init b).run f ops).1 = expected f ops) ↔ BasisHomogeneous f := by
  constructor
  · intro h
    have h0 : ∀ r, f (fun _ => 0) r = 0 := by
      have h1 := h true [.product [fun _ => 0]]
      simp only [Cache.run, Cache.matvec, expected, List.map_cons, List.map_nil, List.cons.injEq, and_true] at h1
      have h2 : ((Cache.init true : Cache K m n).product f fun _ => 0).1 = fun _ => 0 := by
        unfold Cache.product
        rw [if_neg (nonZeros_nil.2 rfl)]
      rw [h2] at h1
      intro r
      exact (congrFun h1 r).symm
    refine ⟨h0, fun i a r => ?_⟩
    by_cases ha : a = 0
    · subst ha
      have : (single i 0 : Vec K n) = fun _ => 0 := by funext j; simp [single]
      rw [this, h0 r, zero_mul]
    have h1 := h true [.product [single i 1], .product [single i a]]
    have hp1 : ((Cache.init true : Cache K m n).product f (single i 1)).2 =
        ⟨true, Function.update (fun _ => none) i (some (f (single i 1))), [single i 1]⟩ := by
      simp only [Cache.product, nonZeros_single i (one_ne_zero (α := K)), Cache.lookup, Cache.init, basisIndex, Cache.calculate, List.length_singleton, Nat.one_pos, if_true,
        and_self, List.head?_cons, Option.map_none]
      have : (single i 1 : Vec K n) i = 1 := by simp [single]
      simp [this]
    simp only [Cache.run, Cache.matvec, expected, List.map_cons, List.map_nil, List.cons.injEq, and_true, hp1] at h1
    have h2 := h1.2
    have hp2 : ((⟨true, Function.update (fun _ => none) i (some (f (single i 1))), [single i 1]⟩ : Cache K m n).product f (single i a)).1 =
        fun r => f (single i 1) r * a := by
      have h3 : (single i a : Vec K n) i = a := by simp [single]
      simp [Cache.product, nonZeros_single i ha, Cache.lookup, basisIndex, h3]
    rw [hp2] at h2
    rw [← congrFun h2 r, mul_comm]
  · intro hf b ops
    exact (run_spec hf ops (c := Cache.init b) (by intro i column h; simp [Cache.init] at h)).1

/-- **C47**: The same holds for an object that has been constructed with the array of the operator. -/
theorem C47_array {f : Vec K n → Vec K m} (hf : BasisHomogeneous f) (array : Fin m → Fin n → K) (ha : ∀ i j, array i j = f (single j 1) i) (b : Bool)
    (ops : List (CacheOp K n)) : ((Cache.ofArray b array).run f ops).1 = expected f ops :=
  (run_spec hf ops (c := Cache.ofArray b array) (by
    intro i column h
    simp only [Cache.ofArray, Option.some.injEq] at h
    rw [← h]
    funext r
    exact ha r i)).1

/-- **C47**: Without caching, every history returns the products with the operator whatever the argument `array`, as the documentation says, if the product with 0 is 0. -/
theorem C47_array_ignored (f : Vec K n → Vec K m) (h0 : ∀ r, f (fun _ => 0) r = 0) (array : Fin m → Fin n → K) (vss : List (List (Vec K n))) :
    ((Cache.ofArray false array).run f (vss.map .product)).1 = vss.map fun vs => vs.map f := by
  have h1 : ∀ (c : Cache K m n), c.caching = false → ∀ v, (c.product f v).1 = f v ∧ (c.product f v).2.caching = false := by
    intro c hc v
    unfold Cache.product
    split
    · have : c.lookup v = none := by simp [Cache.lookup, hc]
      rw [this]
      exact ⟨rfl, hc⟩
    · rename_i hv
      rw [nonZeros_nil.1 hv]
      exact ⟨funext fun r => (h0 r).symm, hc⟩
  have h2 : ∀ (vs : List (Vec K n)) (c : Cache K m n), c.caching = false → (c.matvec f vs).1 = vs.map f ∧ (c.matvec f vs).2.caching = false := by
    intro vs
    induction vs with
    | nil => intro c hc; exact ⟨rfl, hc⟩
    | cons v vs ih =>
      intro c hc
      obtain ⟨h3, h4⟩ := h1 c hc v
      obtain ⟨h5, h6⟩ := ih _ h4
      exact ⟨by simp only [Cache.matvec, List.map_cons, h3, h5], h6⟩
  have h3 : ∀ (vss : List (List (Vec K n))) (c : Cache K m n), c.caching = false → (c.run f (vss.map .product)).1 = vss.map fun vs => vs.map f := by
    intro vss
    induction vss with
    | nil => intro c _; rfl
    | cons vs vss ih =>
      intro c hc
      obtain ⟨h4, h5⟩ := h2 vs c hc
      simp only [List.map_cons, Cache.run, h4, ih _ h5]
  exact h3 vss _ rfl

/-- **C47**: Every history of a new DepositionMatrix, which hands an array for the results to `_cache`, returns the products with the operator. -/
theorem C47_deposition {f : Vec K n → Vec K m} (hf : BasisHomogeneous f) (b : Bool) (ops : List (CacheOp K n)) :
    ((Cache.init b).runMixin f true ops).1 = (expected f ops).map .ok := by
  have h : ∀ (ops : List (CacheOp K n)) (c : Cache K m n), Consistent f c → (c.runMixin f true ops).1 = (expected f ops).map .ok := by
    intro ops
    induction ops with
    | nil => intro c _; rfl
    | cons op ops ih =>
      intro c hc
      cases op with
      | product vs =>
        obtain ⟨h1, h2⟩ := cache_spec hf vs hc
        simp only [Cache.runMixin, expected, h1, ih _ h2, List.map_cons]
      | setCaching b => exact ih (c.setCaching b) hc
  exact h ops _ (by intro i column h; simp [Cache.init] at h)

/-- The number of times that `f` is calculated for a multiple of basis vector `i`. -/
def basisCalls (c : Cache K m n) (i : Fin n) : ℕ := (c.calls.filter fun v => nonZeros v = [i]).length

theorem basisIndex_of_nonZeros {c : Cache K m n} (hc : c.caching = true) {v : Vec K n} {i : Fin n} (h : nonZeros v = [i]) : basisIndex c v = some i := by
  simp [basisIndex, hc, h]

/-- The invariant that counts: a column that has not been cached has not been calculated, other columns at most once. -/
def Counted (c : Cache K m n) : Prop := c.caching = true ∧ ∀ i, basisCalls c i ≤ if (c.columns i).isSome then 1 else 0

theorem product_counted (f : Vec K n → Vec K m) {c : Cache K m n} (hc : Counted c) (v : Vec K n) : Counted (c.product f v).2 := by
  unfold Cache.product
  split
  · split
    · rename_i hl
      refine ⟨hc.1, fun i => ?_⟩
      have h1 := hc.2 i
      simp only [basisCalls, Cache.calculate, List.filter_cons] at h1 ⊢
      by_cases hi : nonZeros v = [i]
      · have hb := basisIndex_of_nonZeros hc.1 hi
        have hn : c.columns i = none := by
          simp only [Cache.lookup, hc.1, hb, if_true, Option.map_eq_none_iff] at hl
          exact hl
        simp only [hn, Option.isSome_none, Bool.false_eq_true, if_false, Nat.le_zero] at h1
        simp only [hi, decide_true, if_true, List.length_cons, h1, hb, hc.1, Function.update_self, Option.isSome_some, le_refl]
      · simp only [hi, decide_false, Bool.false_eq_true, if_false]
        refine le_trans h1 ?_
        by_cases hb0 : basisIndex c v = none
        · simp only [hb0, le_refl]
        · obtain ⟨j, hb⟩ := Option.ne_none_iff_exists'.1 hb0
          simp only [hb, hc.1, if_true]
          have hj : nonZeros v = [j] := by
            unfold basisIndex at hb
            split at hb
            · rename_i h2
              obtain ⟨b, hb'⟩ := List.length_eq_one_iff.1 h2.2
              rw [hb'] at hb ⊢
              simpa using hb
            · simp at hb
          have hij : i ≠ j := fun h => hi (h ▸ hj)
          rw [Function.update_of_ne hij]
    · exact hc
  · exact hc

/-- **C47**: While caching, the field propagation for each basis vector is done at most once, in any history of products. -/
theorem C47_calls (f : Vec K n → Vec K m) (vss : List (List (Vec K n))) (i : Fin n) :
    basisCalls ((Cache.init true).run f (vss.map .product)).2 i ≤ 1 := by
  have h2 : ∀ (vs : List (Vec K n)) (c : Cache K m n), Counted c → Counted (c.matvec f vs).2 := by
    intro vs
    induction vs with
    | nil => intro c hc; exact hc
    | cons v vs ih => intro c hc; exact ih _ (product_counted f hc v)
  have h3 : ∀ (vss : List (List (Vec K n))) (c : Cache K m n), Counted c → Counted (c.run f (vss.map .product)).2 := by
    intro vss
    induction vss with
    | nil => intro c hc; exact hc
    | cons vs vss ih => intro c hc; exact ih _ (h2 vs c hc)
  have h := (h3 vss (Cache.init true) ⟨rfl, fun i => by simp [basisCalls, Cache.init]⟩).2 i
  split at h
  · exact h
  · omega

/-- **C47**: With an array of all columns, the field is never propagated for basis vectors. -/
theorem C47_calls_array (f : Vec K n → Vec K m) (array : Fin m → Fin n → K) (i : Fin n) {a : K} (ha : a ≠ 0) :
    (Cache.ofArray true array).product f (single i a) = (fun r => array r i * a, Cache.ofArray true array) := by
  have h3 : (single i a : Vec K n) i = a := by simp [single]
  simp [Cache.product, nonZeros_single i ha, Cache.lookup, basisIndex, Cache.ofArray, h3]

/-- **C47** does not hold for the mixin without an array for the results: the second product with the same basis vector raises a TypeError, for every operator. -/
theorem C47_mixin_violates (f : Vec K n → Vec K m) (i : Fin n) :
    ((Cache.init true).runMixin f false [.product [single i 1], .product [single i 1]]).1 = [.ok [f (single i 1)], .error .typeError] := by
  have h3 : (single i 1 : Vec K n) i = 1 := by simp [single]
  simp [Cache.runMixin, Cache.cache, Cache.loop, nonZeros_single i (one_ne_zero (α := K)), Cache.lookup, basisIndex, Cache.init, Cache.calculate]

/-- **C47** does not hold for the mixin without an array for the results: so does a product with zero after a product with a basis vector. -/
theorem C47_mixin_zero_violates (f : Vec K n → Vec K m) (i : Fin n) :
    ((Cache.init true).runMixin f false [.product [single i 1], .product [fun _ => 0]]).1 = [.ok [f (single i 1)], .error .typeError] := by
  have h0 : nonZeros (fun _ => 0 : Vec K n) = [] := by simp [nonZeros]
  have h3 : (single i 1 : Vec K n) i = 1 := by simp [single]
  simp [Cache.runMixin, Cache.cache, Cache.loop, nonZeros_single i (one_ne_zero (α := K)), Cache.lookup, basisIndex, Cache.init, Cache.calculate, h0]
  rw [if_pos ⟨i, by simp⟩]

/-- **C47**: Without an array for the results and without caching, the mixin returns the products if there are columns. -/
theorem C47_mixin_partial (f : Vec K n → Vec K m) (h0 : ∀ r, f (fun _ => 0) r = 0) (c : Cache K m n) (hc : c.caching = false) (hcol : ∀ i, c.columns i = none)
    (v : Vec K n) (vs : List (Vec K n)) : (c.cache f (v :: vs) false).1 = .ok ((v :: vs).map f) := by
  have hl : ∀ (ws : List (Vec K n)) (h : Bool) (c : Cache K m n), c.caching = false → (∀ i, c.columns i = none) →
      ∃ rs, (c.loop f h ws).1 = .ok (rs, h || ws.any fun w => decide (0 < (nonZeros w).length)) ∧ rs.map (fun r => r.getD fun _ => 0) = ws.map f ∧
        (∀ i, (c.loop f h ws).2.columns i = none) := by
    intro ws
    induction ws with
    | nil => intro h c _ hcol; exact ⟨[], by simp [Cache.loop], rfl, hcol⟩
    | cons w ws ih =>
      intro h c hc hcol
      by_cases hw : 0 < (nonZeros w).length
      · have hlk : c.lookup w = none := by simp [Cache.lookup, hc]
        have hcol' : ∀ i, (c.calculate f w).2.columns i = none := by
          intro i
          simp [Cache.calculate, basisIndex, hc, hcol]
        obtain ⟨rs, h1, h2, h3⟩ := ih true (c.calculate f w).2 hc hcol'
        simp only [Cache.loop, hw, hlk, if_true]
        generalize Cache.loop f (c.calculate f w).2 true ws = p at *
        obtain ⟨p1, p2⟩ := p
        simp only at h1
        subst h1
        refine ⟨some (f w) :: rs, ?_, by simp [h2], h3⟩
        simp [Cache.calculate, hw]
      · obtain ⟨rs, h1, h2, h3⟩ := ih h c hc hcol
        simp only [Cache.loop, hw, if_false]
        generalize Cache.loop f c h ws = p at *
        obtain ⟨p1, p2⟩ := p
        simp only at h1
        subst h1
        refine ⟨none :: rs, by simp [hw], ?_, h3⟩
        have : (fun _ => 0) = f w := by rw [nonZeros_nil.1 hw]; funext r; exact (h0 r).symm
        rw [List.map_cons, List.map_cons, h2, Option.getD_none, this]
  obtain ⟨rs, h1, h2, h3⟩ := hl (v :: vs) false c hc hcol
  unfold Cache.cache
  generalize c.loop f false (v :: vs) = p at *
  obtain ⟨p1, p2⟩ := p
  simp only [Bool.false_or] at h1
  subst h1
  cases hany : (v :: vs).any fun w => decide (0 < (nonZeros w).length) with
  | true => simp only [h2]
  | false =>
    have hno : ¬ ∃ i, (p2.columns i).isSome := by
      rintro ⟨i, hi⟩
      rw [h3 i] at hi
      simp at hi
    simp only [hno, if_false]
    have hz : ∀ w ∈ v :: vs, f w = fun _ => 0 := by
      intro w hw
      rw [List.any_eq_false] at hany
      have := hany w hw
      simp only [decide_eq_true_eq] at this
      rw [nonZeros_nil.1 this]
      exact funext h0
    have hlen : rs.length = (v :: vs).length := by
      have := congrArg List.length h2
      simpa using this
    have hz' : (v :: vs).map f = (v :: vs).map fun _ _ => 0 := List.map_congr_left hz
    rw [hz', List.map_const', List.map_const', hlen]

/-- An operator to which the theorems apply: the matrix with rows (1, 2) and (3, 4). -/
def demoOperator (v : Vec ℚ 2) : Vec ℚ 2 := ![v 0 + 2 * v 1, 3 * v 0 + 4 * v 1]

theorem demoOperator_homogeneous : BasisHomogeneous demoOperator := by
  constructor
  · intro r
    match r with
    | 0 | 1 => simp [demoOperator]
  · intro i a r
    match i, r with
    | 0, 0 | 0, 1 | 1, 0 | 1, 1 => simp [demoOperator, single] <;> ring

example : ((Cache.init true).run demoOperator [.product [![0, 2]], .setCaching false, .product [![1, 1], ![0, 5]], .setCaching true, .product [![0, 7]]]).1 =
    [[![4, 8]], [![3, 7], ![10, 20]], [![14, 28]]] := by decide +kernel

example : ((Cache.init true).run demoOperator [.product [![0, 2]], .setCaching false, .product [![1, 1], ![0, 5]], .setCaching true, .product [![0, 7]]]).1 =
    expected demoOperator [.product [![0, 2]], .setCaching false, .product [![1, 1], ![0, 5]], .setCaching true, .product [![0, 7]]] :=
  (C47_scattering demoOperator).2 demoOperator_homogeneous true _

/-- If the array in the argument of the constructor is not that of the operator, then products of superpositions are not the superpositions of products. -/
example : ((Cache.ofArray true fun _ _ => (0 : ℚ)).run demoOperator [.product [![1, 0], ![0, 1], ![1, 1]]]).1 = [[![0, 0], ![0, 0], ![3, 7]]] := by decide +kernel

example : (((Cache.init true).run demoOperator [.product [![0, 2], ![0, 3]], .product [![0, 4], ![1, 1]]]).2.calls) = [![1, 1], ![0, 2]] := by decide +kernel

/-- **C47**: after caching has been switched off, every product with a column other than zero is calculated, and the cached columns remain; after it has been switched on, a
product with a multiple of a basis vector is calculated once. -/
theorem C47_switch (f : Vec K n → Vec K m) (c : Cache K m n) :
    (∀ v, v ≠ 0 → ((c.run f [.setCaching false, .product [v]]).2.calls = v :: c.calls ∧ (c.run f [.setCaching false, .product [v]]).2.columns = c.columns)) ∧
    ∀ (i : Fin n) (a b : K), a ≠ 0 → b ≠ 0 → c.columns i = none →
      (c.run f [.setCaching true, .product [single i a], .product [single i b]]).2.calls = single i a :: c.calls := by
  constructor
  · intro v hv
    have h0 : 0 < (nonZeros v).length := by
      by_contra h
      exact hv (nonZeros_nil.1 h)
    simp [Cache.run, Cache.matvec, Cache.product, h0, Cache.lookup, Cache.setCaching, Cache.calculate, basisIndex]
  · intro i a b ha hb hc
    simp [Cache.run, Cache.matvec, Cache.product, nonZeros_single i ha, nonZeros_single i hb, Cache.lookup, Cache.setCaching, Cache.calculate, basisIndex, hc]

example : ((Cache.init false).run demoOperator [.setCaching true, .product [single 1 2], .product [single 1 5]]).2.calls = [single 1 2] := by decide +kernel

end Verif.Mat
