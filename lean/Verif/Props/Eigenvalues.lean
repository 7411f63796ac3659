import Verif.Props.Roots
import Verif.Lemmas.RootsPoly
import Mathlib.LinearAlgebra.Matrix.Hermitian
import Mathlib.LinearAlgebra.Matrix.DotProduct

/-!
# Property C26, with coefficients that are zero, and property C27: eigenvalues of 3×3 matrices
-/

namespace Verif.Roots

open Complex Verif.Spec.Roots

variable {eps : ℝ}

theorem addLoop_keep {C : List ℂ} (h : ¬ ‖C.getLastD 0‖ < 2 * eps) (i r : ℕ) (l : Bool) : addLoop eps (i + 1) C r l = (C, r, false) := by
  classical
  induction i generalizing l with
  | zero => rw [addLoop, if_neg h, addLoop]
  | succ i ih => rw [addLoop, if_neg h, ih]

/-- What `add_roots` does if some coefficient is not negligible. -/
theorem addLoop_spec (D : List ℂ) {lead : ℂ} (hl : 2 * eps ≤ ‖lead‖) (E : List ℂ) (hE : ∀ e ∈ E, ‖e‖ < 2 * eps) (i j r : ℕ) (l : Bool) :
    addLoop eps (E.length + (i + 1)) (List.replicate j 0 ++ (D ++ [lead]) ++ E) r l =
      (List.replicate (j + E.length) 0 ++ (D ++ [lead]), r + E.length, false) := by
  classical
  induction E using List.reverseRecOn generalizing j r l with
  | nil =>
    rw [List.append_nil, List.length_nil, Nat.zero_add, addLoop_keep]
    · simp
    · rw [not_lt, ← List.append_assoc, List.getLastD_concat]
      exact hl
  | append_singleton E e ih =>
    have he : ‖e‖ < 2 * eps := hE e (by simp)
    rw [List.length_append, List.length_singleton, show E.length + 1 + (i + 1) = (E.length + (i + 1)) + 1 by omega, addLoop, if_pos]
    · rw [← List.append_assoc, List.dropLast_concat, ← List.cons_append, ← List.cons_append, ← List.replicate_succ,
        ih (fun x hx => hE x (by simp [hx]))]
      rw [show j + 1 + E.length = j + (E.length + 1) by omega, show r + 1 + E.length = r + (E.length + 1) by omega]
    · rw [← List.append_assoc, List.getLastD_concat]
      exact he

theorem addRoots_spec (D : List ℂ) {lead : ℂ} (hl : 2 * eps ≤ ‖lead‖) (E : List ℂ) (hE : ∀ e ∈ E, ‖e‖ < 2 * eps) :
    addRoots eps (D ++ [lead] ++ E) = (List.replicate E.length 0 ++ (D ++ [lead]), E.length) := by
  have := addLoop_spec D hl E hE D.length 0 0 false
  unfold addRoots
  rw [show (D ++ [lead] ++ E).length = E.length + (D.length + 1) by simp; omega]
  simp only [List.replicate_zero, List.nil_append, Nat.zero_add] at this
  rw [this]
  rfl

/-- What `add_roots` does if all coefficients are negligible. -/
theorem addLoop_zero (heps : 0 < eps) (E : List ℂ) (hE : ∀ e ∈ E, ‖e‖ < 2 * eps) (i j r : ℕ) (l : Bool) (hj : 0 < j + E.length)
    (hl : i + E.length = 0 → l = true) :
    addLoop eps (i + E.length) (List.replicate j 0 ++ E) r l = (List.replicate (j + E.length) 0, r + (i + E.length), true) := by
  classical
  induction E using List.reverseRecOn generalizing j r l with
  | nil =>
    simp only [List.length_nil, Nat.add_zero, List.append_nil] at *
    induction i generalizing r l with
    | zero => rw [addLoop, hl rfl]; simp
    | succ i ih =>
      obtain ⟨j, rfl⟩ : ∃ j', j = j' + 1 := ⟨j - 1, by omega⟩
      rw [addLoop, if_pos]
      · have e : (0 : ℂ) :: (List.replicate (j + 1) 0).dropLast = List.replicate (j + 1) 0 := by
          rw [List.dropLast_replicate, Nat.add_sub_cancel, ← List.replicate_succ]
        rw [e, ih _ _ (fun _ => rfl)]
        congr 2
        omega
      · rw [List.replicate_succ', List.getLastD_concat, norm_zero]
        linarith
  | append_singleton E e ih =>
    have he : ‖e‖ < 2 * eps := hE e (by simp)
    rw [List.length_append, List.length_singleton, show i + (E.length + 1) = (i + E.length) + 1 by omega, addLoop, if_pos]
    · rw [← List.append_assoc, List.dropLast_concat, ← List.cons_append, ← List.replicate_succ, ih (fun x hx => hE x (by simp [hx])) _ _ _ (by omega) (fun _ => rfl)]
      rw [show j + 1 + E.length = j + (E.length + 1) by omega, show r + 1 + (i + E.length) = r + (i + E.length + 1) by omega]
    · rw [← List.append_assoc, List.getLastD_concat]
      exact he

theorem addRoots_zero (heps : 0 < eps) (E : List ℂ) (h0 : 0 < E.length) (hE : ∀ e ∈ E, ‖e‖ < 2 * eps) :
    addRoots eps E = (List.replicate (E.length - 1) 0 ++ [1], E.length) := by
  have := addLoop_zero heps E hE 0 0 0 false (by omega) (by omega)
  simp only [Nat.zero_add, List.replicate_zero, List.nil_append] at this
  unfold addRoots
  rw [this]
  simp

/-- The formula that is used for the given coefficients. -/
noncomputable def formula (eps : ℝ) : List ℂ → List ℂ
  | [c0, c1] => linear c0 c1
  | [c0, c1, c2] => quadratic eps c0 c1 c2
  | [c0, c1, c2, c3] => cubic eps c0 c1 c2 c3
  | _ => []

theorem formula_length {C : List ℂ} (h2 : 2 ≤ C.length) (h4 : C.length ≤ 4) : (formula eps C).length + 1 = C.length := by
  match C, h2, h4 with
  | [_, _], _, _ => rfl
  | [_, _, _], _, _ => rfl
  | [_, _, _, _], _, _ => rfl

theorem calcRoots_eq {C C' : List ℂ} {r : ℕ} (h2 : 2 ≤ C.length) (h4 : C.length ≤ 4) (h : addRoots eps C = (C', r)) (hl : C'.length = C.length) :
    calcRoots eps C = .ok (removeRoots eps (formula eps C') r) := by
  unfold calcRoots
  rw [if_neg (by omega), if_neg (by omega), h]
  simp only
  match C', (by omega : 2 ≤ C'.length), (by omega : C'.length ≤ 4) with
  | [_, _], _, _ => rfl
  | [_, _, _], _, _ => rfl
  | [_, _, _, _], _, _ => rfl

/-- **C26 (errors).** Polynomials of more than degree three are rejected, and nothing else. -/
theorem C26_degree (C : List ℂ) : (∃ e, calcRoots eps C = .error e) ↔ 4 < C.length := by
  constructor
  · rintro ⟨e, he⟩
    by_contra h
    by_cases h2 : 2 ≤ C.length
    · have hlen : (addRoots eps C).1.length = C.length := by
        have key : ∀ i C r l, C ≠ [] → (addLoop eps i C r l).1.length = C.length := by
          classical
          intro i
          induction i with
          | zero => intro C r l _; rfl
          | succ i ih =>
            intro C r l hC
            rw [addLoop]
            split_ifs
            · rw [ih _ _ _ (by simp)]
              have := List.length_pos_of_ne_nil hC
              simp
              omega
            · exact ih _ _ _ hC
        have hC : C ≠ [] := by rintro rfl; simp at h2
        have := key C.length C 0 false hC
        unfold addRoots
        generalize addLoop eps C.length C 0 false = t at this ⊢
        obtain ⟨C', r, l⟩ := t
        simp only at this ⊢
        split_ifs
        · simp; omega
        · exact this
      rw [calcRoots_eq h2 (by omega) (C' := (addRoots eps C).1) (r := (addRoots eps C).2) rfl hlen] at he
      exact absurd he (by simp)
    · unfold calcRoots at he
      rw [if_pos (by omega)] at he
      exact absurd he (by simp)
  · intro h
    refine ⟨.notImplemented, ?_⟩
    unfold calcRoots
    rw [if_neg (by omega), if_pos h]

/-- What remains after removing the roots that were added. -/
theorem removeRoots_spec {L : List ℂ} {l : ℂ} (hl : l ≠ 0) {r : ℕ} {X : List ℂ} (hX : AllRoots (List.replicate r 0 ++ (L ++ [l])) X) :
    (removeRoots eps X r).length = X.length ∧ ∃ Z : List ℂ, Z.length = r ∧ (∀ z ∈ Z, ‖z‖ ≤ √eps) ∧
      X.Perm (Z ++ (removeRoots eps X r).reduceOption) ∧
      ((∀ x, value (L ++ [l]) x = 0 → x = 0 ∨ √eps < ‖x‖) → AllRoots (L ++ [l]) (removeRoots eps X r).reduceOption) := by
  obtain ⟨Z, h1, h2, h3, h4, h5⟩ := removeLoop_spec eps X r
  have hp := sort_perm (removeLoop eps X r).1
  have hp' : (removeRoots eps X r).reduceOption.Perm (removeLoop eps X r).1.reduceOption := hp.filterMap id
  have hroots : (X : Multiset ℂ) = Multiset.replicate r 0 + (poly (L ++ [l])).roots := by
    rw [← roots_replicate r L hl]
    rw [← List.append_assoc] at hX ⊢
    exact ((allRoots_iff _ hl _).1 hX).symm
  have hz : Z.length = r := by
    by_contra hne
    have hpos : 0 < (removeLoop eps X r).2 := by omega
    have c1 : X.count 0 = Z.count 0 + (removeLoop eps X r).1.reduceOption.count 0 := by rw [h2.count_eq, List.count_append]
    have c2 : (removeLoop eps X r).1.reduceOption.count 0 = 0 := by
      rw [List.count_eq_zero]
      intro hm
      have := h5 hpos 0 (by rwa [List.reduceOption_mem_iff] at hm)
      unfold Significant at this
      rw [norm_zero] at this
      exact absurd this (not_lt.2 (Real.sqrt_nonneg _))
    have c3 : r ≤ X.count 0 := by
      have : (X : Multiset ℂ).count 0 = X.count 0 := Multiset.coe_count _ _
      rw [← this, hroots, Multiset.count_add, Multiset.count_replicate_self]
      omega
    have c4 : Z.count 0 ≤ Z.length := List.count_le_length
    omega
  refine ⟨hp.length_eq.trans h4, Z, hz, fun z hz => not_lt.1 (h1 z hz), h2.trans (hp'.symm.append_left Z), fun hsig => ?_⟩
  have hZ : Z = List.replicate r 0 := by
    rw [List.eq_replicate_iff]
    refine ⟨hz, fun z hzm => ?_⟩
    have hm : z ∈ (X : Multiset ℂ) := by
      rw [Multiset.mem_coe, h2.mem_iff]
      exact List.mem_append_left _ hzm
    rw [hroots, Multiset.mem_add] at hm
    rcases hm with hm | hm
    · exact Multiset.eq_of_mem_replicate hm
    · have hv : value (L ++ [l]) z = 0 := by
        rw [← eval_poly]
        exact (Polynomial.mem_roots'.1 hm).2
      rcases hsig z hv with e | e
      · exact e
      · exact absurd e (h1 z hzm)
  rw [allRoots_iff _ hl]
  have : (X : Multiset ℂ) = Multiset.replicate r 0 + ((removeRoots eps X r).reduceOption : Multiset ℂ) := by
    have e : (X : Multiset ℂ) = ((Z ++ (removeRoots eps X r).reduceOption : List ℂ) : Multiset ℂ) := Multiset.coe_eq_coe.2 (h2.trans (hp'.symm.append_left Z))
    rw [e, hZ, ← Multiset.coe_add, Multiset.coe_replicate]
  rw [this] at hroots
  exact (add_left_cancel hroots).symm

/-- **C26.** For all lists of two, three or four coefficients, from low to high order, of which those in `E` are negligible: if the formula is right for the
coefficients of the polynomial, after multiplication by a power of x, then the method returns all roots of the polynomial without negligible terms, and as many NaN as there are negligible
coefficients.  Roots that are not zero should be significant; in any case all but some negligible roots are returned.  See `C26_linear`,
`C26_quadratic_partial`, `C26_cubic_partial` and `C26_cubic_triple` for the assumption. -/
theorem C26_roots (D : List ℂ) {lead : ℂ} (hl0 : lead ≠ 0) (hl : 2 * eps ≤ ‖lead‖) (E : List ℂ) (hE : ∀ e ∈ E, ‖e‖ < 2 * eps) (h2 : 1 ≤ D.length + E.length)
    (h4 : D.length + E.length ≤ 3) (hX : AllRoots (List.replicate E.length 0 ++ (D ++ [lead])) (formula eps (List.replicate E.length 0 ++ (D ++ [lead])))) :
    ∃ X, calcRoots eps (D ++ [lead] ++ E) = .ok X ∧ X.length = D.length + E.length ∧
      (∃ Z : List ℂ, Z.length = E.length ∧ (∀ z ∈ Z, ‖z‖ ≤ √eps) ∧ AllRoots (List.replicate E.length 0 ++ (D ++ [lead])) (Z ++ X.reduceOption)) ∧
      ((∀ x, value (D ++ [lead]) x = 0 → x = 0 ∨ √eps < ‖x‖) → AllRoots (D ++ [lead]) X.reduceOption) := by
  have hlen : (List.replicate E.length 0 ++ (D ++ [lead])).length = (D ++ [lead] ++ E).length := by simp; omega
  have hlen' : (D ++ [lead] ++ E).length = D.length + E.length + 1 := by simp; omega
  refine ⟨_, calcRoots_eq (by omega) (by omega) (addRoots_spec D hl E hE) hlen, ?_⟩
  obtain ⟨a1, Z, a2, a3, a4, a5⟩ := removeRoots_spec (eps := eps) hl0 hX
  refine ⟨?_, ⟨Z, a2, a3, ?_⟩, a5⟩
  · rw [a1]
    have := formula_length (eps := eps) (C := List.replicate E.length 0 ++ (D ++ [lead])) (by omega) (by omega)
    omega
  · rw [← List.append_assoc, allRoots_iff _ hl0] at hX ⊢
    rw [hX, Multiset.coe_eq_coe, List.append_assoc]
    exact a4

theorem removeLoop_zero (eps : ℝ) (n r : ℕ) (h : n ≤ r) : removeLoop eps (List.replicate n 0) r = (List.replicate n none, r - n) := by
  classical
  induction n with
  | zero => simp [removeLoop]
  | succ n ih =>
    rw [List.replicate_succ, removeLoop, ih (by omega)]
    simp only
    rw [if_pos, List.replicate_succ, show r - n - 1 = r - (n + 1) by omega]
    · refine ⟨?_, by omega⟩
      unfold Significant
      rw [norm_zero]
      exact not_lt.2 (Real.sqrt_nonneg _)

/-- **C26 (zero polynomial).** If all coefficients are negligible, no roots are returned, only NaN. -/
theorem C26_zero (heps : 0 < eps) (E : List ℂ) (h2 : 2 ≤ E.length) (h4 : E.length ≤ 4) (hE : ∀ e ∈ E, ‖e‖ < 2 * eps) :
    calcRoots eps E = .ok (List.replicate (E.length - 1) none) := by
  rw [calcRoots_eq h2 h4 (addRoots_zero heps E (by omega) hE) (by simp; omega)]
  have hall : AllRoots (List.replicate (E.length - 1) 0 ++ [1]) (formula eps (List.replicate (E.length - 1) 0 ++ [1])) := by
    obtain h | h | h : E.length = 2 ∨ E.length = 3 ∨ E.length = 4 := by omega
    · rw [h]
      exact C26_linear one_ne_zero
    · rw [h]
      exact C26_quadratic_partial one_ne_zero (.inl rfl)
    · rw [h]
      have := C26_cubic_triple (eps := eps) (c := 1) (x := 0) one_ne_zero
      simp only [ne_eq, OfNat.ofNat_ne_zero, not_false_eq_true, zero_pow, mul_zero] at this
      exact this
  have hr := roots_replicate (E.length - 1) [] (l := 1) one_ne_zero
  rw [List.nil_append] at hr
  rw [allRoots_iff _ one_ne_zero, hr, show poly [1] = 1 by simp [poly], Polynomial.roots_one, Multiset.empty_eq_zero, add_zero, ← Multiset.coe_replicate, Multiset.coe_eq_coe,
    List.replicate_perm] at hall
  rw [← hall, removeRoots, removeLoop_zero eps _ _ (by omega)]
  have := (sort_perm (List.replicate (E.length - 1) none)).symm
  rw [List.replicate_perm] at this
  rw [← this]

/-- **C26 (order).** The roots are returned in the order of their real part, and those with the same real part in the order of their imaginary part; NaN come last. -/
theorem C26_order {C : List ℂ} {X : List (Option ℂ)} (h : calcRoots eps C = .ok X) :
    X.Pairwise fun x y => match x, y with
      | _, none => True
      | none, some _ => False
      | some z, some w => z.re < w.re ∨ (z.re = w.re ∧ z.im ≤ w.im) := by
  have key : ∀ Y : List (Option ℂ), (sort Y).Pairwise fun x y => match x, y with
      | _, none => True
      | none, some _ => False
      | some z, some w => z.re < w.re ∨ (z.re = w.re ∧ z.im ≤ w.im) := by
    intro Y
    unfold sort
    refine List.Pairwise.imp ?_ (List.pairwise_mergeSort ?_ ?_ Y)
    · rintro (_ | x) (_ | y) h
      · trivial
      · simp at h
      · trivial
      · simpa using h
    · rintro (_ | x) (_ | y) (_ | z) h1 h2
      · rfl
      · simp at h2
      · rfl
      · simp at h1
      · rfl
      · simp at h2
      · rfl
      simp only [decide_eq_true_eq] at *
      rcases h1 with h1 | ⟨h1, h1'⟩ <;> rcases h2 with h2 | ⟨h2, h2'⟩
      · exact .inl (h1.trans h2)
      · exact .inl (h2 ▸ h1)
      · exact .inl (h1 ▸ h2)
      · exact .inr ⟨h1.trans h2, h1'.trans h2'⟩
    · rintro (_ | x) (_ | y)
      · rfl
      · rfl
      · rfl
      · simp only [Bool.or_eq_true, decide_eq_true_eq]
        rcases lt_trichotomy x.re y.re with h | h | h
        · exact .inl (.inl h)
        · rcases le_total x.im y.im with h' | h'
          · exact .inl (.inr ⟨h, h'⟩)
          · exact .inr (.inr ⟨h.symm, h'⟩)
        · exact .inr (.inl h)
  unfold calcRoots at h
  split_ifs at h
  · obtain rfl : [] = X := by simpa using h
    exact List.Pairwise.nil
  · simp only at h
    split at h
    · cases h; exact key _
    · cases h; exact key _
    · cases h; exact key _
    · exact absurd h (by simp)

/-- **C26 (evaluation).** `evaluate_polynomial` gives the value of the polynomial. -/
theorem C26_evaluate (C : List ℂ) (x : ℂ) : evaluate C x = value C x := by
  unfold evaluate
  rw [List.foldl_reverse]
  induction C with
  | nil => simp [value_nil]
  | cons c C ih =>
    rw [List.foldr_cons, ih, value_cons]
    ring

/-- **C26 (without negligible coefficients).** If the leading coefficient is not negligible, all roots are returned, provided that the formula is right. -/
theorem C26_full (D : List ℂ) {lead : ℂ} (hl0 : lead ≠ 0) (hl : 2 * eps ≤ ‖lead‖) (h1 : 1 ≤ D.length) (h3 : D.length ≤ 3)
    (hX : AllRoots (D ++ [lead]) (formula eps (D ++ [lead]))) :
    ∃ Y : List ℂ, calcRoots eps (D ++ [lead]) = .ok (Y.map some) ∧ AllRoots (D ++ [lead]) Y := by
  have hlen : (D ++ [lead]).length = D.length + 1 := by simp
  have hadd := addRoots_spec (eps := eps) D hl [] (by simp)
  rw [List.append_nil, List.length_nil, List.replicate_zero, List.nil_append] at hadd
  have hr := calcRoots_eq (by omega) (by omega) hadd rfl
  have h0 : ∀ X : List ℂ, removeLoop eps X 0 = (X.map some, 0) := by
    intro X
    induction X with
    | nil => rfl
    | cons x X ih => rw [removeLoop, ih]; simp
  have hp := sort_perm ((formula eps (D ++ [lead])).map some)
  have hall : ∀ L : List (Option ℂ), (∀ x ∈ L, x.isSome) → L = L.reduceOption.map some := by
    intro L
    induction L with
    | nil => intro; rfl
    | cons x L ih =>
      intro h
      have hx := h x (by simp)
      obtain ⟨y, rfl⟩ := Option.isSome_iff_exists.1 hx
      rw [List.reduceOption_cons_of_some, List.map_cons, ← ih fun x hx => h x (by simp [hx])]
  have e : ((formula eps (D ++ [lead])).map some).reduceOption = formula eps (D ++ [lead]) := by simp [List.reduceOption, List.filterMap_map]
  have hp2 : (sort ((formula eps (D ++ [lead])).map some)).reduceOption.Perm (formula eps (D ++ [lead])) :=
    (hp.filterMap id).trans (by rw [← List.reduceOption, e])
  refine ⟨(sort ((formula eps (D ++ [lead])).map some)).reduceOption, ?_, fun x => ?_⟩
  · rw [hr, removeRoots, h0, ← hall _ fun x hx => ?_]
    rw [hp.mem_iff, List.mem_map] at hx
    obtain ⟨y, -, rfl⟩ := hx
    rfl
  · rw [hX x, (hp2.map _).prod_eq]

/-- The polynomial `x² - 3x + 2`, and the same as a cubic polynomial. -/
example : ∃ Y : List ℂ, calcRoots (1 / 1000000) [2, -3, 1] = .ok (Y.map some) ∧ AllRoots [2, -3, 1] Y :=
  C26_full [2, -3] one_ne_zero (by norm_num) (by simp) (by simp)
    (C26_quadratic_partial one_ne_zero (.inr (.inl (by rw [Real.sqrt_lt' (by norm_num)]; norm_num))))

theorem sqrt_demo : √(1 / 1000000) = (1 / 1000 : ℝ) := by
  rw [show (1 / 1000000 : ℝ) = (1 / 1000) ^ 2 by norm_num, Real.sqrt_sq (by norm_num)]

example : ∃ X, calcRoots (1 / 1000000) [2, -3, 1, 0] = .ok X ∧ X.length = 3 ∧ AllRoots [2, -3, 1] X.reduceOption := by
  have key : AllRoots [0, 2, -3, 1] (cubic (1 / 1000000) 0 2 (-3) 1) := by
    refine C26_cubic_partial one_ne_zero (x := 0) (by rw [value_four]; norm_num) ?_
    rw [sqrt_demo]
    norm_num
  obtain ⟨X, h1, h2, -, h3⟩ := C26_roots (eps := 1 / 1000000) [2, -3] (lead := 1) one_ne_zero (by norm_num) [0] (by simp) (by simp) (by simp) key
  refine ⟨X, h1, h2, h3 fun x hx => .inr ?_⟩
  have hx : value [2, -3, 1] x = 0 := hx
  rw [value_three] at hx
  have : (x - 1) * (x - 2) = 0 := by linear_combination hx
  rw [sqrt_demo]
  rcases mul_eq_zero.1 this with e | e
  · rw [sub_eq_zero.1 e]; norm_num
  · rw [sub_eq_zero.1 e]; norm_num

/-- **C26 (torch).** With the back end torch only real numbers are returned, so that the roots of `x² + 1` are wrong. -/
theorem C26_torch_violates (h4 : 16 * eps ≤ 1) : ∃ X, calcRootsTorch eps [1, 0, 1] = .ok X ∧ ¬ AllRoots [1, 0, 1] X.reduceOption := by
  have hs : √eps < 1 := by
    rw [Real.sqrt_lt' one_pos]
    by_contra h
    linarith
  obtain ⟨Y, h1, -⟩ := C26_full (eps := eps) [1, 0] one_ne_zero (by norm_num; linarith) (by simp) (by simp)
    (C26_quadratic_partial one_ne_zero (.inr (.inl (by simpa using hs))))
  have h1 : calcRoots eps [1, 0, 1] = .ok (Y.map some) := h1
  refine ⟨sort ((Y.map some).map (Option.map fun z => ((z.re : ℝ) : ℂ))), by rw [calcRootsTorch, h1]; rfl, fun H => ?_⟩
  have HI := H I
  rw [value_three, I_sq] at HI
  simp only [List.getLastD] at HI
  change _ = 1 * _ at HI
  rw [one_mul, zero_mul, add_zero, one_mul, add_neg_cancel, eq_comm, List.prod_eq_zero_iff, List.mem_map] at HI
  obtain ⟨z, hz, hzI⟩ := HI
  rw [List.reduceOption_mem_iff, (sort_perm _).mem_iff, List.map_map, List.mem_map] at hz
  obtain ⟨w, -, hw⟩ := hz
  simp only [Function.comp_apply, Option.map_some, Option.some.injEq] at hw
  rw [← hw, sub_eq_zero] at hzI
  have := congrArg Complex.im hzI
  simp at this

/-! ### C27 -/

/-- The coefficients are those of the characteristic polynomial. -/
theorem value_charCoefficients (a : Matrix (Fin 3) (Fin 3) ℂ) (x : ℂ) : value (charCoefficients a) x = -(x • (1 : Matrix (Fin 3) (Fin 3) ℂ) - a).det := by
  rw [charCoefficients, value_four, Matrix.det_fin_three]
  simp only [Matrix.sub_apply, Matrix.smul_apply, Matrix.one_apply, smul_eq_mul, Fin.isValue, if_true, mul_one]
  simp only [show ¬ (0 : Fin 3) = 1 by decide, show ¬ (0 : Fin 3) = 2 by decide, show ¬ (1 : Fin 3) = 0 by decide, show ¬ (1 : Fin 3) = 2 by decide,
    show ¬ (2 : Fin 3) = 0 by decide, show ¬ (2 : Fin 3) = 1 by decide, if_false, mul_zero, zero_sub]
  ring

theorem eigenvalues_iff (a : Matrix (Fin 3) (Fin 3) ℂ) (X : List ℂ) : Eigenvalues a X ↔ AllRoots (charCoefficients a) X := by
  refine forall_congr' fun x => ?_
  rw [value_charCoefficients]
  change _ ↔ _ = -1 * _
  rw [neg_one_mul, neg_inj]

/-- The array of one matrix. -/
def full (a : Matrix (Fin 3) (Fin 3) ℂ) : MatrixValue := ⟨3, 3, a⟩

theorem mat3Eigh_full (heps : 2 * eps ≤ 1) (a : Matrix (Fin 3) (Fin 3) ℂ) :
    ∃ X, mat3Eigh eps (full a) = .ok X ∧ X.length = 3 ∧ ∃ Y : List ℂ, X = Y.map some ∧ Y.Perm (formula eps (charCoefficients a)) := by
  have h : mat3Eigh eps (full a) = calcRoots eps (charCoefficients a) := by
    unfold mat3Eigh
    rw [dif_pos ⟨rfl, rfl⟩]
    rfl
  have hl : 2 * eps ≤ ‖(-1 : ℂ)‖ := by simpa using heps
  have hadd := addRoots_spec (eps := eps) (charCoefficients a).dropLast hl [] (by simp)
  have hc : (charCoefficients a).dropLast ++ [-1] ++ [] = charCoefficients a := by simp [charCoefficients]
  rw [hc] at hadd
  have hc' : List.replicate ([] : List ℂ).length 0 ++ ((charCoefficients a).dropLast ++ [-1]) = charCoefficients a := by simp [charCoefficients]
  rw [hc'] at hadd
  have hr := calcRoots_eq (by simp [charCoefficients]) (by simp [charCoefficients]) hadd rfl
  have h0 : ∀ X : List ℂ, removeLoop eps X 0 = (X.map some, 0) := by
    intro X
    induction X with
    | nil => rfl
    | cons x X ih => rw [removeLoop, ih]; simp
  have hp := sort_perm ((formula eps (charCoefficients a)).map some)
  refine ⟨_, h.trans hr, ?_, ?_⟩
  · rw [removeRoots, List.length_nil, h0, hp.length_eq, List.length_map]
    have := formula_length (eps := eps) (C := charCoefficients a) (by simp [charCoefficients]) (by simp [charCoefficients])
    simp only [charCoefficients, List.length_cons, List.length_nil] at this ⊢
    omega
  · rw [removeRoots, List.length_nil, h0]
    refine ⟨(sort ((formula eps (charCoefficients a)).map some)).reduceOption, ?_, ?_⟩
    · have hall : ∀ L : List (Option ℂ), (∀ x ∈ L, x.isSome) → L = L.reduceOption.map some := by
        intro L
        induction L with
        | nil => intro; rfl
        | cons x L ih =>
          intro h
          have hx := h x (by simp)
          obtain ⟨y, rfl⟩ := Option.isSome_iff_exists.1 hx
          rw [List.reduceOption_cons_of_some, List.map_cons, ← ih fun x hx => h x (by simp [hx])]
      refine hall _ fun x hx => ?_
      rw [hp.mem_iff, List.mem_map] at hx
      obtain ⟨y, -, rfl⟩ := hx
      rfl
    · have e : ((formula eps (charCoefficients a)).map some).reduceOption = formula eps (charCoefficients a) := by
        simp [List.reduceOption, List.filterMap_map]
      have := hp.filterMap id
      exact this.trans (by rw [← List.reduceOption, e])

theorem map_some_reduceOption (Y : List ℂ) : (Y.map some).reduceOption = Y := by simp [List.reduceOption, List.filterMap_map]

/-- The average of the eigenvalues. -/
noncomputable def mean (a : Matrix (Fin 3) (Fin 3) ℂ) : ℂ := a.trace / 3

theorem mean_eq (a : Matrix (Fin 3) (Fin 3) ℂ) : -(a 0 0 + a 1 1 + a 2 2) / (3 * -1) = mean a := by
  rw [mean, Matrix.trace_fin_three]
  ring

/-- **C27 (spread eigenvalues).** For all matrices, Hermitian or not, of which an eigenvalue is more than twice the square root of the precision from the average: the
result has exactly the eigenvalues, with their multiplicity.  Full claim: for all matrices, see `C27_violates`. -/
theorem C27_partial (heps : 2 * eps ≤ 1) (a : Matrix (Fin 3) (Fin 3) ℂ) {x : ℂ} (hx : (x • (1 : Matrix (Fin 3) (Fin 3) ℂ) - a).det = 0)
    (hs : 2 * √eps < ‖x - mean a‖) : ∃ Y, mat3Eigh eps (full a) = .ok (Y.map some) ∧ Eigenvalues a Y := by
  obtain ⟨X, h1, -, Y, rfl, h2⟩ := mat3Eigh_full heps a
  refine ⟨Y, h1, ?_⟩
  have key : AllRoots (charCoefficients a) (formula eps (charCoefficients a)) := by
    refine C26_cubic_partial (by norm_num) (x := x) ?_ ?_
    · have := value_charCoefficients a x
      rw [hx, neg_zero] at this
      exact this
    · rw [mean_eq]
      exact hs
  rw [eigenvalues_iff]
  intro z
  rw [key z, (h2.map _).prod_eq]

/-- **C27 (multiples of the identity).** These, and all other matrices with three times the same eigenvalue. -/
theorem C27_multiple (heps : 2 * eps ≤ 1) (a : Matrix (Fin 3) (Fin 3) ℂ) (z : ℂ) (h : Eigenvalues a [z, z, z]) :
    mat3Eigh eps (full a) = .ok [some z, some z, some z] := by
  obtain ⟨X, h1, -, Y, rfl, h2⟩ := mat3Eigh_full heps a
  have hval := (eigenvalues_iff a _).1 h
  have hv : ∀ x, value (charCoefficients a) x = -(x - z) ^ 3 := by
    intro x
    rw [hval x]
    change -1 * _ = _
    simp only [List.map_cons, List.map_nil, List.prod_cons, List.prod_nil]
    ring
  have hco : charCoefficients a = [-(-1) * z ^ 3, 3 * (-1) * z ^ 2, -3 * (-1) * z, -1] := by
    have e := Polynomial.funext fun x => (eval_poly (charCoefficients a) x).trans ((hv x).trans (by
      rw [eval_poly, value_four]; ring : _ = (poly [-(-1) * z ^ 3, 3 * (-1) * z ^ 2, -3 * (-1) * z, -1]).eval x))
    have c : ∀ i, (charCoefficients a).getD i 0 = [-(-1) * z ^ 3, 3 * (-1) * z ^ 2, -3 * (-1) * z, -1].getD i 0 := by
      intro i
      rw [← coeff_poly, ← coeff_poly, e]
    have c0 := c 0
    have c1 := c 1
    have c2 := c 2
    simp only [charCoefficients, List.getD_cons_zero, List.getD_cons_succ] at c0 c1 c2 ⊢
    rw [c0, c1, c2]
  have key : AllRoots (charCoefficients a) (formula eps (charCoefficients a)) := by
    rw [hco]
    exact C26_cubic_triple (by norm_num)
  have e1 := (allRoots_iff (charCoefficients a).dropLast (l := -1) (by norm_num) (formula eps (charCoefficients a))).1 key
  have e2 := (allRoots_iff (charCoefficients a).dropLast (l := -1) (by norm_num) [z, z, z]).1 hval
  rw [e1, Multiset.coe_eq_coe] at e2
  have e3 : List.replicate 3 z = Y := by
    rw [← List.replicate_perm]
    exact (h2.trans e2).symm
  rw [h1, ← e3]
  rfl

/-- **C27 (error).** For all matrices, what is returned differs at most four times the square root of the precision from all eigenvalues, if it does not
have exactly the eigenvalues. -/
theorem C27_error (heps : 2 * eps ≤ 1) (a : Matrix (Fin 3) (Fin 3) ℂ) :
    ∃ Y : List ℂ, mat3Eigh eps (full a) = .ok (Y.map some) ∧ Y.length = 3 ∧
      (Eigenvalues a Y ∨ ∀ x, (x • (1 : Matrix (Fin 3) (Fin 3) ℂ) - a).det = 0 → ∀ y ∈ Y, ‖y - x‖ ≤ 4 * √eps) := by
  obtain ⟨X, h1, h3, Y, rfl, h2⟩ := mat3Eigh_full heps a
  refine ⟨Y, h1, by simpa using h3, ?_⟩
  have key := C26_cubic_error (eps := eps) (c0 := (charCoefficients a).getD 0 0) (c1 := (charCoefficients a).getD 1 0) (c2 := a 0 0 + a 1 1 + a 2 2) (c3 := -1)
    (by norm_num)
  rcases key with key | ⟨k1, k2⟩
  · left
    rw [eigenvalues_iff]
    intro z
    have := key z
    rw [(h2.map _).prod_eq]
    exact this
  · right
    intro x hx y hy
    have a1 := k1 x (by
      have := value_charCoefficients a x
      rw [hx, neg_zero] at this
      exact this)
    have a2 := k2 y (h2.mem_iff.1 hy)
    rw [mean_eq] at a1 a2
    have e : y - x = (y - mean a) - (x - mean a) := by ring
    rw [e]
    refine (norm_sub_le _ _).trans ?_
    linarith

open scoped ComplexOrder in
/-- **C27 (Hermitian matrices).** The results that are exact are real. -/
theorem C27_real {a : Matrix (Fin 3) (Fin 3) ℂ} (ha : a.IsHermitian) {Y : List ℂ} (hY : Eigenvalues a Y) : ∀ y ∈ Y, y.im = 0 := by
  intro y hy
  have hdet : (y • (1 : Matrix (Fin 3) (Fin 3) ℂ) - a).det = 0 := by
    rw [hY y, List.prod_eq_zero_iff, List.mem_map]
    exact ⟨y, hy, sub_self _⟩
  obtain ⟨v, hv0, hv⟩ := Matrix.exists_mulVec_eq_zero_iff.2 hdet
  have hav : a.mulVec v = y • v := by
    rw [Matrix.sub_mulVec, Matrix.smul_mulVec, Matrix.one_mulVec, sub_eq_zero] at hv
    exact hv.symm
  have h1 : star v ⬝ᵥ a.mulVec v = y * (star v ⬝ᵥ v) := by rw [hav, dotProduct_smul, smul_eq_mul]
  have h2 : star v ⬝ᵥ a.mulVec v = (starRingEnd ℂ) y * (star v ⬝ᵥ v) := by
    rw [Matrix.dotProduct_mulVec, ← ha.eq, ← Matrix.star_mulVec, hav]
    rw [star_smul, smul_dotProduct, smul_eq_mul]
    rfl
  have h3 : star v ⬝ᵥ v ≠ 0 := by
    intro h
    exact hv0 (dotProduct_star_self_eq_zero.1 h)
  have h4 : y = (starRingEnd ℂ) y := mul_right_cancel₀ h3 (h1.symm.trans h2)
  have := congrArg Complex.im h4
  rw [conj_im] at this
  linarith

/-- **C27 (diagonals).** What is stored as a row or column is the diagonal. -/
theorem C27_diagonal (v : Fin 3 → ℂ) :
    mat3Eigh eps ⟨1, 3, fun _ j => v j⟩ = .ok (List.ofFn fun j => some (v j)) ∧ mat3Eigh eps ⟨3, 1, fun i _ => v i⟩ = .ok (List.ofFn fun i => some (v i)) ∧
      Eigenvalues (Matrix.diagonal v) (List.ofFn v) := by
  refine ⟨rfl, rfl, fun x => ?_⟩
  have : x • (1 : Matrix (Fin 3) (Fin 3) ℂ) - Matrix.diagonal v = Matrix.diagonal fun i => x - v i := by
    rw [← Matrix.diagonal_one, ← Matrix.diagonal_smul, Matrix.diagonal_sub]
    simp
  rw [this, Matrix.det_diagonal, Fin.prod_univ_three]
  simp [List.ofFn_succ, mul_assoc]

/-- **C27 (near the origin).** For every precision there is a diagonal matrix of which the eigenvalue 0 is not returned: `diag(-u, 0, u)` with a tiny `u`. -/
theorem C27_violates (heps : 0 < eps) (h1 : 2 * eps ≤ 1) :
    ∃ (a : Matrix (Fin 3) (Fin 3) ℂ) (u : ℂ), a.IsHermitian ∧ u ≠ 0 ∧ Eigenvalues a [-u, 0, u] ∧ ∃ Y, mat3Eigh eps (full a) = .ok (Y.map some) ∧ ¬ Eigenvalues a Y := by
  have h0 : 0 < √eps := Real.sqrt_pos.2 heps
  have hu : ((√3 * √eps : ℝ) : ℂ) ^ 2 = 3 * (√eps : ℂ) ^ 2 := by
    rw [← ofReal_pow, mul_pow, Real.sq_sqrt (by norm_num)]
    push_cast
    ring
  have hu0 : √3 * √eps ≠ 0 := by positivity
  generalize √3 * √eps = u at hu hu0
  refine ⟨Matrix.diagonal ![-(u : ℂ), 0, u], u, ?_, by exact_mod_cast hu0, ?_, ?_⟩
  · rw [Matrix.isHermitian_diagonal_iff]
    intro i
    match i with
    | 0 => simp [IsSelfAdjoint]
    | 1 => simp [IsSelfAdjoint]
    | 2 => simp [IsSelfAdjoint]
  · have := (C27_diagonal (eps := eps) ![-(u : ℂ), 0, u]).2.2
    simpa [List.ofFn_succ] using this
  · obtain ⟨X, h1, -, Y, rfl, h2⟩ := mat3Eigh_full h1 (Matrix.diagonal ![-(u : ℂ), 0, u])
    refine ⟨Y, h1, fun hY => ?_⟩
    rw [eigenvalues_iff] at hY
    have e : charCoefficients (Matrix.diagonal ![-(u : ℂ), 0, u]) = [0, (u : ℂ) ^ 2, 0, -1] := by
      simp [charCoefficients, Matrix.diagonal, sq]
    rw [e] at hY h2
    refine cubic_tiny heps (c1 := (u : ℂ) ^ 2) (c2 := 0) (c3 := -1) (by norm_num) ?_ ?_ ?_ fun z => ?_
    · unfold cubicQ cubicA; rw [hu]; ring
    · unfold cubicR cubicA; ring
    · unfold cubicA; norm_num
    · rw [hY z, (h2.map _).prod_eq]
      rfl

/-- A Hermitian matrix that meets the assumption of `C27_partial`: eigenvalues 0, 2 and 5. -/
example : ∃ Y, mat3Eigh (1 / 1000000) (full !![1, I, 0; -I, 1, 0; 0, 0, 5]) = .ok (Y.map some) ∧ Eigenvalues !![1, I, 0; -I, 1, 0; 0, 0, 5] Y := by
  refine C27_partial (by norm_num) _ (x := 5) ?_ ?_
  · rw [Matrix.det_fin_three]
    simp
  · rw [sqrt_demo, mean, Matrix.trace_fin_three]
    have : ‖(5 : ℂ) - (1 + 1 + 5) / 3‖ = 8 / 3 := by
      rw [show (5 : ℂ) - (1 + 1 + 5) / 3 = ((8 / 3 : ℝ) : ℂ) by push_cast; norm_num, norm_real]
      norm_num
    simp only [Matrix.of_apply, Matrix.cons_val]
    rw [this]
    norm_num

/-- A matrix that meets the assumption of `C27_multiple` without being a multiple of the identity. -/
example : mat3Eigh (1 / 1000000) (full !![2, 1, 0; 0, 2, 0; 0, 0, 2]) = .ok [some 2, some 2, some 2] := by
  refine C27_multiple (by norm_num) _ 2 fun x => ?_
  rw [Matrix.det_fin_three]
  simp
  ring

end Verif.Roots
