import Verif.Model.MatNumpy

/-!
# C95: NumPy functions of Matrix objects; C96: output operators of a DepositionMatrix
-/

namespace Verif.Mat

variable {A M O R : Type}

/-! ### Specification -/

/-- The second object is the first, with arrays in place of the matrices at all levels of sequences. -/
inductive Replaced (toArray : M → A) : Value A M O → Value A M O → Prop
  | array (a : A) : Replaced toArray (.array a) (.array a)
  | matrix (m : M) : Replaced toArray (.matrix m) (.array (toArray m))
  | empty : Replaced toArray (.text []) (.sequence [])
  | sequence {l l' : List (Value A M O)} : l.length = l'.length → (∀ i (h : i < l.length) (h' : i < l'.length), Replaced toArray l[i] l'[i]) → Replaced toArray (.sequence l) (.sequence l')
  | other (o : O) : Replaced toArray (.other o) (.other o)

/-- An object that is, or contains at some level, a string that is not empty. -/
inductive HasText : Value A M O → Prop
  | text {s : List Char} : s ≠ [] → HasText (.text s)
  | sequence {l : List (Value A M O)} {v : Value A M O} : v ∈ l → HasText v → HasText (.sequence l)

/-! ### Lists -/

section Lists
variable {α β : Type} {f g : α → Except PyErr β}

theorem mapM_ok_iff (l : List α) (l' : List β) : l.mapM f = .ok l' ↔ l.length = l'.length ∧ ∀ i (h : i < l.length) (h' : i < l'.length), f l[i] = .ok l'[i] := by
  induction l generalizing l' with
  | nil =>
    cases l' with
    | nil => simp [pure, Except.pure]
    | cons b l' => simp [pure, Except.pure]
  | cons a l ih =>
    rw [List.mapM_cons]
    cases l' with
    | nil =>
      cases h : f a <;> simp [bind, Except.bind, pure, Except.pure]
      cases l.mapM f <;> simp
    | cons b l' =>
      cases h : f a with
      | error e =>
        simp only [bind, Except.bind]
        constructor
        · exact fun h => nomatch h
        · rintro ⟨-, h2⟩
          have := h2 0 (by simp) (by simp)
          simp [h] at this
      | ok b' =>
        simp only [bind, Except.bind, pure, Except.pure]
        have := ih l'
        cases hm : l.mapM f with
        | error e =>
          rw [hm] at this
          simp only [List.length_cons, Nat.add_right_cancel_iff]
          constructor
          · exact fun h => nomatch h
          · rintro ⟨h1, h2⟩
            have h3 := this.2 ⟨h1, fun i hi hi' => h2 (i + 1) (Nat.succ_lt_succ hi) (Nat.succ_lt_succ hi')⟩
            exact nomatch h3
        | ok l'' =>
          rw [hm] at this
          simp only [Except.ok.injEq, List.cons.injEq, List.length_cons, Nat.add_right_cancel_iff]
          constructor
          · rintro ⟨rfl, rfl⟩
            obtain ⟨h1, h2⟩ := this.1 rfl
            refine ⟨h1, fun i hi hi' => ?_⟩
            cases i with
            | zero => simpa using h
            | succ i => simpa using h2 i (by simpa using hi) (by simpa using hi')
          · rintro ⟨h1, h2⟩
            refine ⟨?_, ?_⟩
            · have := h2 0 (by simp) (by simp)
              simpa [h] using this
            · exact Except.ok.inj (this.2 ⟨h1, fun i hi hi' => h2 (i + 1) (Nat.succ_lt_succ hi) (Nat.succ_lt_succ hi')⟩)

theorem mapM_error {e : PyErr} (he : ∀ a e', f a = .error e' → e' = e) (l : List α) : l.mapM f = .error e ↔ ∃ a ∈ l, f a = .error e := by
  induction l with
  | nil => simp [pure, Except.pure]
  | cons a l ih =>
    rw [List.mapM_cons]
    cases h : f a with
    | error e' =>
      have := he a e' h
      subst this
      simp [bind, Except.bind, h]
    | ok b =>
      simp only [bind, Except.bind, pure, Except.pure, List.mem_cons, exists_eq_or_imp, h, reduceCtorEq, false_or]
      rw [← ih]
      cases l.mapM f <;> simp

end Lists

/-! ### Functions -/

variable (toArray : M → A)

theorem convert_error {k : ℕ} {v : Value A M O} {e : PyErr} (h : convertToNumpy toArray k v = .error e) : e = .recursion := by
  induction k generalizing v e with
  | zero => cases v <;> simpa [convertToNumpy] using h.symm
  | succ k ih =>
    have hl : ∀ {α : Type} (l : List α) (g : α → Value A M O) (e : PyErr),
        (l.mapM fun a => convertToNumpy toArray k (g a)) = .error e → e = .recursion := by
      intro α l g e he
      induction l generalizing e with
      | nil => simp [pure, Except.pure] at he
      | cons a l ihl =>
        rw [List.mapM_cons] at he
        cases h1 : convertToNumpy toArray k (g a) with
        | error e' =>
          rw [h1] at he
          simp only [bind, Except.bind, Except.error.injEq] at he
          rw [← he]
          exact ih h1
        | ok b =>
          rw [h1] at he
          simp only [bind, Except.bind, pure, Except.pure] at he
          cases h2 : l.mapM fun a => convertToNumpy toArray k (g a) with
          | error e' =>
            rw [h2] at he
            simp only [Except.error.injEq] at he
            rw [← he]
            exact ihl e' h2
          | ok l' =>
            rw [h2] at he
            exact nomatch he
    cases v with
    | array a => simp [convertToNumpy] at h
    | matrix m => simp [convertToNumpy] at h
    | other o => simp [convertToNumpy] at h
    | text s =>
      simp only [convertToNumpy] at h
      cases h1 : s.mapM fun c => convertToNumpy (O := O) toArray k (.text [c]) with
      | error e' =>
        rw [h1] at h
        simp only [Except.map, Except.error.injEq] at h
        rw [← h]
        exact hl s (fun c => .text [c]) e' h1
      | ok l =>
        rw [h1] at h
        exact nomatch h
    | sequence l =>
      simp only [convertToNumpy] at h
      cases h1 : l.mapM fun v => convertToNumpy toArray k v with
      | error e' =>
        rw [h1] at h
        simp only [Except.map, Except.error.injEq] at h
        rw [← h]
        exact hl l id e' h1
      | ok l =>
        rw [h1] at h
        exact nomatch h

theorem map_ok {α β : Type} {f : α → β} {x : Except PyErr α} {b : β} : x.map f = .ok b ↔ ∃ a, x = .ok a ∧ f a = b := by
  cases x <;> simp [Except.map]

theorem map_error {α β : Type} {f : α → β} {x : Except PyErr α} {e : PyErr} : x.map f = .error e ↔ x = .error e := by
  cases x <;> simp [Except.map]

/-- A result is the object with the matrices replaced. -/
theorem convert_sound {k : ℕ} {v w : Value A M O} (h : convertToNumpy toArray k v = .ok w) : Replaced toArray v w ∧ ¬ HasText v := by
  induction k generalizing v w with
  | zero => cases v <;> exact nomatch h
  | succ k ih =>
    cases v with
    | array a =>
      simp only [convertToNumpy, Except.ok.injEq] at h
      subst h
      exact ⟨.array a, nofun⟩
    | matrix m =>
      simp only [convertToNumpy, Except.ok.injEq] at h
      subst h
      exact ⟨.matrix m, nofun⟩
    | other o =>
      simp only [convertToNumpy, Except.ok.injEq] at h
      subst h
      exact ⟨.other o, nofun⟩
    | text s =>
      simp only [convertToNumpy, map_ok] at h
      obtain ⟨l, h1, rfl⟩ := h
      rw [mapM_ok_iff] at h1
      cases s with
      | nil =>
        obtain rfl : l = [] := List.length_eq_zero_iff.1 h1.1.symm
        exact ⟨.empty, fun h => by cases h with | text h => exact h rfl⟩
      | cons c s =>
        have h2 := ih (h1.2 0 (by simp) (by rw [← h1.1]; simp))
        exact absurd (HasText.text (by simp)) h2.2
    | sequence l =>
      simp only [convertToNumpy, map_ok] at h
      obtain ⟨l', h1, rfl⟩ := h
      rw [mapM_ok_iff] at h1
      refine ⟨.sequence h1.1 fun i hi hi' => (ih (h1.2 i hi hi')).1, fun h => ?_⟩
      cases h with
      | sequence hm ht =>
        obtain ⟨i, hi, rfl⟩ := List.getElem_of_mem hm
        exact (ih (h1.2 i hi (h1.1 ▸ hi))).2 ht

/-- There is a result if the limit is large enough and there are no strings. -/
theorem convert_complete (v : Value A M O) (h : ¬ HasText v) : ∃ k0, ∃ w, ∀ k ≥ k0, convertToNumpy toArray k v = .ok w := by
  match v with
  | .array a => exact ⟨1, .array a, fun k hk => by obtain ⟨k, rfl⟩ := Nat.exists_eq_add_of_le' hk; rfl⟩
  | .matrix m => exact ⟨1, .array (toArray m), fun k hk => by obtain ⟨k, rfl⟩ := Nat.exists_eq_add_of_le' hk; rfl⟩
  | .other o => exact ⟨1, .other o, fun k hk => by obtain ⟨k, rfl⟩ := Nat.exists_eq_add_of_le' hk; rfl⟩
  | .text s =>
    have hs : s = [] := by
      by_contra hs
      exact h (.text hs)
    subst hs
    exact ⟨1, .sequence [], fun k hk => by obtain ⟨k, rfl⟩ := Nat.exists_eq_add_of_le' hk; rfl⟩
  | .sequence l =>
    have hx : ∀ x ∈ l, ∃ k0, ∃ w, ∀ k ≥ k0, convertToNumpy toArray k x = .ok w := fun x hx => convert_complete x fun ht => h (.sequence hx ht)
    have hl : ∀ l : List (Value A M O), (∀ x ∈ l, ∃ k0, ∃ w, ∀ k ≥ k0, convertToNumpy toArray k x = .ok w) →
        ∃ k0, ∃ l', ∀ k ≥ k0, (l.mapM fun v => convertToNumpy toArray k v) = .ok l' := by
      intro l hl
      induction l with
      | nil => exact ⟨0, [], fun _ _ => rfl⟩
      | cons x l ih =>
        obtain ⟨k1, w, h1⟩ := hl x (by simp)
        obtain ⟨k2, l', h2⟩ := ih fun y hy => hl y (by simp [hy])
        refine ⟨max k1 k2, w :: l', fun k hk => ?_⟩
        rw [List.mapM_cons, h1 k (le_trans (le_max_left _ _) hk), h2 k (le_trans (le_max_right _ _) hk)]
        rfl
    obtain ⟨k0, l', h0⟩ := hl l hx
    refine ⟨k0 + 1, .sequence l', fun k hk => ?_⟩
    obtain ⟨k, rfl⟩ := Nat.exists_eq_add_of_le' (show 1 ≤ k by omega)
    simp only [convertToNumpy, h0 k (by omega), Except.map]
termination_by sizeOf v
decreasing_by
  have := List.sizeOf_lt_of_mem hx
  simp only [Value.sequence.sizeOf_spec]
  omega

theorem replaced_unique {v w w' : Value A M O} (h : Replaced toArray v w) (h' : Replaced toArray v w') : w = w' := by
  induction h generalizing w' with
  | array a => cases h'; rfl
  | matrix m => cases h'; rfl
  | empty => cases h'; rfl
  | other o => cases h'; rfl
  | sequence h1 h2 ih =>
    cases h' with
    | sequence h3 h4 =>
      congr 1
      refine List.ext_getElem (h1.symm.trans h3) fun i hi hi' => ?_
      exact ih i (h1 ▸ hi) hi (h4 i (h1 ▸ hi) hi')

theorem convert_text {v : Value A M O} (h : HasText v) (k : ℕ) : convertToNumpy toArray k v = .error .recursion := by
  cases hc : convertToNumpy toArray k v with
  | error e => rw [convert_error toArray hc]
  | ok w => exact absurd h (convert_sound toArray hc).2

variable (func : List (Value A M O) → List (Value A M O) → R)

/-- **C95 (functions).** Without keyword arguments and strings, a NumPy function of Matrix objects, also in lists, is the function of their arrays; for all recursion limits that are large
enough.  Whatever the limit, there is no other result. -/
theorem C95_function_partial (args : List (Value A M O)) (h : ∀ v ∈ args, ¬ HasText v) : ∃ args' : List (Value A M O),
    (args.length = args'.length ∧ ∀ i (h : i < args.length) (h' : i < args'.length), Replaced toArray args[i] args'[i]) ∧
    (∃ k0, ∀ k ≥ k0, arrayFunction toArray func k args [] = .ok (func args' [])) ∧
    ∀ k, arrayFunction toArray func k args [] = .ok (func args' []) ∨ arrayFunction toArray func k args [] = .error .recursion := by
  have hs : ¬ HasText (.sequence args) := fun ht => by
    cases ht with
    | sequence hm ht => exact h _ hm ht
  obtain ⟨k0, w, h0⟩ := convert_complete toArray (.sequence args) hs
  have h1 := h0 (k0 + 1) (by omega)
  simp only [convertToNumpy, map_ok] at h1
  obtain ⟨args', h2, rfl⟩ := h1
  have hr := (convert_sound toArray (h0 (k0 + 1) (by omega))).1
  cases hr with
  | sequence hlen hrep =>
    refine ⟨args', ⟨hlen, hrep⟩, ⟨k0, fun k hk => ?_⟩, fun k => ?_⟩
    · have h3 := h0 (k + 1) (by omega)
      simp only [convertToNumpy, map_ok] at h3
      obtain ⟨l, h4, h5⟩ := h3
      obtain rfl : l = args' := by simpa using h5
      simp only [arrayFunction]
      rw [show args.mapM (convertToNumpy toArray k) = .ok l from h4]
      rfl
    · unfold arrayFunction
      cases hm : args.mapM (convertToNumpy toArray k) with
      | error e =>
        have : convertToNumpy toArray (k + 1) (.sequence args) = .error e := by
          simp only [convertToNumpy, map_error]
          exact hm
        rw [convert_error toArray this]
        exact .inr rfl
      | ok l =>
        have : convertToNumpy toArray (k + 1) (.sequence args) = .ok (.sequence l) := by
          simp only [convertToNumpy, map_ok]
          exact ⟨l, hm, rfl⟩
        have h3 := replaced_unique toArray (convert_sound toArray this).1 (.sequence hlen hrep)
        obtain rfl : l = args' := by simpa using h3
        exact .inl rfl

/-- **C95 (violation: strings).** A string in the arguments, as in `np.linalg.norm(S, 'fro')`, raises a RecursionError, whatever the limit. -/
theorem C95_text_violates (k : ℕ) (args : List (Value A M O)) (kwargs : List (List Char × Value A M O)) (h : ∃ v ∈ args, HasText v) :
    arrayFunction toArray func k args kwargs = .error .recursion := by
  obtain ⟨v, hv, ht⟩ := h
  have : args.mapM (convertToNumpy toArray k) = .error .recursion :=
    (mapM_error (fun _ _ h => convert_error toArray h) args).2 ⟨v, hv, convert_text toArray ht k⟩
  simp only [arrayFunction, this]

/-- **C95 (violation: keywords).** Full claim: NumPy functions of Matrix objects are those of their arrays.  Every keyword argument, as in `np.sum(S, axis=0)`, raises a RecursionError,
whatever the limit. -/
theorem C95_keywords_violates (k : ℕ) (args : List (Value A M O)) (kwargs : List (List Char × Value A M O)) (h : kwargs ≠ []) (hn : ∀ item ∈ kwargs, item.1 ≠ []) :
    arrayFunction toArray func k args kwargs = .error .recursion := by
  unfold arrayFunction
  cases h1 : args.mapM (convertToNumpy toArray k) with
  | error e =>
    have : convertToNumpy toArray (k + 1) (.sequence args) = .error e := by
      simp only [convertToNumpy, map_error]
      exact h1
    rw [convert_error toArray this]
  | ok args' =>
    have hi : ∀ item ∈ kwargs, convertItem toArray k item = .error .recursion := fun item hi => by
      unfold convertItem
      rw [convert_text toArray (.text (hn item hi)) k]
    cases kwargs with
    | nil => exact absurd rfl h
    | cons item kwargs =>
      have : (item :: kwargs).mapM (convertItem toArray k) = .error .recursion := by
        rw [List.mapM_cons, hi item (by simp)]
        rfl
      simp only [this]

/-! ### Point-wise functions -/

section Ufunc
variable {choose : List (Value A M O) → Option M} (hc : Chooses choose) (ufunc : List (Value A M O) → R)
include hc

/-- **C95 (point-wise functions).** When only the first argument is a Matrix the result is that for its array. -/
theorem C95_ufunc_partial (k : ℕ) (m : M) (args : List (Value A M O)) (h : ∀ m', .matrix m' ∉ args) :
    callUfunc toArray choose ufunc (k + 2) (.matrix m :: args) = .ok (ufunc (.array (toArray m) :: args)) := by
  have h1 : choose (.matrix m :: args) = some m := by
    rcases hc (.matrix m :: args) with ⟨-, h2⟩ | ⟨m', h2, h3⟩
    · exact absurd (by simp) (h2 m)
    · rcases List.mem_cons.1 h3 with h4 | h4
      · rw [h2]
        cases h4
        rfl
      · exact absurd h4 (h m')
  have h2 : choose (.array (toArray m) :: args) = none := by
    rcases hc (.array (toArray m) :: args) with ⟨h2, -⟩ | ⟨m', -, h3⟩
    · exact h2
    · rcases List.mem_cons.1 h3 with h4 | h4
      · exact nomatch h4
      · exact absurd h4 (h m')
  simp only [callUfunc, h1, h2, List.tail_cons]

/-- **C95 (violation: point-wise functions).** When an argument other than the first is a Matrix, as in `np.add(S, S)` and `array - S`, a RecursionError is raised, whatever the limit. -/
theorem C95_ufunc_violates (k : ℕ) (first : Value A M O) (args : List (Value A M O)) (h : ∃ m, .matrix m ∈ args) :
    callUfunc toArray choose ufunc k (first :: args) = .error .recursion := by
  induction k generalizing first with
  | zero => rfl
  | succ k ih =>
    obtain ⟨m, hm⟩ := h
    rcases hc (first :: args) with ⟨-, h2⟩ | ⟨m', h2, -⟩
    · exact absurd (List.mem_cons_of_mem _ hm) (h2 m)
    · simp only [callUfunc, h2, List.tail_cons]
      exact ih _

end Ufunc

theorem leftmost_chooses : Chooses (leftmost : List (Value A M O) → Option M) := by
  intro args
  induction args with
  | nil => exact .inl ⟨rfl, by simp⟩
  | cons v args ih =>
    cases v with
    | matrix m => exact .inr ⟨m, rfl, by simp⟩
    | array _ | text _ | sequence _ | other _ =>
      simp only [leftmost, List.mem_cons, reduceCtorEq, false_or]
      exact ih

/-- Cases that are not trivial: `np.block([[S, 3], [4, S]])`, `np.sum(S, axis=0)`, `np.multiply(S, 5)`, `np.multiply(5, S)`. -/
example : arrayFunction (fun m : ℕ => m + 10) (fun args (_ : List (Value ℕ ℕ ℕ)) => args) 3 [.sequence [.sequence [.matrix 1, .other 3], .sequence [.other 4, .matrix 2]]] [] =
    .ok [.sequence [.sequence [.array 11, .other 3], .sequence [.other 4, .array 12]]] := rfl

example (k : ℕ) : arrayFunction (fun m : ℕ => m + 10) (fun args (_ : List (Value ℕ ℕ ℕ)) => args) k [.matrix 1] [("axis".toList, .other 0)] = .error .recursion :=
  C95_keywords_violates _ _ k _ _ (by simp) (by simp)

example (k : ℕ) : callUfunc (fun m : ℕ => m + 10) leftmost (fun args : List (Value ℕ ℕ ℕ) => args) (k + 2) [.matrix 1, .other 5] = .ok [.array 11, .other 5] :=
  C95_ufunc_partial _ leftmost_chooses _ k 1 _ (by simp)

example (k : ℕ) : callUfunc (fun m : ℕ => m + 10) leftmost (fun args : List (Value ℕ ℕ ℕ) => args) k [.other 5, .matrix 1] = .error .recursion :=
  C95_ufunc_violates _ leftmost_chooses _ k _ _ ⟨1, by simp⟩

/-! ### Output operators -/

section Output
variable {K : Type} [Zero K] (f : List K → Flat K) (inputSize : ℕ)

/-- **C96.** For a function that returns numbers or vectors, with as many elements for the field as for zeros, the product with the output operator is the vector of elements that
the function returns. -/
theorem C96_partial (h : (f (List.replicate inputSize 0)).shape.length ≤ 1) (k : ℕ) (v : List K) :
    outputProduct f inputSize (k + 2) v = if (f v).elements.length = (f (List.replicate inputSize 0)).shape.prod then .ok ⟨[(f v).elements.length], (f v).elements⟩ else .error .valueError := by
  have h1 : ¬ 1 < (f (List.replicate inputSize 0)).shape.length := by omega
  simp only [outputProduct, outputOperator, if_neg h1, Callee.call]
  split_ifs with h2
  · rw [h2]
  · rfl

/-- **C96 (violation).** Full claim: the product with the output operator is the vector of elements that the function returns.  For a function that returns an array with two or more axes, every
product raises a RecursionError, whatever the limit. -/
theorem C96_violates (h : 1 < (f (List.replicate inputSize 0)).shape.length) (k : ℕ) (v : List K) : outputProduct f inputSize k v = .error .recursion := by
  have key : ∀ k, Callee.call f (f (List.replicate inputSize 0)).shape.prod (.linear .wrapper) k (.linear .wrapper) v = .error .recursion ∧
      Callee.call f (f (List.replicate inputSize 0)).shape.prod (.linear .wrapper) k .wrapper v = .error .recursion := by
    intro k
    induction k with
    | zero => exact ⟨rfl, rfl⟩
    | succ k ih => exact ⟨by simp only [Callee.call, ih.2], by simp only [Callee.call, ih.1]⟩
  simp only [outputProduct, outputOperator, if_pos h]
  exact (key k).1

end Output

/-- The first elements, as a vector and as a matrix with one row. -/
example : outputProduct (fun v : List ℕ => ⟨[2], v.take 2⟩) 4 5 [1, 2, 3, 4] = .ok ⟨[2], [1, 2]⟩ := by decide

example (k : ℕ) : outputProduct (fun v : List ℕ => ⟨[1, 2], v.take 2⟩) 4 k [1, 2, 3, 4] = .error .recursion := C96_violates _ 4 (by decide) k _

end Verif.Mat
