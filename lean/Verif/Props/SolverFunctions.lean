import Verif.Lemmas.SolverFunctions
import Verif.Props.Grid02

/-!
# Property C134: functions as arguments of the solver
-/

namespace Verif.Problem

open Verif Verif.Fourier Verif.Solver Verif.Construct Complex
open Verif.Assign (Arr toMatrixField full)

variable {d n : ℕ}

/-! ### Specification -/

/-- A grid of which the coordinates of each axis have their own axis, as they have by default. -/
structure Plaid (g : Grid.Obj d ℝ) : Prop where
  multidimensional : g.multidimensional = true
  steps : g.stepShort = false ∨ d ≤ 1
  axes : ∀ a, g.flat a = false

/-- The coordinates of a point of the grid. -/
noncomputable def coordinatesAt (g : Grid.Obj d ℝ) (x : Idx g.shape) : Fin d → ℂ := fun a => (((g.coords a).getD (x a) 0 : ℝ) : ℂ)

/-- A function of the coordinates that is calculated with the elementwise operations of NumPy, and of which the results for different components are stacked: the component `c` is `F c`. -/
noncomputable def elementwise (components : List ℕ) (F : List ℕ → (Fin d → ℂ) → ℂ) : Fn := ⟨d, fun args =>
  match broadcastShapes (args.map Arr.shape) with
  | some shape => .ok (.array ⟨components ++ shape, fun i => F (i.take components.length) fun a => bval (args.getD a ⟨[], fun _ => 0⟩) (i.drop components.length)⟩)
  | none => .error .valueError⟩

/-- A number at each position. -/
noncomputable def scalarFn (F : (Fin d → ℂ) → ℂ) : Arg := .function (elementwise [] fun _ => F)

/-- A vector at each position. -/
noncomputable def vectorFn (F : Fin n → (Fin d → ℂ) → ℂ) : Arg := .function (elementwise [n] fun i r => if h : i.getD 0 0 < n then F ⟨_, h⟩ r else 0)

/-- A matrix at each position. -/
noncomputable def tensorFn (F : Matrix (Fin n) (Fin n) ((Fin d → ℂ) → ℂ)) : Arg :=
  .function (elementwise [n, n] fun i r => if h : i.getD 0 0 < n ∧ i.getD 1 0 < n then F ⟨_, h.1⟩ ⟨_, h.2⟩ r else 0)

/-- An argument for a material: what it means at the points of the grid.  It can be an array, a function that returns a number for each point, or a function that returns a matrix for each point. -/
inductive ArgMeans (n : ℕ) (g : Grid.Obj d ℝ) : Arg → Tensor n g.shape → Prop
  | value {a : Arr ℂ} {M : Tensor n g.shape} (h : Means n g.shape a M) : ArgMeans n g (.value a) M
  | scalar (F : (Fin d → ℂ) → ℂ) : ArgMeans n g (scalarFn F) fun x => F (coordinatesAt g x) • 1
  | tensor (F : Matrix (Fin n) (Fin n) ((Fin d → ℂ) → ℂ)) :
    ArgMeans n g (tensorFn F) fun x => Matrix.of fun r c => F r c (coordinatesAt g x)

/-! ### C134 -/

theorem getD_inside {α : Type} {l : List α} {k : ℕ} {v : α} (h : k < l.length) : l.getD k v = l[k] := by
  rw [List.getD_eq_getElem?_getD, List.getElem?_eq_getElem h]
  rfl

theorem unpacked_plaid {g : Grid.Obj d ℝ} (hg : Plaid g) :
    unpacked g = .ok ((List.finRange d).map fun a => ⟨alongAxis g.shape a, fun i => (((g.coords a).getD (i.getD a 0) 0 : ℝ) : ℂ)⟩) := by
  unfold unpacked
  rw [if_pos hg.multidimensional]
  rw [show (fun a : Fin d => if g.stepShort = true ∧ 0 < a.val then (.error .indexError : Except PyErr (Arr ℂ))
      else .ok ⟨g.axisShape a, fun i => (((g.coords a).getD (i.getD (if g.flat a then 0 else a) 0) 0 : ℝ) : ℂ)⟩) =
      fun a => pure ⟨alongAxis g.shape a, fun i => (((g.coords a).getD (i.getD a 0) 0 : ℝ) : ℂ)⟩ by
    funext a
    rw [if_neg]
    · have e : g.axisShape a = alongAxis g.shape a := by
        unfold Grid.Obj.axisShape alongAxis
        rw [if_neg (by rw [hg.axes]; exact Bool.false_ne_true), List.ofFn_eq_map]
      simp only [e, hg.axes, Bool.false_eq_true, if_false]
      rfl
    · rintro ⟨h1, h2⟩
      rcases hg.steps with h | h
      · rw [h] at h1
        exact Bool.false_ne_true h1
      · have := a.isLt
        omega]
  exact List.mapM_pure

theorem bval_coordinate (g : Grid.Obj d ℝ) (a : Fin d) (x : Idx g.shape) :
    bval ⟨alongAxis g.shape a, fun i => (((g.coords a).getD (i.getD a 0) 0 : ℝ) : ℂ)⟩ (List.ofFn fun b => (x b : ℕ)) = coordinatesAt g x a := by
  have h : (bidxRev (alongAxis g.shape a).reverse (List.ofFn fun b => (x b : ℕ)).reverse).reverse.getD a 0 = x a := by
    unfold bidxRev alongAxis
    rw [← List.reverse_zipWith (by simp), List.reverse_reverse, getD_inside (by simp), List.getElem_zipWith, List.getElem_ofFn, List.getElem_ofFn]
    show (if (if a = a then g.shape a else 1) = 1 then 0 else (x a : ℕ)) = x a
    rw [if_pos rfl]
    split_ifs with h1
    · have := (x a).isLt
      omega
    · rfl
  unfold bval coordinatesAt
  dsimp only
  rw [h]

/-- **C134 (values).** A function of the coordinates gives the array of its values at the coordinates of all points of the grid. -/
theorem C134_values {g : Grid.Obj d ℝ} (hg : Plaid g) (components : List ℕ) (F : List ℕ → (Fin d → ℂ) → ℂ) :
    ∃ a : Arr ℂ, func2arr g (.function (elementwise components F)) = .ok (.array a) ∧ a.shape = components ++ List.ofFn g.shape ∧
      ∀ (c : List ℕ) (x : Idx g.shape), c.length = components.length → a.val (c ++ List.ofFn fun b => (x b : ℕ)) = F c (coordinatesAt g x) := by
  refine ⟨⟨components ++ List.ofFn g.shape, fun i => F (i.take components.length) fun a =>
      bval (((List.finRange d).map fun a => (⟨alongAxis g.shape a, fun i => (((g.coords a).getD (i.getD a 0) 0 : ℝ) : ℂ)⟩ : Arr ℂ)).getD a ⟨[], fun _ => 0⟩) (i.drop components.length)⟩, ?_, rfl, ?_⟩
  · unfold func2arr
    rw [unpacked_plaid hg]
    show Fn.apply _ _ = _
    unfold Fn.apply elementwise
    rw [if_pos (by simp)]
    dsimp only
    rw [List.map_map]
    have := broadcastShapes_axes g.shape
    rw [show (Arr.shape ∘ fun a => (⟨alongAxis g.shape a, fun i => (((g.coords a).getD (i.getD a 0) 0 : ℝ) : ℂ)⟩ : Arr ℂ)) = alongAxis g.shape from rfl, this]
  · intro c x hc
    dsimp only
    rw [← hc, List.take_left, List.drop_left]
    congr 1
    funext a
    rw [getD_inside (by simp), List.getElem_map, List.getElem_finRange]
    exact bval_coordinate g a x

/-- **C134 (materials).** A function for a material is used as the material with its values at the points of the grid: a multiple of the identity, or a matrix. -/
theorem C134_materials {g : Grid.Obj d ℝ} (hg : Plaid g) {A : Arg} {M : Tensor n g.shape} (h : ArgMeans n g A M) :
    ∃ a, func2arr g A = .ok (.array a) ∧ Means n g.shape a M := by
  cases h with
  | value h => exact ⟨_, rfl, h⟩
  | scalar F =>
    obtain ⟨a, h1, h2, h3⟩ := C134_values hg [] fun _ => F
    refine ⟨a, h1, .scalar ?_ ?_ fun x => ?_⟩
    · unfold ScalarForm
      rw [h2, List.nil_append, List.drop_eq_nil_of_le (by simp)]
      simp
    · unfold Fits
      rw [h2]
      have : ∀ (M T : List ℕ), Refines M (M ++ T) := by
        intro M T
        induction M with
        | nil => trivial
        | cons m M ih => exact ⟨.inr rfl, ih⟩
      exact this _ _
    · unfold scalarMeaning
      rw [show (0 :: 0 :: List.ofFn fun b => (x b : ℕ)) = [0, 0] ++ List.ofFn fun b => (x b : ℕ) from rfl, bval_within (by rw [h2]; exact within_ofFn x), ← h3 [] x rfl]
      rfl
  | tensor F =>
    obtain ⟨a, h1, h2, h3⟩ := C134_values hg [n, n] fun i r => if h : i.getD 0 0 < n ∧ i.getD 1 0 < n then F ⟨_, h.1⟩ ⟨_, h.2⟩ r else 0
    refine ⟨a, h1, .tensor ?_ ?_ fun x => ?_⟩
    · unfold TensorForm
      rw [h2]
      simp
    · unfold Fits
      rw [h2]
      simp only [List.cons_append, List.nil_append, List.reverse_cons, List.append_assoc]
      exact refines_refl _
    · unfold tensorMeaning
      funext r c
      have hw : List.Forall₂ (· < ·) ((r : ℕ) :: (c : ℕ) :: List.ofFn fun b => (x b : ℕ)) a.shape := by
        rw [h2]
        exact .cons r.isLt (.cons c.isLt (within_ofFn x))
      have := bval_within hw []
      rw [List.nil_append] at this
      rw [this]
      have h4 := h3 [(r : ℕ), (c : ℕ)] x rfl
      rw [dif_pos (show [(r : ℕ), (c : ℕ)].getD 0 0 < n ∧ [(r : ℕ), (c : ℕ)].getD 1 0 < n from ⟨r.isLt, c.isLt⟩)] at h4
      exact h4.symm

/-- **C134 (sources).** A function for the source is used as its values at the points of the grid. -/
theorem C134_source {g : Grid.Obj d ℝ} (hg : Plaid g) (hn : 1 ≤ n) (F : Fin n → (Fin d → ℂ) → ℂ) :
    ∃ a, func2arr g (vectorFn F) = .ok (.array a) ∧ a.shape = n :: List.ofFn g.shape ∧
      Assign.CanBroadcast (toMatrixField d a) (full n g.shape) ∧
      ∀ (c : Fin n) (x : Idx g.shape), Assign.broadcast (toMatrixField d a) (Fin.cons (c : ℕ) (Fin.cons 0 fun b => (x b : ℕ))) = F c (coordinatesAt g x) := by
  obtain ⟨a, h1, h2, h3⟩ := C134_values hg [n] fun i r => if h : i.getD 0 0 < n then F ⟨_, h⟩ r else 0
  obtain ⟨h4, h5⟩ := source_canonical hn h2
  refine ⟨a, h1, h2, h4, fun c x => ?_⟩
  rw [h5]
  have := h3 [(c : ℕ)] x rfl
  rw [dif_pos (show [(c : ℕ)].getD 0 0 < n from c.isLt)] at this
  exact this

/-- The same arguments with arrays for the source and the materials. -/
def FnArgs.withArrays (p : FnArgs d) (source epsilon xi zeta mu : Arr ℂ) : Args d :=
  ⟨p.grid, p.frequency, ⟨p.vectorial, none, some source⟩, some epsilon, none, xi, zeta, mu, p.electric, p.magnetic, p.thickness, p.initial⟩

/-- **C134 (as called).** A problem of which the materials and the source are functions of the position is the problem with their values at the points of the grid, for all functions, also with an absorbing boundary. -/
theorem C134_called (co : Const) (hn : 1 ≤ n) {p : FnArgs d} (hg : Plaid p.grid) (hN : ∀ a, 0 < p.grid.shape a) {e : Arg} (he : p.epsilon = some e) (hmag : p.magnetic = none)
    {m : Medium n p.grid.shape} {M : Tensor n p.grid.shape} (hepsilon : ArgMeans n p.grid e M)
    (hbound : (p.electric = none ∧ m.epsilon = M) ∨ ∃ chi X, p.electric = some chi ∧ IsChi n p.grid.shape chi X ∧ m.epsilon = fun x => M x + X x • 1)
    (hxi : ArgMeans n p.grid p.xi m.xi) (hzeta : ArgMeans n p.grid p.zeta m.zeta) (hmu : ArgMeans n p.grid p.mu m.mu)
    (F : Fin n → (Fin d → ℂ) → ℂ) (hs : p.source = some (vectorFn F))
    (hE : p.initial = ⟨[], fun _ => 0⟩) :
    ∃ source epsilon xi zeta mu : Arr ℂ, p.values = .ok (p.withArrays source epsilon xi zeta mu) ∧ source.shape = n :: List.ofFn p.grid.shape ∧ (∀ a, p.mu = .value a → mu = a) ∧
      Describes co n (p.withArrays source epsilon xi zeta mu) m (fun c x => F c (coordinatesAt p.grid x)) 0 := by
  obtain ⟨ae, e1, e2⟩ := C134_materials hg hepsilon
  obtain ⟨ax, x1, x2⟩ := C134_materials hg hxi
  obtain ⟨az, z1, z2⟩ := C134_materials hg hzeta
  obtain ⟨am, m1, m2⟩ := C134_materials hg hmu
  obtain ⟨as, s1, s2, s3, s4⟩ := C134_source hg hn F
  refine ⟨as, ae, ax, az, am, ?_, s2, fun a ha => ?_, ?_⟩
  · unfold FnArgs.values FnArgs.sourceValues FnArgs.electricValues
    rw [hs, he, x1, z1, m1]
    simp only [s1, e1]
    rfl
  · rw [ha] at m1
    have : Value.array a = Value.array am := Except.ok.inj m1
    exact (Value.array.inj this).symm
  · exact {
      nonempty := hN
      epsilon := ⟨ae, M, rfl, e2, hbound⟩
      magnetic := hmag
      xi := x2
      zeta := z2
      mu := m2
      source := s3
      sourceValue := fun c x => (s4 c x).symm
      initial := by
        show Assign.CanBroadcast (toMatrixField d p.initial) _
        rw [hE]
        intro k
        right
        unfold toMatrixField Assign.expand
        simp
      initialValue := fun c x => by
        show 0 = Assign.broadcast (toMatrixField d p.initial) _
        rw [hE]
        unfold Assign.broadcast toMatrixField Assign.expand
        dsimp only
        split_ifs <;> rfl }

/-- **C134 (equivalent arrays).** Each function can be replaced by the array that it returns, and if all arguments are arrays then these are the arguments of the problem: the source takes precedence over the
current density, and the permittivity over the refractive index. -/
theorem C134_equivalent (p : FnArgs d) {A : Arg} {a : Arr ℂ} (h : func2arr p.grid A = .ok (.array a)) :
    FnArgs.values { p with source := some A } = FnArgs.values { p with source := some (.value a) } ∧
    FnArgs.values { p with current := some A } = FnArgs.values { p with current := some (.value a) } ∧
    FnArgs.values { p with epsilon := some A } = FnArgs.values { p with epsilon := some (.value a) } ∧
    FnArgs.values { p with index := some A } = FnArgs.values { p with index := some (.value a) } ∧
    FnArgs.values { p with xi := A } = FnArgs.values { p with xi := .value a } ∧
    FnArgs.values { p with zeta := A } = FnArgs.values { p with zeta := .value a } ∧
    FnArgs.values { p with mu := A } = FnArgs.values { p with mu := .value a } := by
  have h' : func2arr p.grid A = func2arr p.grid (.value a) := h
  refine ⟨?_, ?_, ?_, ?_, ?_, ?_, ?_⟩ <;> simp only [FnArgs.values, FnArgs.sourceValues, FnArgs.electricValues, h']

/-- **C134 (constants).** Functions for the source, the current density and the coupling can return a number: it is the same as giving that number. -/
theorem C134_constant (p : FnArgs d) {A : Arg} {v : ℂ} (h : func2arr p.grid A = .ok (.number v)) :
    FnArgs.values { p with source := some A } = FnArgs.values { p with source := some (.value ⟨[], fun _ => v⟩) } ∧
    FnArgs.values { p with source := none, current := some A } = FnArgs.values { p with source := none, current := some (.value ⟨[], fun _ => v⟩) } ∧
    FnArgs.values { p with xi := A } = FnArgs.values { p with xi := .value ⟨[], fun _ => v⟩ } ∧
    FnArgs.values { p with zeta := A } = FnArgs.values { p with zeta := .value ⟨[], fun _ => v⟩ } := by
  have h' : func2arr p.grid (.value ⟨[], fun _ => v⟩) = .ok (.array ⟨[], fun _ => v⟩) := rfl
  refine ⟨?_, ?_, ?_, ?_⟩ <;> simp only [FnArgs.values, FnArgs.sourceValues, h, h'] <;> rfl

/-- **C134 (arrays).** -/
theorem C134_arrays {p : FnArgs d} {xi zeta mu : Arr ℂ} (hxi : p.xi = .value xi) (hzeta : p.zeta = .value zeta) (hmu : p.mu = .value mu) (source current epsilon index : Option (Arr ℂ))
    (hs : p.source = source.map .value) (hj : p.current = current.map .value) (he : p.epsilon = epsilon.map .value) (hm : p.index = index.map .value) :
    p.values = .ok ⟨p.grid, p.frequency, ⟨p.vectorial, if source.isSome then none else current, source⟩, epsilon, if epsilon.isSome then none else index, xi, zeta, mu, p.electric, p.magnetic, p.thickness, p.initial⟩ := by
  unfold FnArgs.values FnArgs.sourceValues FnArgs.electricValues
  rw [hxi, hzeta, hmu, hs, hj, he, hm]
  cases source <;> cases current <;> cases epsilon <;> cases index <;> rfl

/-- **C134 (current density).** A current density that is a function has the same effect as the source that is `-i ω μ₀` times that function. -/
theorem C134_current (co : Const) {p : FnArgs d} (hg : Plaid p.grid) (F : Fin n → (Fin d → ℂ) → ℂ) (hs : p.source = none) (hj : p.current = some (vectorFn F)) {q : Args d} (hq : p.values = .ok q) :
    ∃ s : Construct.Args, FnArgs.values { p with source := some (vectorFn fun c r => F c r * (-I * (co.omega (p.frequency.k0 co.c) : ℂ) * (co.mu0 : ℂ))) } = .ok { q with source := s } ∧
      ∀ tol o, Args.start co { q with source := s } tol o = q.start co tol o := by
  obtain ⟨a, h1, h2, h3⟩ := C134_values hg [n] fun i r => if h : i.getD 0 0 < n then F ⟨_, h⟩ r else 0
  have key : ∀ w : ℂ, func2arr p.grid (vectorFn fun c r => F c r * w) = .ok (.array ⟨a.shape, fun i => a.val i * w⟩) := by
    intro w
    change (do Fn.apply _ (← unpacked p.grid)) = _ at h1
    show (do Fn.apply _ (← unpacked p.grid)) = _
    rw [unpacked_plaid hg] at h1 ⊢
    change Fn.apply _ _ = _ at h1
    show Fn.apply _ _ = _
    unfold Fn.apply elementwise at h1 ⊢
    dsimp only at h1 ⊢
    split_ifs at h1 ⊢ with hl
    split at h1
    · obtain rfl := Value.array.inj (Except.ok.inj h1)
      dsimp only
      congr 3
      funext i
      split_ifs
      · rfl
      · rw [zero_mul]
    · exact absurd h1 (by simp)
  unfold FnArgs.values at hq ⊢
  unfold FnArgs.sourceValues at hq ⊢
  rw [hs, hj] at hq
  dsimp only at hq ⊢
  rw [key]
  rw [show func2arr p.grid (vectorFn F) = .ok (.array a) from h1] at hq
  refine ⟨⟨p.vectorial, none, some ⟨a.shape, fun i => a.val i * (-I * (co.omega (p.frequency.k0 co.c) : ℂ) * (co.mu0 : ℂ))⟩⟩, ?_⟩
  change (func2arr p.grid p.mu).bind _ = _ at hq
  show (func2arr p.grid p.mu).bind _ = _ ∧ _
  generalize func2arr p.grid p.mu = X at hq ⊢
  cases X with
  | error => exact (nomatch hq)
  | ok mu =>
    change mu.astype.bind _ = _ at hq
    show mu.astype.bind _ = _ ∧ _
    generalize mu.astype = X at hq ⊢
    cases X with
    | error => exact (nomatch hq)
    | ok mu =>
      change p.electricValues.bind _ = _ at hq
      show p.electricValues.bind _ = _ ∧ _
      generalize p.electricValues = X at hq ⊢
      cases X with
      | error => exact (nomatch hq)
      | ok e =>
        change (func2arr p.grid p.xi).bind _ = _ at hq
        show (func2arr p.grid p.xi).bind _ = _ ∧ _
        generalize func2arr p.grid p.xi = X at hq ⊢
        cases X with
        | error => exact (nomatch hq)
        | ok xi =>
          change (func2arr p.grid p.zeta).bind _ = _ at hq
          show (func2arr p.grid p.zeta).bind _ = _ ∧ _
          generalize func2arr p.grid p.zeta = X at hq ⊢
          cases X with
          | error => exact (nomatch hq)
          | ok zeta =>
            obtain rfl := Except.ok.inj hq
            exact ⟨rfl, fun _ _ => rfl⟩

/-- **C134** is violated: on a grid that is made of numbers, a function of the coordinate is called with all coordinates as separate arguments, which raises a `TypeError` unless there is exactly one. -/
theorem C134_number_violates {g : Grid.Obj 1 ℝ} (hg : g.multidimensional = false) (hN : g.shape 0 ≠ 1) (f : Fn) (hf : f.params = 1) : func2arr g (.function f) = .error .typeError := by
  unfold func2arr unpacked
  rw [if_neg (by rw [hg]; exact Bool.false_ne_true), dif_pos Nat.one_pos]
  show Fn.apply f _ = _
  unfold Fn.apply
  rw [if_neg]
  rw [hf, List.length_map]
  exact fun h => hN ((Grid.C02_length g 0).symm.trans h)

/-- **C134** is violated: a constant function for the permeability or the permittivity that returns a Python number raises an `AttributeError`, although the number itself can be given. -/
theorem C134_constant_violates {p : FnArgs d} (hg : Plaid p.grid) (hs : p.source = none) (hc : p.current = none) (v : ℂ) (hm : p.mu = .function ⟨d, fun _ => .ok (.number v)⟩) :
    p.values = .error .attributeError := by
  have hv : func2arr p.grid p.mu = .ok (.number v) := by
    rw [hm]
    unfold func2arr
    rw [unpacked_plaid hg]
    show Fn.apply _ _ = _
    unfold Fn.apply
    rw [if_pos (by simp)]
  unfold FnArgs.values FnArgs.sourceValues
  rw [hs, hc, hv]
  rfl

/-- **C134** is violated: on a flat grid with two axes of the same length, a function is only calculated for the points on the diagonal. -/
theorem C134_flat_violates {g : Grid.Obj 2 ℝ} (hg : g.multidimensional = true) (hs : g.stepShort = false) (hf : ∀ a, g.flat a = true) {N : ℕ} (hN : ∀ a, g.shape a = N) (F : (Fin 2 → ℂ) → ℂ) :
    ∃ a : Arr ℂ, func2arr g (.function (elementwise [] fun _ => F)) = .ok (.array a) ∧ a.shape = [N] ∧
      ∀ j < N, a.val [j] = F fun b => (((g.coords b).getD j 0 : ℝ) : ℂ) := by
  have hu : unpacked g = .ok ((List.finRange 2).map fun a => ⟨[N], fun i => (((g.coords a).getD (i.getD 0 0) 0 : ℝ) : ℂ)⟩) := by
    unfold unpacked
    rw [if_pos hg]
    rw [show (fun a : Fin 2 => if g.stepShort = true ∧ 0 < a.val then (.error .indexError : Except PyErr (Arr ℂ))
        else .ok ⟨g.axisShape a, fun i => (((g.coords a).getD (i.getD (if g.flat a then 0 else a) 0) 0 : ℝ) : ℂ)⟩) =
        fun a => pure ⟨[N], fun i => (((g.coords a).getD (i.getD 0 0) 0 : ℝ) : ℂ)⟩ by
      funext a
      rw [if_neg (by rw [hs]; exact fun h => Bool.false_ne_true h.1)]
      have e : g.axisShape a = [N] := by
        unfold Grid.Obj.axisShape
        rw [if_pos (hf a), hN]
      simp only [e, hf, if_true]
      rfl]
    exact List.mapM_pure
  refine ⟨⟨[N], fun i => F fun b => bval ⟨[N], fun i => (((g.coords b).getD (i.getD 0 0) 0 : ℝ) : ℂ)⟩ i⟩, ?_, rfl, fun j hj => ?_⟩
  · unfold func2arr
    rw [hu]
    show Fn.apply (elementwise [] fun _ => F) ((List.finRange 2).map fun a => ⟨[N], fun i => (((g.coords a).getD (i.getD 0 0) 0 : ℝ) : ℂ)⟩) = _
    unfold Fn.apply elementwise
    rw [if_pos (by simp)]
    have hb : broadcastShapes [[N], [N]] = some [N] := by
      show Option.map List.reverse ((bshapeRev [N] [N]).bind fun r => some r) = _
      have : bshapeRev [N] [N] = some [N] := by
        show (if N = N ∨ N = 1 ∨ N = 1 then some [if N = 1 then N else N] else none) = _
        rw [if_pos (.inl rfl), ite_self]
      rw [this]
      rfl
    show (match broadcastShapes [[N], [N]] with
      | some shape => _
      | none => _) = _
    rw [hb]
    dsimp only
    congr 3
    funext i
    congr 1
    funext b
    fin_cases b <;> rfl
  · dsimp only
    congr 1
    funext b
    have := bval_within (a := ⟨[N], fun i => (((g.coords b).getD (i.getD 0 0) 0 : ℝ) : ℂ)⟩) (i := [j]) (.cons hj .nil) []
    rw [List.nil_append] at this
    rw [this]
    rfl

end Verif.Problem
