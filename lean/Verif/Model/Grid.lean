import Verif.Num

/-!
# Model of `Grid` in `python/macromax/utils/ft/grid.py`

Vectors with one number per axis are functions on `Fin n`, where `n` is the number of dimensions, with a NumPy data type.
Complex coordinates are not modelled.
-/

namespace Verif.Grid

open Verif

/-- A NumPy vector with one element per axis. -/
structure Vec (n : ℕ) (K : Type) where
  dt : DType
  v : Fin n → K

/-- A constructor argument as given by the user: a scalar or a sequence. -/
inductive Arg (K : Type)
  | scalar (dt : DType) (x : K)
  | vector (dt : DType) (xs : List K)

/-- A boolean constructor argument as given by the user. -/
inductive BArg
  | scalar (x : Bool)
  | vector (xs : List Bool)

/-- `np.array(arg).size`, grid.py 72–82. -/
def Arg.size {K : Type} : Arg K → ℕ
  | .scalar _ _ => 1
  | .vector _ xs => xs.length

/-- `is_vector`, grid.py 85–86. -/
def Arg.isVector {K : Type} : Arg K → Bool
  | .scalar _ _ => false
  | .vector _ _ => true

/-- A list of length `n`, or of length 1, as a vector of `n` elements; the length was checked before. -/
def listToFn {α : Type*} (n : ℕ) (xs : List α) : Except PyErr (Fin n → α) :=
  match xs with
  | [x] => .ok fun _ => x
  | xs => if h : xs.length = n then .ok fun i => xs[i.val]'(by omega) else .error .valueError

/-- `_to_ndim`, grid.py 632–643: scalars and vectors of one element are repeated, other lengths must be `ndim`. -/
def toNdim {K : Type} (n : ℕ) : Arg K → Except PyErr (Vec n K)
  | .scalar dt x => .ok ⟨dt, fun _ => x⟩
  | .vector dt xs => (listToFn n xs).map fun f => ⟨dt, f⟩

/-- `_to_ndim` for the boolean arguments, grid.py 632–643. -/
def toNdimB (n : ℕ) : BArg → Except PyErr (Fin n → Bool)
  | .scalar x => .ok fun _ => x
  | .vector xs => listToFn n xs

/-- The arguments of `Grid.__init__` after line 93: `none` for those that were not given. -/
structure Args (n : ℕ) (K : Type) where
  shape : Option (Vec n K) := none
  step : Option (Vec n K) := none
  extent : Option (Vec n K) := none
  first : Option (Vec n K) := none
  center : Option (Vec n K) := none
  last : Option (Vec n K) := none
  includeLast : Fin n → Bool := fun _ => false
  flat : Fin n → Bool := fun _ => false
  originAtCenter : Fin n → Bool := fun _ => true
  centerAtIndex : Fin n → Bool := fun _ => true

/-- The value of the variable `step` in the constructor. Line 98 binds it to the Python integer `1` (`isPy`) which has no
`dtype`, no `astype` and no elements, and line 156 may bind it to a vector of a single element (`short`). -/
structure StepVal (n : ℕ) (K : Type) where
  isPy : Bool
  short : Bool
  vec : Vec n K

/-- A grid: the attributes that the constructor sets in lines 193–199. `stepShort` records that `_step` has one element
although the grid may have more axes. -/
structure Obj (n : ℕ) (K : Type) where
  shape : Fin n → ℕ
  step : Fin n → K
  center : Fin n → K
  dt : DType
  flat : Fin n → Bool
  originAtCenter : Fin n → Bool
  centerAtIndex : Fin n → Bool
  multidimensional : Bool
  stepShort : Bool

section
variable {n : ℕ} {K : Type} [Field K] [LinearOrder K] [FloorRing K]

/-- The constant vector `self._to_ndim(x)` of integers, e.g. grid.py 103, 134, 169. -/
def constInt (x : K) : Vec n K := ⟨.int, fun _ => x⟩

/-- `shape // 2 * center_at_index + (shape - 1) / 2 * (1 - center_at_index)`, grid.py 140, 176, 186. -/
def centerOffset (N : ℕ) (cai : Bool) : K :=
  ((N / 2 : ℕ) : K) * b2k cai + ((N : K) - 1) / 2 * (1 - b2k cai)

/-- `shape - include_last - shape // 2 * center_at_index - (shape - 1) / 2 * (1 - center_at_index)`, grid.py 151, 171. -/
def lastOffset (N : ℕ) (il cai : Bool) : K :=
  (N : K) - b2k il - ((N / 2 : ℕ) : K) * b2k cai - ((N : K) - 1) / 2 * (1 - b2k cai)

/-- What is known after line 126 of the constructor. -/
structure Stage1 (n : ℕ) (K : Type) where
  rawShape : Fin n → K
  step : Option (StepVal n K)
  extent : Option (Vec n K)
  first : Option (Vec n K)
  center : Option (Vec n K)

/-- A step as it was given by the user. -/
def arrStep (s : Vec n K) : StepVal n K := ⟨false, false, s⟩

/-- `(edge + 1 / step) % step - step / 2`, grid.py 108 and 114, "Pick the step that is closest to 0". -/
def defaultCenter (edge step : Fin n → K) : Vec n K :=
  ⟨.float, fun i => pyMod (edge i + 1 / step i) (step i) - step i / 2⟩

/-- Lines 95–126 of the constructor: the shape before rounding. Divisions by a zero step, for which NumPy yields `inf` or
`nan`, end with `nonFinite`, except in the branch with a given extent, where line 182 raises a `ValueError` in any case. -/
def stage1 (a : Args n K) : Except PyErr (Stage1 n K) :=
  match a.shape with
  | some sh => .ok ⟨sh.v, a.step.map arrStep, a.extent, a.first, a.center⟩
  | none =>
    match a.extent with
    | none =>
      -- 97-98
      let step : StepVal n K := match a.step with
        | none => ⟨true, false, constInt 1⟩
        | some s => arrStep s
      if ∃ i, step.vec.v i = 0 then .error .nonFinite
      else
        match a.last with
        | none =>
          -- 101-105
          let fc : Vec n K × Option (Vec n K) := match a.first with
            | some f => (f, a.center)
            | none => (a.center.getD (constInt 0), some (a.center.getD (constInt 0)))
          -- 107-108
          let center : Vec n K := match fc.2 with
            | some c => c
            | none => defaultCenter fc.1.v step.vec.v
          -- 110
          .ok ⟨fun i => 2 * (center.v i - fc.1.v i) / step.vec.v i - (1 - b2k (a.centerAtIndex i)),
            some step, none, some fc.1, some center⟩
        | some last =>
          match a.first with
          | none =>
            -- 113-116
            let center : Vec n K := match a.center with
              | some c => c
              | none => defaultCenter last.v step.vec.v
            .ok ⟨fun i => 2 * (last.v i - center.v i) / step.vec.v i + b2k (a.includeLast i)
                - (1 - b2k (a.centerAtIndex i)), some step, none, none, some center⟩
          | some f =>
            -- 118
            .ok ⟨fun i => (last.v i - f.v i) / step.vec.v i + b2k (a.includeLast i),
              some step, none, some f, a.center⟩
    | some ext =>
      -- 121-125
      let step : Vec n K := a.step.getD ext
      let ext' : Vec n K := ⟨step.dt.promote ext.dt, fun i => signK (step.v i) * |ext.v i|⟩
      .ok ⟨fun i => ext'.v i / step.v i, some (arrStep step), some ext', a.first, a.center⟩

/-- Line 128: `np.maximum(1, np.ceil(shape).astype(int))`. -/
def roundShape (raw : Fin n → K) : Fin n → ℕ := fun i => (max 1 ⌈raw i⌉).toNat

/-- `np.allclose(x, np.round(x))`, grid.py 141, 152, 157, 172, 177. -/
def nearInteger (x : Fin n → K) : Prop := ∀ i, isclose (x i) (roundHalfEven (x i))

instance (x : Fin n → K) : Decidable (nearInteger x) := inferInstanceAs (Decidable (∀ _, _))

/-- Lines 141–142, 152–153, 157–158, 172–173 and 177–178: if the arguments of a division were integers and its float result
is close to an integer, then it is converted to integer, by truncation. -/
def backToInt (argDt : DType) (x : Fin n → K) : Vec n K :=
  if argDt = .int ∧ nearInteger x then ⟨.int, fun i => truncK (x i)⟩ else ⟨.float, x⟩

/-- Lines 131–161 of the constructor: the step when it was not given. -/
def deduceStep (a : Args n K) (shape : Fin n → ℕ) (extent first center : Option (Vec n K)) :
    Except PyErr (StepVal n K) :=
  match extent with
  | none =>
    match a.last with
    | none =>
      match first, center with
      | some f, some c =>
        if ∃ i, centerOffset (K := K) (shape i) (a.centerAtIndex i) = 0 then .error .nonFinite
        else .ok (arrStep (backToInt (c.dt.promote f.dt) fun i =>
          (c.v i - f.v i) / centerOffset (shape i) (a.centerAtIndex i)))
      | _, _ => .ok (arrStep (constInt 1))
    | some last =>
      match first with
      | none =>
        match center with
        | none => .ok (arrStep (constInt 1))
        | some c =>
          if ∃ i, lastOffset (K := K) (shape i) (a.includeLast i) (a.centerAtIndex i) = 0 then .error .nonFinite
          else .ok (arrStep (backToInt (last.dt.promote c.dt) fun i =>
            (last.v i - c.v i) / lastOffset (shape i) (a.includeLast i) (a.centerAtIndex i)))
      | some f =>
        -- 156: if any axis has a single point that is the included last one, all steps are 1
        if ∀ i, b2k (a.includeLast i) < (shape i : K) then
          .ok (arrStep (backToInt (last.dt.promote f.dt) fun i =>
            (last.v i - f.v i) / ((shape i : K) - b2k (a.includeLast i))))
        else .ok ⟨false, true, constInt 1⟩
  | some ext => .ok (arrStep ⟨.float, fun i => ext.v i / (shape i : K)⟩)

/-- Lines 162–163: a step that was deduced is converted to integer if all its elements are. -/
def intIfInteger (s : StepVal n K) : StepVal n K :=
  if ∀ i, s.vec.v i = truncK (s.vec.v i) then { s with vec := ⟨.int, fun i => truncK (s.vec.v i)⟩ } else s

/-- The conversions `center.astype(step.dtype)` of lines 173 and 178 after the tests of lines 172 and 177. A Python integer has
no `dtype`, so that this raises an `AttributeError` for the step of line 98. -/
def centerBackToInt (edgeDt : DType) (step : StepVal n K) (x : Fin n → K) : Except PyErr (Vec n K) :=
  if edgeDt.promote step.vec.dt = .int ∧ nearInteger x then
    if step.isPy then .error .attributeError else .ok ⟨.int, fun i => truncK (x i)⟩
  else .ok ⟨.float, x⟩

/-- Lines 166–178 of the constructor. -/
def deduceCenter (a : Args n K) (shape : Fin n → ℕ) (step : StepVal n K) (first center : Option (Vec n K)) :
    Except PyErr (Vec n K) :=
  match center with
  | some c => .ok c
  | none =>
    match first with
    | none =>
      match a.last with
      | none => .ok (constInt 0)
      | some last => centerBackToInt last.dt step fun i =>
          last.v i - step.vec.v i * lastOffset (shape i) (a.includeLast i) (a.centerAtIndex i)
    | some f => centerBackToInt f.dt step fun i =>
          f.v i + centerOffset (shape i) (a.centerAtIndex i) * step.vec.v i

/-- The test of line 182. A zero step with a given extent makes `extent / step` infinite or undefined, which passes the test for
an error. -/
def extentMismatch (ext : Vec n K) (step : Fin n → K) (shape : Fin n → ℕ) : Prop :=
  (∃ i, step i = 0) ∨
    (¬ (∀ i, isclose (ext.v i / step i) (shape i : K)) ∧ ∃ i, max 1 ⌈ext.v i / step i⌉ ≠ (shape i : ℤ))

instance (ext : Vec n K) (step : Fin n → K) (shape : Fin n → ℕ) : Decidable (extentMismatch ext step shape) :=
  inferInstanceAs (Decidable (_ ∨ _))

/-- The test of line 184. -/
def firstLastMismatch (a : Args n K) (f last : Vec n K) (step : Fin n → K) (shape : Fin n → ℕ) : Prop :=
  ∃ i, (shape i : K) * step i ≠ last.v i + step i * b2k (a.includeLast i) - f.v i

instance (a : Args n K) (f last : Vec n K) (step : Fin n → K) (shape : Fin n → ℕ) :
    Decidable (firstLastMismatch a f last step shape) := inferInstanceAs (Decidable (∃ _, _))

/-- The test of line 186. -/
def firstCenterMismatch (a : Args n K) (f c : Vec n K) (step : Fin n → K) (shape : Fin n → ℕ) : Prop :=
  ∃ i, c.v i ≠ f.v i + centerOffset (shape i) (a.centerAtIndex i) * step i

instance (a : Args n K) (f c : Vec n K) (step : Fin n → K) (shape : Fin n → ℕ) :
    Decidable (firstCenterMismatch a f c step shape) := inferInstanceAs (Decidable (∃ _, _))

/-- The sanity checks of lines 182–187, all of which raise a `ValueError`. -/
def failsChecks (a : Args n K) (s1 : Stage1 n K) (shape : Fin n → ℕ) (step : Fin n → K) (center : Vec n K) : Prop :=
  (∃ ext ∈ s1.extent, extentMismatch ext step shape) ∨
  (∃ f ∈ s1.first, ∃ last ∈ a.last, firstLastMismatch a f last step shape) ∨
  (∃ f ∈ s1.first, firstCenterMismatch a f center step shape)

instance (a : Args n K) (s1 : Stage1 n K) (shape : Fin n → ℕ) (step : Fin n → K) (center : Vec n K) :
    Decidable (failsChecks a s1 shape step center) := inferInstanceAs (Decidable (_ ∨ _ ∨ _))

/-- `Grid.__init__` after the conversion of the arguments, grid.py 95–199. -/
def init (multidimensional : Bool) (a : Args n K) : Except PyErr (Obj n K) :=
  match stage1 a with
  | .error e => .error e
  | .ok s1 =>
    let shape := roundShape s1.rawShape
    match (match s1.step with
        | some s => (.ok s : Except PyErr (StepVal n K))
        | none => (deduceStep a shape s1.extent s1.first s1.center).map intIfInteger) with
    | .error e => .error e
    | .ok step =>
      match deduceCenter a shape step s1.first s1.center with
      | .error e => .error e
      | .ok center =>
        -- 182-187
        if failsChecks a s1 shape step.vec.v center then .error .valueError
        -- 194-195: a Python integer has no elements and no astype
        else if step.isPy then .error (if n = 0 then .attributeError else .typeError)
        else .ok
          { shape := shape, step := step.vec.v, center := center.v,
            dt := if n = 0 then .float else step.vec.dt.promote center.dt,
            flat := a.flat, originAtCenter := a.originAtCenter, centerAtIndex := a.centerAtIndex,
            multidimensional := multidimensional, stepShort := step.short }

end

/-- The arguments of `Grid(...)` as given by the user. -/
structure RawArgs (K : Type) where
  shape : Option (Arg K) := none
  step : Option (Arg K) := none
  extent : Option (Arg K) := none
  first : Option (Arg K) := none
  center : Option (Arg K) := none
  last : Option (Arg K) := none
  includeLast : BArg := .scalar false
  ndim : Option ℕ := none
  flat : BArg := .scalar false
  originAtCenter : BArg := .scalar true
  centerAtIndex : BArg := .scalar true

/-- Lines 69–83: the number of dimensions. -/
def RawArgs.dims {K : Type} (r : RawArgs K) : ℕ :=
  match r.ndim with
  | some d => d
  | none => [r.shape, r.step, r.extent, r.first, r.center, r.last].foldl
      (fun d o => max d (match o with | none => 0 | some a => a.size)) 0

/-- Lines 87–88. -/
def RawArgs.isMultidimensional {K : Type} (r : RawArgs K) : Bool :=
  [r.shape, r.step, r.extent, r.first, r.center, r.last].any
    fun o => match o with | none => false | some a => a.isVector

/-- `__all_to_ndim`, grid.py 91–93 and 645–649. -/
def RawArgs.toArgs {K : Type} (r : RawArgs K) : Except PyErr (Args r.dims K) := do
  let opt (o : Option (Arg K)) : Except PyErr (Option (Vec r.dims K)) := match o with
    | none => .ok none
    | some a => (toNdim r.dims a).map some
  let shape ← opt r.shape
  let step ← opt r.step
  let extent ← opt r.extent
  let first ← opt r.first
  let center ← opt r.center
  let last ← opt r.last
  let flat ← toNdimB r.dims r.flat
  let originAtCenter ← toNdimB r.dims r.originAtCenter
  let includeLast ← toNdimB r.dims r.includeLast
  let centerAtIndex ← toNdimB r.dims r.centerAtIndex
  return { shape, step, extent, first, center, last, includeLast, flat, originAtCenter, centerAtIndex }

/-- `Grid(...)`: the whole constructor, grid.py 17–199. -/
def mk {K : Type} [Field K] [LinearOrder K] [FloorRing K] (r : RawArgs K) : Except PyErr (Obj r.dims K) :=
  match r.toArgs with
  | .error e => .error e
  | .ok a => init r.isMultidimensional a

end Verif.Grid
