import Verif.Model.Bound

/-!
# The classes of boundaries

`python/macromax/bound.py`: `Bound`, its subclasses, the mixins `Electric` and `Magnetic`, and classes that are derived from these; and what the solver takes from them
(`python/macromax/solver.py` 241–253).

An object is given by its class and its data.  The class is given by its method resolution order, the list `type(self).__mro__` in which Python looks for attributes, without `object`.  Of a class that is not in
bound.py the model has the getters that its body defines, as functions of the position; getters that call those of the other classes are not modelled.  How Python determines the order from the list of bases is not
modelled: the theorems are about all lists, or all that Python can make.
-/

namespace Verif.Bound

/-- The getters that the body of a class defines. -/
structure Own (P : Type) where
  background : Option ℂ := none
  electric : Option (P → ℂ) := none
  magnetic : Option (P → ℂ) := none
  permittivity : Option (P → ℂ) := none
  permeability : Option (P → ℂ) := none

/-- The classes of bound.py, and others, of which no two have the same identity.  `linear` is `LinearBound`. -/
inductive Cls (P : Type)
  | bound | periodic | absorbing | linear | electric | magnetic
  | user (identity : ℕ) (own : Own P)

/-- The data of an object: its background permittivity (bound.py 72) and what the getter `extinction` of an absorbing boundary gives (bound.py 158–183, `Verif.Bound.extinction`). -/
structure Data (P : Type) where
  background : ℂ
  extinction : Except PyErr (P → ℝ)

/-- What the getter of a susceptibility returns: an array or `NotImplemented`. -/
inductive Raw (P : Type)
  | array (values : P → ℂ)
  | notImplemented

/-- `number + x`, for NumPy arrays; `NotImplemented` can not be added. -/
def addNumber {P : Type} (number : ℂ) : Raw P → Except PyErr (P → ℂ)
  | .array values => .ok fun p => number + values p
  | .notImplemented => .error .typeError

/-- `BackEnd.astype` (backend/__init__.py 102–111): `np.asarray(x, dtype=complex)`. -/
def asArray {P : Type} : Raw P → Except PyErr (P → ℂ)
  | .array values => .ok values
  | .notImplemented => .error .typeError

variable {P : Type}

/-- Python's search for an attribute: that of the first class that has it. -/
def search {α : Type} (mro : List (Cls P)) (get : Cls P → Option (Except PyErr α)) : Except PyErr α :=
  match mro.findSome? get with
  | some value => value
  | none => .error .attributeError

/-- bound.py 22–24, 87–89: `background_permittivity`. -/
def getBackground (b : Data P) (mro : List (Cls P)) : Except PyErr ℂ :=
  search mro fun
    | .bound => some (.ok b.background)
    | .electric => some (.ok 0)
    | .user _ own => own.background.map .ok
    | _ => none

/-- bound.py 27–28, 92–97, 186–193: `electric_susceptibility`. -/
noncomputable def getElectric (b : Data P) (mro : List (Cls P)) : Except PyErr (Raw P) :=
  search mro fun
    | .bound => some (.ok (.array fun _ => 0))
    | .electric => some (.ok .notImplemented)
    | .absorbing => some (do
        let background ← getBackground b mro
        let kappa ← b.extinction
        return .array fun p => susceptibility background (kappa p))
    | .user _ own => own.electric.map fun values => .ok (.array values)
    | _ => none

/-- bound.py 42–43, 100–105: `magnetic_susceptibility`. -/
def getMagnetic (mro : List (Cls P)) : Except PyErr (Raw P) :=
  search mro fun
    | .bound => some (.ok (.array fun _ => 0))
    | .magnetic => some (.ok .notImplemented)
    | .user _ own => own.magnetic.map fun values => .ok (.array values)
    | _ => none

/-- bound.py 31–36: `permittivity`. -/
noncomputable def getPermittivity (b : Data P) (mro : List (Cls P)) : Except PyErr (P → ℂ) :=
  search mro fun
    | .electric => some (do
        let background ← getBackground b mro
        let chi ← getElectric b mro
        addNumber background chi)
    | .user _ own => own.permittivity.map .ok
    | _ => none

/-- bound.py 46–51: `permeability`. -/
def getPermeability (mro : List (Cls P)) : Except PyErr (P → ℂ) :=
  search mro fun
    | .magnetic => some (do
        let chi ← getMagnetic mro
        addNumber 1 chi)
    | .user _ own => own.permeability.map .ok
    | _ => none

/-- `isinstance(bound, Electric)` -/
def isElectric (mro : List (Cls P)) : Bool := mro.any fun c => match c with | .electric => true | _ => false

/-- `isinstance(bound, Magnetic)` -/
def isMagnetic (mro : List (Cls P)) : Bool := mro.any fun c => match c with | .magnetic => true | _ => false

/-- solver.py 241–253: what is added to the permittivity and to the permeability. -/
noncomputable def contributions (b : Data P) (mro : List (Cls P)) : Except PyErr ((P → ℂ) × (P → ℂ)) := do
  let epsilon ← if isElectric mro then (do asArray (← getElectric b mro)) else .ok fun _ => 0
  let mu ← if isMagnetic mro then (do asArray (← getMagnetic mro)) else .ok fun _ => 0
  return (epsilon, mu)

end Verif.Bound
