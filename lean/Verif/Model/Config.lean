import Verif.Num

/-!
# Model of the selection of a back end (python/macromax/backend/__init__.py 883–1012)
-/

namespace Verif.Config

open Verif

/-- A configuration dictionary; other keys are not used. -/
structure Entry where
  type : Option String := none
  device : Option String := none
  deriving DecidableEq, Repr

/-- What may be in the configuration list: a dictionary, or what is not a dictionary: a list of dictionaries, a list of strings, or a string. -/
inductive Item where
  | dict (e : Entry)
  | entries (es : List Entry)
  | strings (ss : List String)
  | text (s : String)
  deriving DecidableEq, Repr

/-- The back end that was loaded. -/
inductive Backend where
  | numpy
  | torch (device : Option String)
  deriving DecidableEq, Repr

/-- The contents of `backend_config.json` in the current folder. -/
inductive File where
  | missing
  | malformed
  | list (l : List Item)
  | dict (e : Entry)

/-- The value of the global variable `__config_list`. -/
abbrev State := Option (List Item)

/-- `'type' in _`: for a string that is whether it contains this text, which is an argument here. -/
def mentionsType (contains : String → Bool) : Item → Bool
  | .dict e => e.type.isSome
  | .entries _ => false
  | .strings ss => ss.contains "type"
  | .text s => contains s

/-- `isinstance(_, Dict)`. -/
def Item.isDict : Item → Bool
  | .dict _ => true
  | _ => false

/-- backend/__init__.py 883–919: `config(*args, **kwargs)`. -/
def config (contains : String → Bool) (args : List Item) (kwargs : Entry) (st : State) : Except PyErr Unit × State :=
  let args := args ++ [.dict kwargs]
  if args.any fun i => !i.isDict && mentionsType contains i then (.error .typeError, st) else (.ok (), some args)

/-- backend/__init__.py 958–962. -/
def fallback : List Item :=
  [.dict { type := some "torch", device := some "cuda" }, .dict { type := some "torch", device := some "cpu" },
   .dict { type := some "numpy" }]

/-- backend/__init__.py 974–975: `if device.startswith('gpu'): device = 'cuda' + device[3:]`. -/
def gpuAlias (s : String) : String :=
  match s.toList with
  | 'g' :: 'p' :: 'u' :: t => "cuda" ++ String.ofList t
  | _ => s

/-- backend/__init__.py 967–975: the device in lower case, `gpu` is an alternative for `cuda`. -/
def device (lower : String → String) (e : Entry) : Option String := e.device.map fun s => gpuAlias (lower s)

/-- backend/__init__.py 964–1011: the loop over the configurations.  `available` tells whether PyTorch can be loaded with this
device; all problems with PyTorch raise an ImportError which is caught in line 1010. -/
def tryAll (lower : String → String) (available : Option String → Bool) : List Item → Except PyErr Backend
  | [] => .error .typeError
  | .dict e :: rest =>
    let type := lower (e.type.getD "unknown")
    if type = "torch" then
      if available (device lower e) then .ok (.torch (device lower e)) else tryAll lower available rest
    else if type = "numpy" then .ok .numpy
    else tryAll lower available rest
  | _ :: _ => .error .attributeError

/-- backend/__init__.py 943–956: the configuration list before the fall-backs are added, when none is given as an argument.  In line 949 `config` is
the function, not the contents of the file, so that a dictionary is not put in a list. -/
def defaultList (file : File) : State → Except PyErr (List Item)
  | some l => .ok l
  | none =>
    match file with
    | .missing => .ok []
    | .malformed => .ok []
    | .list l => .ok l
    | .dict _ => .error .typeError

/-- backend/__init__.py 922–1012: `load` without the argument `config_list`: `config_list += [...]` in line 958 changes the
global list in place; the list that was read from a file is forgotten. -/
def load (lower : String → String) (available : Option String → Bool) (file : File) (st : State) : Except PyErr Backend × State :=
  match defaultList file st with
  | .error e => (.error e, st)
  | .ok l => (tryAll lower available (l ++ fallback), st.map fun _ => l ++ fallback)

/-- `load` with the argument `config_list`: the result, and the value of the caller's list afterwards. -/
def loadWith (lower : String → String) (available : Option String → Bool) (l : List Item) : Except PyErr Backend × List Item :=
  (tryAll lower available (l ++ fallback), l ++ fallback)

end Verif.Config
