import Verif.Model.Config

/-!
# Model of the selection of a device for PyTorch (python/macromax/backend/__init__.py 966–1000, python/macromax/backend/torch.py 25–60)
-/

namespace Verif.Config

open Verif

/-- What the code asks from Python and PyTorch about the machine.
`number` is Python's `int(...)`, which raises a ValueError for what is not a number; `clean` is `.strip().lower()`. -/
structure Machine where
  /-- `import torch` succeeds. -/
  installed : Bool
  /-- `torch.cuda.is_available()` -/
  cuda : Bool
  /-- `torch.cuda.device_count()` -/
  count : ℕ
  /-- `import torch.fft` succeeds. -/
  fft : Bool
  /-- `torch.device(...)` does not raise an exception. -/
  accepts : String → Bool
  /-- An array can be allocated and subtracted from itself on the default GPU. -/
  works : Bool
  number : String → Option ℤ
  clean : String → String

/-- torch.py 49–59: `torch.device(device)`, and for the default GPU a test whether it works; `none` stands for an exception. -/
def Machine.use (M : Machine) (dev : String) : Option String := if M.accepts dev && (decide (dev ≠ "cuda") || M.works) then some dev else none

/-- torch.py 41–47: the device when none or the default GPU is asked for. -/
def Machine.default (M : Machine) : Option String → String
  | none => if M.cuda then "cuda" else "cpu"
  | some dev => if dev = "cuda" then (if M.cuda then "cuda" else "cpu") else dev

/-- torch.py 41–59: the device of `BackEndTorch(..., device=dev)`; `none` if it raises an exception, all of which are caught in backend/__init__.py 998. The rest of the constructor is assumed to succeed. -/
def Machine.init (M : Machine) (dev : Option String) : Option String :=
  let dev := M.default dev
  if dev.length > 4 then
    match M.number (String.ofList ((M.clean dev).toList.drop 5)) with
    | none => none
    | some i => if i > (M.count : ℤ) - 1 then M.use "cuda" else M.use dev
  else M.use dev

/-- backend/__init__.py 976: `device.startswith('cuda')`. -/
def wantCuda : Option String → Bool
  | none => false
  | some dev => decide (dev.toList.take 4 = ['c', 'u', 'd', 'a'])

/-- backend/__init__.py 970–1000: the device of the PyTorch back end, after the replacement of `gpu`; `none` if it cannot be loaded. -/
def Machine.torch (M : Machine) (dev : Option String) : Option String :=
  if !M.installed then none
  else if wantCuda dev && !(M.cuda && decide (0 < M.count)) then none
  else if !M.fft then none
  else M.init dev

/-- The device that PyTorch uses; none for NumPy. -/
def Machine.deviceOf (M : Machine) : Backend → Option String
  | .numpy => none
  | .torch dev => M.torch dev

/-- `load` on this machine: the device of the back end. -/
def Machine.load (M : Machine) (lower : String → String) (l : List Item) : Except PyErr (Option String) :=
  (loadWith lower (fun dev => (M.torch dev).isSome) l).1.map M.deviceOf

end Verif.Config
