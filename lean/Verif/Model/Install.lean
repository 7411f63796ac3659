import Verif.Model.Config

/-!
# Model of the choice of the library for Fourier transforms (python/macromax/utils/ft/ft_implementation.py 23–58, python/macromax/backend/numpy.py 23–96)

The statements that import a library and prepare it are taken as one: they succeed, or raise an exception.  `from ... import *` of a library that succeeds provides the four transforms.
-/

namespace Verif.Install

open Verif

/-- The exceptions that the code tells apart when a library is imported.  `ModuleNotFoundError` is an `ImportError`; `ImportError` stands for all others of these, such as a shared library that
cannot be loaded. -/
inductive Raised
  | moduleNotFound | importError | typeError | other
  deriving DecidableEq, Repr

/-- `except (ImportError, TypeError)`: ft_implementation.py 38, numpy.py 40. -/
def Raised.importOrType : Raised → Bool
  | .moduleNotFound => true
  | .importError => true
  | .typeError => true
  | .other => false

/-- `except (ModuleNotFoundError, TypeError)`: ft_implementation.py 45, 55. -/
def Raised.notFoundOrType : Raised → Bool
  | .moduleNotFound => true
  | .typeError => true
  | _ => false

/-- `except ModuleNotFoundError`: numpy.py 90. -/
def Raised.notFound : Raised → Bool
  | .moduleNotFound => true
  | _ => false

/-- `except ImportError`: backend/__init__.py 1010. -/
def Raised.anyImport : Raised → Bool
  | .moduleNotFound => true
  | .importError => true
  | _ => false

/-- The machine: `none` stands for statements that succeed. -/
structure Machine where
  /-- `os.cpu_count()` -/
  cpus : Option ℕ
  /-- `import mkl` and `mkl.set_num_threads(nb_threads)`: ft_implementation.py 36–37, numpy.py 38–39. -/
  mkl : Option Raised
  /-- `from mkl_fft import *`: ft_implementation.py 43. -/
  mklFft : Option Raised
  /-- `import pyfftw`: ft_implementation.py 47, numpy.py 47. -/
  pyfftw : Option Raised
  /-- `from pyfftw.interfaces.scipy_fft import *`, and the settings that follow: ft_implementation.py 48–52. -/
  interface : Option Raised
  /-- The construction of the two `pyfftw.FFTW` objects: numpy.py 60–64. -/
  plans : Option Raised

/-- `os.environ`. -/
abbrev Environ := String → Option String

/-- The libraries for Fourier transforms. -/
inductive Library
  | mkl | fftw | numpy
  deriving DecidableEq, Repr

/-- `os.environ[name] = value`. -/
def Environ.set (env : Environ) (name value : String) : Environ := fun s => if s = name then some value else env s

/-- ft_implementation.py 32–40, numpy.py 34–42: the number of threads.  Returns an exception that is not caught, and the environment. -/
def threads (M : Machine) (env : Environ) : Option Raised × Environ :=
  match M.cpus with
  | none => (none, env)
  | some n =>
    let env := ["OPENBLAS_NUM_THREADS", "OMP_NUM_THREADS", "MKL_NUM_THREADS"].foldl (fun env name => env.set name (toString n)) env
    (M.mkl.filter fun e => !e.importOrType, env)

/-- ft_implementation.py 42–58: the library that provides `fft`, `ifft`, `fftn` and `ifftn`. -/
def library (M : Machine) : Except Raised Library :=
  match M.mklFft with
  | none => .ok .mkl
  | some e =>
    if e.notFoundOrType then
      match M.pyfftw.orElse fun _ => M.interface with
      | none => .ok .fftw
      | some e => if e.notFoundOrType then .ok .numpy else .error e
    else .error e

/-- ft_implementation.py 32–58: the import of the module, which all modules of MacroMax do (`macromax/utils/ft/__init__.py` 4). -/
def importFt (M : Machine) (env : Environ) : Except Raised Library × Environ :=
  let (e, env) := threads M env
  match e with
  | some e => (.error e, env)
  | none => (library M, env)

/-- backend/numpy.py 34–96: the constructor of `BackEndNumpy`: the library that transforms arrays of the default shape; `lib` is that of the module `ft`. -/
def backEndNumpy (M : Machine) (lib : Library) (env : Environ) : Except Raised Library × Environ :=
  let (e, env) := threads M env
  match e with
  | some e => (.error e, env)
  | none =>
    match M.pyfftw.orElse fun _ => M.plans with
    | none => (.ok .fftw, env)
    | some e => if e.notFound then (.ok lib, env) else (.error e, env)

/-- What `load` returns: PyTorch with this device, or NumPy with this library for the transforms. -/
inductive Loaded
  | torch (device : Option String)
  | numpy (lib : Library)
  deriving DecidableEq, Repr

/-- What `load` raises. -/
inductive Failure
  /-- `TypeError('No viable backend detected!')`: backend/__init__.py 1012. -/
  | noBackEnd
  /-- An exception of the constructor of `BackEndNumpy` that is not an ImportError. -/
  | raised (e : Raised)
  deriving DecidableEq, Repr

/-- backend/__init__.py 964–1012: the loop over the configurations as `Config.tryAll`, in which also the NumPy back end may raise an exception.  Only for configurations that are dictionaries. -/
def tryAll (lower : String → String) (available : Option String → Bool) (M : Machine) (lib : Library) : List Config.Entry → Environ → Except Failure Loaded × Environ
  | [], env => (.error .noBackEnd, env)
  | e :: rest, env =>
    let type := lower (e.type.getD "unknown")
    if type = "torch" then
      if available (Config.device lower e) then (.ok (.torch (Config.device lower e)), env) else tryAll lower available M lib rest env
    else if type = "numpy" then
      match backEndNumpy M lib env with
      | (.ok lib, env) => (.ok (.numpy lib), env)
      | (.error e, env) => if e.anyImport then tryAll lower available M lib rest env else (.error (.raised e), env)
    else tryAll lower available M lib rest env

/-- backend/__init__.py 958–962. -/
def fallback : List Config.Entry :=
  [{ type := some "torch", device := some "cuda" }, { type := some "torch", device := some "cpu" }, { type := some "numpy" }]

/-- A program that imports MacroMax and loads a back end with the configurations `l`. -/
def start (lower : String → String) (available : Option String → Bool) (M : Machine) (l : List Config.Entry) (env : Environ) : Except Failure Loaded × Environ :=
  match importFt M env with
  | (.error e, env) => (.error (.raised e), env)
  | (.ok lib, env) => tryAll lower available M lib (l ++ fallback) env

end Verif.Install
