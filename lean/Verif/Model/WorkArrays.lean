import Verif.Model.Solver

/-!
# Model of the work arrays of python/macromax/solver.py and python/macromax/backend

The model of `Model/Solver.lean` with references: the two pre-allocated arrays for Fourier transforms, the arrays that hold the field and the source, and all arrays that are
allocated on the way.  Operations change arrays in place, and return references, as the code does.  The transforms are those of NumPy and PyTorch, which return new arrays, or
those of FFTW, which write into the pre-allocated arrays and do not keep their input (`FFTW_DESTROY_INPUT`).  The arrays of the coefficients (`chiEE`, ...) are never handed out,
and remain values.  All fields have the shape of the pre-allocated arrays; `np.einsum(..., out=)` is as if its output did not overlap with its inputs.
-/

namespace Verif.WorkArrays

open Verif Verif.Fourier Verif.Backend Verif.Solver Complex

variable {d n : ℕ} {N : Fin d → ℕ}

/-- What is not determined by the code: whether `pyfftw` is installed (backend/numpy.py 48, 89), whether the data of an array are aligned as FFTW needs, and what FFTW leaves in its input; and
for which left factors `mul` writes to the array `out` that it is given: with NumPy for all (backend/\_\_init\_\_.py 432–442), with PyTorch only for factors that are stored as a scalar array
(backend/torch.py 233–248: the argument `out` is not used for others). -/
structure Env (n : ℕ) (N : Fin d → ℕ) where
  fftw : Bool
  aligned : ℕ → Bool
  junk : ℕ → Field n N → Field n N
  writes : Tensor n N → Bool

/-- All arrays.  References up to `next` are in use.  `fwd` and `bwd` are the inputs that the objects `fft_vec_object` and `ifft_vec_object` (backend/numpy.py 59, 62) refer to;
a call with an array that is not aligned copies its values into it. -/
structure Mem (n : ℕ) (N : Fin d → ℕ) where
  cells : ℕ → Field n N
  next : ℕ
  fwd : ℕ
  bwd : ℕ

/-- backend/__init__.py 259–264, 278–281: `array_ft_input`, `array_ift_output`; solver.py 216: `__d_field`. -/
def ftIn : ℕ := 0

/-- backend/__init__.py 266–276: `array_ft_output`, `array_ift_input`. -/
def ftOut : ℕ := 1

/-- solver.py: `__field_array`. -/
def fieldRef : ℕ := 2

/-- solver.py: `__source_normalized`. -/
def sourceRef : ℕ := 3

/-- A new array. -/
def Mem.alloc (m : Mem n N) (F : Field n N) : ℕ × Mem n N := (m.next, { m with cells := Function.update m.cells m.next F, next := m.next + 1 })

/-- An array is changed in place. -/
def Mem.set (m : Mem n N) (r : ℕ) (F : Field n N) : Mem n N := { m with cells := Function.update m.cells r F }

/-- backend/numpy.py 67–75, 92, torch.py 183–192: `ft`.  A call of `fft_vec_object` executes with its argument as input (70), or copies it into its previous input. -/
noncomputable def forward (e : Env n N) (r : ℕ) (m : Mem n N) : ℕ × Mem n N :=
  if e.fftw then
    if ∃ a, 1 < N a then
      let m := if e.aligned r then { m with fwd := r } else m.set m.fwd (m.cells r)
      let F := m.cells m.fwd
      (ftOut, (m.set ftOut fun c => ft (F c)).set m.fwd (e.junk m.fwd F))
    else m.alloc (m.cells r)
  else m.alloc fun c => ft (m.cells r c)

/-- backend/numpy.py 78–87, 93, torch.py 194–205: `ift`. -/
noncomputable def backward (e : Env n N) (r : ℕ) (m : Mem n N) : ℕ × Mem n N :=
  if e.fftw then
    if ∃ a, 1 < N a then
      let m := if e.aligned r then { m with bwd := r } else m.set m.bwd (m.cells r)
      let F := m.cells m.bwd
      (ftIn, (m.set ftIn fun c => ift (F c)).set m.bwd (e.junk m.bwd F))
    else m.alloc (m.cells r)
  else m.alloc fun c => ift (m.cells r c)

/-- backend/__init__.py 306–319, 472–509: `curl`; `curl_ft` returns a new array (509). -/
noncomputable def curlM (e : Env n N) (k : Fin d → Idx N → ℝ) (r : ℕ) (m : Mem n N) : ℕ × Mem n N :=
  let (q, m) := forward e r m
  let (c, m) := m.alloc (curlFt n k (m.cells q))
  backward e c m

/-- backend/__init__.py 607–649: `longitudinal_projection_ft` overwrites `array_ft_input`.  Its argument is no longer used when the result is written (642–647). -/
noncomputable def longitudinalFtM (k : Fin d → Idx N → ℝ) (h : d ≤ n) (r : ℕ) (m : Mem n N) : ℕ × Mem n N :=
  (ftIn, m.set ftIn (longitudinalFt k origin h (m.cells r)))

/-- backend/__init__.py 593–605: `transversal_projection_ft` overwrites `array_ift_input`. -/
noncomputable def transversalFtM (k : Fin d → Idx N → ℝ) (h : d ≤ n) (r : ℕ) (m : Mem n N) : ℕ × Mem n N :=
  let m := m.set ftOut (m.cells r)
  let (p, m) := longitudinalFtM k h r m
  (ftOut, m.set ftOut (m.cells ftOut - m.cells p))

/-- backend/__init__.py 306–319, 582–591: `longitudinal_projection`. -/
noncomputable def longitudinalM (e : Env n N) (k : Fin d → Idx N → ℝ) (h : d ≤ n) (r : ℕ) (m : Mem n N) : ℕ × Mem n N :=
  let (q, m) := forward e r m
  let (p, m) := longitudinalFtM k h q m
  backward e p m

/-- backend/__init__.py 306–319, 571–580: `transversal_projection`. -/
noncomputable def transversalM (e : Env n N) (k : Fin d → Idx N → ℝ) (h : d ≤ n) (r : ℕ) (m : Mem n N) : ℕ × Mem n N :=
  let (q, m) := forward e r m
  let (p, m) := transversalFtM k h q m
  backward e p m

/-- backend/\_\_init\_\_.py 415–444, backend/torch.py 219–248: `mul(A, E, out=E)`. -/
noncomputable def mulOutM (e : Env n N) (A : Tensor n N) (r : ℕ) (m : Mem n N) : ℕ × Mem n N :=
  if e.writes A then (r, m.set r (mulField A (m.cells r))) else m.alloc (mulField A (m.cells r))

/-- solver.py 530–560: `chi_op`.  `mul` returns a new array, unless it is given one. -/
noncomputable def chiOpM (e : Env n N) (k : Fin d → Idx N → ℝ) (s : State n N) (r : ℕ) (m : Mem n N) : ℕ × Mem n N :=
  if s.magnetic then
    let (chiE, m) := m.alloc (mulField s.chiEE (m.cells r))
    let (chiH, m) := m.alloc (mulField s.chiEH (m.cells r))
    let (ed, m) := curlM e k r m
    let (t, m) := m.alloc (mulField s.chiHE (m.cells ed))
    let m := m.set chiE (m.cells chiE + m.cells t)
    let (p, m) := mulOutM e s.chiHH ed m
    let m := m.set chiH (m.cells chiH + m.cells p)
    let (q, m) := curlM e k chiH m
    (chiE, m.set chiE (m.cells chiE + m.cells q))
  else mulOutM e s.chiEE r m

/-- solver.py 562–581: `g_ft_op`, which changes its argument in place. -/
noncomputable def greenFtM (k : Fin d → Idx N → ℝ) (alpha : ℂ) : {n : ℕ} → Kind d n → ℕ → Mem n N → Mem n N
  | _, .vectorial hd, r, m =>
    let (p, m) := longitudinalFtM k hd r m
    let m := m.set r (m.cells r - m.cells p)
    let m := m.set r fun c x => m.cells r c x * gScalar k alpha x
    let m := m.set p fun c x => m.cells p c x * (I * (alpha.im : ℂ) / alpha)
    m.set r (m.cells r + m.cells p)
  | _, .scalar, r, m => m.set r fun c x => m.cells r c x * gScalar k alpha x

/-- solver.py 583–584: `dyadic_green_function_op`. -/
noncomputable def greenM (e : Env n N) (kind : Kind d n) (k : Fin d → Idx N → ℝ) (alpha : ℂ) (r : ℕ) (m : Mem n N) : ℕ × Mem n N :=
  let (q, m) := forward e r m
  let m := greenFtM k alpha kind q m
  backward e q m

/-- solver.py 1070–1075: the change of the field. -/
noncomputable def updateM (e : Env n N) (kind : Kind d n) (k : Fin d → Idx N → ℝ) (s : State n N) (m : Mem n N) : ℕ × Mem n N :=
  let m := m.set ftIn (m.cells fieldRef)
  let (r, m) := chiOpM e k s ftIn m
  let m := m.set r (m.cells r + m.cells sourceRef)
  let (r, m) := greenM e kind k s.alpha r m
  let m := m.set r (m.cells r - m.cells fieldRef)
  chiOpM e k s r m

/-- solver.py 1064–1098: one pass of the loop of `__iter__`.  The field and the source of `s` are not used; they are in the memory. -/
noncomputable def stepM (e : Env n N) (kind : Kind d n) (k : Fin d → Idx N → ℝ) (s : State n N) (m : Mem n N) : Except PyErr (State n N × Mem n N) :=
  let s := { s with iteration := s.iteration + 1, residue := none }
  let (r, m) := updateM e kind k s m
  let current := Backend.norm (m.cells r)
  match divFloat current s.prevNorm with
  | .error err => .error err
  | .ok relative =>
    if relative < 1 then .ok ({ s with prevNorm := (current : ℝ) }, m.set fieldRef (m.cells fieldRef + m.cells r))
    else
      let alpha := increased s.alpha
      .ok (updateOperators s alpha, m.set sourceRef fun c x => m.cells sourceRef c x * ((s.alpha.im : ℂ) / (alpha.im : ℂ)))

/-! ### Accessors -/

/-- solver.py 812–822: the getter of `E`. -/
noncomputable def readE (k0 : ℝ) (m : Mem n N) : ℕ × Mem n N := m.alloc fun c x => m.cells fieldRef c x / (k0 ^ 2 : ℝ)

/-- solver.py 834–845: `B`. -/
noncomputable def readB (e : Env n N) (co : Const) (k0 : ℝ) (k : Fin d → Idx N → ℝ) (m : Mem n N) : ℕ × Mem n N :=
  let (a, m) := readE k0 m
  let (q, m) := curlM e k a m
  m.alloc fun c x => m.cells q c x / (I * (co.c : ℂ))

/-- solver.py 865–893: `H`. -/
noncomputable def readH (e : Env n N) (co : Const) (k0 : ℝ) (k : Fin d → Idx N → ℝ) (i0 : Fin n) (x0 : Idx N) (s : State n N) (m : Mem n N) : ℕ × Mem n N :=
  if s.magnetic then
    let muInv : Tensor n N := fun x => (s.beta : ℂ) • (1 - (-I * (s.alpha.im : ℂ)) • s.chiHH x)
    let coupling : Tensor n N := fun x => (-I * (s.alpha.im : ℂ)) • s.chiHE x
    let (a, m) := readE k0 m
    let (q, m) := curlM e k a m
    let (t, m) := m.alloc (mulField muInv (m.cells q))
    let (a, m) := readE k0 m
    let (u, m) := m.alloc (mulField coupling (m.cells a))
    m.alloc fun c x => I / ((co.mu0 : ℂ) * (co.c : ℂ)) * (-m.cells t c x + (s.beta : ℂ) * m.cells u c x)
  else
    let muInv : ℂ := (1 - s.chiHH x0 i0 i0 * (-I * (s.alpha.im : ℂ))) * (s.beta : ℂ)
    let (a, m) := readE k0 m
    let (q, m) := curlM e k a m
    let (t, m) := m.alloc fun c x => -I / ((co.mu0 : ℂ) * (co.c : ℂ)) * m.cells q c x
    m.alloc fun c x => muInv * m.cells t c x

/-- solver.py 847–863: `D` changes the array that `curl` returns in place, and returns a view of it. -/
noncomputable def readD (e : Env n N) (co : Const) (k0 : ℝ) (k : Fin d → Idx N → ℝ) (i0 : Fin n) (x0 : Idx N) (s : State n N) (m : Mem n N) : ℕ × Mem n N :=
  let (h, m) := readH e co k0 k i0 x0 s m
  let (q, m) := curlM e k h m
  let m := m.set q fun c x => m.cells q c x * (k0 : ℂ)
  let m := m.set q fun c x => m.cells q c x - ((s.beta : ℂ) / (I * (co.omega k0 : ℂ) * (co.mu0 : ℂ))) * (m.cells sourceRef c x * ((s.alpha.im : ℂ) / I))
  (q, m.set q fun c x => m.cells q c x * (I / (co.omega k0 : ℂ)))

/-- solver.py 691–701: the getter of `source_distribution`. -/
noncomputable def readSource (s : State n N) (m : Mem n N) : ℕ × Mem n N := m.alloc fun c x => m.cells sourceRef c x * ((s.beta : ℂ) / I * (s.alpha.im : ℂ))

/-- solver.py 824–832: the setter of `E`. -/
noncomputable def writeE (k0 : ℝ) (E : Field n N) (m : Mem n N) : Mem n N := m.set fieldRef fun c x => E c x * (k0 ^ 2 : ℝ)

/-- solver.py 703–720: the setter of `source_distribution`. -/
noncomputable def writeSource (s : State n N) (S : Field n N) (m : Mem n N) : Mem n N := m.set sourceRef fun c x => S c x * factor s.alpha s.beta

/-- solver.py 895–909: `S`. -/
noncomputable def readS (e : Env n N) (co : Const) (k0 : ℝ) (k : Fin d → Idx N → ℝ) (i0 : Fin n) (x0 : Idx N) (s : State n N) (m : Mem n N) : (Fin n → Idx N → ℝ) × Mem n N :=
  let (a, m) := readE k0 m
  let (h, m) := readH e co k0 k i0 x0 s m
  (fun c x => 1 / 2 * (cross (m.cells a) (fun c x => (starRingEnd ℂ) (m.cells h c x)) c x).re, m)

/-- solver.py 920–936: `energy_density`. -/
noncomputable def readEnergy (e : Env n N) (co : Const) (k0 : ℝ) (k : Fin d → Idx N → ℝ) (i0 : Fin n) (x0 : Idx N) (s : State n N) (m : Mem n N) : (Idx N → ℝ) × Mem n N :=
  let (a, m) := readE k0 m
  let (b, m) := readB e co k0 k m
  let (h, m) := readH e co k0 k i0 x0 s m
  let (q, m) := readD e co k0 k i0 x0 s m
  (fun x => (∑ c, (m.cells a c x * (starRingEnd ℂ) (m.cells q c x)).re + ∑ c, (m.cells b c x * (starRingEnd ℂ) (m.cells h c x)).re) * (0.5 * 0.5), m)

end Verif.WorkArrays
