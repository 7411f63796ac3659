import Verif.Model.Solve

/-!
# Model of python/macromax/matrix.py 650–670: fields that a ScatteringMatrix or DepositionMatrix calculates with its Solution object
-/

namespace Verif.Solver

open Verif Verif.Fourier Verif.Backend Complex

variable {d n : ℕ} {N : Fin d → ℕ}

/-- matrix.py 660–661: the Solution object with the source, and with the field 0. -/
noncomputable def reset (k0 : ℝ) (s : State n N) (S : Field n N) : State n N := setE k0 (setSource s S) 0

/-- matrix.py 650–670: `source2detfield`, up to `i` iterations.  It returns the field `E` of the Solution object (`getE`). -/
noncomputable def source2detfield (kind : Kind d n) (k : Fin d → Idx N → ℝ) (k0 : ℝ) (callback : Callback Unit n N) (s : State n N) (S : Field n N) (i : ℕ) :
    Outcome Unit n N :=
  solve kind k (.function callback) 0 ⊤ (reset k0 s S) i

/-- matrix.py 363: the default callback of a ScatteringMatrix, `lambda s: s.iteration < 1e4 and s.residue > 1e-6`. -/
noncomputable def matrixCallback : Callback Unit n N := criterion ((1e4 : ℝ) : WithTop ℝ) 1e-6

end Verif.Solver
