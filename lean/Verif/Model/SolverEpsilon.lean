import Verif.Model.Solver

/-!
# Model of python/macromax/solver.py: the permittivity and refractive index as arguments and attributes
-/

namespace Verif.Solver

open Verif Verif.Fourier Complex

variable {d n : ℕ} {N : Fin d → ℕ}

/-- solver.py 233–234: the factor `1 - 2 * (real(refractive_index) < 0)`. -/
noncomputable def indexSign (index : Idx N → ℂ) (x : Idx N) : ℂ := 1 - 2 * (if (index x).re < 0 then 1 else 0)

/-- solver.py 227–236: permittivity and permeability for a refractive index that is a number at each point.  Without negative numbers the
factors are 1 and the code leaves them out. -/
noncomputable def indexMedium (index : Idx N → ℂ) (mu : Tensor n N) : Tensor n N × Tensor n N :=
  (fun x => (index x * index x * indexSign index x) • 1, fun x => indexSign index x • mu x)

/-- solver.py 227–236: the same for a refractive index that is a matrix at each point: its sign is not considered. -/
noncomputable def indexMediumTensor (index mu : Tensor n N) : Tensor n N × Tensor n N := (fun x => index x * index x, mu)

/-- solver.py 242–246: the permittivity with that of the boundary. -/
noncomputable def withBound (boundChi : Idx N → ℂ) (epsilon : Tensor n N) : Tensor n N :=
  fun x => epsilon x + boundChi x • (1 : Matrix (Fin n) (Fin n) ℂ)

/-- solver.py 755–786: the setter of `epsilon`, where the constants that `__prepare_preconditioner` chooses are `alpha` and `beta`, and whether it
finds the medium magnetic is `magnetic`.  The attributes for the iteration number and residue are not changed. -/
noncomputable def setEpsilon (boundChi : Idx N → ℂ) (i0 : Fin n) (x0 : Idx N) (magnetic : Bool) (alpha : ℂ) (beta : ℝ) (s : State n N) (epsilon : Tensor n N) :
    State n N :=
  { prepare (assignedMedium boundChi i0 x0 s epsilon) magnetic alpha beta (getSource s) s.field with iteration := s.iteration, residue := s.residue }

/-- solver.py 728–730: the setter of `refractive_index` squares the elements of the array. -/
noncomputable def setIndex (boundChi : Idx N → ℂ) (i0 : Fin n) (x0 : Idx N) (magnetic : Bool) (alpha : ℂ) (beta : ℝ) (s : State n N) (index : Tensor n N) :
    State n N :=
  setEpsilon boundChi i0 x0 magnetic alpha beta s fun x => Matrix.of fun i j => index x i j ^ 2

end Verif.Solver
