import Verif.Model.EigenBias
import Verif.Model.Problem

/-!
# Model of the constructor with the eigenvalues as they are calculated, python/macromax/solver.py 93–471

The same as `Args.construct`, with the constants of `Model.EigenBias`.  `eps` is the precision of the data type, and `torch` the back end.
-/

namespace Verif.Problem

open Verif Verif.Solver Verif.Construct Complex
open Verif.Assign (toMatrixField full)

variable {d : ℕ}

/-- solver.py 93–471: the state of the Solution object.  319: the gain that is allowed is the square root of the precision. -/
noncomputable def Args.constructComputed (co : Const) (p : Args d) (n : ℕ) [NeZero n] (eps : ℝ) (torch : Bool) (o : Optimum) : Except PyErr (State n p.grid.shape) :=
  if h : ∀ a, 0 < p.grid.shape a then do
    let k0 := p.frequency.k0 co.c
    let field ← Assign.assign n p.grid.shape ⟨p.initial.shape, fun i => p.initial.val i * ((k0 ^ 2 : ℝ) : ℂ)⟩ (full n p.grid.shape)
    let (m, isMagnetic) ← p.medium n
    let (alpha, beta) := if isMagnetic then m.magneticWith (spectrum eps torch) p.grid.step k0 p.thickness o.vec
      else m.nonMagneticWith (spectrum eps torch) √eps k0 p.thickness 0 (fun a => ⟨0, h a⟩) o.alphaR
    let source ← addedSource n p.grid.shape (toMatrixField d (p.source.resolve (List.ofFn p.grid.shape) (p.currentFactor co)).2)
    return prepare m isMagnetic alpha beta (toField source) (toField field)
  else .error .valueError

/-- solver.py 187–200: the number of components follows from `vectorial`. -/
noncomputable def Args.startComputed (co : Const) (p : Args d) (eps : ℝ) (torch : Bool) (o : Optimum) : Except PyErr (Σ n, State n p.grid.shape) :=
  if p.vectorial co then (p.constructComputed co 3 eps torch o).map fun s => ⟨3, s⟩ else (p.constructComputed co 1 eps torch o).map fun s => ⟨1, s⟩

end Verif.Problem
