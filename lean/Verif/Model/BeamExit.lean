import Verif.Model.BeamArgs

/-!
# Model of `Beam.beam_section_at_exit` (python/macromax/utils/beam.py 445–463)

The sections that the generator yields are not read.  The section that is returned is the section of the beam itself, so that the result is also the state of the beam afterwards.
-/

namespace Verif.Beam

variable {o : Optics} {P : Projection}

/-- beam.py 456–458, 478–489: the loop over the sections, of which the last is kept. -/
noncomputable def passThrough (step : ℝ) : List (Option Arg × Option Arg) → Option (Section o P) → Section o P → Except PyErr (Option (Section o P))
  | [], last, _ => .ok last
  | (e, n) :: rest, _, s => do
    let s ← propagateArgs s step e n
    passThrough step rest (some s) s

/-- beam.py 445–463: `beam_section_at_exit`, for a grid with `N` samples along the propagation axis. -/
noncomputable def sectionAtExit (N : ℕ) (step : ℝ) (s : Section o P) (eps n : Option (List (Option Arg))) : Except PyErr (Section o P) := do
  let last ← passThrough step (sections N eps n) none s
  match last with
  | some last => pure last
  | none => pure s

end Verif.Beam
