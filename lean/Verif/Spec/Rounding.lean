import Verif.Model.SolverRounding

/-!
# What it means that an iteration contracts, and that rounding errors are small
-/

namespace Verif.Solver

open Verif Verif.Fourier Verif.Backend Complex

variable {d n : ℕ} {N : Fin d → ℕ}

/-- An exact iteration with the operators and the source of `s` brings any two fields together by a factor `q < 1`, and does not change `P`. -/
def Contraction (kind : Kind d n) (k : Fin d → Idx N → ℝ) (s : State n N) (P : Field n N) (q : ℝ) : Prop :=
  0 ≤ q ∧ q < 1 ∧ update kind k { s with field := P } = 0 ∧
    ∀ F G, Backend.norm ((F + update kind k { s with field := F }) - (G + update kind k { s with field := G })) ≤ q * Backend.norm (F - G)

/-- All errors are at most `ε`. -/
def Rounding.Within (r : Rounding n N) (ε : ℝ) : Prop := Backend.norm r.change ≤ ε ∧ Backend.norm r.sum ≤ ε ∧ |r.norm| ≤ ε ∧ |r.fieldNorm| ≤ ε

end Verif.Solver
