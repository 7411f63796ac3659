import Verif.Lemmas.Scattering
import Verif.Props.Backend

/-!
# The coordinates that the model of the scattering matrix uses are those of the grid
-/

namespace Verif.Scattering

open Verif.Fourier Verif.Backend Verif.Grid

variable {d : ℕ}

/-- The position of a sample along the propagation axis is the coordinate of the grid. -/
theorem ofGrid_position (g : Grid.Obj (d + 1) ℝ) (k0 tol : ℝ) (h : g.originAtCenter 0 = true) (i : Fin (g.shape 0)) :
    (g.coords 0)[(i : ℕ)]? = some ((Setup.ofGrid g k0 tol).position i) := by
  rw [Grid.C02_ordered g 0 h]
  simp [Spec.Grid.samples, Setup.position, Setup.ofGrid, Grid.C02_first]

/-- The transverse position of a sample is given by the coordinates of the grid. -/
theorem ofGrid_transverse (g : Grid.Obj (d + 1) ℝ) (k0 tol : ℝ) (a : Fin d) (h : g.originAtCenter a.succ = true) (x : Idx (Setup.ofGrid g k0 tol).shape) :
    (g.coords a.succ)[(x a : ℕ)]? = some ((Setup.ofGrid g k0 tol).transverse x a) := by
  have hx : (x a : ℕ) < g.shape a.succ := (x a).2
  rw [Grid.C02_ordered g a.succ h]
  simp [Spec.Grid.samples, Setup.transverse, Setup.ofGrid, Grid.C02_first, hx]

/-- The wavevectors are the coordinates of `grid.k`. -/
theorem ofGrid_kFft (g : Grid.Obj (d + 1) ℝ) (k0 tol : ℝ) (hs : ∀ a, 1 < g.shape a → g.step a ≠ 0) (a : Fin d) (x : Idx g.shape) :
    kOf g a.succ x = (Setup.ofGrid g k0 tol).kFft a (x a.succ) := by
  rw [C24_kOf g hs]
  unfold Setup.kFft centred
  show _ = 2 * Real.pi * (((if 2 * (x a.succ : ℕ) < g.shape a.succ then ((x a.succ : ℕ) : ℤ) else ((x a.succ : ℕ) : ℤ) - g.shape a.succ : ℤ) : ℝ) / (g.shape a.succ * g.step a.succ))
  congr 2
  split_ifs <;> push_cast <;> rfl

/-- The shifted wavevectors are the coordinates of `grid.k.as_origin_at_center`. -/
theorem ofGrid_kShifted (g : Grid.Obj (d + 1) ℝ) (k0 tol : ℝ) (hN : ∀ a, 1 ≤ g.shape a) (hs : ∀ a, 1 < g.shape a → g.step a ≠ 0) :
    ∃ f c, kGrid (2 * Real.pi) g = .ok f ∧ asOriginAtCenter f = .ok c ∧
      ∀ (a : Fin d) (j : Fin (g.shape a.succ)), (c.coords a.succ)[(j : ℕ)]? = some ((Setup.ofGrid g k0 tol).kShifted a j) := by
  obtain ⟨f, hf, hsh, -⟩ := Grid.C05_k (2 * Real.pi) g hN hs
  obtain ⟨c, b, hc, -, -, -, hcc, -, -, -⟩ := Grid.C09_origin f (by rw [hsh]; exact hN)
  refine ⟨f, c, hf, hc, fun a j => ?_⟩
  rw [hcc]
  have hf2 := hf
  unfold kGrid at hf2
  rw [freq_eq g hN hs] at hf2
  simp only [mul] at hf2
  rw [rebuild_eq hN] at hf2
  injection hf2 with hf2
  subst hf2
  have hj := j.2
  have hj2 : (List.range (g.shape a.succ))[(j : ℕ)]? = some (j : ℕ) := List.getElem?_range hj
  simp only [Spec.Grid.samples, List.getElem?_map, hj2, Option.map_some]
  congr 1
  simp only [Spec.Grid.firstSample, Spec.Grid.centerPos, Setup.kShifted, Setup.ofGrid, Obj.extent, if_true]
  rw [Int.cast_sub, Int.cast_natCast, Int.cast_natCast]
  ring

end Verif.Scattering
