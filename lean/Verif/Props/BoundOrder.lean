import Verif.Props.Bound

/-!
# C20 and C21 on grids with the origin at index 0 (`origin_at_center=False`)

`bound.py` takes the first and the last element of the coordinates of an axis for its edges.  On a grid in the order of the Fourier
transform these are the centre and its neighbour.
-/

set_option linter.unusedSectionVars false

namespace Verif.Bound

open Verif Verif.Grid Verif.Spec.Grid Verif.Spec.Bound

section
variable {n : ℕ} {K : Type} [Field K] [LinearOrder K] [IsStrictOrderedRing K] [FloorRing K]

/-- The first element of the coordinates is the sample in the middle. -/
theorem firstOf_shifted {b : Absorbing n K} {a : Fin n} (ho : b.grid.originAtCenter a = false) (hN : 2 ≤ b.grid.shape a) :
    firstOf b a = (axisOf b.grid a).first + ((b.grid.shape a / 2 : ℕ) : K) * b.grid.step a := by
  unfold firstOf
  rw [coords_eq]
  obtain ⟨m, hm⟩ : ∃ m, b.grid.shape a = m + 2 := ⟨b.grid.shape a - 2, by omega⟩
  have h2 : (m + 2) / 2 < m + 2 := by omega
  simp only [ho, Bool.false_eq_true, if_false, fftOrder, hm]
  rw [List.range_succ_eq_map]
  simp only [List.map_cons, List.headD_cons, zero_add, Nat.mod_eq_of_lt h2]
  simp [axisOf, Axis.first, hm]

/-- The last element of the coordinates is the sample before that in the middle. -/
theorem lastOf_shifted {b : Absorbing n K} {a : Fin n} (ho : b.grid.originAtCenter a = false) (hN : 2 ≤ b.grid.shape a) :
    lastOf b a = firstOf b a - b.grid.step a := by
  rw [firstOf_shifted ho hN]
  unfold lastOf
  rw [coords_eq]
  obtain ⟨m, hm⟩ : ∃ m, b.grid.shape a = m + 2 := ⟨b.grid.shape a - 2, by omega⟩
  have h2 : (m + 1 + (m + 2) / 2) % (m + 2) = (m + 2) / 2 - 1 := by
    have : m + 1 + (m + 2) / 2 = (m + 2) + ((m + 2) / 2 - 1) := by omega
    rw [this, Nat.add_mod_left, Nat.mod_eq_of_lt (by omega)]
  have h3 : (((m + 2) / 2 - 1 : ℕ) : K) = (((m + 2) / 2 : ℕ) : K) - 1 := by
    rw [Nat.cast_sub (by omega), Nat.cast_one]
  simp only [ho, Bool.false_eq_true, if_false, fftOrder, hm]
  rw [List.range_succ]
  simp only [List.map_append, List.map_cons, List.map_nil, h2, List.getLastD_concat, h3, axisOf, Axis.first, hm]
  ring

/-- **C20 is violated on axes with the origin at index 0**: with two or more samples along such an axis, no point is considered between the
boundaries, whatever the (non-negative) thickness, including for periodic boundaries. -/
theorem C20_origin_violates {b : Absorbing n K} {a : Fin n} (ho : b.grid.originAtCenter a = false) (hs : 0 < b.grid.step a)
    (hN : 2 ≤ b.grid.shape a) (ht : ∀ s, 0 ≤ b.thickness a s) (p : Fin n → K) : between b p = false := by
  rw [← Bool.not_eq_true, between_iff]
  intro h
  have h := h a
  rw [lastOf_shifted ho hN] at h
  linarith [ht false, ht true, h.1, h.2]

/-- **C21 is violated on axes with the origin at index 0**: at the points in the middle of the volume a linear bound has more than its maximum
extinction. -/
theorem C21_origin_violates {grid : Obj n K} {thickness kappaMax : Fin n → Bool → K} (hm : grid.multidimensional = true) {a : Fin n}
    (ho : grid.originAtCenter a = false) (hs : 0 < grid.step a) (hN : 2 ≤ grid.shape a) (hc : grid.centerAtIndex a = true) {p : Fin n → K}
    (hp : ∀ i, p i ∈ grid.coords i) (hpc : p a = grid.center a) (ht : 0 < thickness a true) (hk : 0 < kappaMax a true) :
    ∃ kappa, extinction (linear grid thickness kappaMax) p = .ok kappa ∧ kappaMax a true < kappa := by
  refine ⟨_, by rw [extinction, if_pos (show (linear grid thickness kappaMax).grid.multidimensional = true from hm)], ?_⟩
  rw [foldl_update (b := linear grid thickness kappaMax) hp _ le_rfl]
  refine lt_of_lt_of_le ?_ ((le_foldl_max (sides n) (term (linear grid thickness kappaMax) p) (0 : K)).2 (a, true) (mem_sides _))
  have hmid : p a = firstOf (linear grid thickness kappaMax) a := by
    rw [firstOf_shifted (b := linear grid thickness kappaMax) ho hN, hpc]
    simp [linear, axisOf, Axis.first, firstSample, centerPos, hc]
  have hst : signedThickness (linear grid thickness kappaMax) a true = thickness a true := by
    unfold signedThickness
    rw [show (linear grid thickness kappaMax).grid.step a = grid.step a from rfl, signK_pos hs, mul_one]; rfl
  have hd : depth (linear grid thickness kappaMax) a true (p a) = grid.step a + thickness a true := by
    unfold depth
    rw [hst, lastOf_shifted (b := linear grid thickness kappaMax) ho hN, ← hmid,
      show (linear grid thickness kappaMax).grid.step a = grid.step a from rfl, signK_pos hs]
    simp only [Bool.not_true, Bool.false_eq_true, if_false, mul_one]
    ring
  unfold term
  simp only [hd, hst]
  rw [if_pos (by linarith)]
  change kappaMax a true < kappaMax a true * _
  rw [add_div, div_self ht.ne']
  have := mul_pos hk (div_pos hs ht)
  linarith [mul_add (kappaMax a true) (grid.step a / thickness a true) 1]

/-! ### Examples -/

/-- Five samples at 2, 3, 4, 0, 1. -/
def shiftedGrid : Obj 1 ℚ := { exampleGrid 1 with originAtCenter := fun _ => false }

example : shiftedGrid.coords 0 = [2, 3, 4, 0, 1] := by decide +kernel

example : [2, 3, 4, 0, 1].map (fun x => between (linear shiftedGrid (fun _ _ => 0) (fun _ _ => 1)) ![x]) =
    [false, false, false, false, false] := by decide +kernel

example : [2, 3, 4, 0, 1].map (fun x => (extinction (linear shiftedGrid (fun _ _ => 1) (fun _ _ => 1)) ![x]).toOption) =
    [some 2, some 3, some 4, some 3, some 2] := by decide +kernel

example (p : Fin 1 → ℚ) : between (linear shiftedGrid (fun _ _ => 0) (fun _ _ => 1)) p = false :=
  C20_origin_violates (a := 0) rfl (by decide +kernel) (by decide) (fun _ => le_rfl) p

example : ∃ kappa, extinction (linear shiftedGrid (fun _ _ => 1) (fun _ _ => 1)) ![2] = .ok kappa ∧ 1 < kappa :=
  C21_origin_violates (a := 0) rfl rfl (by decide +kernel) (by decide) rfl
    (fun i => by rw [Subsingleton.elim i 0]; decide +kernel) rfl one_pos one_pos

end

end Verif.Bound
