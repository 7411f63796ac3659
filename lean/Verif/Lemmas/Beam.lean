import Verif.Model.Beam
import Verif.Props.Fourier
import Verif.Props.Backend

/-!
# Lemmas about the model of utils/beam.py
-/

namespace Verif.Beam

open Verif.Fourier Verif.Backend Complex

variable {o : Optics} {P : Projection}

/-- The steps of the grid of a section are not zero along the axes with more than one sample. -/
def Optics.Stepped (o : Optics) : Prop := ∀ a, 1 < o.grid.shape a → o.grid.step a ≠ 0

/-- The field that a section represents, including the propagation that has been deferred. -/
noncomputable def current (s : Section o P) : Arr o P := advance s.distance s.fieldFt

/-- No propagation is deferred, or more than the tolerance of `np.isclose`. -/
def Settled (s : Section o P) : Prop := s.distance = 0 ∨ 1e-8 < |s.distance|

theorem norm_phase (x : ℝ) : ‖exp (I * (x : ℂ))‖ = 1 := by rw [mul_comm]; exact norm_exp_ofReal_mul_I x

theorem norm_advance (d : ℝ) (F : Arr o P) (c : Fin P.c) (q : Idx o.grid.shape) : ‖advance d F c q‖ = ‖F c q‖ := by
  unfold advance
  rw [norm_mul, norm_phase, mul_one]

theorem advance_advance (a b : ℝ) (F : Arr o P) : advance a (advance b F) = advance (b + a) F := by
  funext c q
  unfold advance
  rw [mul_assoc, ← exp_add]
  congr 2
  push_cast
  ring

theorem advance_zero (F : Arr o P) : advance 0 F = F := by
  funext c q
  unfold advance
  simp

theorem allClose0_advance (d : ℝ) (F : Arr o P) : AllClose0 (advance d F) ↔ AllClose0 F := by
  unfold AllClose0
  simp only [norm_advance]

theorem norm_shift (q : Idx o.grid.shape) : ‖o.shift q‖ = 1 := norm_phase _

theorem shift_mul_conj (q : Idx o.grid.shape) : o.shift q * (starRingEnd ℂ) (o.shift q) = 1 := by
  rw [mul_conj, normSq_eq_norm_sq, norm_shift]
  simp

theorem current_readFt (s : Section o P) : current (readFt s).2 = current s := by
  unfold readFt current
  split_ifs
  · rfl
  · exact advance_zero _

/-- What is read lags behind by at most the tolerance. -/
theorem readFt_lag (s : Section o P) : ∃ lag : ℝ, |lag| ≤ 1e-8 ∧ (readFt s).1 = advance (-lag) (current s) ∧ (readFt s).2.distance = lag := by
  unfold readFt current
  split_ifs with h
  · refine ⟨s.distance, h, ?_, rfl⟩
    rw [advance_advance, add_neg_cancel, advance_zero]
  · refine ⟨0, by norm_num, ?_, rfl⟩
    rw [neg_zero, advance_zero]

theorem readFt_settled {s : Section o P} (h : Settled s) : (readFt s).1 = current s ∧ (readFt s).2.distance = 0 := by
  unfold readFt current
  rcases h with h | h
  · rw [if_pos (by rw [h]; norm_num)]
    refine ⟨?_, h⟩
    rw [h, advance_zero]
  · rw [if_neg (not_le.2 h)]
    exact ⟨rfl, rfl⟩

theorem kOf_singleton (hs : o.Stepped) {a : Fin 3} (h : ¬ 1 < o.grid.shape a) (q : Idx o.grid.shape) : kOf o.grid a q = 0 := by
  rw [C24_kOf o.grid hs]
  have := (q a).isLt
  have h0 : (q a : ℕ) = 0 := by omega
  rw [h0, if_pos (by omega)]
  simp

theorem shift_point (hs : o.Stepped) (h : ¬ o.Extended) (q : Idx o.grid.shape) : o.shift q = 1 := by
  unfold Optics.shift
  rw [Finset.sum_eq_zero fun a _ => by rw [kOf_singleton hs (fun ha => h ⟨a, ha⟩), zero_mul]]
  simp

theorem idx_point (h : ¬ o.Extended) (x y : Idx o.grid.shape) : x = y := by
  funext a
  have h1 := (x a).isLt
  have h2 := (y a).isLt
  have h3 : ¬ 1 < o.grid.shape a := fun ha => h ⟨a, ha⟩
  exact Fin.ext (by omega)

theorem ft_point (h : ¬ o.Extended) (f : Idx o.grid.shape → ℂ) : ft f = f := by
  funext q
  have : Subsingleton (Idx o.grid.shape) := ⟨idx_point h⟩
  unfold ft
  rw [Fintype.sum_subsingleton _ q, Finset.prod_eq_one, mul_one]
  intro a _
  have h1 := (q a).isLt
  have h3 : ¬ 1 < o.grid.shape a := fun ha => h ⟨a, ha⟩
  have h0 : (q a : ℕ) = 0 := by omega
  simp [twiddle, h0]

theorem ift_point (h : ¬ o.Extended) (f : Idx o.grid.shape → ℂ) : ift f = f := by
  conv_lhs => rw [← ft_point h f]
  exact C23_ift_ft f

/-- The field is the inverse transform, unless it is considered to be zero. -/
theorem fieldOf_eq (hs : o.Stepped) {F : Arr o P} (h : o.Extended → ¬ AllClose0 F) (c : Fin P.c) : fieldOf F c = ift fun q => F c q * o.shift q := by
  unfold fieldOf
  by_cases he : o.Extended
  · rw [if_pos he, if_neg (h he)]
  · rw [if_neg he, ift_point he]
    funext q
    rw [shift_point hs he, mul_one]

theorem fieldOf_zero {F : Arr o P} (h : ∀ c q, F c q = 0) : fieldOf F = fun _ _ => 0 := by
  unfold fieldOf
  have : AllClose0 F := fun c q => by rw [h c q]; norm_num
  split_ifs
  · rfl
  · funext c q; exact h c q

theorem write_eq (hs : o.Stepped) (f : Arr o P) : write f = update fun c q => ft (f c) q * (starRingEnd ℂ) (o.shift q) := by
  unfold write
  by_cases he : o.Extended
  · rw [if_pos he]
  · rw [if_neg he]
    congr 1
    funext c q
    rw [ft_point he, shift_point hs he]
    simp

/-- The homogeneous propagation is deferred. -/
theorem propagate_none (h : ∀ a, 0 < o.grid.shape a) (s : Section o P) (d : ℝ) : propagate h s d none = { s with distance := s.distance + d } := by
  unfold propagate
  simp only [Option.map_none, Option.getD_none]
  rcases lt_trichotomy d 0 with hd | hd | hd
  · rw [if_pos hd, if_neg (not_lt.2 hd.le)]
  · subst hd
    simp
  · rw [if_neg (not_lt.2 hd.le), if_pos hd]

theorem current_propagate_none (h : ∀ a, 0 < o.grid.shape a) (s : Section o P) (d : ℝ) : current (propagate h s d none) = advance d (current s) := by
  rw [propagate_none]
  unfold current
  rw [advance_advance]

theorem current_update (F : Arr o P) : current (update F) = fun c q => P.project (o.kDir q) (fun c' => F c' q) c := advance_zero _

/-! ### The interaction in terms of the field that a section represents -/

open Classical in
/-- The effect of `interact` on the field that a section represents. -/
noncomputable def interactField (C : Arr o P) (d : ℝ) (n0 : ℂ) (n : Idx o.grid.shape → ℂ) : Arr o P :=
  if NearUniform n0 n then
    if ‖n0 / o.index - 1‖ ≤ 1e-8 then C else fun c q => C c q * exp (I * o.k * (n0 / o.index - 1) * d)
  else current (write fun c x => fieldOf C c x * exp (I * o.k * (n x / o.index - 1) * d))

theorem current_interact {s : Section o P} (d : ℝ) (n0 : ℂ) (n : Idx o.grid.shape → ℂ) (h : ¬ NearUniform n0 n → Settled s) :
    current (interact s d n0 n) = interactField (current s) d n0 n := by
  unfold interact interactField
  by_cases hn : NearUniform n0 n
  · rw [if_pos hn, if_pos hn]
    simp only
    split_ifs
    · rfl
    · funext c q
      unfold current advance
      ring
  · rw [if_neg hn, if_neg hn]
    unfold read
    rw [(readFt_settled (h hn)).1]

theorem distance_write (f : Arr o P) : (write f).distance = 0 := by
  unfold write
  split_ifs <;> rfl

theorem distance_interact {s : Section o P} (d : ℝ) (n0 : ℂ) (n : Idx o.grid.shape → ℂ) :
    (interact s d n0 n).distance = open Classical in if NearUniform n0 n then s.distance else 0 := by
  unfold interact
  by_cases hn : NearUniform n0 n
  · rw [if_pos hn, if_pos hn]
    simp only
    split_ifs <;> rfl
  · rw [if_neg hn, if_neg hn, distance_write]

/-- Backward propagation comes before the interaction, forward propagation after it. -/
theorem propagate_some (h : ∀ a, 0 < o.grid.shape a) (s : Section o P) (d : ℝ) (n : Idx o.grid.shape → ℂ) :
    propagate h s d (some n) = propagate h (interact (propagate h s (min d 0) none) d (n (origin o h)) n) (max d 0) none := by
  rw [propagate_none, propagate_none]
  unfold propagate
  simp only [Option.map_some, Option.getD_some]
  rcases lt_trichotomy d 0 with hd | hd | hd
  · rw [if_pos hd, if_neg (not_lt.2 hd.le), min_eq_left hd.le, max_eq_right hd.le, add_zero]
  · subst hd
    simp
  · rw [if_neg (not_lt.2 hd.le), if_pos hd, min_eq_right hd.le, max_eq_left hd.le, add_zero]

theorem current_propagate_some (h : ∀ a, 0 < o.grid.shape a) {s : Section o P} (d : ℝ) (n : Idx o.grid.shape → ℂ)
    (hs : ¬ NearUniform (n (origin o h)) n → Settled (propagate h s (min d 0) none)) :
    current (propagate h s d (some n)) = advance (max d 0) (interactField (advance (min d 0) (current s)) d (n (origin o h)) n) := by
  rw [propagate_some, current_propagate_none, current_interact _ _ _ hs, current_propagate_none]

end Verif.Beam
