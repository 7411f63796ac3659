import Verif.Props.Beam

/-!
# Properties C57 (time reversal) and C70 (interaction with a slice of material)
-/

namespace Verif.Beam

open Verif.Fourier Verif.Backend Verif.Spec.Modes Complex

variable {o : Optics} {P : Projection}

/-- The field is not so small that it is taken to be zero. -/
def Significant (C : Arr o P) : Prop := o.Extended → ¬ AllClose0 C

/-- The Fourier transform for which `fieldOf` is the inverse. -/
theorem fieldOf_transform (hs : o.Stepped) (f : Arr o P) (h : Significant (fun c q => ft (f c) q * (starRingEnd ℂ) (o.shift q) : Arr o P)) :
    fieldOf (fun c q => ft (f c) q * (starRingEnd ℂ) (o.shift q) : Arr o P) = f := by
  funext c
  rw [fieldOf_eq hs h]
  have : (fun q => ft (f c) q * (starRingEnd ℂ) (o.shift q) * o.shift q) = ft (f c) := by
    funext q
    rw [mul_assoc, mul_comm ((starRingEnd ℂ) _), shift_mul_conj, mul_one]
  rw [this, C23_ift_ft]

theorem transform_fieldOf (hs : o.Stepped) {F : Arr o P} (h : Significant F) : (fun c q => ft (fieldOf F c) q * (starRingEnd ℂ) (o.shift q) : Arr o P) = F := by
  funext c q
  rw [fieldOf_eq hs h, C23_ft_ift, mul_assoc, shift_mul_conj, mul_one]

theorem current_write_scalar (hs : o.Stepped) (f : Arr o scalar) : current (write f) = fun c q => ft (f c) q * (starRingEnd ℂ) (o.shift q) := by
  rw [write_eq hs, current_update]

theorem exp_neg_cancel (z w : ℂ) : z * exp w * exp (-w) = z := by
  rw [mul_assoc, ← exp_add, add_neg_cancel, exp_zero, mul_one]

theorem interactField_neg {C : Arr o P} {d : ℝ} {n0 : ℂ} {n : Idx o.grid.shape → ℂ} (hn : ¬ NearUniform n0 n) :
    interactField C d n0 n = current (write fun c x => fieldOf C c x * exp (I * o.k * (n x / o.index - 1) * d)) := by
  unfold interactField
  rw [if_neg hn]

/-- The interaction with a slice is undone by the interaction over the opposite distance. -/
theorem interactField_inverse (hs : o.Stepped) (C : Arr o scalar) (d : ℝ) (n0 : ℂ) (n : Idx o.grid.shape → ℂ) (h1 : ¬ NearUniform n0 n → Significant C)
    (h2 : ¬ NearUniform n0 n → Significant (interactField C d n0 n)) : interactField (interactField C d n0 n) (-d) n0 n = C := by
  by_cases hn : NearUniform n0 n
  · unfold interactField
    simp only [if_pos hn]
    split_ifs
    · rfl
    · funext c q
      dsimp only
      rw [ofReal_neg, mul_neg, exp_neg_cancel]
  · have e1 : interactField C d n0 n = fun c q => ft (fun x => fieldOf C c x * exp (I * o.k * (n x / o.index - 1) * d)) q * (starRingEnd ℂ) (o.shift q) := by
      rw [interactField_neg hn, current_write_scalar hs]
    have e2 : fieldOf (interactField C d n0 n) = fun c x => fieldOf C c x * exp (I * o.k * (n x / o.index - 1) * d) := by
      have h2' := h2 hn
      rw [e1] at h2' ⊢
      exact fieldOf_transform hs (fun c x => fieldOf C c x * exp (I * o.k * (n x / o.index - 1) * d)) h2'
    rw [interactField_neg (C := interactField C d n0 n) hn, e2, current_write_scalar hs]
    have e3 : (fun (c : Fin scalar.c) x => fieldOf C c x * exp (I * o.k * (n x / o.index - 1) * d) * exp (I * o.k * (n x / o.index - 1) * (-d : ℝ))) = fieldOf C := by
      funext c x
      rw [ofReal_neg, mul_neg, exp_neg_cancel]
    calc _ = (fun c q => ft ((fun (c : Fin scalar.c) x => fieldOf C c x * exp (I * o.k * (n x / o.index - 1) * d) * exp (I * o.k * (n x / o.index - 1) * (-d : ℝ))) c) q *
          (starRingEnd ℂ) (o.shift q) : Arr o scalar) := rfl
      _ = _ := by rw [e3]; exact transform_fieldOf hs (h1 hn)

/-! ### C57 -/

/-- The section that is propagated through the slice `n` over the distance `d`, and back. -/
noncomputable def thereAndBack (h : ∀ a, 0 < o.grid.shape a) (s : Section o P) (d : ℝ) (n : Idx o.grid.shape → ℂ) : Section o P :=
  propagate h (propagate h s d (some n)) (-d) (some n)

theorem settled_back (h : ∀ a, 0 < o.grid.shape a) (s : Section o P) (d : ℝ) (n : Idx o.grid.shape → ℂ) (hn : ¬ NearUniform (n (origin o h)) n) :
    Settled (propagate h (propagate h s d (some n)) (min (-d) 0) none) := by
  left
  rw [propagate_some, propagate_none, propagate_none]
  simp only
  rw [distance_interact, if_neg hn]
  rcases le_total d 0 with hd | hd
  · rw [max_eq_right hd, min_eq_right (by linarith)]; ring
  · rw [max_eq_left hd, min_eq_left (by linarith)]; ring

/-- The field after going back and forth, for a slice of which the interaction can be undone. -/
theorem thereAndBack_current (h : ∀ a, 0 < o.grid.shape a) {s : Section o P} (d : ℝ) (n : Idx o.grid.shape → ℂ)
    (hset : ¬ NearUniform (n (origin o h)) n → Settled (propagate h s (min d 0) none)) :
    current (thereAndBack h s d n) =
      advance (-min d 0) (interactField (interactField (advance (min d 0) (current s)) d (n (origin o h)) n) (-d) (n (origin o h)) n) := by
  unfold thereAndBack
  rw [current_propagate_some h (-d) n fun hn => settled_back h s d n hn, current_propagate_some h d n hset, advance_advance]
  have e1 : max d 0 + min (-d) 0 = 0 := by
    rcases le_total d 0 with hd | hd
    · rw [max_eq_right hd, min_eq_right (by linarith)]; ring
    · rw [max_eq_left hd, min_eq_left (by linarith)]; ring
  have e2 : max (-d) 0 = -min d 0 := by
    rcases le_total d 0 with hd | hd
    · rw [max_eq_left (by linarith), min_eq_left hd]
    · rw [max_eq_right (by linarith), min_eq_right hd, neg_zero]
  rw [e1, advance_zero, e2]

/-- **C57 (uniform).** A step through a uniform material and back restores the field, scalar or vectorial, for all distances and all states. -/
theorem C57_uniform (h : ∀ a, 0 < o.grid.shape a) (s : Section o P) (d : ℝ) (n : Idx o.grid.shape → ℂ) (hn : ∀ x y, n x = n y) : current (thereAndBack h s d n) = current s := by
  have hu : NearUniform (n (origin o h)) n := fun x => by rw [hn x (origin o h), sub_self, norm_zero]; positivity
  rw [thereAndBack_current h d n fun hn => absurd hu hn]
  unfold interactField
  simp only [if_pos hu]
  split_ifs
  · rw [advance_advance, add_neg_cancel, advance_zero]
  · have : (fun c q => advance (min d 0) (current s) c q * exp (I * o.k * (n (origin o h) / o.index - 1) * d) * exp (I * o.k * (n (origin o h) / o.index - 1) * (-d : ℝ))) =
        advance (min d 0) (current s) := by
      funext c q
      rw [ofReal_neg, mul_neg, exp_neg_cancel]
    rw [this, advance_advance, add_neg_cancel, advance_zero]

/-- **C57 (partial).** For scalar fields, a step through any distribution of the refractive index, with loss or gain, and back restores the field, provided that no non-zero distance of
at most 1e-8 is pending, and that the field is not taken to be zero, neither before nor in between.  Missing: vectorial fields in heterogeneous materials, small fields and distances. -/
theorem C57_partial (hs : o.Stepped) (h : ∀ a, 0 < o.grid.shape a) (s : Section o scalar) (d : ℝ) (n : Idx o.grid.shape → ℂ) (hset : Settled (propagate h s (min d 0) none))
    (h1 : Significant (current s)) (h2 : Significant (current (propagate h s d (some n)))) : current (thereAndBack h s d n) = current s := by
  rw [thereAndBack_current h d n fun _ => hset, interactField_inverse hs, advance_advance, add_neg_cancel, advance_zero]
  · exact fun _ he => by rw [allClose0_advance]; exact h1 he
  · intro _ he
    have := h2 he
    rwa [current_propagate_some h d n fun _ => hset, allClose0_advance] at this

/-- What is read from sections that represent the same field and of which no distance is pending is the same. -/
theorem read_congr {s t : Section o P} (hs : Settled s) (ht : Settled t) (h : current s = current t) : (read s).1 = (read t).1 := by
  unfold read
  rw [(readFt_settled hs).1, (readFt_settled ht).1, h]

/-- **C57 (partial, fields).** The same for the field that is read. -/
theorem C57_read_partial (hs : o.Stepped) (h : ∀ a, 0 < o.grid.shape a) (f : Arr o scalar) (d : ℝ) (hd : d = 0 ∨ 1e-8 < |d|) (n : Idx o.grid.shape → ℂ)
    (h1 : Significant (current (write f))) (h2 : Significant (current (propagate h (write f) d (some n)))) :
    (read (thereAndBack h (write f) d n)).1 = f := by
  have hset : Settled (propagate h (write f) (min d 0) none) := by
    rw [propagate_none]
    unfold Settled
    simp only
    rw [distance_write, zero_add]
    rcases le_total d 0 with h0 | h0
    · rw [min_eq_left h0]; exact hd
    · rw [min_eq_right h0]; exact .inl rfl
  have hlast : Settled (thereAndBack h (write f) d n) := by
    unfold thereAndBack
    simp only [propagate_some, propagate_none, Settled, distance_interact, distance_write]
    by_cases hn : NearUniform (n (origin o h)) n
    · left
      simp only [if_pos hn]
      rcases le_total d 0 with h0 | h0
      · rw [min_eq_left h0, max_eq_right h0, min_eq_right (by linarith), max_eq_left (by linarith)]; ring
      · rw [min_eq_right h0, max_eq_left h0, min_eq_left (by linarith), max_eq_right (by linarith)]; ring
    · simp only [if_neg hn, zero_add]
      rcases le_total d 0 with h0 | h0
      · rw [max_eq_left (by linarith), abs_neg, neg_eq_zero]; exact hd
      · exact .inl (max_eq_right (by linarith))
  rw [read_congr hlast (t := write f) (.inl (distance_write f)) (C57_partial hs h (write f) d n hset h1 h2)]
  unfold read
  rw [(readFt_settled (.inl (distance_write f))).1]
  rw [current_write_scalar hs] at h1 ⊢
  exact fieldOf_transform hs f h1

/-- **C57 (tiny).** The property does not hold for fields that are small in Fourier space: after a step through a heterogeneous material nothing is left. -/
theorem C57_tiny (hs : o.Stepped) (h : ∀ a, 0 < o.grid.shape a) (he : o.Extended) (s : Section o scalar) (hsmall : AllClose0 (current s)) (d : ℝ) (n : Idx o.grid.shape → ℂ)
    (hn : ¬ NearUniform (n (origin o h)) n) (hset : Settled (propagate h s (min d 0) none)) :
    current (propagate h s d (some n)) = (fun _ _ => 0) ∧ current (thereAndBack h s d n) = fun _ _ => 0 := by
  have hz : ∀ (C : Arr o scalar) (d : ℝ), AllClose0 C → interactField C d (n (origin o h)) n = fun _ _ => 0 := by
    intro C d hC
    rw [interactField_neg hn, current_write_scalar hs]
    have : fieldOf C = fun _ _ => 0 := by unfold fieldOf; rw [if_pos he, if_pos hC]
    rw [this]
    funext c q
    simp [ft]
  have ha : ∀ d, advance d (fun _ _ => 0 : Arr o scalar) = fun _ _ => 0 := by
    intro d; funext c q; exact zero_mul _
  have h0 : AllClose0 (fun _ _ => 0 : Arr o scalar) := fun _ _ => by norm_num
  constructor
  · rw [current_propagate_some h d n fun _ => hset, hz _ _ ((allClose0_advance _ _).2 hsmall), ha]
  · rw [thereAndBack_current h d n fun _ => hset, hz _ _ ((allClose0_advance _ _).2 hsmall), hz _ _ h0, ha]

/-- **C57 (short).** The property does not hold when the field has been propagated over a small distance before: this is forgotten in the heterogeneous material. -/
theorem C57_short (hs : o.Stepped) (h : ∀ a, 0 < o.grid.shape a) (F : Arr o scalar) (r : ℝ) (hr : |r| ≤ 1e-8) (d : ℝ) (hd : 0 ≤ d) (n : Idx o.grid.shape → ℂ)
    (hn : ¬ NearUniform (n (origin o h)) n) (h1 : Significant F) (h2 : Significant (current (propagate h ⟨F, 0⟩ d (some n)))) :
    current (thereAndBack h (propagate h ⟨F, 0⟩ r none) d n) = F := by
  have e : propagate h (propagate h ⟨F, 0⟩ r none) d (some n) = propagate h ⟨F, 0⟩ d (some n) := by
    simp only [propagate_some, min_eq_right hd, propagate_none, zero_add, add_zero]
    have ei : interact (⟨F, r⟩ : Section o scalar) d (n (origin o h)) n = interact ⟨F, 0⟩ d (n (origin o h)) n := by
      unfold interact read readFt
      simp only [if_neg hn, if_pos hr, abs_zero]
      rw [if_pos (by norm_num)]
    rw [ei]
  have e2 : current (thereAndBack h (propagate h ⟨F, 0⟩ r none) d n) = current (thereAndBack h ⟨F, 0⟩ d n) := by unfold thereAndBack; rw [e]
  have hF : current (⟨F, 0⟩ : Section o scalar) = F := advance_zero _
  rw [e2, C57_partial hs h ⟨F, 0⟩ d n _ (by rw [hF]; exact h1) h2, hF]
  rw [min_eq_right hd, propagate_none]
  exact .inl (add_zero 0)

/-! ### C70 -/

/-- **C70 (partial).** For scalar fields, the step through a slice with refractive index `n` and thickness `d` multiplies the field at each point by the phase that the light accumulates there
in addition to that in the background, and then propagates it over `d` in the background, provided that the field is not taken to be zero.  Missing: small variations of the index,
small fields, and vectorial fields. -/
theorem C70_partial (hs : o.Stepped) (h : ∀ a, 0 < o.grid.shape a) (f : Arr o scalar) (d : ℝ) (hd : 0 ≤ d) (n : Idx o.grid.shape → ℂ) (hn : ¬ NearUniform (n (origin o h)) n)
    (h1 : Significant (current (write f))) (h2 : Significant (current (propagate h (write f) d (some n)))) (c : Fin scalar.c) (x : Idx o.grid.shape) :
    (read (propagate h (propagate h (write f) d (some n)) (-d) none)).1 c x = f c x * exp (I * o.k * (n x / o.index - 1) * d) := by
  have hset : Settled (propagate h (write f) (min d 0) none) := by
    rw [min_eq_right hd, propagate_none]
    left
    show (write f).distance + 0 = 0
    rw [distance_write, add_zero]
  have hc := current_propagate_some h (s := write f) d n fun _ => hset
  rw [min_eq_right hd, max_eq_left hd, advance_zero] at hc
  have hset2 : Settled (propagate h (propagate h (write f) d (some n)) (-d) none) := by
    left
    simp only [propagate_some, propagate_none, distance_interact, if_neg hn, max_eq_left hd]
    ring
  unfold read
  rw [(readFt_settled hset2).1, current_propagate_none, hc, advance_advance, add_neg_cancel, advance_zero]
  rw [hc] at h2
  have h3 : Significant (interactField (current (write f)) d (n (origin o h)) n) := fun he => by
    have := h2 he
    rwa [allClose0_advance] at this
  rw [interactField_neg hn, current_write_scalar hs] at h3 ⊢
  have e := fieldOf_transform hs _ h3
  have e0 : fieldOf (current (write f)) = f := by
    rw [current_write_scalar hs] at h1 ⊢
    exact fieldOf_transform hs f h1
  rw [e]
  dsimp only
  rw [e0]

/-- **C70 (uniform).** In a uniform material with an index that differs from that of the background, all fields, scalar or vectorial, accumulate the additional phase. -/
theorem C70_uniform (h : ∀ a, 0 < o.grid.shape a) (s : Section o P) (d : ℝ) (nu : ℂ) (hnu : nu / o.index - 1 = 0 ∨ 1e-8 < ‖nu / o.index - 1‖) :
    current (propagate h s d (some fun _ => nu)) = fun c q => current (propagate h s d none) c q * exp (I * o.k * (nu / o.index - 1) * d) := by
  have hu : NearUniform nu fun _ : Idx o.grid.shape => nu := fun x => by rw [sub_self, norm_zero]; positivity
  rw [current_propagate_some h d _ fun hn => absurd hu hn, current_propagate_none]
  have hsum : min d 0 + max d 0 = d := by rw [min_add_max, add_zero]
  unfold interactField
  rw [if_pos hu]
  rcases hnu with h0 | h0
  · rw [h0, if_pos (by rw [norm_zero]; norm_num), advance_advance, hsum]
    simp
  · rw [if_neg (not_le.2 h0)]
    funext c q
    conv_rhs => rw [← hsum, ← advance_advance]
    unfold advance
    rw [hsum]
    ring

/-- **C70 (background).** A slice with the index of the background is no different from no material at all, scalar or vectorial, for all states. -/
theorem C70_background (h : ∀ a, 0 < o.grid.shape a) (s : Section o P) (d : ℝ) (ho : o.index ≠ 0) : propagate h s d (some fun _ => (o.index : ℂ)) = propagate h s d none := by
  have hu : NearUniform (o.index : ℂ) fun _ : Idx o.grid.shape => (o.index : ℂ) := fun x => by rw [sub_self, norm_zero]; positivity
  have hz : (o.index : ℂ) / o.index - 1 = 0 := by rw [div_self (by exact_mod_cast ho), sub_self]
  have hi : ∀ s : Section o P, interact s d (o.index : ℂ) (fun _ => (o.index : ℂ)) = s := by
    intro s
    unfold interact
    simp only [if_pos hu, hz, norm_zero]
    rw [if_pos (by norm_num)]
  rw [propagate_some, hi, C55_add, min_add_max, add_zero]

/-- **C70 (rounded).** The property does not hold for small variations of the refractive index: for variations of at most 1e-5 of the first element only that element is used, for any thickness. -/
theorem C70_rounded (h : ∀ a, 0 < o.grid.shape a) (s : Section o P) (d : ℝ) (n : Idx o.grid.shape → ℂ) (hn : NearUniform (n (origin o h)) n) :
    propagate h s d (some n) = propagate h s d (some fun _ => n (origin o h)) := by
  have hu : NearUniform (n (origin o h)) fun _ : Idx o.grid.shape => n (origin o h) := fun x => by rw [sub_self, norm_zero]; positivity
  rw [propagate_some, propagate_some]
  unfold interact
  rw [if_pos hn, if_pos hu]

end Verif.Beam
