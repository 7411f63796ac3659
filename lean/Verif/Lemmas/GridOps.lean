import Verif.Lemmas.Grid01

set_option linter.unusedSectionVars false

namespace Verif.Grid

open Verif Verif.Spec.Grid

/-- `np.fft.ifftshift` puts a range in the order of the discrete Fourier transform. -/
theorem ifftshift_range {α : Type*} (N : ℕ) (f : ℕ → α) : ifftshift ((List.range N).map f) = (fftOrder N).map f := by
  apply List.ext_getElem
  · simp [ifftshift, fftOrder]; omega
  · intro i h1 h2
    simp only [fftOrder, List.length_map, List.length_range] at h2
    simp only [ifftshift, fftOrder, List.length_map, List.length_range, List.getElem_append, List.length_drop, List.getElem_drop,
      List.getElem_take, List.getElem_map, List.getElem_range]
    split
    · congr 1
      rw [Nat.mod_eq_of_lt (by omega)]; omega
    · congr 1
      rw [Nat.mod_eq_sub_mod (by omega), Nat.mod_eq_of_lt (by omega)]; omega

section
variable {n : ℕ} {K : Type} [Field K] [LinearOrder K] [IsStrictOrderedRing K] [FloorRing K]

/-- The value of the coordinate with index `j`. -/
theorem coords_eq (g : Obj n K) (i : Fin n) :
    g.coords i = (if g.originAtCenter i then List.range (g.shape i) else fftOrder (g.shape i)).map
      fun (j : ℕ) => firstSample (g.shape i) (g.step i) (g.center i) (g.centerAtIndex i) + (j : K) * g.step i := by
  have key : ∀ rng : List K, rng = (List.range (g.shape i)).map
      (fun (j : ℕ) => firstSample (g.shape i) (g.step i) (g.center i) (g.centerAtIndex i) + (j : K) * g.step i) →
      (if g.originAtCenter i then rng else ifftshift rng) =
      (if g.originAtCenter i then List.range (g.shape i) else fftOrder (g.shape i)).map
      fun (j : ℕ) => firstSample (g.shape i) (g.step i) (g.center i) (g.centerAtIndex i) + (j : K) * g.step i := by
    intro rng hrng
    split
    · exact hrng
    · rw [hrng, ifftshift_range]
  unfold Obj.coords
  apply key
  generalize hN : g.shape i = N
  by_cases h1 : 1 < N
  · simp only [h1, if_true, List.map_map]
    by_cases hc : g.centerAtIndex i = true
    · simp only [hc, not_true, false_and, if_false, List.map_inj_left, Function.comp_apply]
      intro j hj
      simp only [firstSample, centerPos, if_true]
      ring
    · simp only [Bool.not_eq_true] at hc
      by_cases he : N % 2 = 0
      · simp only [hc, he, Bool.false_eq_true, not_false_eq_true, and_self, if_true, List.map_inj_left,
          Function.comp_apply]
        intro j hj
        have h2 : ((N / 2 : ℕ) : K) * 2 = N := by exact_mod_cast (by omega : N / 2 * 2 = N)
        simp only [firstSample, centerPos, Bool.false_eq_true, if_false]
        linear_combination (-g.step i / 2) * h2
      · simp only [hc, he, and_false, if_false, List.map_inj_left, Function.comp_apply]
        intro j hj
        have h2 : ((N / 2 : ℕ) : K) * 2 + 1 = N := by exact_mod_cast (by omega : N / 2 * 2 + 1 = N)
        simp only [firstSample, centerPos, Bool.false_eq_true, if_false]
        linear_combination (-g.step i / 2) * h2
  · have : N = 0 ∨ N = 1 := by omega
    rcases this with rfl | rfl
    · simp
    · cases hc : g.centerAtIndex i <;> simp [firstSample, centerPos]

theorem rebuild_eq {m : Bool} {N : Fin n → ℕ} (hN : ∀ i, 1 ≤ N i) (s c : Vec n K) (fl oac cai : Fin n → Bool) :
    rebuild m N s c fl oac cai = .ok
      { shape := N, step := s.v, center := c.v, dt := if n = 0 then .float else s.dt.promote c.dt, flat := fl,
        originAtCenter := oac, centerAtIndex := cai, multidimensional := m, stepShort := false } := by
  unfold rebuild
  refine init_eq (s1 := ⟨fun i => (N i : K), some (arrStep s), none, none, some c⟩) (step := arrStep s) (center := c)
    rfl (roundShape_nat N hN) (.inl rfl) rfl ?_ rfl
  simp [failsChecks]

theorem rangeParams_range (N : ℕ) (hN : 1 ≤ N) (x0 s : K) (r : List K)
    (hr : r = (List.range N).map fun (j : ℕ) => x0 + j * s) (h : r ≠ []) :
    rangeParams r h = (if N = 1 then 0 else s, x0 + ((N / 2 : ℕ) : K) * s, true) := by
  subst hr
  unfold rangeParams
  simp only [List.length_map, List.length_range, List.getElem_map, List.getElem_range]
  rcases Nat.lt_or_ge 1 N with h1 | h1
  · have h2 : ¬ N / 2 = 0 := by omega
    have h3 : ¬ N ≤ 1 := by omega
    have h4 : ¬ N = 1 := by omega
    have hlast : ((N - 1 : ℕ) : K) = (N : K) - 1 := by rw [Nat.cast_sub hN]; simp
    have hNK : (1 : K) < N := by exact_mod_cast h1
    have hNK2 : (1 : K) ≤ (N : K) - 1 := by
      have : (2 : K) ≤ N := by exact_mod_cast h1
      linarith
    have hd : (((N - 1) / 2 : ℕ) : K) = ((N - N / 2 : ℕ) : K) - 1 := by
      have : (N - 1) / 2 + 1 = N - N / 2 := by omega
      rw [← this]; push_cast; ring
    have hoac : |x0 + (((N - 1) / 2 : ℕ) : K) * s - (x0 + ((N - N / 2 : ℕ) : K) * s)| ≤
        |x0 + ((N - 1 : ℕ) : K) * s - (x0 + ((0 : ℕ) : K) * s)| := by
      rw [hlast, hd]
      have e1 : x0 + (((N - N / 2 : ℕ) : K) - 1) * s - (x0 + ((N - N / 2 : ℕ) : K) * s) = -s := by ring
      have e2 : x0 + ((N : K) - 1) * s - (x0 + ((0 : ℕ) : K) * s) = ((N : K) - 1) * s := by simp
      rw [e1, e2, abs_neg, abs_mul, abs_of_pos (by linarith : (0 : K) < (N : K) - 1)]
      nlinarith [abs_nonneg s]
    simp only [h2, h3, h4, dite_false, hoac, decide_true, decide_false, b2k, if_true, Bool.false_eq_true, if_false, Prod.mk.injEq,
      and_true]
    constructor
    · rw [hlast]
      have : (N : K) - 1 ≠ 0 := by intro h0; linarith
      simp only [add_zero, sub_self, zero_mul, one_mul, Nat.cast_zero]
      field_simp
      ring
    · by_cases ho : N % 2 = 1
      · have : (N - 1) / 2 = N / 2 := by omega
        simp [ho, this]
      · have : N - N / 2 = N / 2 := by omega
        simp [ho, this]
  · have : N = 1 := by omega
    subst this
    simp [b2k]

theorem rangeParams_fft (N : ℕ) (hN : 3 ≤ N) (x0 s : K) (hs : s ≠ 0) (r : List K)
    (hr : r = (fftOrder N).map fun (j : ℕ) => x0 + j * s) (h : r ≠ []) :
    rangeParams r h = (s, x0 + ((N / 2 : ℕ) : K) * s, false) := by
  subst hr
  unfold rangeParams
  simp only [fftOrder, List.length_map, List.length_range, List.getElem_map, List.getElem_range]
  have h2 : ¬ N / 2 = 0 := by omega
  have h3 : ¬ N ≤ 1 := by omega
  have e1 : ((N - 1) / 2 + N / 2) % N = N - 1 := by rw [Nat.mod_eq_of_lt (by omega)]; omega
  have e2 : (N - N / 2 + N / 2) % N = 0 := by rw [show N - N / 2 + N / 2 = N by omega]; simp
  have e3 : (N - 1 + N / 2) % N = N / 2 - 1 := by
    rw [Nat.mod_eq_sub_mod (by omega), Nat.mod_eq_of_lt (by omega)]; omega
  have e4 : (0 + N / 2) % N = N / 2 := by rw [Nat.mod_eq_of_lt (by omega)]; omega
  have hlast : ((N - 1 : ℕ) : K) = (N : K) - 1 := by rw [Nat.cast_sub (by omega)]; simp
  have hhalf : ((N / 2 - 1 : ℕ) : K) = ((N / 2 : ℕ) : K) - 1 := by rw [Nat.cast_sub (by omega)]; simp
  have hNK : (3 : K) ≤ N := by exact_mod_cast hN
  have hs0 : 0 < |s| := abs_pos.mpr hs
  have hoac : ¬ |x0 + ((N - 1 : ℕ) : K) * s - (x0 + ((0 : ℕ) : K) * s)| ≤
      |x0 + ((N / 2 - 1 : ℕ) : K) * s - (x0 + ((N / 2 : ℕ) : K) * s)| := by
    rw [hlast, hhalf]
    have e1 : x0 + (((N / 2 : ℕ) : K) - 1) * s - (x0 + ((N / 2 : ℕ) : K) * s) = -s := by ring
    have e2 : x0 + ((N : K) - 1) * s - (x0 + ((0 : ℕ) : K) * s) = ((N : K) - 1) * s := by simp
    rw [e1, e2, abs_neg, abs_mul, abs_of_pos (by linarith : (0 : K) < (N : K) - 1)]
    nlinarith
  simp only [h2, h3, e1, e2, e3, e4, dite_false, hoac, decide_false, b2k, Bool.false_eq_true, if_false, Prod.mk.injEq,
    and_true]
  constructor
  · rw [hlast]
    have : (N : K) - 1 ≠ 0 := by intro h0; linarith
    simp only [add_zero, sub_zero, zero_mul, one_mul, Nat.cast_zero, zero_add]
    field_simp
    ring
  · ring

/-- The coordinates of a grid with the parameters that are found for a range are that range. -/
theorem coords_rangeParams (g : Obj n K) (i : Fin n) (N : ℕ) (hN : 1 ≤ N) (x0 s : K) (fft : Bool) (r : List K)
    (hr : r = (if fft then fftOrder N else List.range N).map fun (j : ℕ) => x0 + j * s) (h : r ≠ [])
    (h1 : g.shape i = N) (h2 : (g.step i, g.center i, g.originAtCenter i) = rangeParams r h)
    (h3 : g.centerAtIndex i = true) : g.coords i = r := by
  have hrange : ∀ y0 t : K, r = (List.range N).map (fun (j : ℕ) => y0 + j * t) → g.coords i = r := by
    intro y0 t hy
    rw [rangeParams_range N hN y0 t r hy h] at h2
    simp only [Prod.mk.injEq] at h2
    obtain ⟨q1, q2, q3⟩ := h2
    rw [coords_eq, q1, q2, q3, h1, h3, hy]
    simp only [if_true, List.map_inj_left, List.mem_range]
    intro j hj
    simp only [firstSample, centerPos, if_true]
    by_cases h1 : N = 1
    · subst h1
      have : j = 0 := by omega
      simp [this]
    · simp only [h1, if_false]; ring
  cases fft with
  | false => exact hrange x0 s (by simpa using hr)
  | true =>
    simp only [if_true] at hr
    by_cases hs : s = 0
    · apply hrange x0 0
      rw [hr, hs]
      apply List.ext_getElem <;> simp [fftOrder]
    rcases Nat.lt_or_ge N 3 with h3N | h3N
    · have : N = 1 ∨ N = 2 := by omega
      rcases this with rfl | rfl
      · exact hrange x0 s (by rw [hr]; rfl)
      · refine hrange (x0 + s) (-s) ?_
        rw [hr]
        simp [fftOrder, List.range_succ]
    · rw [rangeParams_fft N h3N x0 s hs r hr h] at h2
      simp only [Prod.mk.injEq] at h2
      obtain ⟨q1, q2, q3⟩ := h2
      rw [coords_eq, q1, q2, q3, h1, h3, hr]
      simp only [Bool.false_eq_true, if_false, List.map_inj_left]
      intro j hj
      simp only [firstSample, centerPos, if_true]
      ring

theorem freq_eq (g : Obj n K) (hN : ∀ i, 1 ≤ g.shape i) (hs : ∀ i, 1 < g.shape i → g.step i ≠ 0) :
    freq g = .ok
      { shape := g.shape, step := fun i => 1 / g.extent i, center := fun _ => 0, dt := .float, flat := g.flat,
        originAtCenter := fun _ => false, centerAtIndex := fun _ => true, multidimensional := g.multidimensional,
        stepShort := false } := by
  have h0 : ¬ ∃ i, 1 < g.shape i ∧ g.step i = 0 := fun ⟨i, h1, h2⟩ => hs i h1 h2
  unfold freq
  rw [if_neg h0]
  refine (init_eq (s1 := ⟨fun i => (g.shape i : K), some (arrStep ⟨.float, fun i => 1 / g.extent i⟩), none, none, none⟩)
    (center := constInt 0) rfl (roundShape_nat g.shape hN) (.inl rfl) rfl (by simp [failsChecks]) rfl).trans ?_
  simp [arrStep, promote_float_left, constInt]

end
end Verif.Grid
