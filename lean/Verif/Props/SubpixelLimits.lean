import Verif.Props.SubpixelRecovers

/-!
# Property C60: where registration departs from it
-/

namespace Verif.Subpixel

open Verif.Fourier Verif.Spec.Subpixel Complex

variable {d : ℕ} {N : Fin d → ℕ}

/-- An image with a single bright pixel, at the origin. -/
def dot (N : Fin d → ℕ) : Idx N → ℂ := fun x => if ∀ a, (x a : ℕ) = 0 then 1 else 0

theorem ft_dot (hN : ∀ a, 0 < N a) : ft (dot N) = fun _ => 1 := by
  funext k
  unfold ft dot
  rw [Finset.sum_eq_single (fun a => ⟨0, hN a⟩)]
  · rw [if_pos fun _ => rfl, one_mul]
    refine Finset.prod_eq_one fun a _ => ?_
    unfold twiddle
    simp
  · intro x _ hx
    rw [if_neg fun h => hx (funext fun a => Fin.ext (h a)), zero_mul]
  · intro h
    exact absurd (Finset.mem_univ _) h

theorem energy_dot (hN : ∀ a, 0 < N a) : energy (dot N) = 1 := by
  unfold energy dot
  rw [Finset.sum_eq_single (fun a => ⟨0, hN a⟩)]
  · rw [if_pos fun _ => rfl]; norm_num
  · intro x _ hx
    rw [if_neg fun h => hx (funext fun a => Fin.ext (h a))]; norm_num
  · intro h
    exact absurd (Finset.mem_univ _) h

theorem norm_ones (hN : ∀ a, 0 < N a) : norm (fun _ : Idx N => (1 : ℂ)) = 1 := by rw [← ft_dot hN, norm_eq_energy hN, energy_dot hN, Real.sqrt_one]

/-- No displacement, other than by periods, makes a dot a multiple of itself. -/
theorem dot_unique (hN : ∀ a, 2 ≤ N a) (t : Fin d → ℝ) (w : ℂ) (h : ∀ x : Idx N, interpolate (ft (dot N)) (fun a => (x a : ℕ) - t a) = w * dot N x) : ∃ m : Fin d → ℤ, ∀ a, t a = N a * m a := by
  have hN0 : ∀ a, 0 < N a := fun a => lt_of_lt_of_le two_pos (hN a)
  have hift : ift (fun k => phase t k) = fun x => w * dot N x := by
    funext x
    rw [← h x, ift_eq_interpolate, interpolate_eq, interpolate_eq, ft_dot hN0]
    refine congrArg (· / _) (Finset.sum_congr rfl fun k _ => ?_)
    rw [one_mul, show (-fun a => ((x a : ℕ) : ℝ) - t a) = t + -fun a => ((x a : ℕ) : ℝ) from funext fun a => by simp only [Pi.neg_apply, Pi.add_apply]; ring, phase_add]
  have hph : ∀ k : Idx N, phase t k = w := fun k => by
    have := congrArg ft hift
    rw [C23_ft_ift, ft_scale, ft_dot hN0] at this
    have := congrFun this k
    simpa using this
  have hw : w = 1 := by
    rw [← hph fun a => ⟨0, hN0 a⟩, phase_prod]
    refine Finset.prod_eq_one fun a _ => ?_
    have : cycles (N a) 0 = 0 := by unfold cycles; rw [if_pos (by have := hN a; omega)]; rfl
    dsimp only
    rw [this]
    simp
  have hone : ∀ a, ∃ m : ℤ, t a = N a * m := fun a => by
    have h1 := hph (Function.update (fun b => ⟨0, hN0 b⟩) a ⟨1, hN a⟩)
    rw [hw, phase_prod, Finset.prod_eq_single a] at h1
    · rw [Function.update_self] at h1
      obtain ⟨m, hm⟩ := Complex.exp_eq_one_iff.1 h1
      have hna : (N a : ℝ) ≠ 0 := by exact_mod_cast (hN0 a).ne'
      have hc : cycles (N a) 1 = 1 ∨ cycles (N a) 1 = -1 := by
        unfold cycles
        split_ifs with h
        · exact .inl rfl
        · right; have := hN a; push_cast; omega
      have hI : (2 * Real.pi * I : ℂ) ≠ 0 := Complex.two_pi_I_ne_zero
      have hm' : ((cycles (N a) 1 * t a / N a : ℝ) : ℂ) = ((-m : ℤ) : ℂ) := by
        apply mul_left_cancel₀ hI
        push_cast at hm ⊢
        linear_combination -hm
      have hm'' : (cycles (N a) 1 * t a / N a : ℝ) = ((-m : ℤ) : ℝ) := by exact_mod_cast hm'
      rw [div_eq_iff hna] at hm''
      rcases hc with h | h
      · refine ⟨-m, ?_⟩
        rw [h] at hm''
        push_cast at hm'' ⊢
        linarith
      · refine ⟨m, ?_⟩
        rw [h] at hm''
        push_cast at hm'' ⊢
        linarith
    · intro b _ hb
      rw [Function.update_of_ne hb]
      have : cycles (N b) 0 = 0 := by unfold cycles; rw [if_pos (by have := hN b; omega)]; rfl
      dsimp only
      rw [this]
      simp
    · intro h
      exact absurd (Finset.mem_univ _) h
  exact ⟨fun a => (hone a).choose, fun a => (hone a).choose_spec⟩

theorem unit_default : unit defaultPrecision = 1 / 128 := by
  have hr : roundHalfEven defaultPrecision = 0 := by
    unfold roundHalfEven defaultPrecision
    have : ⌊(1 / 128 : ℝ)⌋ = 0 := by rw [Int.floor_eq_zero_iff]; constructor <;> norm_num
    rw [this]
    norm_num
  unfold unit
  rw [hr, if_neg (by unfold defaultPrecision; rw [sub_zero, abs_of_pos] <;> norm_num), if_pos (by unfold defaultPrecision; norm_num)]
  rfl

theorem unit_int (p : ℤ) : unit (p : ℝ) = 1 := by
  unfold unit
  rw [roundHalfEven_int, sub_self, abs_zero, if_pos (by norm_num)]

/-- The hypotheses of `C60_recovers_partial` and `C60_shift_partial` are met by dots of 4 by 5 pixels with the default precision. -/
example (s : Fin 2 → ℤ) : (register (N := ![4, 5]) (fun a => by fin_cases a <;> norm_num) (dot ![4, 5]) (fun x => 2 * circular (dot ![4, 5]) s x) defaultPrecision).factor = .finite 2 :=
  (C60_shift_partial (N := ![4, 5]) (fun a => by fin_cases a <;> norm_num) (dot _) 2 s defaultPrecision covers_default
    ⟨by rw [unit_default]; norm_num, fun a => by rw [unit_default]; fin_cases a <;> norm_num⟩ (by norm_num) (by rw [energy_dot fun a => by fin_cases a <;> norm_num]; norm_num)
    (dot_unique fun a => by fin_cases a <;> norm_num)).1

/-- The correlation of dots. -/
theorem ift_cross_dot (hN : ∀ a, 0 < N a) (subject : Idx N → ℂ) : ift (crossFt (ft (dot N)) (ft subject)) = subject := by
  have : crossFt (ft (dot N)) (ft subject) = ft subject := by
    funext k
    unfold crossFt
    rw [ft_dot hN, norm_ones hN]
    simp
  rw [this, C23_ift_ft]

/-- Registration of a displaced dot to the nearest pixel. -/
theorem register_dot (hN : ∀ a, 0 < N a) (q : Idx N) :
    (register hN (dot N) (fun x => if x = q then 1 else 0) 1).shift = fun a => (q a : ℕ) + if N a / 2 < (q a : ℕ) then (N a : ℝ) else 0 := by
  have hi : |(1 : ℝ) - roundHalfEven 1| ≤ 1e-8 := by
    have := roundHalfEven_int 1
    rw [Int.cast_one] at this
    rw [this]
    norm_num
  have hl : argmax hN (fun x => ‖ift (crossFt (ft (dot N)) (ft fun x => if x = q then 1 else 0)) x‖) = q := by
    rw [ift_cross_dot hN]
    have := argmax_max hN (fun x : Idx N => ‖(if x = q then 1 else 0 : ℂ)‖) q
    by_contra hne
    rw [if_pos rfl, if_neg hne, norm_zero, NormOneClass.norm_one] at this
    norm_num at this
  show (findPeak hN (crossFt (ft (dot N)) (ft fun x => if x = q then 1 else 0)) _ 1).shift = _
  unfold findPeak
  rw [if_pos hi]
  unfold integerPeak
  rw [if_neg one_ne_zero]
  dsimp only
  rw [hl]

/-- **C60 (violation: wrapping).** With a precision of whole pixels, a dot that is displaced by one pixel to the left, in an image of any number of pixels greater than 2, is registered at nearly twice the size of the image to the right. -/
theorem C60_wrap_violates (n : ℕ) (hn : 2 < n) : (register (N := fun _ : Fin 1 => n) (fun _ => by omega) (dot _) (circular (dot _) fun _ => -1) 1).shift = fun _ => 2 * (n : ℝ) - 1 := by
  have hN : ∀ _ : Fin 1, 0 < n := fun _ => by omega
  have hs : circular (dot fun _ : Fin 1 => n) (fun _ => -1) = fun x => if x = (fun _ => ⟨n - 1, by omega⟩) then 1 else 0 := by
    funext x
    unfold circular dot
    congr 1
    have hx := (x 0).isLt
    apply propext
    constructor
    · intro h
      funext a
      have ha : a = 0 := Subsingleton.elim _ _
      subst ha
      apply Fin.ext
      have := h 0
      change ((((x 0 : ℕ) : ℤ) - -1) % (n : ℤ)).toNat = 0 at this
      show (x 0 : ℕ) = n - 1
      by_contra hne
      rw [Int.emod_eq_of_lt (by omega) (by omega)] at this
      omega
    · intro h a
      have ha : a = 0 := Subsingleton.elim _ _
      subst ha
      show ((((x 0 : ℕ) : ℤ) - -1) % (n : ℤ)).toNat = 0
      have h2 : (x 0 : ℕ) = n - 1 := by rw [h]
      rw [h2, show (((n - 1 : ℕ) : ℤ) - -1) = n by omega, Int.emod_self]
      rfl
  rw [hs, register_dot]
  funext a
  dsimp only
  rw [if_pos (by omega), Nat.cast_sub (by omega)]
  push_cast
  ring

theorem interpolate_cross_le (hN : ∀ a, 0 < N a) (R S : Idx N → ℂ) (s : Fin d → ℝ) : ‖interpolate (crossFt R S) s‖ ≤ norm S := by
  rcases (norm_nonneg' R).eq_or_lt with h0 | h0
  · rw [interpolate_cross, ← h0]
    simpa using norm_nonneg' S
  have hn := total_pos hN
  have e : ‖∏ a, (N a : ℂ)‖ = ∏ a, (N a : ℝ) := by rw [norm_prod]; exact Finset.prod_congr rfl fun a _ => Complex.norm_natCast _
  rw [interpolate_cross, norm_div, norm_mul, e, Complex.norm_real, Real.norm_of_nonneg h0.le, div_le_iff₀ (by positivity)]
  have h1 : ‖∑ k, (starRingEnd ℂ) (R k) * moved S s k‖ ≤ ∑ k, ‖R k‖ * ‖S k‖ := (norm_sum_le _ _).trans (le_of_eq (Finset.sum_congr rfl fun k _ => by
    unfold moved
    rw [norm_mul, norm_mul, norm_phase, mul_one, RCLike.norm_conj]))
  have h2 := Finset.sum_mul_sq_le_sq_mul_sq Finset.univ (fun k => ‖R k‖) fun k => ‖S k‖
  have h3 : ∑ k, ‖R k‖ ^ 2 = norm R ^ 2 * ∏ a, (N a : ℝ) := by rw [norm_sq hN]; field_simp
  have h4 : ∑ k, ‖S k‖ ^ 2 = norm S ^ 2 * ∏ a, (N a : ℝ) := by rw [norm_sq hN]; field_simp
  rw [h3, h4] at h2
  refine h1.trans ((sq_le_sq₀ (Finset.sum_nonneg fun _ _ => by positivity) (mul_nonneg (norm_nonneg' S) (by positivity))).1 (h2.trans (le_of_eq (by ring))))

/-- **C60 (violation: weak images).** Whatever the reference and the precision: the factor of a subject that is weaker than 10⁻⁸ is infinite and its registered image is zero, even if it is a multiple of the reference. -/
theorem C60_tiny_violates (hN : ∀ a, 0 < N a) (reference subject : Idx N → ℂ) (h : Real.sqrt (energy subject) ≤ 1e-8) (p : ℝ) :
    (register hN reference subject p).factor = .inf ∧ (register hN reference subject p).readImage.1 = .ok fun _ => 0 := by
  have hm : ‖(findPeak hN (crossFt (ft reference) (ft subject)) (∏ a, (N a : ℂ)) p).max‖ ≤ 1e-8 := by
    rw [findPeak_max]
    exact (interpolate_cross_le hN _ _ _).trans (by rw [norm_eq_energy hN]; exact h)
  have hf : (register hN reference subject p).factor = .inf := if_pos hm
  refine ⟨hf, ?_⟩
  have : (register hN reference subject p).readImage.1 = .ok (ift (registered (ft subject) (register hN reference subject p).shift (register hN reference subject p).factor)) := rfl
  rw [this, hf]
  refine congrArg _ (funext fun x => ?_)
  show ift (fun _ => 0) x = 0
  unfold ift
  simp

example (hN : ∀ a, 0 < N a) : Real.sqrt (energy fun x => 1e-9 * dot N x) ≤ 1e-8 := by
  have : energy (fun x => 1e-9 * dot N x) = (1e-9) ^ 2 * energy (dot N) := by
    unfold energy
    rw [Finset.mul_sum]
    refine Finset.sum_congr rfl fun x _ => ?_
    rw [norm_mul, mul_pow]
    norm_num
  rw [this, energy_dot hN, mul_one, Real.sqrt_sq (by norm_num)]
  norm_num

/-- A point reference is the same as the image of a dot, unless the precision is less than half a pixel. -/
theorem C60_point (hN : ∀ a, 0 < N a) (subject : Idx N → ℂ) (p : ℝ) (hp : |p - roundHalfEven p| ≤ 1e-8 ∨ ¬(p < 1 / 2 ∧ 0 < p)) : registerPoint hN subject p = register hN (dot N) subject p := by
  unfold registerPoint register
  rw [ft_dot hN]
  congr 1
  unfold findPeak
  by_cases h : |p - roundHalfEven p| ≤ 1e-8
  · rw [if_pos h, if_pos h]
  · rw [if_neg h, if_neg h, dif_neg (hp.resolve_left h), dif_neg (hp.resolve_left h)]

theorem interpolate_one (hN : ∀ a, 0 < N a) (s : Fin d → ℝ) : ‖interpolate (fun _ : Idx N => (1 : ℂ)) s‖ ≤ 1 := by
  rw [interpolate_eq, norm_div, div_le_one (norm_pos_iff.2 (total_ne_zero hN))]
  refine (norm_sum_le _ _).trans ?_
  simp_rw [one_mul, norm_phase]
  rw [Finset.sum_const, Finset.card_univ, Fintype.card_pi, norm_prod]
  simp

/-- **C60 (violation: point references).** With the default precision, the image of a dot itself is registered, without error, with a factor that is too small by the number of pixels. -/
theorem C60_point_violates (hN : ∀ a, 0 < N a) : (registerPoint hN (dot N) defaultPrecision).error = 0 ∧
    ∃ z, (registerPoint hN (dot N) defaultPrecision).factor = .finite z ∧ ‖z‖ = 1 / ∏ a, (N a : ℝ) := by
  have hn := total_pos hN
  have hX : crossFt (fun _ => 1) (ft (dot N)) = fun _ => 1 := by
    funext k
    unfold crossFt
    rw [ft_dot hN, norm_ones hN]
    simp
  have hp0 : (0 : ℝ) < defaultPrecision := by unfold defaultPrecision; norm_num
  have hfp : findPeak hN (crossFt (fun _ => 1) (ft (dot N))) 1 defaultPrecision = refine (fun _ : Idx N => 1) 1 defaultPrecision hp0 (halfPeak hN fun _ => 1) := by
    have hr : roundHalfEven defaultPrecision = 0 := by
      unfold roundHalfEven defaultPrecision
      have : ⌊(1 / 128 : ℝ)⌋ = 0 := by rw [Int.floor_eq_zero_iff]; constructor <;> norm_num
      rw [this]
      norm_num
    unfold findPeak
    rw [hX, if_neg (by rw [hr]; unfold defaultPrecision; rw [sub_zero, abs_of_pos] <;> norm_num), dif_pos ⟨by unfold defaultPrecision; norm_num, hp0⟩]
  have e : ‖∏ a, (N a : ℂ)‖ = ∏ a, (N a : ℝ) := by rw [norm_prod]; exact Finset.prod_congr rfl fun a _ => Complex.norm_natCast _
  have hmax : ‖(refine (fun _ : Idx N => 1) 1 defaultPrecision hp0 (halfPeak hN fun _ => 1)).max‖ = ∏ a, (N a : ℝ) := by
    apply le_antisymm
    · rw [refine_max' _ (total_ne_zero hN), div_one, norm_mul, e]
      exact mul_le_of_le_one_left hn.le (interpolate_one hN _)
    · refine le_trans ?_ (refine_largest' hN (fun _ => 1) 1 defaultPrecision hp0 64 (by unfold defaultPrecision; norm_num))
      rw [div_one, norm_mul, e]
      refine le_mul_of_one_le_left hn.le (le_trans (le_of_eq ?_) (halfPeak_largest hN _ 0))
      rw [interpolate_eq]
      have : (-fun a => (((0 : Fin d → ℤ) a : ℤ) : ℝ) / 2) = fun _ => 0 := by funext a; simp
      rw [this]
      simp_rw [phase_zero, mul_one]
      rw [Finset.sum_const, Finset.card_univ, Fintype.card_pi]
      simp only [Fintype.card_fin, nsmul_eq_mul, mul_one]
      push_cast
      rw [div_self (total_ne_zero hN), NormOneClass.norm_one]
  have hge : 1 ≤ ∏ a, (N a : ℝ) := by
    have : 1 ≤ ∏ a, N a := Nat.one_le_iff_ne_zero.2 (Finset.prod_ne_zero_iff.2 fun a _ => (hN a).ne')
    exact_mod_cast this
  unfold registerPoint
  rw [hfp]
  constructor
  · show Real.sqrt (1 - (min 1 |‖(refine (fun _ : Idx N => 1) 1 defaultPrecision hp0 (halfPeak hN fun _ => 1)).max‖ / norm (ft (dot N))|) ^ 2) = 0
    rw [hmax, ft_dot hN, norm_ones hN, div_one, abs_of_pos hn, min_eq_left hge]
    norm_num
  · refine ⟨_, if_neg (not_le.2 (lt_of_lt_of_le (by norm_num) (hge.trans hmax.ge))), ?_⟩
    rw [ft_dot hN, norm_ones hN, norm_div, norm_mul, RCLike.norm_conj, hmax]
    norm_num

/-- **C60 (shapes).** `__zoom_ft` returns the right shape for one and two axes. -/
theorem C60_zoom (M a b : ℕ) : zoomShape M [a] = .ok [M] ∧ zoomShape M [a, b] = .ok [M, M] := by
  constructor <;> simp [zoomShape, matmulShape, swapaxes, List.range_succ, Except.map, bind, Except.bind, pure, Except.pure]

/-- **C60 (violation: volumes).** For three axes, the products of matrices in `__zoom_ft` fail unless the sizes happen to match. -/
theorem C60_volume_violates (M a b c : ℕ) : zoomShape M [a, b, c] = if b = a ∧ M = c then .ok [M, M, M] else .error .valueError := by
  by_cases h : b = a
  · subst h
    by_cases h2 : M = c
    · subst h2
      simp [zoomShape, matmulShape, swapaxes, List.range_succ, Except.map, bind, Except.bind, pure, Except.pure]
    · simp [zoomShape, matmulShape, swapaxes, List.range_succ, Except.map, bind, Except.bind, h2]
  · simp [zoomShape, matmulShape, swapaxes, List.range_succ, Except.map, bind, Except.bind, h]

/-- **C60 (violation: four axes).** The same for four axes; the condition is another one. -/
theorem C60_hypervolume_violates (M a b c e : ℕ) : zoomShape M [a, b, c, e] = if a = c ∧ b = M ∧ e = M then .ok [M, M, M, M] else .error .valueError := by
  by_cases h : c = a
  · subst h
    by_cases h2 : M = b
    · subst h2
      by_cases h3 : M = e
      · subst h3
        simp [zoomShape, matmulShape, swapaxes, List.range_succ, Except.map, bind, Except.bind, pure, Except.pure]
      · simp [zoomShape, matmulShape, swapaxes, List.range_succ, Except.map, bind, Except.bind, h3, Ne.symm h3]
    · simp [zoomShape, matmulShape, swapaxes, List.range_succ, Except.map, bind, Except.bind, h2, Ne.symm h2]
  · simp [zoomShape, matmulShape, swapaxes, List.range_succ, Except.map, bind, Except.bind, h, Ne.symm h]

end Verif.Subpixel
