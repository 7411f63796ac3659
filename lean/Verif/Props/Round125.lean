import Verif.Model.Round125
import Verif.Spec.Round125
import Mathlib.NumberTheory.Real.Irrational

/-!
# C13: rounding to 1-2-5 numbers
-/

namespace Verif.Round125

open Verif Verif.Spec.Round125

/-! ### Lemmas -/

/-- `roundHalfEven` as an integer. -/
noncomputable def rint (x : ℝ) : ℤ :=
  if x - ⌊x⌋ < 1 / 2 then ⌊x⌋
  else if 1 / 2 < x - ⌊x⌋ then ⌊x⌋ + 1
  else if ⌊x⌋ % 2 = 0 then ⌊x⌋ else ⌊x⌋ + 1

theorem roundHalfEven_rint (x : ℝ) : roundHalfEven x = (rint x : ℝ) := by
  unfold roundHalfEven rint
  split_ifs <;> push_cast <;> rfl

theorem rint_le (x : ℝ) : (rint x : ℝ) ≤ x + 1 / 2 := by
  have := Int.floor_le x
  unfold rint
  split_ifs <;> push_cast <;> linarith

theorem le_rint (x : ℝ) : x - 1 / 2 ≤ (rint x : ℝ) := by
  have := Int.lt_floor_add_one x
  unfold rint
  split_ifs <;> push_cast <;> linarith

theorem rint_unique {x : ℝ} {k : ℤ} (h1 : (k : ℝ) - 1 / 2 < x) (h2 : x < k + 1 / 2) : rint x = k := by
  have a := rint_le x
  have b := le_rint x
  have c : (rint x : ℝ) < k + 1 := by linarith
  have d : (k : ℝ) < rint x + 1 := by linarith
  have c' : rint x < k + 1 := by exact_mod_cast c
  have d' : k < rint x + 1 := by exact_mod_cast d
  omega

theorem rint_mono {x y : ℝ} (h : x ≤ y) : rint x ≤ rint y := by
  by_contra hc
  push Not at hc
  have a := rint_le x
  have b := le_rint y
  have c : (rint y : ℝ) + 1 ≤ rint x := by exact_mod_cast hc
  -- both are exactly at a tie
  have hxy : x = y := by linarith
  rw [hxy] at hc
  exact lt_irrefl _ hc

/-- Element `k` of the 1-2-5 series; element 0 is 1. -/
noncomputable def series (k : ℤ) : ℝ := (if k % 3 = 0 then 1 else if k % 3 = 1 then 2 else 5) * 10 ^ (k / 3)

theorem series_pos (k : ℤ) : 0 < series k := by
  unfold series
  split_ifs <;> positivity

theorem series_inSeries (k : ℤ) : InSeries (series k) := by
  refine ⟨k / 3, ?_⟩
  unfold series
  split_ifs <;> simp

theorem series_shift (k m : ℤ) : series (k + 3 * m) = series k * 10 ^ m := by
  unfold series
  rw [show (k + 3 * m) % 3 = k % 3 by omega, show (k + 3 * m) / 3 = k / 3 + m by omega, zpow_add₀ (by norm_num)]
  ring

theorem series_lt_succ (k : ℤ) : series k < series (k + 1) := by
  unfold series
  have h10 : (0 : ℝ) < 10 ^ (k / 3) := by positivity
  rcases (by omega : k % 3 = 0 ∨ k % 3 = 1 ∨ k % 3 = 2) with h | h | h
  · rw [show (k + 1) % 3 = 1 by omega, show (k + 1) / 3 = k / 3 by omega]; simp [h]; nlinarith
  · rw [show (k + 1) % 3 = 2 by omega, show (k + 1) / 3 = k / 3 by omega]; simp [h]; nlinarith
  · rw [show (k + 1) % 3 = 0 by omega, show (k + 1) / 3 = k / 3 + 1 by omega, zpow_add₀ (by norm_num)]
    simp [h]; nlinarith

theorem series_strictMono : StrictMono series := strictMono_int_of_lt_succ series_lt_succ

theorem ten_third : (2 : ℝ) < 10 ^ ((1 : ℝ) / 3) ∧ (10 : ℝ) ^ ((1 : ℝ) / 3) < 5 / 2 := by
  have h3 : ((10 : ℝ) ^ ((1 : ℝ) / 3)) ^ 3 = 10 := by
    rw [← Real.rpow_natCast, ← Real.rpow_mul (by norm_num)]; norm_num
  have hp : (0 : ℝ) < 10 ^ ((1 : ℝ) / 3) := by positivity
  constructor <;> by_contra hc <;> push Not at hc
  · have := pow_le_pow_left₀ hp.le hc 3; norm_num [h3] at this
  · have := pow_le_pow_left₀ (by norm_num : (0 : ℝ) ≤ 5 / 2) hc 3; norm_num [h3] at this

theorem ten_two_thirds : (9 / 2 : ℝ) < 10 ^ ((2 : ℝ) / 3) ∧ (10 : ℝ) ^ ((2 : ℝ) / 3) < 5 := by
  have h3 : ((10 : ℝ) ^ ((2 : ℝ) / 3)) ^ 3 = 100 := by
    rw [← Real.rpow_natCast, ← Real.rpow_mul (by norm_num)]; norm_num
  have hp : (0 : ℝ) < 10 ^ ((2 : ℝ) / 3) := by positivity
  constructor <;> by_contra hc <;> push Not at hc
  · have := pow_le_pow_left₀ hp.le hc 3; norm_num [h3] at this
  · have := pow_le_pow_left₀ (by norm_num : (0 : ℝ) ≤ 5) hc 3; norm_num [h3] at this

/-- The number of thirds of a decade. -/
noncomputable def level (v : ℝ) : ℤ := rint (3 * Real.logb 10 (max |v| (1 / 10 ^ 10)))

theorem floor_third (k : ℤ) : ⌊(k : ℝ) / 3⌋ = k / 3 := by
  have h := Int.emod_add_mul_ediv k 3
  have h0 := Int.emod_nonneg k (by norm_num : (3 : ℤ) ≠ 0)
  have h1 := Int.emod_lt_of_pos k (by norm_num : (0 : ℤ) < 3)
  rw [Int.floor_eq_iff]
  have e : (k : ℝ) = (k % 3 : ℤ) + 3 * (k / 3 : ℤ) := by exact_mod_cast h.symm
  have h0' : (0 : ℝ) ≤ (k % 3 : ℤ) := by exact_mod_cast h0
  have h1' : ((k % 3 : ℤ) : ℝ) < 3 := by exact_mod_cast h1
  constructor <;> linarith

theorem round125_eq (v : ℝ) : round125 v = signK v * series (level v) := by
  unfold round125
  simp only [roundHalfEven_rint]
  change signK v * (rint (10 ^ pyMod ((level v : ℝ) / 3) 1) : ℝ) * 10 ^ ⌊(level v : ℝ) / 3⌋ = _
  generalize level v = k
  have hm : pyMod ((k : ℝ) / 3) 1 = ((k % 3 : ℤ) : ℝ) / 3 := by
    have e : (k : ℝ) = (k % 3 : ℤ) + 3 * (k / 3 : ℤ) := by exact_mod_cast (Int.emod_add_mul_ediv k 3).symm
    unfold pyMod
    rw [div_one, floor_third]
    linarith
  rw [hm, floor_third, mul_assoc]
  congr 1
  unfold series
  congr 1
  rcases (by omega : k % 3 = 0 ∨ k % 3 = 1 ∨ k % 3 = 2) with h | h | h
  · rw [h, show rint ((10 : ℝ) ^ (((0 : ℤ) : ℝ) / 3)) = 1 from rint_unique (by norm_num) (by norm_num)]; simp
  · rw [h, show rint ((10 : ℝ) ^ (((1 : ℤ) : ℝ) / 3)) = 2 from ?_]
    · simp
    · have := ten_third
      exact rint_unique (by push_cast; linarith) (by push_cast; linarith)
  · rw [h, show rint ((10 : ℝ) ^ (((2 : ℤ) : ℝ) / 3)) = 5 from ?_]
    · simp
    · have := ten_two_thirds
      exact rint_unique (by push_cast; linarith) (by push_cast; linarith)

theorem signK_of_pos {v : ℝ} (h : 0 < v) : signK v = 1 := by simp [signK, h]

theorem signK_neg (v : ℝ) : signK (-v) = -signK v := by
  unfold signK
  rcases lt_trichotomy v 0 with h | rfl | h
  · simp [h, h.not_gt]
  · simp
  · simp [h, h.not_gt]

theorem level_of_large {v : ℝ} (h : 1 / 10 ^ 10 ≤ v) : level v = rint (3 * Real.logb 10 v) := by
  have hp : 0 < v := lt_of_lt_of_le (by norm_num) h
  rw [level, abs_of_pos hp, max_eq_left h]

theorem logb_lt_iff {x : ℝ} (hx : 0 < x) (m : ℤ) : (m : ℝ) < 6 * Real.logb 10 x ↔ (10 : ℝ) ^ m < x ^ 6 := by
  have h6 : 6 * Real.logb 10 x = Real.logb 10 (x ^ 6) := by
    rw [Real.logb_pow]; norm_num
  rw [h6, Real.lt_logb_iff_rpow_lt (by norm_num) (by positivity), Real.rpow_intCast]

theorem lt_logb_iff {x : ℝ} (hx : 0 < x) (m : ℤ) : 6 * Real.logb 10 x < (m : ℝ) ↔ x ^ 6 < (10 : ℝ) ^ m := by
  have h6 : 6 * Real.logb 10 x = Real.logb 10 (x ^ 6) := by
    rw [Real.logb_pow]; norm_num
  rw [h6, Real.logb_lt_iff_lt_rpow (by norm_num) (by positivity), Real.rpow_intCast]

/-- The interval of numbers that are rounded to element `k` of the series. -/
theorem level_eq {x : ℝ} (hx : 1 / 10 ^ 10 ≤ x) {k : ℤ} (h1 : (10 : ℝ) ^ (2 * k - 1) < x ^ 6)
    (h2 : x ^ 6 < (10 : ℝ) ^ (2 * k + 1)) : level x = k := by
  have hp : 0 < x := lt_of_lt_of_le (by norm_num) hx
  rw [level_of_large hx]
  have a := (logb_lt_iff hp _).2 h1
  have b := (lt_logb_iff hp _).2 h2
  push_cast at a b
  exact rint_unique (by linarith) (by linarith)

theorem level_bounds {x : ℝ} (hx : 1 / 10 ^ 10 ≤ x) :
    (10 : ℝ) ^ (2 * level x - 1) ≤ x ^ 6 ∧ x ^ 6 ≤ (10 : ℝ) ^ (2 * level x + 1) := by
  have hp : 0 < x := lt_of_lt_of_le (by norm_num) hx
  rw [level_of_large hx]
  have a := rint_le (3 * Real.logb 10 x)
  have b := le_rint (3 * Real.logb 10 x)
  constructor
  · by_contra hc
    push Not at hc
    have := (lt_logb_iff hp _).2 hc
    push_cast at this; linarith
  · by_contra hc
    push Not at hc
    have := (logb_lt_iff hp _).2 hc
    push_cast at this; linarith

/-! ### C13 -/

/-- Zero is left zero. -/
theorem C13_zero : round125 0 = 0 := by simp [round125, signK]

/-- All other numbers become plus or minus an element of the 1-2-5 series, with the sign of the number. -/
theorem C13_series {x : ℝ} (hx : x ≠ 0) :
    ∃ y, InSeries y ∧ ((0 < x ∧ round125 x = y) ∨ (x < 0 ∧ round125 x = -y)) := by
  refine ⟨series (level x), series_inSeries _, ?_⟩
  rcases lt_or_gt_of_ne hx with h | h
  · right; refine ⟨h, ?_⟩; rw [round125_eq]; simp [signK, h, h.le]
  · left; refine ⟨h, ?_⟩; rw [round125_eq]; simp [signK, h]

/-- It is odd. -/
theorem C13_odd (x : ℝ) : round125 (-x) = -round125 x := by
  rw [round125_eq, round125_eq, signK_neg, level, level, abs_neg]; ring

theorem level_mono {x y : ℝ} (hxy : |x| ≤ |y|) : level x ≤ level y := by
  apply rint_mono
  have : Real.logb 10 (max |x| (1 / 10 ^ 10)) ≤ Real.logb 10 (max |y| (1 / 10 ^ 10)) := by
    apply Real.logb_le_logb_of_le (by norm_num)
    · exact lt_of_lt_of_le (by norm_num) (le_max_right _ _)
    · exact max_le_max_right _ hxy
  linarith

/-- It is monotonic, on the whole real line. -/
theorem C13_monotone : Monotone round125 := by
  have hpos : ∀ {x}, 0 < x → round125 x = series (level x) := by
    intro x h; rw [round125_eq, signK_of_pos h, one_mul]
  have hneg : ∀ {x}, x < 0 → round125 x = - series (level x) := by
    intro x h; rw [round125_eq]; simp [signK, h, h.le]
  intro x y h
  rcases lt_trichotomy x 0 with hx | rfl | hx
  · rcases lt_trichotomy y 0 with hy | rfl | hy
    · rw [hneg hx, hneg hy, neg_le_neg_iff]
      exact series_strictMono.monotone (level_mono (by rw [abs_of_neg hx, abs_of_neg hy]; linarith))
    · rw [hneg hx, C13_zero]; have := series_pos (level x); linarith
    · rw [hneg hx, hpos hy]; have := series_pos (level x); have := series_pos (level y); linarith
  · rcases h.eq_or_lt with rfl | hy
    · exact le_rfl
    · rw [C13_zero, hpos hy]; exact (series_pos _).le
  · have hy : 0 < y := lt_of_lt_of_le hx h
    rw [hpos hx, hpos hy]
    exact series_strictMono.monotone (level_mono (by rw [abs_of_pos hx, abs_of_pos hy]; exact h))

/-- The exact thresholds, as inequalities between powers: a number is rounded to `10 ^ n` when it is within a factor of
the sixth root of ten from it, to `2 * 10 ^ n` up to the square root of ten, and then to `5 * 10 ^ n`. -/
theorem C13_thresholds {x : ℝ} (hx : 1 / 10 ^ 10 ≤ x) (n : ℤ) :
    ((10 : ℝ) ^ (6 * n - 1) < x ^ 6 → x ^ 6 < (10 : ℝ) ^ (6 * n + 1) → round125 x = 1 * 10 ^ n) ∧
    ((10 : ℝ) ^ (6 * n + 1) < x ^ 6 → x ^ 6 < (10 : ℝ) ^ (6 * n + 3) → round125 x = 2 * 10 ^ n) ∧
    ((10 : ℝ) ^ (6 * n + 3) < x ^ 6 → x ^ 6 < (10 : ℝ) ^ (6 * n + 5) → round125 x = 5 * 10 ^ n) := by
  have hp : 0 < x := lt_of_lt_of_le (by norm_num) hx
  rw [round125_eq, signK_of_pos hp, one_mul]
  refine ⟨fun h1 h2 => ?_, fun h1 h2 => ?_, fun h1 h2 => ?_⟩
  · rw [level_eq hx (k := 3 * n) (by convert h1 using 2; ring) (by convert h2 using 2; ring)]
    simp [series]
  · rw [level_eq hx (k := 3 * n + 1) (by convert h1 using 2; ring) (by convert h2 using 2; ring)]
    unfold series
    rw [show (3 * n + 1) % 3 = 1 by omega, show (3 * n + 1) / 3 = n by omega]; simp
  · rw [level_eq hx (k := 3 * n + 2) (by convert h1 using 2; ring) (by convert h2 using 2; ring)]
    unfold series
    rw [show (3 * n + 2) % 3 = 2 by omega, show (3 * n + 2) / 3 = n by omega]; simp

/-- 1-2-5 numbers of at least 1e-10 are left unchanged, in particular rounding twice is rounding once. -/
theorem C13_fixed_partial {y : ℝ} (hy : InSeries y) (h : 1 / 10 ^ 10 ≤ y) : round125 y = y := by
  obtain ⟨n, hn⟩ := hy
  have key := C13_thresholds h n
  have e : ∀ m : ℤ, (10 : ℝ) ^ (6 * n + m) = (10 ^ n) ^ 6 * 10 ^ m := by
    intro m; rw [zpow_add₀ (by norm_num), mul_comm 6 n, zpow_mul]; norm_cast
  have hp : (0 : ℝ) < (10 ^ n) ^ 6 := by positivity
  rw [show (6 * n - 1 : ℤ) = 6 * n + (-1) by ring, e, e, e, e] at key
  rcases hn with rfl | rfl | rfl
  · exact key.1 (by rw [mul_pow]; norm_num; nlinarith) (by rw [mul_pow]; norm_num; nlinarith)
  · exact key.2.1 (by rw [mul_pow]; norm_num; nlinarith) (by rw [mul_pow]; norm_num; nlinarith)
  · exact key.2.2 (by rw [mul_pow]; norm_num; nlinarith) (by rw [mul_pow]; norm_num; nlinarith)

/-- A tie between two elements of the series is impossible for a rational number. -/
theorem no_tie {x : ℝ} (hx : 0 < x) (hq : ∃ q : ℚ, x = q) (k : ℤ) : 3 * Real.logb 10 x ≠ k + 1 / 2 := by
  intro h
  obtain ⟨q, hq⟩ := hq
  have h6 : x ^ 6 = (10 : ℝ) ^ (2 * k + 1) := by
    have e : Real.logb 10 (x ^ 6) = ((2 * k + 1 : ℤ) : ℝ) := by
      rw [Real.logb_pow]; push_cast; linarith
    rw [← Real.rpow_intCast, ← e, Real.rpow_logb (by norm_num) (by norm_num) (by positivity)]
  have hsq : (x ^ 3 / 10 ^ k) ^ 2 = 10 := by
    rw [div_pow, ← pow_mul, h6, zpow_add₀ (by norm_num), zpow_one, mul_comm 2 k, zpow_mul]
    have : ((10 : ℝ) ^ k) ≠ 0 := by positivity
    field_simp
  have hirr : Irrational (Real.sqrt 10) := by
    have : ¬ IsSquare (10 : ℕ) := by
      rintro ⟨r, hr⟩
      have : r < 4 := by nlinarith
      interval_cases r <;> omega
    exact_mod_cast irrational_sqrt_natCast_iff.2 this
  apply hirr
  refine ⟨q ^ 3 / 10 ^ k, ?_⟩
  have hpos : 0 ≤ x ^ 3 / 10 ^ k := by positivity
  rw [← hsq, Real.sqrt_sq hpos, hq]
  push_cast
  rfl

theorem rint_add_of_no_tie {x : ℝ} (m : ℤ) (h : ∀ k : ℤ, x ≠ k + 1 / 2) : rint (x + m) = rint x + m := by
  have a := rint_le x
  have b := le_rint x
  apply rint_unique <;> push_cast
  · rcases a.lt_or_eq with h' | h'
    · linarith
    · exact absurd (show x = ((rint x - 1 : ℤ) : ℝ) + 1 / 2 by push_cast; linarith) (h _)
  · rcases b.lt_or_eq with h' | h'
    · linarith
    · exact absurd (show x = ((rint x : ℤ) : ℝ) + 1 / 2 by linarith) (h _)

theorem logb_ten (m : ℤ) : Real.logb 10 ((10 : ℝ) ^ m) = m * 1 := by
  rw [← Real.rpow_intCast, Real.logb_rpow (by norm_num) (by norm_num), mul_one]

/-- Scaling by a power of ten: no rational number, hence no floating-point number, is at a tie, so the rounding
commutes with powers of ten as long as the numbers are at least 1e-10. -/
theorem C13_scaling_partial {q : ℚ} (m : ℤ) (h0 : (1 : ℝ) / 10 ^ 10 ≤ q) (h1 : (1 : ℝ) / 10 ^ 10 ≤ q * 10 ^ m) :
    round125 (q * 10 ^ m) = round125 q * 10 ^ m := by
  have hp : (0 : ℝ) < q := lt_of_lt_of_le (by norm_num) h0
  have hp' : (0 : ℝ) < q * 10 ^ m := by positivity
  rw [round125_eq, round125_eq, signK_of_pos hp, signK_of_pos hp', one_mul, one_mul, level_of_large h0,
    level_of_large h1, Real.logb_mul hp.ne' (by positivity), logb_ten]
  rw [show 3 * (Real.logb 10 (q : ℝ) + m * 1) = 3 * Real.logb 10 (q : ℝ) + ((3 * m : ℤ) : ℝ) by push_cast; ring,
    rint_add_of_no_tie _ (no_tie hp ⟨q, rfl⟩), series_shift]

/-- The result differs by less than a factor of 1.6 from the number. -/
theorem C13_near {x : ℝ} (hx : 1 / 10 ^ 10 ≤ x) :
    63 / 100 * x < round125 x ∧ round125 x < 159 / 100 * x := by
  have hp : 0 < x := lt_of_lt_of_le (by norm_num) hx
  rw [round125_eq, signK_of_pos hp, one_mul]
  obtain ⟨a, b⟩ := level_bounds hx
  generalize hk : level x = k at a b
  have hs := series_pos k
  have h6 : series k ^ 6 = (if k % 3 = 0 then 1 else if k % 3 = 1 then 64 else 15625) * 10 ^ (6 * (k / 3)) := by
    unfold series
    rw [mul_pow, mul_comm 6 (k / 3), zpow_mul]
    split_ifs <;> norm_num
  have hlo : (10 : ℝ) ^ (2 * k - 1) = 10 ^ (6 * (k / 3)) * 10 ^ (2 * (k % 3) - 1) := by
    rw [← zpow_add₀ (by norm_num)]; congr 1; omega
  have hhi : (10 : ℝ) ^ (2 * k + 1) = 10 ^ (6 * (k / 3)) * 10 ^ (2 * (k % 3) + 1) := by
    rw [← zpow_add₀ (by norm_num)]; congr 1; omega
  have hP : (0 : ℝ) < 10 ^ (6 * (k / 3)) := by positivity
  rw [hlo] at a; rw [hhi] at b
  have h1 : (63 / 100 * x) ^ 6 < series k ^ 6 ∧ series k ^ 6 < (159 / 100 * x) ^ 6 := by
    rw [h6, mul_pow, mul_pow]
    rcases (by omega : k % 3 = 0 ∨ k % 3 = 1 ∨ k % 3 = 2) with h | h | h <;> rw [h] at a b ⊢ <;> norm_num at a b ⊢ <;>
      constructor <;> nlinarith
  exact ⟨lt_of_pow_lt_pow_left₀ 6 hs.le h1.1, lt_of_pow_lt_pow_left₀ 6 (by positivity) h1.2⟩

/-- It is *not* always the nearest number of the series: 6.9 becomes 10 although 5 is nearer, and 1.48 becomes 2
although 1 is nearer. -/
theorem C13_nearest_violates : round125 6.9 = 10 ∧ |(6.9 : ℝ) - 5| < |6.9 - 10| ∧
    round125 1.48 = 2 ∧ |(1.48 : ℝ) - 1| < |1.48 - 2| := by
  refine ⟨?_, by norm_num [abs_lt, abs_of_pos, abs_of_neg], ?_, by norm_num [abs_of_pos, abs_of_neg]⟩
  · have := (C13_thresholds (x := 6.9) (by norm_num) 1).1 (by norm_num) (by norm_num)
    rw [this]; norm_num
  · have := (C13_thresholds (x := 1.48) (by norm_num) 0).2.1 (by norm_num) (by norm_num)
    rw [this]; norm_num

/-- Numbers of magnitude less than 1e-10 become 1e-10, so `2e-11` is not left unchanged and scaling does not commute. -/
theorem C13_tiny {x : ℝ} (h0 : 0 < x) (h : x ≤ 1 / 10 ^ 10) : round125 x = 1 / 10 ^ 10 := by
  have : level x = level (1 / 10 ^ 10) := by
    unfold level; rw [abs_of_pos h0, max_eq_right h, abs_of_pos (by norm_num), max_self]
  have h1 := C13_fixed_partial (y := 1 / 10 ^ 10) ⟨-10, .inl (by norm_num)⟩ le_rfl
  rw [round125_eq, signK_of_pos (by norm_num)] at h1
  rw [round125_eq, signK_of_pos h0, this, h1]

theorem C13_tiny_violates : InSeries (2 * 10 ^ (-11 : ℤ)) ∧ round125 (2 * 10 ^ (-11 : ℤ)) ≠ 2 * 10 ^ (-11 : ℤ) := by
  refine ⟨⟨-11, .inr (.inl rfl)⟩, ?_⟩
  rw [C13_tiny (by positivity) (by norm_num)]
  norm_num

/-- At an exact tie, an irrational number, the choice alternates from one decade to the next, so that scaling by ten does
not commute: the sixth root of ten becomes 1, but ten times as much becomes 20. -/
theorem C13_tie_violates : round125 (10 ^ (1 / 6 : ℝ)) = 1 ∧ round125 (10 * 10 ^ (1 / 6 : ℝ)) = 20 := by
  have h1 : (1 : ℝ) ≤ 10 ^ (1 / 6 : ℝ) := Real.one_le_rpow (by norm_num) (by norm_num)
  have l1 : Real.logb 10 ((10 : ℝ) ^ (1 / 6 : ℝ)) = 1 / 6 := Real.logb_rpow (by norm_num) (by norm_num)
  have f1 : ⌊(1 / 2 : ℝ)⌋ = 0 := by norm_num
  have f2 : ⌊(7 / 2 : ℝ)⌋ = 3 := by rw [Int.floor_eq_iff]; norm_num
  constructor
  · rw [round125_eq, signK_of_pos (by linarith), level_of_large (by linarith), l1,
      show rint (3 * (1 / 6)) = 0 by rw [show (3 * (1 / 6) : ℝ) = 1 / 2 by norm_num]; simp only [rint, f1]; norm_num]
    simp [series]
  · rw [round125_eq, signK_of_pos (by linarith), level_of_large (by linarith), Real.logb_mul (by norm_num) (by positivity),
      l1, Real.logb_self_eq_one (by norm_num), show rint (3 * (1 + 1 / 6)) = 4 by
        rw [show (3 * (1 + 1 / 6) : ℝ) = 7 / 2 by norm_num]; norm_num [rint, f2]]
    norm_num [series]

/-- An integer argument gives the same result as the corresponding real number. -/
theorem C13_int (z : ℤ) : round125Int z = round125 z := by
  unfold round125Int
  rcases eq_or_ne z 0 with rfl | hz
  · simp [C13_zero, truncK]
  suffices h : ∃ m : ℤ, round125 z = m by
    obtain ⟨m, hm⟩ := h
    rw [hm]; unfold truncK; split_ifs <;> simp
  have hlev : 0 ≤ level (z : ℝ) := by
    have h1 : (1 : ℝ) ≤ |(z : ℝ)| := by exact_mod_cast Int.one_le_abs hz
    have : level 1 ≤ level (z : ℝ) := level_mono (by simpa using h1)
    rwa [show level 1 = 0 from level_eq (by norm_num) (by norm_num) (by norm_num)] at this
  have hs : ∃ m : ℤ, series (level (z : ℝ)) = m := by
    generalize level (z : ℝ) = k at hlev
    unfold series
    obtain ⟨j, hj⟩ := Int.eq_ofNat_of_zero_le (show 0 ≤ k / 3 by omega)
    rw [hj]
    refine ⟨(if k % 3 = 0 then 1 else if k % 3 = 1 then 2 else 5) * 10 ^ j, ?_⟩
    split_ifs <;> simp
  obtain ⟨m, hm⟩ := hs
  rw [round125_eq, hm]
  unfold signK
  split_ifs
  · exact ⟨m, by simp⟩
  · exact ⟨-m, by simp⟩
  · exact ⟨0, by simp⟩

example : InSeries 500 ∧ (1 : ℝ) / 10 ^ 10 ≤ 500 ∧ round125 500 = 500 :=
  ⟨⟨2, .inr (.inr (by norm_num))⟩, by norm_num, C13_fixed_partial ⟨2, .inr (.inr (by norm_num))⟩ (by norm_num)⟩
example : round125 3 = 2 := by
  rw [(C13_thresholds (x := 3) (by norm_num) 0).2.1 (by norm_num) (by norm_num)]; norm_num
example : (1 : ℝ) / 10 ^ 10 ≤ ((3 : ℚ) : ℝ) ∧ (1 : ℝ) / 10 ^ 10 ≤ ((3 : ℚ) : ℝ) * 10 ^ (-4 : ℤ) := by norm_num

end Verif.Round125
