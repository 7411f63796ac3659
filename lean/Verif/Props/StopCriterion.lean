import Verif.Model.StopCriterion

/-!
# C14, C15 and C62: the adaptive stop criterion
-/

namespace Verif.StopCriterion

open Verif

/-! ### C14 -/

/-- The criterion asks to stop only when the residue is below the target or the limit has been reached, whatever has been
asked of it before. -/
theorem C14_reason {target : ℝ} {limit : ℤ} {s s' : State} {iteration : ℤ} {residue : ℝ}
    (h : call target limit s iteration residue = .ok (false, s')) : residue < target ∨ limit ≤ iteration := by
  unfold call decide' at h
  simp only at h
  split_ifs at h with h1 h2 h3 h4
  · cases h
  · exact .inl h3
  · exfalso
    revert h
    cases estimate target (schedule (resetNew s iteration) iteration).res0 residue
      ((schedule (resetNew s iteration) iteration).it1 - (schedule (resetNew s iteration) iteration).it0) <;>
      simp [bind, Except.bind]
  · exact .inr h4
  · cases h

/-- Conversely, the first measurement after the schedule's second check that is below the target stops the iteration. -/
theorem C14_target {target : ℝ} {limit : ℤ} {s : State} {residue : ℝ} {p : ℤ} (hp : s.previous = some p)
    (hlt : p ≤ s.it1) (h0 : s.it0 < s.it1) (hr : residue < target) :
    ∃ s', call target limit s s.it1 residue = .ok (false, s') := by
  have e1 : resetNew s s.it1 = { s with previous := some s.it1 } := by
    simp [resetNew, hp, not_lt.2 hlt]
  have e2 : schedule { s with previous := some s.it1 } s.it1 = { s with previous := some s.it1 } := by
    have : ¬ (s.it1 > max s.it0 s.it1) := by simp
    simp only [schedule, this, if_false]
  unfold call
  rw [e1, e2]
  unfold decide'
  simp only [h0.ne', hr, if_true, if_false]
  exact ⟨_, rfl⟩

/-! ### C15 -/

/-- At or past the limit the criterion asks to stop, unless the iteration is scheduled for a check. -/
theorem C15_limit_partial {target : ℝ} {limit : ℤ} {s : State} {iteration : ℤ} {residue : ℝ} (hl : limit ≤ iteration)
    (h0 : iteration ≠ (resetNew s iteration).it0) (h1 : iteration ≠ (resetNew s iteration).it1) :
    ∃ s', call target limit s iteration residue = .ok (false, s') := by
  unfold call schedule
  split
  · unfold decide'
    rw [if_neg (by simp only; omega), if_neg (by simp only; omega), if_pos hl]
    exact ⟨_, rfl⟩
  · unfold decide'
    rw [if_neg h0, if_neg h1, if_pos hl]
    exact ⟨_, rfl⟩

/-- The state during the iterations before the second check. -/
theorem running_early {target : ℝ} {limit : ℤ} {res : ℕ → ℝ} {n : ℕ} {s : State} (hn : n ≤ 51)
    (h : running target limit res fresh n = some s) :
    (n = 0 ∧ s = fresh) ∨
    (n = 1 ∧ s.it0 = 1 ∧ s.it1 = 1 ∧ s.previous = some 1) ∨
    (2 ≤ n ∧ s.it0 = 27 ∧ s.it1 = 52 ∧ s.previous = some (n : ℤ) ∧ (27 ≤ n → s.res0 = res 27) ∧
      ∀ m : ℕ, 2 ≤ m → m ≤ n → m ≠ 27 → (m : ℤ) < limit) := by
  induction n generalizing s with
  | zero => left; simpa [running, eq_comm] using h
  | succ n ih =>
    right
    simp only [running] at h
    cases hr : running target limit res fresh n with
    | none => rw [hr] at h; cases h
    | some s₀ =>
      rw [hr] at h
      simp only at h
      rcases ih (by omega) hr with ⟨rfl, rfl⟩ | ⟨rfl, h0, h1, hp⟩ | ⟨h2, h0, h1, hp, h27, hlim⟩
      · left
        simp only [call, decide', schedule, resetNew, fresh] at h
        norm_num at h
        subst h; simp
      · right
        have e1 : resetNew s₀ 2 = { s₀ with previous := some 2 } := by simp [resetNew, hp]
        have e2 : schedule { s₀ with previous := some 2 } 2 =
            { s₀ with previous := some 2, it0 := 27, it1 := 52 } := by
          simp [schedule, h0, h1]
        have hc : call target limit s₀ 2 (res 2) = decide' target limit
            { s₀ with previous := some 2, it0 := 27, it1 := 52 } 2 (res 2) := by unfold call; rw [e1, e2]
        norm_num at h
        rw [hc] at h
        unfold decide' at h
        norm_num at h
        by_cases hl : limit ≤ 2
        · simp [hl] at h
        · simp only [hl, if_false, Option.some.injEq] at h
          subst h
          refine ⟨le_rfl, rfl, rfl, rfl, by omega, fun m hm1 hm2 _ => ?_⟩
          have : m = 2 := by omega
          subst this; push_cast; omega
      · right
        have e1 : resetNew s₀ (n + 1 : ℕ) = { s₀ with previous := some ((n + 1 : ℕ) : ℤ) } := by
          have : ¬ (((n + 1 : ℕ) : ℤ) < n) := by push_cast; omega
          simp only [resetNew, hp, this, if_false]
        have e2 : schedule { s₀ with previous := some ((n + 1 : ℕ) : ℤ) } (n + 1 : ℕ) =
            { s₀ with previous := some ((n + 1 : ℕ) : ℤ) } := by
          have : ¬ (((n + 1 : ℕ) : ℤ) > max s₀.it0 s₀.it1) := by rw [h0, h1]; push_cast; omega
          simp only [schedule, this, if_false]
        unfold call at h
        rw [e1, e2] at h
        unfold decide' at h
        simp only [h0, h1] at h
        have hne : ((n + 1 : ℕ) : ℤ) ≠ 52 := by push_cast; omega
        by_cases h26 : n = 26
        · subst h26
          norm_num at h
          subst h
          exact ⟨by omega, by simp, by simp, by simp, by simp, fun m a b c => hlim m a (by omega) c⟩
        · have hne27 : ((n + 1 : ℕ) : ℤ) ≠ 27 := by push_cast; omega
          by_cases hl : ((n + 1 : ℕ) : ℤ) ≥ limit
          · simp only [hne, hne27, hl, if_false, if_true] at h; cases h
          · simp only [hne, hne27, hl, if_false, Option.some.injEq] at h
            subst h
            refine ⟨by omega, rfl, rfl, rfl, fun h' => h27 (by omega), fun m a b c => ?_⟩
            rcases Nat.lt_or_ge n m with hm | hm
            · have : m = n + 1 := by omega
              subst this; omega
            · exact hlim m a hm c

theorem running_none {target : ℝ} {limit : ℤ} {res : ℕ → ℝ} {start : State} {n m : ℕ} (hm : n ≤ m)
    (h : running target limit res start n = none) : running target limit res start m = none := by
  induction m, hm using Nat.le_induction with
  | base => exact h
  | succ m _ ih => simp only [running, ih]

/-- For limits up to 51 the solution never gets past the iteration after the limit, whatever the residues. -/
theorem C15_small_limit_partial {target : ℝ} {limit : ℕ} (hl : limit ≤ 50) (h1 : 1 ≤ limit) (res : ℕ → ℝ) {n : ℕ}
    (hn : limit < n) : running target limit res fresh n = none := by
  apply running_none (n := limit + 1) (by omega)
  by_contra hc
  obtain ⟨s, hs⟩ := Option.ne_none_iff_exists'.1 hc
  rcases running_early (by omega) hs with ⟨h, -⟩ | ⟨h, -⟩ | ⟨-, -, -, -, -, h⟩
  · omega
  · omega
  · rcases eq_or_ne (limit + 1) 27 with h' | h'
    · have := h limit (by omega) (by omega) (by omega); omega
    · have := h (limit + 1) (by omega) le_rfl h'; push_cast at this; omega

theorem rpow_gt_one {x : ℝ} (hx : 1 < x) {d : ℤ} (hd : 0 < d) : 1 < x ^ (1 / (d : ℝ)) :=
  Real.one_lt_rpow hx (by have : (0 : ℝ) < d := by exact_mod_cast hd
                          positivity)

/-- When the residue has grown, and the target has not been reached, the next check is at the next iteration. -/
theorem estimate_growing {target r0 r1 : ℝ} {d : ℤ} (ht : 0 < target) (h0 : 0 < r0) (h1 : r0 < r1) (h2 : target ≤ r1)
    (hd : 0 < d) : ∃ z, estimate target r0 r1 d = .ok z ∧ z ≤ 0 := by
  have hr : 1 < r1 / r0 := by rwa [one_lt_div h0]
  have hrate := rpow_gt_one hr hd
  refine ⟨_, by rw [estimate, if_neg ht.not_gt, if_neg ht.ne', if_neg h0.ne']; simp only; rw [if_neg hrate.ne'], ?_⟩
  have hlog : 0 < Real.log ((r1 / r0) ^ (1 / (d : ℝ))) := Real.log_pos hrate
  have hneg : Real.log (target / r1) ≤ 0 :=
    Real.log_nonpos (div_nonneg ht.le (ht.le.trans h2)) ((div_le_one (lt_of_lt_of_le ht h2)).2 h2)
  have hq := div_nonpos_of_nonpos_of_nonneg hneg hlog.le
  unfold pyInt
  split_ifs with h
  · have : ⌊Real.log (target / r1) / Real.log ((r1 / r0) ^ (1 / (d : ℝ))) + 1 / 2⌋ < 1 := by
      rw [Int.floor_lt]; push_cast; linarith
    omega
  · rw [Int.ceil_le]; push_cast; push Not at h; linarith

/-- The iteration limit is *not* enforced in general: if the residue grows from the first check at iteration 27 on (as it
does when the iteration diverges), while it is above the target, then the iteration goes on for ever, for all limits of
at least 52, such as the default 10000. -/
theorem C15_limit_violates {target : ℝ} (ht : 0 < target) {limit : ℤ} (hl : 52 ≤ limit) {res : ℕ → ℝ}
    (hmono : StrictMonoOn res {n | 27 ≤ n}) (hbig : ∀ n, 27 ≤ n → target ≤ res n) (n : ℕ) :
    ∃ s, running target limit res fresh n = some s := by
  -- the first 51 iterations
  have early : ∀ n ≤ 51, ∃ s, running target limit res fresh n = some s := by
    intro n hn
    induction n with
    | zero => exact ⟨fresh, rfl⟩
    | succ n ih =>
      obtain ⟨s₀, hs₀⟩ := ih (by omega)
      simp only [running, hs₀]
      rcases running_early (by omega) hs₀ with ⟨rfl, rfl⟩ | ⟨rfl, h0, h1, hp⟩ | ⟨h2, h0, h1, hp, -, -⟩
      · simp [call, decide', schedule, resetNew, fresh]
      · have e1 : resetNew s₀ 2 = { s₀ with previous := some 2 } := by simp [resetNew, hp]
        have e2 : schedule { s₀ with previous := some 2 } 2 =
            { s₀ with previous := some 2, it0 := 27, it1 := 52 } := by
          simp [schedule, h0, h1]
        have hc : call target limit s₀ 2 (res 2) = decide' target limit
            { s₀ with previous := some 2, it0 := 27, it1 := 52 } 2 (res 2) := by unfold call; rw [e1, e2]
        norm_num
        rw [hc]
        have : ¬ limit ≤ 2 := by omega
        simp [decide', this]
      · have e1 : resetNew s₀ (n + 1 : ℕ) = { s₀ with previous := some ((n + 1 : ℕ) : ℤ) } := by
          have : ¬ (((n + 1 : ℕ) : ℤ) < n) := by push_cast; omega
          simp only [resetNew, hp, this, if_false]
        have e2 : schedule { s₀ with previous := some ((n + 1 : ℕ) : ℤ) } (n + 1 : ℕ) =
            { s₀ with previous := some ((n + 1 : ℕ) : ℤ) } := by
          have : ¬ (((n + 1 : ℕ) : ℤ) > max s₀.it0 s₀.it1) := by rw [h0, h1]; push_cast; omega
          simp only [schedule, this, if_false]
        unfold call
        rw [e1, e2]
        unfold decide'
        simp only [h0, h1]
        have hne : ((n + 1 : ℕ) : ℤ) ≠ 52 := by push_cast; omega
        have hlim : ¬ (((n + 1 : ℕ) : ℤ) ≥ limit) := by push_cast; omega
        simp only [hne, hlim, if_false]
        split_ifs <;> exact ⟨_, rfl⟩
  -- from then on every iteration is a check
  have late : ∀ k : ℕ, ∃ s, running target limit res fresh (51 + k) = some s ∧ s.it1 = (52 + k : ℕ) ∧
      s.previous = some ((51 + k : ℕ) : ℤ) ∧ ∃ m : ℕ, 27 ≤ m ∧ m ≤ 51 + k ∧ s.it0 = m ∧ s.res0 = res m := by
    intro k
    induction k with
    | zero =>
      obtain ⟨s, hs⟩ := early 51 le_rfl
      rcases running_early le_rfl hs with ⟨h, -⟩ | ⟨h, -⟩ | ⟨-, h0, h1, hp, h27, -⟩
      · omega
      · omega
      · exact ⟨s, hs, h1, hp, 27, le_rfl, by omega, h0, h27 (by omega)⟩
    | succ k ih =>
      obtain ⟨s, hs, h1, hp, m, hm1, hm2, h0, hres⟩ := ih
      have e1 : resetNew s (52 + k : ℕ) = { s with previous := some ((52 + k : ℕ) : ℤ) } := by
        have : ¬ (((52 + k : ℕ) : ℤ) < (51 + k : ℕ)) := by push_cast; omega
        simp only [resetNew, hp, this, if_false]
      have e2 : schedule { s with previous := some ((52 + k : ℕ) : ℤ) } (52 + k : ℕ) =
          { s with previous := some ((52 + k : ℕ) : ℤ) } := by
        have : ¬ (((52 + k : ℕ) : ℤ) > max s.it0 s.it1) := by rw [h0, h1]; simp
        simp only [schedule, this, if_false]
      have hr0 : target ≤ res m := hbig m hm1
      have hlt : res m < res (52 + k) := hmono hm1 (show 27 ≤ 52 + k by omega) (by omega)
      obtain ⟨z, hz, hz0⟩ := estimate_growing (d := ((52 + k : ℕ) : ℤ) - m) ht (lt_of_lt_of_le ht hr0) hlt
        (hr0.trans hlt.le) (by push_cast; omega)
      have hne : ¬ (((52 + k : ℕ) : ℤ) = m) := by omega
      have hcall : call target limit s (52 + k : ℕ) (res (52 + k)) = .ok (true,
          { it0 := (52 + k : ℕ), it1 := (53 + k : ℕ), res0 := res (52 + k), res1 := res (52 + k),
            previous := some ((52 + k : ℕ) : ℤ) }) := by
        unfold call
        rw [e1, e2]
        unfold decide'
        simp only [h0, h1, hne, if_false, if_true, not_lt.2 (hr0.trans hlt.le), hres, hz, bind, Except.bind]
        rw [max_eq_left (by omega), min_eq_left (by push_cast; omega)]
        congr 4
        push_cast; ring
      refine ⟨{ it0 := (52 + k : ℕ), it1 := (53 + k : ℕ), res0 := res (52 + k), res1 := res (52 + k),
                previous := some ((52 + k : ℕ) : ℤ) }, ?_, ?_, ?_, 52 + k, by omega, by omega, rfl, rfl⟩
      · rw [show 51 + (k + 1) = (51 + k) + 1 by ring, running, hs]
        simp only
        rw [show 51 + k + 1 = 52 + k by ring, hcall]
      · simp only; congr 1; ring
      · simp only; congr 2; ring
  rcases Nat.lt_or_ge n 51 with h | h
  · exact early n h.le
  · obtain ⟨s, hs, -⟩ := late (n - 51)
    exact ⟨s, by rwa [show 51 + (n - 51) = n by omega] at hs⟩

/-- The criterion raises when two successive checks give the same residue, which is what happens when the solution has
stopped improving. -/
theorem C15_raises_violates {target : ℝ} (ht : 0 < target) {limit : ℤ} {s : State} {residue : ℝ} {p : ℤ}
    (hp : s.previous = some p) (hlt : p ≤ s.it1) (h0 : s.it0 < s.it1) (hr : target < residue) (hsame : s.res0 = residue) :
    call target limit s s.it1 residue = .error .overflow := by
  have e1 : resetNew s s.it1 = { s with previous := some s.it1 } := by
    simp [resetNew, hp, not_lt.2 hlt]
  have e2 : schedule { s with previous := some s.it1 } s.it1 = { s with previous := some s.it1 } := by
    have : ¬ (s.it1 > max s.it0 s.it1) := by simp
    simp only [schedule, this, if_false]
  have hpos : 0 < residue := ht.trans hr
  unfold call
  rw [e1, e2]
  unfold decide'
  simp only [h0.ne', not_lt.2 hr.le, if_true, if_false, hsame]
  rw [estimate, if_neg ht.not_gt, if_neg ht.ne', if_neg hpos.ne']
  simp [div_self hpos.ne', hr.ne, bind, Except.bind]

/-- It also raises when the target is zero, at the first check where a rate is estimated. -/
theorem C15_zero_target_violates {limit : ℤ} {s : State} {residue : ℝ} {p : ℤ}
    (hp : s.previous = some p) (hlt : p ≤ s.it1) (h0 : s.it0 < s.it1) (hr : 0 ≤ residue) :
    call 0 limit s s.it1 residue = .error (if residue = 0 ∨ s.res0 = 0 then .valueError else .overflow) := by
  have e1 : resetNew s s.it1 = { s with previous := some s.it1 } := by
    simp [resetNew, hp, not_lt.2 hlt]
  have e2 : schedule { s with previous := some s.it1 } s.it1 = { s with previous := some s.it1 } := by
    have : ¬ (s.it1 > max s.it0 s.it1) := by simp
    simp only [schedule, this, if_false]
  unfold call
  rw [e1, e2]
  unfold decide'
  by_cases hz : residue = 0 ∨ s.res0 = 0 <;> simp [h0.ne', not_lt.2 hr, estimate, hz, bind, Except.bind]

/-- The second of two checks. -/
theorem call_second {target : ℝ} {limit : ℤ} {s : State} {residue : ℝ} {p : ℤ} (hp : s.previous = some p) (hlt : p ≤ s.it1) (h0 : s.it0 < s.it1) :
    call target limit s s.it1 residue = if residue < target then .ok (false, { s with previous := some s.it1, res1 := residue }) else
      (estimate target s.res0 residue (s.it1 - s.it0)).bind fun left =>
        .ok (true, { s with previous := some s.it1, res1 := residue, it0 := s.it1, res0 := residue, it1 := s.it1 + min (max 1 left) s.it1 }) := by
  have e1 : resetNew s s.it1 = { s with previous := some s.it1 } := by
    simp [resetNew, hp, not_lt.2 hlt]
  have e2 : schedule { s with previous := some s.it1 } s.it1 = { s with previous := some s.it1 } := by
    have : ¬ (s.it1 > max s.it0 s.it1) := by simp
    simp only [schedule, this, if_false]
  unfold call
  rw [e1, e2]
  unfold decide'
  simp only [h0.ne', if_true, if_false]
  rfl

/-- It raises when the target is negative. -/
theorem C15_negative_target_violates {target : ℝ} (ht : target < 0) {limit : ℤ} {s : State} {residue : ℝ} {p : ℤ} (hp : s.previous = some p) (hlt : p ≤ s.it1) (h0 : s.it0 < s.it1)
    (hr : 0 ≤ residue) : call target limit s s.it1 residue = .error .valueError := by
  rw [call_second hp hlt h0, if_neg (ht.le.trans hr).not_gt, estimate, if_pos ht]
  rfl

/-- If the residue was zero and is not any more, the next check is at the next iteration. -/
theorem C15_zero_residue {target : ℝ} (ht : 0 < target) {limit : ℤ} {s : State} {residue : ℝ} {p : ℤ} (hp : s.previous = some p) (hlt : p ≤ s.it1) (h0 : s.it0 < s.it1) (h1 : 1 ≤ s.it1)
    (hr : target ≤ residue) (hz : s.res0 = 0) : ∃ s', call target limit s s.it1 residue = .ok (true, s') ∧ s'.it1 = s.it1 + 1 := by
  rw [call_second hp hlt h0, if_neg hr.not_gt, estimate, if_neg ht.not_gt, if_neg ht.ne', if_pos hz]
  exact ⟨_, rfl, by simp [h1]⟩

/-- Exactly when it raises, for the second of two checks. -/
theorem C15_raises {target : ℝ} {limit : ℤ} {s : State} {residue : ℝ} {p : ℤ} (hp : s.previous = some p) (hlt : p ≤ s.it1) (h0 : s.it0 < s.it1) (hr0 : 0 ≤ s.res0) (hr : 0 ≤ residue) :
    (∃ e, call target limit s s.it1 residue = .error e) ↔ target ≤ residue ∧ (target ≤ 0 ∨ s.res0 = residue) := by
  rw [call_second hp hlt h0]
  by_cases h1 : residue < target
  · rw [if_pos h1]
    exact ⟨fun ⟨e, h⟩ => (nomatch h), fun h => absurd h.1 (not_le.2 h1)⟩
  rw [if_neg h1]
  have h1' := not_lt.1 h1
  unfold estimate
  rcases lt_trichotomy target 0 with ht | ht | ht
  · rw [if_pos ht]
    exact ⟨fun _ => ⟨h1', .inl ht.le⟩, fun _ => ⟨_, rfl⟩⟩
  · rw [if_neg ht.not_lt, if_pos ht]
    refine ⟨fun _ => ⟨h1', .inl ht.le⟩, fun _ => ?_⟩
    split_ifs <;> exact ⟨_, rfl⟩
  rw [if_neg ht.not_gt, if_neg ht.ne']
  have hpos : 0 < residue := ht.trans_le h1'
  by_cases hz : s.res0 = 0
  · rw [if_pos hz]
    exact ⟨fun ⟨e, h⟩ => (nomatch h), fun h => h.2.elim (fun h2 => absurd h2 (not_le.2 ht)) fun h2 => absurd (h2.symm.trans hz) hpos.ne'⟩
  rw [if_neg hz]
  have hr0' : 0 < s.res0 := lt_of_le_of_ne hr0 (Ne.symm hz)
  have hd : (1 / ((s.it1 - s.it0 : ℤ) : ℝ)) ≠ 0 := by
    have : (0 : ℝ) < ((s.it1 - s.it0 : ℤ) : ℝ) := by exact_mod_cast sub_pos.2 h0
    positivity
  have hrate : (residue / s.res0) ^ (1 / ((s.it1 - s.it0 : ℤ) : ℝ)) = 1 ↔ s.res0 = residue := by
    have h2 := Real.rpow_left_inj (div_nonneg hr hr0) zero_le_one hd
    rw [Real.one_rpow, div_eq_one_iff_eq hz] at h2
    exact h2.trans eq_comm
  simp only
  by_cases he : s.res0 = residue
  · rw [if_pos (hrate.2 he)]
    refine ⟨fun _ => ⟨h1', .inr he⟩, fun _ => ?_⟩
    split_ifs <;> exact ⟨_, rfl⟩
  · rw [if_neg (fun h => he (hrate.1 h))]
    exact ⟨fun ⟨e, h⟩ => (nomatch h), fun h => h.2.elim (fun h2 => absurd h2 (not_le.2 ht)) fun h2 => absurd h2 he⟩

/-- The next check is always later, and at most at twice the iteration number. -/
theorem C15_next_check {target : ℝ} {limit : ℤ} {s s' : State} {iteration : ℤ} {residue : ℝ} (hi : 1 ≤ iteration)
    (hit : iteration = s.it1) (h0 : s.it0 < s.it1) (hp : s.previous.getD 1 ≤ iteration)
    (h : call target limit s iteration residue = .ok (true, s')) :
    s'.it0 = iteration ∧ iteration < s'.it1 ∧ s'.it1 ≤ 2 * iteration ∧ s'.res0 = residue ∧ target ≤ residue := by
  subst hit
  revert hi hp h
  generalize hit : s.it1 = iteration
  intro hi hp h
  have e1 : resetNew s iteration = { s with previous := some iteration } := by
    unfold resetNew
    cases hpr : s.previous with
    | none => rfl
    | some p => rw [hpr] at hp; simp only [Option.getD_some] at hp; simp [not_lt.2 hp]
  have e2 : schedule { s with previous := some iteration } iteration = { s with previous := some iteration } := by
    have : ¬ (iteration > max s.it0 s.it1) := by rw [hit]; simp
    simp only [schedule, this, if_false]
  unfold call at h
  rw [e1, e2] at h
  unfold decide' at h
  have hne : ¬ iteration = s.it0 := by omega
  rw [if_neg hne, if_pos hit.symm] at h
  simp only at h
  by_cases hr : residue < target
  · rw [if_pos hr] at h; cases h
  · rw [if_neg hr] at h
    cases he : estimate target s.res0 residue (s.it1 - s.it0) with
    | error e => simp [he, bind, Except.bind] at h
    | ok z =>
      simp only [he, bind, Except.bind, Except.ok.injEq, Prod.mk.injEq, true_and] at h
      subst h
      simp only
      refine ⟨hit, ?_, ?_, trivial, not_lt.1 hr⟩
      · have : 1 ≤ min (max 1 z) iteration := le_min (le_max_left _ _) hi
        omega
      · have : min (max 1 z) iteration ≤ iteration := min_le_right _ _
        omega

/-! ### C62: an `Adaptive` object can be used again for another problem -/

/-- The states that can occur when the criterion is called with iteration numbers of at least 1. -/
inductive Reachable (target : ℝ) (limit : ℤ) : State → Prop
  | fresh : Reachable target limit fresh
  | call {s s' : State} {iteration : ℤ} {residue : ℝ} {b : Bool} (h : Reachable target limit s) (hi : 1 ≤ iteration)
      (hc : StopCriterion.call target limit s iteration residue = .ok (b, s')) : Reachable target limit s'

theorem reachable_inv {target : ℝ} {limit : ℤ} {s : State} (h : Reachable target limit s) :
    1 ≤ s.it0 ∧ 1 ≤ s.it1 ∧ (s.previous = none → s.it0 = 1 ∧ s.it1 = 1) ∧
      ∀ p, s.previous = some p → 1 ≤ p ∧ (p = 1 → s.it0 = 1 ∧ s.it1 = 1) := by
  induction h with
  | fresh => simp [fresh]
  | @call s s' iteration residue b h hi hc ih =>
    obtain ⟨i0, i1, hn, hp⟩ := ih
    -- the state after the resets
    have key : ∀ t : State, schedule (resetNew s iteration) iteration = t →
        1 ≤ t.it0 ∧ 1 ≤ t.it1 ∧ t.previous = some iteration ∧ (iteration = 1 → t.it0 = 1 ∧ t.it1 = 1) := by
      intro t ht
      have a : ∀ u : State, resetNew s iteration = u →
          1 ≤ u.it0 ∧ 1 ≤ u.it1 ∧ u.previous = some iteration ∧ (iteration = 1 → u.it0 = 1 ∧ u.it1 = 1) := by
        intro u hu
        unfold resetNew at hu
        cases hpr : s.previous with
        | none => rw [hpr] at hu; simp only at hu; subst hu; exact ⟨i0, i1, rfl, fun _ => hn hpr⟩
        | some p =>
          rw [hpr] at hu; simp only at hu
          split_ifs at hu with hlt
          · subst hu; simp
          · subst hu; exact ⟨i0, i1, rfl, fun h1 => (hp p hpr).2 (by have := (hp p hpr).1; omega)⟩
      obtain ⟨a0, a1, ap, a2⟩ := a _ rfl
      unfold schedule at ht
      split_ifs at ht with hgt
      · subst ht
        refine ⟨by simp only; omega, by simp only; omega, ap, fun h1 => ?_⟩
        have := a2 h1; rw [this.1, this.2, h1] at hgt; simp at hgt
      · subst ht; exact ⟨a0, a1, ap, a2⟩
    obtain ⟨k0, k1, kp, k2⟩ := key _ rfl
    unfold StopCriterion.call at hc
    generalize schedule (resetNew s iteration) iteration = t at hc k0 k1 kp k2
    have goal : ∀ u : State, 1 ≤ u.it0 → 1 ≤ u.it1 → u.previous = some iteration →
        (iteration = 1 → u.it0 = 1 ∧ u.it1 = 1) → 1 ≤ u.it0 ∧ 1 ≤ u.it1 ∧
        (u.previous = none → u.it0 = 1 ∧ u.it1 = 1) ∧
        ∀ p, u.previous = some p → 1 ≤ p ∧ (p = 1 → u.it0 = 1 ∧ u.it1 = 1) := by
      intro u u0 u1 up u2
      refine ⟨u0, u1, fun h => (by rw [up] at h; cases h), fun p h => ?_⟩
      rw [up] at h; cases h; exact ⟨hi, u2⟩
    unfold decide' at hc
    simp only at hc
    split_ifs at hc with c1 c2 c3 c4
    · cases hc; exact goal _ k0 k1 kp k2
    · cases hc; exact goal _ k0 k1 kp k2
    · cases he : estimate target t.res0 residue (t.it1 - t.it0) with
      | error e => simp [he, bind, Except.bind] at hc
      | ok z =>
        simp only [he, bind, Except.bind, Except.ok.injEq, Prod.mk.injEq] at hc
        obtain ⟨-, rfl⟩ := hc
        refine goal { it0 := t.it1, it1 := iteration + min (max 1 z) iteration, res0 := residue, res1 := residue,
                      previous := t.previous } k1 ?_ kp ?_
        rotate_left
        · intro h1
          exact absurd (h1.trans (k2 h1).1.symm) c1
        · have : 1 ≤ min (max 1 z) iteration := le_min (le_max_left _ _) hi
          simp only; omega
    · cases hc; exact goal _ k0 k1 kp k2
    · cases hc; exact goal _ k0 k1 kp k2

/-- What a caller can see of a call: whether it continues, or raises. -/
def answer : Except PyErr (Bool × State) → Except PyErr Bool
  | .ok (b, _) => .ok b
  | .error e => .error e

/-- Equal up to the second residue, which is always overwritten before it is used. -/
def Same (s t : State) : Prop := s.it0 = t.it0 ∧ s.it1 = t.it1 ∧ s.res0 = t.res0 ∧ s.previous = t.previous

theorem call_same {target : ℝ} {limit : ℤ} {s t : State} (h : Same s t) (iteration : ℤ) (residue : ℝ) :
    answer (call target limit s iteration residue) = answer (call target limit t iteration residue) ∧
    ∀ b s', call target limit s iteration residue = .ok (b, s') →
      ∃ t', call target limit t iteration residue = .ok (b, t') ∧ Same s' t' := by
  obtain ⟨h0, h1, hr, hp⟩ := h
  have hs : Same (schedule (resetNew s iteration) iteration) (schedule (resetNew t iteration) iteration) := by
    have a : Same (resetNew s iteration) (resetNew t iteration) := by
      unfold resetNew Same
      rw [hp]
      cases t.previous with
      | none => exact ⟨h0, h1, hr, rfl⟩
      | some p => simp only; split_ifs <;> simp [h0, h1, hr]
    obtain ⟨a0, a1, ar, ap⟩ := a
    unfold schedule Same
    rw [a0, a1]
    split_ifs
    · exact ⟨rfl, rfl, ar, ap⟩
    · exact ⟨a0, a1, ar, ap⟩
  unfold call
  generalize schedule (resetNew s iteration) iteration = u at hs
  generalize schedule (resetNew t iteration) iteration = v at hs
  obtain ⟨a0, a1, ar, ap⟩ := hs
  unfold decide'
  simp only [a0, a1, ar]
  split_ifs
  · exact ⟨rfl, fun b s' h => by cases h; exact ⟨_, rfl, by simp [Same, a0, a1, ap]⟩⟩
  · exact ⟨rfl, fun b s' h => by cases h; exact ⟨_, rfl, by simp [Same, a0, a1, ar, ap]⟩⟩
  · cases estimate target v.res0 residue (v.it1 - v.it0) with
    | error e => exact ⟨rfl, fun b s' h => by cases h⟩
    | ok z => exact ⟨rfl, fun b s' h => by cases h; exact ⟨_, rfl, by simp [Same, ap]⟩⟩
  · exact ⟨rfl, fun b s' h => by cases h; exact ⟨_, rfl, by simp [Same, a0, a1, ar, ap]⟩⟩
  · exact ⟨rfl, fun b s' h => by cases h; exact ⟨_, rfl, by simp [Same, a0, a1, ar, ap]⟩⟩

theorem running_same {target : ℝ} {limit : ℤ} {s : State} (hs : Reachable target limit s) (res : ℕ → ℝ) (n : ℕ) :
    (running target limit res s (n + 1) = none ∧ running target limit res fresh (n + 1) = none) ∨
    ∃ u v, running target limit res s (n + 1) = some u ∧ running target limit res fresh (n + 1) = some v ∧ Same u v := by
  induction n with
  | zero =>
    right
    obtain ⟨-, -, hn, hp⟩ := reachable_inv hs
    have e : schedule (resetNew s 1) 1 = { s with it0 := 1, it1 := 1, previous := some 1 } := by
      unfold resetNew
      cases hpr : s.previous with
      | none => simp [schedule, hn hpr]
      | some p =>
        rcases eq_or_ne p 1 with rfl | h1
        · simp [schedule, (hp 1 hpr).2 rfl]
        · have : 1 < p := by have := (hp p hpr).1; omega
          simp [schedule, this]
    have e' : schedule (resetNew fresh 1) 1 = { fresh with it0 := 1, it1 := 1, previous := some 1 } := by
      simp [resetNew, schedule, fresh]
    refine ⟨{ s with it0 := 1, it1 := 1, previous := some 1, res0 := res 1 },
      { fresh with it0 := 1, it1 := 1, previous := some 1, res0 := res 1 }, ?_, ?_, by simp [Same]⟩
    · simp only [running, call, zero_add, Nat.cast_one, e, decide', if_true]
    · simp only [running, call, zero_add, Nat.cast_one, e', decide', if_true]
  | succ n ih =>
    rcases ih with ⟨h1, h2⟩ | ⟨u, v, h1, h2, h3⟩
    · left; constructor
      · rw [running, h1]
      · rw [running, h2]
    · obtain ⟨ha, hb⟩ := call_same (target := target) (limit := limit) h3 (n + 1 + 1 : ℕ) (res (n + 1 + 1))
      rw [running, h1, running, h2]
      simp only
      cases hc : call target limit u (n + 1 + 1 : ℕ) (res (n + 1 + 1)) with
      | error e =>
        rw [hc] at ha
        cases hd : call target limit v (n + 1 + 1 : ℕ) (res (n + 1 + 1)) with
        | error e' => left; exact ⟨rfl, rfl⟩
        | ok q => rw [hd] at ha; obtain ⟨_, _⟩ := q; cases ha
      | ok q =>
        obtain ⟨b, s'⟩ := q
        obtain ⟨t', ht', hst⟩ := hb b s' hc
        rw [ht']
        cases b with
        | true => right; exact ⟨s', t', rfl, rfl, hst⟩
        | false => left; exact ⟨rfl, rfl⟩

/-- A criterion that has been used before, for anything, stops (or raises) a new problem that starts at iteration 1 at
exactly the same iteration as a new criterion would. -/
theorem C62_reuse {target : ℝ} {limit : ℤ} {s : State} (hs : Reachable target limit s) (res : ℕ → ℝ) (n : ℕ) :
    (running target limit res s n).isSome = (running target limit res fresh n).isSome := by
  cases n with
  | zero => rfl
  | succ n =>
    rcases running_same hs res n with ⟨h1, h2⟩ | ⟨u, v, h1, h2, -⟩ <;> rw [h1, h2] <;> rfl

/-! ### Examples -/

/-- With the default limit of 10000 iterations and residues that double, the iteration is still running after one million
iterations. -/
example : ∃ s, running (1 / 10000) 10000 (fun n => 2 ^ n) fresh 1000000 = some s :=
  C15_limit_violates (by norm_num) (by norm_num)
    (fun a _ b _ h => pow_lt_pow_right₀ (by norm_num) h)
    (fun n _ => le_trans (by norm_num) (one_le_pow₀ (by norm_num))) _

example : running (1 / 10000) 30 (fun _ => 1) fresh 31 = none :=
  C15_small_limit_partial (by norm_num) (by norm_num) _ (by norm_num)

example : call (1 / 10000) 10000 { it0 := 27, it1 := 52, res0 := 1 / 2, res1 := 1, previous := some 51 } 52 (1 / 2) =
    .error .overflow :=
  C15_raises_violates (p := 51) (by norm_num) rfl (by norm_num) (by norm_num) (by norm_num) rfl

example : ∃ s', call (1 / 10000) 10000 { it0 := 27, it1 := 52, res0 := 1 / 2, res1 := 1, previous := some 51 } 52
    (1 / 100000) = .ok (false, s') :=
  C14_target (p := 51) rfl (by norm_num) (by norm_num) (by norm_num)

example : ∃ s', call (1 / 10000) 10000 { it0 := 27, it1 := 52, res0 := 0, res1 := 1, previous := some 51 } 52 (1 / 2) = .ok (true, s') ∧ s'.it1 = 53 :=
  C15_zero_residue (p := 51) (by norm_num) rfl (by norm_num) (by norm_num) (by norm_num) (by norm_num) rfl

example : call (-1) 10000 { it0 := 27, it1 := 52, res0 := 1 / 2, res1 := 1, previous := some 51 } 52 0 = .error .valueError :=
  C15_negative_target_violates (p := 51) (by norm_num) rfl (by norm_num) (by norm_num) le_rfl

end Verif.StopCriterion
