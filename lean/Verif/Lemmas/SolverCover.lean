import Verif.Lemmas.SolverAxes

/-!
# Grids with more periods and more axes

`Cover` relates a calculation to one on a larger grid, of which the points are copies of those of the given grid.
-/

namespace Verif.Solver

open Verif Verif.Fourier Verif.Backend Complex Matrix

variable {d d' n : ℕ} {N : Fin d → ℕ} {N' : Fin d' → ℕ}

/-- Each point of the large grid is a copy, `fold`, of a point of the small grid; `emb` are the indices of the frequencies of the small grid in the large one; `w` is the number of copies. -/
structure Cover (k : Fin d → Idx N → ℝ) (k' : Fin d' → Idx N' → ℝ) where
  w : ℕ
  w_pos : 0 < w
  fold : Idx N' → Idx N
  emb : Idx N → Idx N'
  sum : ∀ f : Idx N → ℝ, ∑ x', f (fold x') = w * ∑ x, f x
  ft_emb : ∀ (f : Idx N → ℂ) q, ft (fun x' => f (fold x')) (emb q) = w * ft f q
  ft_off : ∀ (f : Idx N → ℂ) q', (∀ q, emb q ≠ q') → ft (fun x' => f (fold x')) q' = 0
  origin : ∀ q, Backend.origin (emb q) ↔ Backend.origin q
  zero : ∀ q, Backend.origin q → k2 k q = 0
  square : ∀ q, k2 k' (emb q) = k2 k q
  wave : ∀ (c : ℕ) q, waveComponent k' c (emb q) = waveComponent k c q
  axes : d ≤ d'

section
variable {k : Fin d → Idx N → ℝ} {k' : Fin d' → Idx N' → ℝ} (t : Cover k k')

/-- The same field on the large grid. -/
def Cover.field (F : Field n N) : Field n N' := fun c x' => F c (t.fold x')

/-- The same tensors on the large grid. -/
def Cover.tensor (A : Tensor n N) : Tensor n N' := fun x' => A (t.fold x')

/-- The same material on the large grid. -/
def Cover.medium (m : Medium n N) : Medium n N' := ⟨t.tensor m.epsilon, t.tensor m.xi, t.tensor m.zeta, t.tensor m.mu⟩

/-- The same problem on the large grid: norms are larger because there are more points. -/
noncomputable def Cover.state (s : State n N) : State n N' where
  field := t.field s.field
  source := t.field s.source
  alpha := s.alpha
  beta := s.beta
  chiEE := t.tensor s.chiEE
  chiEH := t.tensor s.chiEH
  chiHE := t.tensor s.chiHE
  chiHH := t.tensor s.chiHH
  magnetic := s.magnetic
  prevNorm := s.prevNorm.map (Real.sqrt t.w * ·)
  iteration := s.iteration
  residue := s.residue

theorem convolve_cover {l : ℕ} {op : (Fin n → Idx N → ℂ) → (Fin l → Idx N → ℂ)} {op' : (Fin n → Idx N' → ℂ) → (Fin l → Idx N' → ℂ)}
    (h : ∀ (F : Fin n → Idx N → ℂ) (F' : Fin n → Idx N' → ℂ) (z : ℂ) q, (∀ c, F' c (t.emb q) = z * F c q) → ∀ c, op' F' c (t.emb q) = z * op F c q)
    (h0 : ∀ (F' : Fin n → Idx N' → ℂ) q', (∀ c, F' c q' = 0) → ∀ c, op' F' c q' = 0) (F : Field n N) :
    convolve op' (t.field F) = t.field (convolve op F) := by
  funext c
  apply ft_inj
  unfold convolve Cover.field
  rw [C23_ft_ift]
  funext q'
  by_cases hq : ∃ q, t.emb q = q'
  · obtain ⟨q, rfl⟩ := hq
    rw [t.ft_emb, C23_ft_ift]
    exact h _ _ _ q (fun c => t.ft_emb (F c) q) c
  · have hq' : ∀ q, t.emb q ≠ q' := fun q hq2 => hq ⟨q, hq2⟩
    rw [t.ft_off _ q' hq']
    exact h0 _ q' (fun c => t.ft_off (F c) q' hq') c

theorem curl_cover (kind : Kind d n) (F : Field n N) : curl n k' (t.field F) = t.field (curl n k F) := by
  cases kind with
  | scalar =>
    have h0 : ∀ {d : ℕ} {N : Fin d → ℕ} (k : Fin d → Idx N → ℝ) (F : Field 1 N) c x, curlFt 1 k F c x = 0 := by
      intro d N k F c x
      obtain rfl : c = 0 := Subsingleton.elim _ _
      unfold curlFt otherDims
      by_cases hd : 0 < d <;> simp [hd]
    exact convolve_cover t (fun F F' z q _ c => by rw [h0, h0, mul_zero]) (fun F' q' _ c => h0 _ _ _ _) F
  | vectorial hd =>
    refine convolve_cover t (fun F F' z q h c => ?_) (fun F' q' h c => ?_) F
    · rw [curlFt_cross, curlFt_cross]
      simp only [t.wave, h]
      rw [show (fun j => z * F j q) = z • fun j => F j q from rfl, LinearMap.map_smul]
      simp only [Pi.smul_apply, smul_eq_mul]
      ring
    · rw [curlFt_cross]
      simp only [h]
      rw [show (fun _ : Fin 3 => (0 : ℂ)) = 0 from rfl, LinearMap.map_zero]
      simp

theorem green_cover (kind : Kind d n) (kind' : Kind d' n) (alpha : ℂ) (F : Field n N) : green kind' k' alpha (t.field F) = t.field (green kind k alpha F) := by
  have hg : ∀ q, gScalar k' alpha (t.emb q) = gScalar k alpha q := fun q => by unfold gScalar; rw [t.square]
  cases kind with
  | scalar =>
    cases kind' with
    | scalar =>
      refine convolve_cover t (fun F F' z q h c => ?_) (fun F' q' h c => ?_) F
      · show F' c _ * _ = z * (F c q * _)
        rw [h, hg, mul_assoc]
      · show F' c q' * _ = 0
        rw [h, zero_mul]
  | vectorial hd =>
    cases kind' with
    | vectorial hd' =>
      refine convolve_cover t (fun F F' z q h c => ?_) (fun F' q' h c => ?_) F
      · show (F' c _ - longitudinalFt k' Backend.origin hd' F' c _) * gScalar k' alpha _ + longitudinalFt k' Backend.origin hd' F' c _ * (I * (alpha.im : ℂ) / alpha) =
          z * ((F c q - longitudinalFt k Backend.origin hd F c q) * gScalar k alpha q + longitudinalFt k Backend.origin hd F c q * (I * (alpha.im : ℂ) / alpha))
        rw [longitudinalFt_wave, longitudinalFt_wave, hg]
        by_cases ho : Backend.origin q
        · rw [if_pos ((t.origin q).2 ho), if_pos ho, h]
          have e : gScalar k alpha q = I * (alpha.im : ℂ) / alpha := by
            unfold gScalar
            rw [t.zero q ho, ofReal_zero, zero_sub, neg_mul, neg_div_neg_eq]
          rw [e]
          split_ifs <;> ring
        · rw [if_neg (fun h2 => ho ((t.origin q).1 h2)), if_neg ho]
          simp only [t.wave, t.square, h]
          have e : ∑ j : Fin 3, (waveComponent k j q : ℂ) * (z * F j q) = z * ∑ j : Fin 3, (waveComponent k j q : ℂ) * F j q := by
            rw [Finset.mul_sum]; exact Finset.sum_congr rfl fun j _ => by ring
          rw [e]
          ring
      · show (F' c _ - longitudinalFt k' Backend.origin hd' F' c _) * gScalar k' alpha _ + longitudinalFt k' Backend.origin hd' F' c _ * (I * (alpha.im : ℂ) / alpha) = 0
        rw [longitudinalFt_wave]
        simp [h]

theorem mulField_cover (A : Tensor n N) (F : Field n N) : mulField (t.tensor A) (t.field F) = t.field (mulField A F) := rfl

theorem chiOp_cover (kind : Kind d n) (s : State n N) (F : Field n N) : chiOp k' (t.state s) (t.field F) = t.field (chiOp k s F) := by
  have ha : ∀ F G : Field n N, t.field F + t.field G = t.field (F + G) := fun _ _ => rfl
  cases h : s.magnetic with
  | true =>
    rw [chiOp_magnetic k s h, chiOp_magnetic k' (t.state s) h, curl_cover t kind]
    show mulField (t.tensor s.chiEE) _ + mulField (t.tensor s.chiHE) _ + curl n k' (mulField (t.tensor s.chiEH) _ + mulField (t.tensor s.chiHH) _) = _
    simp only [mulField_cover, ha, curl_cover t kind]
  | false =>
    rw [chiOp_nonmagnetic k s h, chiOp_nonmagnetic k' (t.state s) h]
    exact mulField_cover t _ _

theorem update_cover (kind : Kind d n) (kind' : Kind d' n) (s : State n N) : update kind' k' (t.state s) = t.field (update kind k s) := by
  have ha : ∀ F G : Field n N, (fun c x => t.field F c x + t.field G c x) = t.field (fun c x => F c x + G c x) := fun _ _ => rfl
  have hb : ∀ F G : Field n N, (fun c x => t.field F c x - t.field G c x) = t.field (fun c x => F c x - G c x) := fun _ _ => rfl
  unfold update
  dsimp only
  rw [show (t.state s).field = t.field s.field from rfl, show (t.state s).source = t.field s.source from rfl, show (t.state s).alpha = s.alpha from rfl,
    chiOp_cover t kind, ha, green_cover t kind kind', hb, chiOp_cover t kind]

theorem norm_cover (F : Field n N) : Backend.norm (t.field F) = Real.sqrt t.w * Backend.norm F := by
  unfold Backend.norm Cover.field
  rw [← Real.sqrt_mul (Nat.cast_nonneg _), Finset.mul_sum]
  congr 1
  exact Finset.sum_congr rfl fun c _ => t.sum fun x => ‖F c x‖ ^ 2

theorem Cover.sqrt_ne : Real.sqrt t.w ≠ 0 := (Real.sqrt_pos.2 (Nat.cast_pos.2 t.w_pos)).ne'

theorem step_cover (kind : Kind d n) (kind' : Kind d' n) (s : State n N) : step kind' k' (t.state s) = (step kind k s).map t.state := by
  rw [step_unfold, step_unfold, update_cover t kind, norm_cover, show (t.state s).prevNorm = s.prevNorm.map (Real.sqrt t.w * ·) from rfl, divFloat_scale t.sqrt_ne]
  cases divFloat (Backend.norm (update kind k s)) s.prevNorm with
  | error e => rfl
  | ok r =>
    dsimp only
    split_ifs
    · rfl
    · rfl

theorem prepare_cover (m : Medium n N) (mag : Bool) (alpha : ℂ) (beta : ℝ) (S F : Field n N) :
    prepare (t.medium m) mag alpha beta (t.field S) (t.field F) = t.state (prepare m mag alpha beta S F) := rfl

theorem run_cover (kind : Kind d n) (kind' : Kind d' n) (s : State n N) (i : ℕ) : run kind' k' (t.state s) i = (run kind k s i).map t.state := by
  induction i with
  | zero => rfl
  | succ i ih =>
    simp only [run, ih]
    cases run kind k s i with
    | error e => rfl
    | ok u => exact step_cover t kind kind' u

theorem getH_cover (kind : Kind d n) (co : Const) (k0 : ℝ) (i0 : Fin n) (x0' : Idx N') (s : State n N) :
    getH co k0 k' i0 x0' (t.state s) = t.field (getH co k0 k i0 (t.fold x0') s) := by
  have hE : getE k0 (t.state s) = t.field (getE k0 s) := rfl
  unfold getH
  dsimp only
  rw [hE, curl_cover t kind, show (t.state s).magnetic = s.magnetic from rfl]
  split_ifs <;> rfl

theorem getD_cover (kind : Kind d n) (co : Const) (k0 : ℝ) (i0 : Fin n) (x0' : Idx N') (s : State n N) :
    getD co k0 k' i0 x0' (t.state s) = t.field (getD co k0 k i0 (t.fold x0') s) := by
  unfold getD
  rw [getH_cover t kind, curl_cover t kind]
  rfl

theorem residue_cover (s : State n N) : (relativeResidue (t.state s)).1 = (relativeResidue s).1 := by
  have hn := t.sqrt_ne
  have hF : Backend.norm (t.state s).field = Real.sqrt t.w * Backend.norm s.field := norm_cover t s.field
  have h0 : Real.sqrt t.w * Backend.norm s.field = 0 ↔ Backend.norm s.field = 0 := by simp [hn]
  unfold relativeResidue
  rw [show (t.state s).residue = s.residue from rfl, show (t.state s).prevNorm = s.prevNorm.map (Real.sqrt t.w * ·) from rfl, hF]
  cases s.residue with
  | some r => rfl
  | none =>
    cases s.prevNorm with
    | top =>
      show (match (if Real.sqrt t.w * Backend.norm s.field = 0 then _ else _ : Except PyErr (WithTop ℝ)) with | .ok r => _ | .error e => _ : Except PyErr (WithTop ℝ) × State n N').1 =
        (match (if Backend.norm s.field = 0 then _ else _ : Except PyErr (WithTop ℝ)) with | .ok r => _ | .error e => _ : Except PyErr (WithTop ℝ) × State n N).1
      simp only [h0]
      split_ifs <;> rfl
    | coe p =>
      have hp : 0 < Real.sqrt t.w * p ↔ 0 < p := mul_pos_iff_of_pos_left (Real.sqrt_pos.2 (Nat.cast_pos.2 t.w_pos))
      show (match (if 0 < Real.sqrt t.w * p then (if Real.sqrt t.w * Backend.norm s.field = 0 then _ else _) else _ : Except PyErr (WithTop ℝ)) with | .ok r => _ | .error e => _ : Except PyErr (WithTop ℝ) × State n N').1 =
        (match (if 0 < p then (if Backend.norm s.field = 0 then _ else _) else _ : Except PyErr (WithTop ℝ)) with | .ok r => _ | .error e => _ : Except PyErr (WithTop ℝ) × State n N).1
      simp only [h0, hp, mul_div_mul_left _ _ hn]
      split_ifs <;> rfl

end

/-! ### Several periods -/

theorem sum_twiddle {r : ℕ} (hr : 0 < r) (q : ℕ) : ∑ j : Fin r, twiddle r q j = if r ∣ q then (r : ℂ) else 0 := by
  have h := twiddle_untwiddle_one (n := r) ⟨q % r, Nat.mod_lt _ hr⟩ ⟨0, hr⟩
  have hu : ∀ x : ℕ, untwiddle r 0 x = 1 := fun x => by unfold untwiddle; simp
  have hr0 : (r : ℂ) ≠ 0 := Nat.cast_ne_zero.2 hr.ne'
  have ht : ∀ x : ℕ, twiddle r q x = twiddle r (q % r) x := by
    intro x
    have e : (q : ℂ) = r * ((q / r : ℕ) : ℂ) + ((q % r : ℕ) : ℂ) := by exact_mod_cast (Nat.div_add_mod q r).symm
    unfold twiddle
    rw [Complex.exp_eq_exp_iff_exists_int]
    generalize q / r = u at e
    refine ⟨-((u : ℤ) * (x : ℤ)), ?_⟩
    rw [e]
    push_cast
    field_simp
    ring
  simp only [hu, mul_one, Fin.mk.injEq] at h
  simp only [ht, h, Nat.dvd_iff_mod_eq_zero]

/-- The grid with `r a` periods along axis `a`: the shape is multiplied, the step is the same. -/
def repeatedGrid (g : Grid.Obj d ℝ) (r : Fin d → ℕ) : Grid.Obj d ℝ where
  shape := fun a => r a * g.shape a
  step := g.step
  center := g.center
  dt := g.dt
  flat := g.flat
  originAtCenter := g.originAtCenter
  centerAtIndex := g.centerAtIndex
  multidimensional := g.multidimensional
  stepShort := g.stepShort

/-- The point of the unit cell of which the given point is a copy. -/
def foldPoint {N : Fin d → ℕ} (r : Fin d → ℕ) (x' : Idx fun a => r a * N a) : Idx N := fun a => (finProdFinEquiv.symm (x' a)).2

theorem foldPoint_val {N : Fin d → ℕ} (r : Fin d → ℕ) (x' : Idx fun a => r a * N a) (a : Fin d) : ((foldPoint r x' a : Fin (N a)) : ℕ) = (x' a : ℕ) % N a := rfl

/-- Points of several periods as a period and a point of the unit cell. -/
def periodEquiv {N : Fin d → ℕ} (r : Fin d → ℕ) : (Idx r × Idx N) ≃ Idx fun a => r a * N a where
  toFun p := fun a => finProdFinEquiv (p.1 a, p.2 a)
  invFun x := (fun a => (finProdFinEquiv.symm (x a)).1, foldPoint r x)
  left_inv p := by
    refine Prod.ext (funext fun a => ?_) (funext fun a => ?_)
    · show (finProdFinEquiv.symm (finProdFinEquiv (p.1 a, p.2 a))).1 = p.1 a
      rw [Equiv.symm_apply_apply]
    · show (finProdFinEquiv.symm (finProdFinEquiv (p.1 a, p.2 a))).2 = p.2 a
      rw [Equiv.symm_apply_apply]
  right_inv x := by
    funext a
    show finProdFinEquiv ((finProdFinEquiv.symm (x a)).1, (finProdFinEquiv.symm (x a)).2) = x a
    rw [Prod.mk.eta, Equiv.apply_symm_apply]

theorem foldPoint_period {N : Fin d → ℕ} (r : Fin d → ℕ) (p : Idx r × Idx N) : foldPoint r (periodEquiv r p) = p.2 :=
  congrArg Prod.snd ((periodEquiv r).left_inv p)

theorem twiddle_period {r N q : ℕ} (hr : 0 < r) (hN : 0 < N) (p : Fin r × Fin N) : twiddle (r * N) q (finProdFinEquiv p : Fin (r * N)) = twiddle (r * N) q p.2 * twiddle r q p.1 := by
  have h1 : (r : ℂ) ≠ 0 := Nat.cast_ne_zero.2 hr.ne'
  have h2 : (N : ℂ) ≠ 0 := Nat.cast_ne_zero.2 hN.ne'
  unfold twiddle
  rw [← Complex.exp_add]
  congr 1
  show -(2 * Real.pi * I * ((q : ℂ) * (((p.2 : ℕ) + N * (p.1 : ℕ) : ℕ) : ℂ) / ((r * N : ℕ) : ℂ))) = _
  push_cast
  field_simp
  ring

theorem ft_repeated {N : Fin d → ℕ} {r : Fin d → ℕ} (hr : ∀ a, 0 < r a) (hN : ∀ a, 0 < N a) (f : Idx N → ℂ) (q' : Idx fun a => r a * N a) :
    ft (fun x' => f (foldPoint r x')) q' = (∑ x, f x * ∏ a, twiddle (r a * N a) (q' a) (x a)) * ∏ a, if r a ∣ (q' a : ℕ) then (r a : ℂ) else 0 := by
  unfold ft
  rw [← (periodEquiv r).sum_comp, Fintype.sum_prod_type_right, Finset.sum_mul]
  refine Finset.sum_congr rfl fun x _ => ?_
  simp only [foldPoint_period]
  rw [← Finset.mul_sum, mul_assoc]
  congr 1
  have e : ∀ j : Idx r, ∏ a, twiddle (r a * N a) (q' a) (periodEquiv r (j, x) a) = (∏ a, twiddle (r a * N a) (q' a) (x a)) * ∏ a, twiddle (r a) (q' a) (j a) := by
    intro j
    rw [← Finset.prod_mul_distrib]
    exact Finset.prod_congr rfl fun a _ => twiddle_period (hr a) (hN a) (j a, x a)
  simp only [e]
  rw [← Finset.mul_sum]
  congr 1
  rw [← Fintype.prod_sum (fun a (j : Fin (r a)) => twiddle (r a) (q' a) j)]
  exact Finset.prod_congr rfl fun a _ => sum_twiddle (hr a) _

/-- The index of a frequency of the unit cell. -/
def embFrequency {N : Fin d → ℕ} {r : Fin d → ℕ} (hr : ∀ a, 0 < r a) (q : Idx N) : Idx fun a => r a * N a := fun a => ⟨r a * q a, Nat.mul_lt_mul_of_pos_left (q a).2 (hr a)⟩

theorem twiddle_scaled {r N : ℕ} (hr : 0 < r) (q x : ℕ) : twiddle (r * N) (r * q) x = twiddle N q x := by
  have h1 : (r : ℂ) ≠ 0 := Nat.cast_ne_zero.2 hr.ne'
  unfold twiddle
  rw [Nat.cast_mul, Nat.cast_mul, mul_assoc (r : ℂ), mul_div_mul_left _ _ h1]

theorem backendK_repeated (g : Grid.Obj d ℝ) (hs : ∀ a, g.step a ≠ 0) {k0 : ℝ} (hk0 : k0 ≠ 0) {r : Fin d → ℕ} (hr : ∀ a, 0 < r a) (a : Fin d) (q : Idx g.shape) :
    backendK (repeatedGrid g r) k0 a (embFrequency hr q) = backendK g k0 a q := by
  refine (backendK_formula (repeatedGrid g r) hs hk0 a _).trans (Eq.trans ?_ (backendK_formula g hs hk0 a q).symm)
  show 2 * Real.pi * ((if 2 * (r a * (q a : ℕ)) < r a * g.shape a then ((r a * (q a : ℕ) : ℕ) : ℝ) else ((r a * (q a : ℕ) : ℕ) : ℝ) - ((r a * g.shape a : ℕ) : ℝ)) / (((r a * g.shape a : ℕ) : ℝ) * g.step a)) / k0 = _
  have hra : (r a : ℝ) ≠ 0 := Nat.cast_ne_zero.2 (hr a).ne'
  have hc : 2 * (r a * (q a : ℕ)) < r a * g.shape a ↔ 2 * (q a : ℕ) < g.shape a := by
    rw [show 2 * (r a * (q a : ℕ)) = r a * (2 * (q a : ℕ)) by ring]
    exact Nat.mul_lt_mul_left (hr a)
  have h3 : (g.shape a : ℝ) ≠ 0 := by have := (Nat.zero_le _).trans_lt (q a).isLt; positivity
  have h4 := hs a
  simp only [hc]
  push_cast
  split_ifs <;> field_simp

/-- Several periods of a calculation. -/
noncomputable def periods (g : Grid.Obj d ℝ) (hN : ∀ a, 0 < g.shape a) (hs : ∀ a, g.step a ≠ 0) {k0 : ℝ} (hk0 : k0 ≠ 0) {r : Fin d → ℕ} (hr : ∀ a, 0 < r a) :
    Cover (backendK g k0) (backendK (repeatedGrid g r) k0) where
  w := ∏ a, r a
  w_pos := Finset.prod_pos fun a _ => hr a
  fold := foldPoint r
  emb := embFrequency hr
  sum f := by
    have e := (periodEquiv (N := g.shape) r).sum_comp fun x' => f (foldPoint r x')
    refine e.symm.trans ?_
    rw [Fintype.sum_prod_type]
    simp only [foldPoint_period, Finset.sum_const, Finset.card_univ, nsmul_eq_mul]
    rw [Fintype.card_pi]
    simp only [Fintype.card_fin]
  ft_emb f q := by
    refine (ft_repeated hr hN f _).trans ?_
    have e : ∀ a, ((embFrequency hr q a : Fin (r a * g.shape a)) : ℕ) = r a * q a := fun _ => rfl
    simp only [e, dvd_mul_right, if_true, twiddle_scaled (hr _)]
    rw [mul_comm]
    push_cast
    rfl
  ft_off f q' h := by
    refine (ft_repeated hr hN f q').trans ?_
    have : ∃ a, ¬ r a ∣ (q' a : ℕ) := by
      by_contra hc
      push Not at hc
      refine h (fun a => ⟨(q' a : ℕ) / r a, Nat.div_lt_of_lt_mul (q' a).2⟩) (funext fun a => Fin.ext ?_)
      exact Nat.mul_div_cancel' (hc a)
    obtain ⟨a, ha⟩ := this
    rw [Finset.prod_eq_zero (Finset.mem_univ a) (if_neg ha), mul_zero]
  origin q := by
    constructor
    · intro h a
      have := h a
      have h2 : r a * (q a : ℕ) = 0 := this
      exact (Nat.mul_eq_zero.1 h2).resolve_left (hr a).ne'
    · intro h a
      show r a * (q a : ℕ) = 0
      rw [h a, mul_zero]
  zero q hq := by
    unfold k2
    exact Finset.sum_eq_zero fun a _ => by rw [(backendK_origin g hs hk0 q).1 hq a]; ring
  square q := by
    unfold k2
    exact Finset.sum_congr rfl fun a _ => by rw [backendK_repeated g hs hk0 hr]
  wave c q := by
    unfold waveComponent
    split_ifs with h
    · exact backendK_repeated g hs hk0 hr _ q
    · rfl
  axes := le_refl d

/-! ### More axes -/

variable {e : ℕ}

/-- The grid with the axes of both grids. -/
def extendedGrid (g : Grid.Obj d ℝ) (h : Grid.Obj e ℝ) : Grid.Obj (d + e) ℝ where
  shape := Fin.append g.shape h.shape
  step := Fin.append g.step h.step
  center := Fin.append g.center h.center
  dt := g.dt
  flat := Fin.append g.flat h.flat
  originAtCenter := Fin.append g.originAtCenter h.originAtCenter
  centerAtIndex := Fin.append g.centerAtIndex h.centerAtIndex
  multidimensional := g.multidimensional
  stepShort := g.stepShort

theorem extendedGrid_first (g : Grid.Obj d ℝ) (h : Grid.Obj e ℝ) (a : Fin d) : (extendedGrid g h).shape (Fin.castAdd e a) = g.shape a := Fin.append_left _ _ _

theorem extendedGrid_last (g : Grid.Obj d ℝ) (h : Grid.Obj e ℝ) (b : Fin e) : (extendedGrid g h).shape (Fin.natAdd d b) = h.shape b := Fin.append_right _ _ _

/-- The point with the first indices. -/
def firstAxes (g : Grid.Obj d ℝ) (h : Grid.Obj e ℝ) (x' : Idx (extendedGrid g h).shape) : Idx g.shape := fun a => Fin.cast (extendedGrid_first g h a) (x' (Fin.castAdd e a))

theorem firstAxes_val (g : Grid.Obj d ℝ) (h : Grid.Obj e ℝ) (x' : Idx (extendedGrid g h).shape) (a : Fin d) : ((firstAxes g h x' a : Fin (g.shape a)) : ℕ) = x' (Fin.castAdd e a) := rfl

theorem lastAxes_val {g : Grid.Obj d ℝ} {h : Grid.Obj e ℝ} (hM : ∀ b, h.shape b = 1) (x' : Idx (extendedGrid g h).shape) (b : Fin e) : ((x' (Fin.natAdd d b) : Fin _) : ℕ) = 0 := by
  have h1 := lt_of_lt_of_eq (x' (Fin.natAdd d b)).2 ((extendedGrid_last g h b).trans (hM b))
  omega

/-- The point with the given first indices. -/
def extendPoint {g : Grid.Obj d ℝ} {h : Grid.Obj e ℝ} (hM : ∀ b, h.shape b = 1) (x : Idx g.shape) : Idx (extendedGrid g h).shape := fun a' =>
  if ha : (a' : ℕ) < d then ⟨x ⟨a', ha⟩, lt_of_lt_of_eq (x ⟨a', ha⟩).2 (extendedGrid_first g h ⟨a', ha⟩).symm⟩
  else ⟨0, by
    have e1 : a' = Fin.natAdd d ⟨a' - d, by omega⟩ := Fin.ext (by simp; omega)
    rw [e1, extendedGrid_last, hM]
    exact one_pos⟩

theorem extendPoint_val {g : Grid.Obj d ℝ} {h : Grid.Obj e ℝ} (hM : ∀ b, h.shape b = 1) (x : Idx g.shape) (a : Fin d) : ((extendPoint hM x (Fin.castAdd e a) : Fin _) : ℕ) = x a := by
  unfold extendPoint
  rw [dif_pos (show ((Fin.castAdd e a : Fin (d + e)) : ℕ) < d from a.2)]
  rfl

/-- Points when all additional axes have one sample. -/
def firstEquiv {g : Grid.Obj d ℝ} {h : Grid.Obj e ℝ} (hM : ∀ b, h.shape b = 1) : Idx (extendedGrid g h).shape ≃ Idx g.shape where
  toFun := firstAxes g h
  invFun := extendPoint hM
  left_inv x' := by
    funext a'
    refine Fin.addCases (fun a => ?_) (fun b => ?_) a'
    · exact Fin.ext (extendPoint_val hM _ a)
    · exact Fin.ext ((lastAxes_val hM _ b).trans (lastAxes_val hM x' b).symm)
  right_inv x := by
    funext a
    exact Fin.ext (extendPoint_val hM x a)

theorem backendK_first (g : Grid.Obj d ℝ) (h : Grid.Obj e ℝ) (hs : ∀ a, g.step a ≠ 0) (hs' : ∀ b, h.step b ≠ 0) {k0 : ℝ} (hk0 : k0 ≠ 0) (a : Fin d) (x' : Idx (extendedGrid g h).shape) :
    backendK (extendedGrid g h) k0 (Fin.castAdd e a) x' = backendK g k0 a (firstAxes g h x') := by
  have hss : ∀ a', (extendedGrid g h).step a' ≠ 0 := fun a' => by
    refine Fin.addCases (fun a => ?_) (fun b => ?_) a'
    · show Fin.append g.step h.step _ ≠ 0
      rw [Fin.append_left]; exact hs a
    · show Fin.append g.step h.step _ ≠ 0
      rw [Fin.append_right]; exact hs' b
  rw [backendK_formula g hs hk0, backendK_formula (extendedGrid g h) hss hk0, firstAxes_val]
  have h1 : (extendedGrid g h).shape (Fin.castAdd e a) = g.shape a := Fin.append_left _ _ _
  have h2 : (extendedGrid g h).step (Fin.castAdd e a) = g.step a := Fin.append_left _ _ _
  generalize ((x' (Fin.castAdd e a) : Fin _) : ℕ) = v
  rw [h1, h2]

theorem backendK_last (g : Grid.Obj d ℝ) (h : Grid.Obj e ℝ) (hM : ∀ b, h.shape b = 1) (hs : ∀ a, g.step a ≠ 0) (hs' : ∀ b, h.step b ≠ 0) {k0 : ℝ} (hk0 : k0 ≠ 0) (b : Fin e)
    (x' : Idx (extendedGrid g h).shape) : backendK (extendedGrid g h) k0 (Fin.natAdd d b) x' = 0 := by
  have hss : ∀ a', (extendedGrid g h).step a' ≠ 0 := fun a' => by
    refine Fin.addCases (fun a => ?_) (fun b => ?_) a'
    · show Fin.append g.step h.step _ ≠ 0
      rw [Fin.append_left]; exact hs a
    · show Fin.append g.step h.step _ ≠ 0
      rw [Fin.append_right]; exact hs' b
  have h1 : (extendedGrid g h).shape (Fin.natAdd d b) = 1 := (Fin.append_right _ _ _).trans (hM b)
  have h0 : ((x' (Fin.natAdd d b) : Fin _) : ℕ) = 0 := lastAxes_val hM x' b
  rw [backendK_formula (extendedGrid g h) hss hk0, h0]
  simp [h1]

/-- A calculation with additional axes of one sample. -/
noncomputable def moreAxes (g : Grid.Obj d ℝ) (h : Grid.Obj e ℝ) (hM : ∀ b, h.shape b = 1) (hs : ∀ a, g.step a ≠ 0) (hs' : ∀ b, h.step b ≠ 0) {k0 : ℝ} (hk0 : k0 ≠ 0) :
    Cover (backendK g k0) (backendK (extendedGrid g h) k0) where
  w := 1
  w_pos := one_pos
  fold := firstEquiv hM
  emb := (firstEquiv hM).symm
  sum f := by
    rw [Nat.cast_one, one_mul]
    exact (firstEquiv (g := g) hM).sum_comp f
  ft_emb f q := by
    rw [Nat.cast_one, one_mul]
    unfold ft
    refine ((firstEquiv (g := g) hM).symm.sum_comp _).symm.trans ?_
    refine Finset.sum_congr rfl fun x _ => ?_
    dsimp only
    rw [Equiv.apply_symm_apply]
    congr 1
    rw [Fin.prod_univ_add]
    have h1 : ∀ b : Fin e, ∀ x' y' : Idx (extendedGrid g h).shape, twiddle ((extendedGrid g h).shape (Fin.natAdd d b)) (x' (Fin.natAdd d b)) (y' (Fin.natAdd d b)) = 1 := by
      intro b x' y'
      rw [lastAxes_val hM, lastAxes_val hM]
      unfold twiddle
      simp
    rw [Finset.prod_eq_one (s := Finset.univ (α := Fin e)) fun b _ => h1 b _ _, mul_one]
    refine Finset.prod_congr rfl fun a _ => ?_
    have h2 : ∀ x : Idx g.shape, ((((firstEquiv (g := g) hM).symm x) (Fin.castAdd e a) : Fin _) : ℕ) = x a := fun x =>
      congrArg (fun y : Idx g.shape => ((y a : Fin _) : ℕ)) ((firstEquiv (g := g) hM).apply_symm_apply x)
    rw [h2, h2, extendedGrid_first]
  ft_off f q' hq := absurd ((firstEquiv (g := g) hM).symm_apply_apply q') (hq _)
  origin q := by
    have h2 : ∀ x : Idx g.shape, ∀ a, ((((firstEquiv (g := g) hM).symm x) (Fin.castAdd e a) : Fin _) : ℕ) = x a := fun x a =>
      congrArg (fun y : Idx g.shape => ((y a : Fin _) : ℕ)) ((firstEquiv (g := g) hM).apply_symm_apply x)
    constructor
    · intro ho a
      rw [← h2 q a]
      exact ho _
    · intro ho a'
      refine Fin.addCases (fun a => ?_) (fun b => ?_) a'
      · exact (h2 q a).trans (ho a)
      · exact lastAxes_val hM _ b
  zero q hq := by
    unfold k2
    exact Finset.sum_eq_zero fun a _ => by rw [(backendK_origin g hs hk0 q).1 hq a]; ring
  square q := by
    unfold k2
    rw [Fin.sum_univ_add]
    have h1 : ∀ b : Fin e, backendK (extendedGrid g h) k0 (Fin.natAdd d b) ((firstEquiv (g := g) hM).symm q) ^ 2 = 0 := fun b => by
      rw [backendK_last g h hM hs hs' hk0]; ring
    rw [Finset.sum_eq_zero (s := Finset.univ (α := Fin e)) fun b _ => h1 b, add_zero]
    refine Finset.sum_congr rfl fun a _ => ?_
    rw [backendK_first g h hs hs' hk0]
    exact congrArg (fun y : Idx g.shape => backendK g k0 a y ^ 2) ((firstEquiv (g := g) hM).apply_symm_apply q)
  wave c q := by
    unfold waveComponent
    by_cases hc : c < d
    · rw [dif_pos (hc.trans_le (Nat.le_add_right d e)), dif_pos hc]
      refine (backendK_first g h hs hs' hk0 ⟨c, hc⟩ _).trans ?_
      exact congrArg (fun y : Idx g.shape => backendK g k0 ⟨c, hc⟩ y) ((firstEquiv (g := g) hM).apply_symm_apply q)
    · rw [dif_neg hc]
      split_ifs with hc'
      · have e1 : (⟨c, hc'⟩ : Fin (d + e)) = Fin.natAdd d ⟨c - d, by omega⟩ := Fin.ext (by simp; omega)
        rw [e1]
        exact backendK_last g h hM hs hs' hk0 _ _
      · rfl
  axes := Nat.le_add_right d e

/-- A cover of a cover. -/
noncomputable def Cover.trans {d'' : ℕ} {N'' : Fin d'' → ℕ} {k : Fin d → Idx N → ℝ} {k' : Fin d' → Idx N' → ℝ} {k'' : Fin d'' → Idx N'' → ℝ} (t : Cover k k') (u : Cover k' k'') : Cover k k'' where
  w := t.w * u.w
  w_pos := Nat.mul_pos t.w_pos u.w_pos
  fold x := t.fold (u.fold x)
  emb q := u.emb (t.emb q)
  sum f := by rw [u.sum fun x' => f (t.fold x'), t.sum]; push_cast; ring
  ft_emb f q := by rw [u.ft_emb fun x' => f (t.fold x'), t.ft_emb]; push_cast; ring
  ft_off f q'' h := by
    by_cases hq : ∃ q', u.emb q' = q''
    · obtain ⟨q', rfl⟩ := hq
      rw [u.ft_emb fun x' => f (t.fold x'), t.ft_off f q' fun q hq => h q (by rw [hq]), mul_zero]
    · exact u.ft_off (fun x' => f (t.fold x')) q'' fun q' hq' => hq ⟨q', hq'⟩
  origin q := (u.origin _).trans (t.origin q)
  zero := t.zero
  square q := (u.square _).trans (t.square q)
  wave c q := (u.wave c _).trans (t.wave c q)
  axes := t.axes.trans u.axes

end Verif.Solver
