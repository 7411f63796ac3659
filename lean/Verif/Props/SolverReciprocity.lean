import Verif.Lemmas.SolverReal

/-!
# C74: reciprocity

Exchanging a source and a detector does not change what is detected: for two sources in the same reciprocal material, the reaction of the first field on the
second source equals that of the second field on the first source.
-/

namespace Verif.Solver

open Verif Verif.Fourier Verif.Backend Complex
open Verif.Spec.Physics
open Verif.Spec.Solver (WaveEquation ScalarWaveEquation)

variable {d n : ℕ} {N : Fin d → ℕ}

/-- **C74 (vectorial, partial).** For all grids with an odd number of samples along each axis, all materials with symmetric permittivity and permeability tensors that may vary from
point to point, all sources and all solutions of the wave equation.  What is missing: grids with an even number of samples, see `C74_nonmagnetic_partial` and `C74_violates`. -/
theorem C74_odd_partial (g : Grid.Obj d ℝ) (hs : ∀ a, 1 < g.shape a → g.step a ≠ 0) (hodd : ∀ a, g.shape a % 2 = 1) (k0 : ℝ)
    {epsilon mu : Idx g.shape → Matrix (Fin 3) (Fin 3) ℂ} (he : Reciprocal epsilon) (hm : Reciprocal mu) {S S' E E' : Fin 3 → Idx g.shape → ℂ}
    (h : WaveEquation (kOf g) k0 epsilon mu S E) (h' : WaveEquation (kOf g) k0 epsilon mu S' E') : reaction S' E = reaction S E' := by
  have hk := kOf_odd g hs hodd
  have hmi : Reciprocal fun x => (mu x)⁻¹ := fun x => by rw [Matrix.transpose_nonsing_inv, hm x]
  have e : ∀ {S E : Fin 3 → Idx g.shape → ℂ}, WaveEquation (kOf g) k0 epsilon mu S E →
      S = curl 3 (kOf g) (mulField (fun x => (mu x)⁻¹) (curl 3 (kOf g) E)) - ((k0 : ℂ) ^ 2) • mulField epsilon E := by
    intro S E h
    funext c x
    have := h c x
    rw [spec_curl, spec_curl, spec_act, spec_act] at this
    exact this.symm
  rw [reaction_comm S' E, reaction_comm S E', e h, e h', reaction_sub, reaction_sub, reaction_smul, reaction_smul, reaction_curl hk, reaction_curl hk,
    reaction_mulField hmi, reaction_mulField he]

/-- A grid of which opposite frequencies have the same dyads of wavenumbers: no axis with an even number of samples next to another one with more than two samples. -/
def Balanced (N : Fin d → ℕ) : Prop := ∀ a b, a ≠ b → N a % 2 = 0 → N b ≤ 2

theorem dyad_opposite (g : Grid.Obj d ℝ) (hs : ∀ a, 1 < g.shape a → g.step a ≠ 0) (hb : Balanced g.shape) (a b : Fin d) (x : Idx g.shape) :
    kOf g a (opposite x) * kOf g b (opposite x) = kOf g a x * kOf g b x := by
  rw [kOf_opposite g hs, kOf_opposite g hs]
  by_cases hab : a = b
  · subst hab; split_ifs <;> ring
  have hz : ∀ c, g.shape c = 1 → kOf g c x = 0 := fun c hc => by
    have := (x c).isLt
    rw [C24_kOf g hs, show (x c : ℕ) = 0 by omega, hc]; simp
  have ha := (x a).isLt
  have hbb := (x b).isLt
  have h1 := hb a b hab
  have h2 := hb b a (Ne.symm hab)
  have key : ∀ c, g.shape c = 2 → ¬ 2 * (x c : ℕ) = g.shape c → kOf g c x = 0 := fun c hc hn => by
    have := (x c).isLt
    rw [C24_kOf g hs, show (x c : ℕ) = 0 by omega, hc]; simp
  split_ifs with p q q
  · rfl
  · have : g.shape b = 1 ∨ g.shape b = 2 := by omega
    rcases this with e | e
    · rw [hz b e]; simp
    · rw [key b e q]; simp
  · have : g.shape a = 1 ∨ g.shape a = 2 := by omega
    rcases this with e | e
    · rw [hz a e]; simp
    · rw [key a e p]; simp
  · ring

theorem curlFt_twice {X : Type} (k : Fin d → X → ℝ) (F : Fin 3 → X → ℂ) (c : Fin 3) (x : X) :
    curlFt 3 k (curlFt 3 k F) c x = ∑ b, (Spec.Backend.kVector k x b * Spec.Backend.kVector k x b * F c x -
      Spec.Backend.kVector k x c * Spec.Backend.kVector k x b * F b x) := by
  have hv : ∀ (F : Fin 3 → X → ℂ), Spec.Backend.vector F x = fun c => F c x := fun F => by
    funext c
    simp [Spec.Backend.vector]
  have h1 := fun c => congrFun (C24_curl_ft k F x) c
  rw [congrFun (C24_curl_ft k _ x) c]
  simp only [hv, h1, cross_apply, Fin.sum_univ_three]
  fin_cases c <;> simp <;> ring_nf <;> simp only [I_sq] <;> ring

theorem curlCurl_conj {k : Fin d → Idx N → ℝ} (hk : ∀ a b x, k a (opposite x) * k b (opposite x) = k a x * k b x) (F : Field 3 N) :
    curl 3 k (curl 3 k (conjField F)) = conjField (curl 3 k (curl 3 k F)) := by
  funext c
  apply ft_inj
  funext q
  have e1 : ft (conjField (curl 3 k (curl 3 k F)) c) q = (starRingEnd ℂ) (ft (curl 3 k (curl 3 k F) c) (opposite q)) := ft_conj _ _
  rw [e1, ft_curl, ft_curl]
  simp only [ft_curl]
  rw [curlFt_twice, curlFt_twice, map_sum]
  refine Finset.sum_congr rfl fun b _ => ?_
  have hr : ∀ c b, (starRingEnd ℂ) (Spec.Backend.kVector k (opposite q) c) * (starRingEnd ℂ) (Spec.Backend.kVector k (opposite q) b) =
      Spec.Backend.kVector k q c * Spec.Backend.kVector k q b := by
    intro c b
    unfold Spec.Backend.kVector
    split_ifs
    · rw [conj_ofReal, conj_ofReal]; exact_mod_cast hk _ _ q
    all_goals simp
  have hc : ∀ c, ft (conjField F c) q = (starRingEnd ℂ) (ft (F c) (opposite q)) := fun c => ft_conj _ _
  rw [map_sub, map_mul, map_mul, map_mul, map_mul, hr, hr, hc, hc]

theorem reaction_curlCurl {k : Fin d → Idx N → ℝ} (hk : ∀ a b x, k a (opposite x) * k b (opposite x) = k a x * k b x) (F G : Field 3 N) :
    reaction F (curl 3 k (curl 3 k G)) = reaction (curl 3 k (curl 3 k F)) G := by
  rw [reaction_eq, curl_adjoint, curl_adjoint, curlCurl_conj hk, reaction_eq]

/-- **C74 (without magnetic contrast, partial).** For all grids that have no axis with an even number of samples next to another one with more than two samples, in particular
all those that extend along one axis only, all symmetric permittivity tensors that may vary from point to point and a constant permeability. -/
theorem C74_nonmagnetic_partial (g : Grid.Obj d ℝ) (hs : ∀ a, 1 < g.shape a → g.step a ≠ 0) (hb : Balanced g.shape) (k0 : ℝ)
    {epsilon : Idx g.shape → Matrix (Fin 3) (Fin 3) ℂ} (he : Reciprocal epsilon) {r : ℂ} (hr : r ≠ 0) {S S' E E' : Fin 3 → Idx g.shape → ℂ}
    (h : WaveEquation (kOf g) k0 epsilon (fun _ => r • 1) S E) (h' : WaveEquation (kOf g) k0 epsilon (fun _ => r • 1) S' E') :
    reaction S' E = reaction S E' := by
  have hk := fun a b x => dyad_opposite g hs hb a b x
  have hL := curl_isLinear (n := 3) (m := 3) (kOf g)
  have e : ∀ {S E : Fin 3 → Idx g.shape → ℂ}, WaveEquation (kOf g) k0 epsilon (fun _ => r • 1) S E →
      S = r⁻¹ • curl 3 (kOf g) (curl 3 (kOf g) E) - ((k0 : ℂ) ^ 2) • mulField epsilon E := by
    intro S E h
    have e2 : ∀ F : Field 3 g.shape, mulField (fun _ => (r • (1 : Matrix (Fin 3) (Fin 3) ℂ))⁻¹) F = r⁻¹ • F := fun F => by
      rw [smul_one_inv hr, mulField_smul_left, mulField_one]
    funext c x
    have := h c x
    rw [spec_curl, spec_curl, spec_act, spec_act, e2, hL.map_smul] at this
    exact this.symm
  rw [reaction_comm S' E, reaction_comm S E', e h, e h', reaction_sub, reaction_sub, reaction_smul, reaction_smul, reaction_smul, reaction_smul,
    reaction_curlCurl hk, reaction_mulField he, reaction_comm E' (curl 3 (kOf g) (curl 3 (kOf g) E))]

/-- **C74 (scalar).** For all grids, permittivities, constant permeabilities, sources and solutions of the scalar wave equation. -/
theorem C74_scalar (g : Grid.Obj d ℝ) (hs : ∀ a, 1 < g.shape a → g.step a ≠ 0) (k0 : ℝ) {epsilon : Idx g.shape → ℂ} {mu : ℂ}
    {S S' E E' : Idx g.shape → ℂ} (h : ScalarWaveEquation (kOf g) k0 epsilon mu S E) (h' : ScalarWaveEquation (kOf g) k0 epsilon mu S' E') :
    ∑ x, S' x * E x = ∑ x, S x * E' x := by
  have key : ∀ f g' : Idx g.shape → ℂ, ∑ x, f x * Spec.Solver.negLaplacian (kOf g) g' x = ∑ x, Spec.Solver.negLaplacian (kOf g) f x * g' x := by
    intro f g'
    rcases isEmpty_or_nonempty (Idx g.shape) with hem | ⟨⟨x0⟩⟩
    · simp
    have hP := prod_ne_zero_of_idx x0
    have hL : ∀ f, ft (Spec.Solver.negLaplacian (kOf g) f) = fun q => (k2 (kOf g) q : ℂ) * ft f q := fun f => by
      unfold Spec.Solver.negLaplacian
      rw [C23_ft_ift]
      funext q
      unfold k2
      push_cast
      rfl
    have h1 := C23_inner (fun x => (starRingEnd ℂ) (f x)) (Spec.Solver.negLaplacian (kOf g) g')
    have h2 := C23_inner (fun x => (starRingEnd ℂ) (Spec.Solver.negLaplacian (kOf g) f x)) g'
    simp only [conj_conj] at h1 h2
    refine mul_left_cancel₀ hP ?_
    rw [← h1, ← h2]
    refine Finset.sum_congr rfl fun q _ => ?_
    rw [ft_conj, ft_conj, hL, hL, conj_conj, conj_conj]
    simp only [k2_opposite g hs]
    ring
  have hS : ∀ {S E : Idx g.shape → ℂ}, ScalarWaveEquation (kOf g) k0 epsilon mu S E → ∀ F : Idx g.shape → ℂ,
      ∑ x, S x * F x = mu⁻¹ * ∑ x, F x * Spec.Solver.negLaplacian (kOf g) E x - (k0 : ℂ) ^ 2 * ∑ x, epsilon x * E x * F x := by
    intro S E h F
    rw [Finset.mul_sum, Finset.mul_sum, ← Finset.sum_sub_distrib]
    refine Finset.sum_congr rfl fun x _ => ?_
    rw [← h x]
    ring
  rw [hS h, hS h', key]
  congr 1
  · congr 1
    exact Finset.sum_congr rfl fun x _ => by ring
  · congr 1
    exact Finset.sum_congr rfl fun x _ => by ring

/-! ### Grids that are not balanced -/

/-- A plane wave with the frequency of index `q`. -/
noncomputable def wave (q : Idx N) : Idx N → ℂ := fun x => ∏ a, untwiddle (N a) (q a) (x a)

theorem ft_wave (q : Idx N) : ft (wave q) = fun p => if p = q then ∏ a, (N a : ℂ) else 0 := by
  funext p
  rw [← orthogonal]
  unfold ft wave
  exact Finset.sum_congr rfl fun x _ => mul_comm _ _

theorem sum_wave (q : Idx N) : ∑ x, wave q x * wave (opposite q) x = ∏ a, (N a : ℂ) := by
  have h := congrFun (ft_wave q) q
  rw [if_pos rfl] at h
  rw [← h]
  unfold ft
  refine Finset.sum_congr rfl fun x _ => ?_
  congr 1
  unfold wave
  refine Finset.prod_congr rfl fun a _ => ?_
  rw [← twiddle_opposite, opposite_opposite]

theorem curlCurl_wave (k : Fin d → Idx N → ℝ) (q : Idx N) {c c' : Fin 3} (hc : c' ≠ c) :
    curl 3 k (curl 3 k (Pi.single c (wave q))) c' = fun x => -(Spec.Backend.kVector k q c' * Spec.Backend.kVector k q c) * wave q x := by
  apply ft_inj
  rw [ft_curl]
  simp only [ft_curl]
  have hR := ft_isLinear.map_smul (-(Spec.Backend.kVector k q c' * Spec.Backend.kVector k q c)) (wave q)
  have hR2 : ft (fun x => -(Spec.Backend.kVector k q c' * Spec.Backend.kVector k q c) * wave q x) =
    (-(Spec.Backend.kVector k q c' * Spec.Backend.kVector k q c)) • ft (wave q) := hR
  rw [hR2]
  funext p
  have hz : ft (0 : Idx N → ℂ) = 0 := ft_isLinear.map_zero
  have hF : ∀ b, ft ((Pi.single c (wave q) : Field 3 N) b) = if b = c then ft (wave q) else 0 := fun b => by
    by_cases hb : b = c
    · subst hb; simp
    · rw [Pi.single_eq_of_ne hb, hz, if_neg hb]
  rw [curlFt_twice]
  simp only [hF, if_neg hc, Pi.zero_apply, mul_zero, zero_sub]
  rw [Finset.sum_eq_single c]
  · rw [if_pos rfl, ft_wave]
    simp only [Pi.smul_apply, smul_eq_mul]
    split_ifs with h
    · rw [h]; ring
    · simp
  · intro b _ hb; rw [if_neg hb]; simp
  · simp

/-- **C74 (violation).** On every grid with an even number of samples along one axis and more than two along another axis, for every isotropic permittivity, including vacuum, there are
sources and fields that solve the wave equation but that are not reciprocal.  The wavenumber of the highest frequency of the even axis is the same for both directions of propagation. -/
theorem C74_violates (g : Grid.Obj d ℝ) (hd : d ≤ 3) (hs : ∀ a, 1 < g.shape a → g.step a ≠ 0) (hN : ∀ a, 0 < g.shape a) (hb : ¬ Balanced g.shape) (k0 : ℝ) (epsilon : Idx g.shape → ℂ) :
    ∃ S S' E E' : Fin 3 → Idx g.shape → ℂ, WaveEquation (kOf g) k0 (fun x => epsilon x • 1) (fun _ => 1) S E ∧
      WaveEquation (kOf g) k0 (fun x => epsilon x • 1) (fun _ => 1) S' E' ∧ reaction S' E ≠ reaction S E' := by
  unfold Balanced at hb
  push Not at hb
  obtain ⟨a, b, hab, ha, hb⟩ := hb
  let q : Idx g.shape := fun c => ⟨if c = a then g.shape a / 2 else if c = b then 1 else 0, by
    have h0 := hN c
    split_ifs with h1 h2
    · rw [h1] at h0 ⊢; omega
    · rw [h2]; omega
    · exact h0⟩
  have qa : (q a : ℕ) = g.shape a / 2 := if_pos rfl
  have qb : (q b : ℕ) = 1 := by
    show (if b = a then _ else if b = b then 1 else 0) = 1
    rw [if_neg (Ne.symm hab), if_pos rfl]
  have hNa := hN a
  have ka : kOf g a (opposite q) = kOf g a q := by rw [kOf_opposite g hs, if_pos (by omega)]
  have kb : kOf g b (opposite q) = -kOf g b q := by rw [kOf_opposite g hs, if_neg (by omega)]
  have za : kOf g a q ≠ 0 := by
    rw [C24_kOf g hs, qa, if_neg (by omega)]
    have h1 : (g.shape a : ℝ) ≠ 0 := by exact_mod_cast hNa.ne'
    have h2 := hs a (by omega)
    have h3 : ((g.shape a / 2 : ℕ) : ℝ) - g.shape a ≠ 0 := by
      have : ((g.shape a / 2 : ℕ) : ℝ) < g.shape a := by exact_mod_cast Nat.div_lt_self hNa one_lt_two
      linarith
    have := Real.pi_ne_zero
    positivity
  have zb : kOf g b q ≠ 0 := by
    rw [C24_kOf g hs, qb, if_pos (by omega)]
    have h1 : (g.shape b : ℝ) ≠ 0 := by exact_mod_cast (show g.shape b ≠ 0 by omega)
    have h2 := hs b (by omega)
    have := Real.pi_ne_zero
    push_cast
    positivity
  let ca : Fin 3 := Fin.castLE hd a
  let cb : Fin 3 := Fin.castLE hd b
  have hcab : cb ≠ ca := fun e => hab (Fin.castLE_injective hd e).symm
  have kv : ∀ (c : Fin d) x, Spec.Backend.kVector (kOf g) x (Fin.castLE hd c) = (kOf g c x : ℂ) := fun c x => by
    unfold Spec.Backend.kVector
    exact dif_pos c.isLt
  let E : Field 3 g.shape := Pi.single ca (wave q)
  let E' : Field 3 g.shape := Pi.single cb (wave (opposite q))
  let T : Field 3 g.shape → Field 3 g.shape := fun E => curl 3 (kOf g) (curl 3 (kOf g) E) - ((k0 : ℂ) ^ 2) • mulField (fun x => epsilon x • 1) E
  have hT : ∀ E, WaveEquation (kOf g) k0 (fun x => epsilon x • 1) (fun _ => 1) (T E) E := fun E c x => by
    have e1 : mulField (fun _ => (1 : Matrix (Fin 3) (Fin 3) ℂ)⁻¹) (curl 3 (kOf g) E) = curl 3 (kOf g) E := by rw [inv_one, mulField_one]
    rw [spec_curl, spec_curl, spec_act, spec_act, e1]
    rfl
  have hε : ∀ (F : Field 3 g.shape) c x, mulField (fun x => epsilon x • 1) F c x = epsilon x * F c x := fun F c x => by
    simp [mulField, Matrix.one_apply]
  refine ⟨T E, T E', E, E', hT E, hT E', ?_⟩
  have r1 : reaction (T E') E = ∑ x, T E' ca x * wave q x := by
    refine Finset.sum_congr rfl fun x _ => ?_
    simp only [dotProduct]
    rw [Finset.sum_eq_single ca]
    · simp [E]
    · intro c _ hc; simp [E, Pi.single_eq_of_ne hc]
    · simp
  have r2 : reaction (T E) E' = ∑ x, T E cb x * wave (opposite q) x := by
    refine Finset.sum_congr rfl fun x _ => ?_
    simp only [dotProduct]
    rw [Finset.sum_eq_single cb]
    · simp [E']
    · intro c _ hc; simp [E', Pi.single_eq_of_ne hc]
    · simp
  have t1 : ∀ x, T E' ca x = (kOf g a q * kOf g b q : ℝ) * wave (opposite q) x := fun x => by
    simp only [T, Pi.sub_apply, Pi.smul_apply, hε]
    rw [show E' = Pi.single cb (wave (opposite q)) from rfl, curlCurl_wave _ _ (Ne.symm hcab), Pi.single_eq_of_ne (Ne.symm hcab), kv, kv, ka, kb]
    push_cast
    simp
  have t2 : ∀ x, T E cb x = -(kOf g a q * kOf g b q : ℝ) * wave q x := fun x => by
    simp only [T, Pi.sub_apply, Pi.smul_apply, hε]
    rw [show E = Pi.single ca (wave q) from rfl, curlCurl_wave _ _ hcab, Pi.single_eq_of_ne hcab, kv, kv]
    push_cast
    simp
    left; ring
  have s1 := sum_wave q
  rw [r1, r2]
  simp only [t1, t2, mul_assoc, ← Finset.mul_sum]
  rw [s1, show ∑ x, wave (opposite q) x * wave q x = ∏ a, (g.shape a : ℂ) by rw [← s1]; exact Finset.sum_congr rfl fun x _ => mul_comm _ _]
  have hP := prod_ne_zero_of_idx q
  have hk : ((kOf g a q * kOf g b q : ℝ) : ℂ) ≠ 0 := ofReal_ne (mul_ne_zero za zb)
  intro h
  have : ((kOf g a q * kOf g b q : ℝ) : ℂ) * ∏ a, (g.shape a : ℂ) = 0 := by linear_combination h / 2
  exact mul_ne_zero hk hP this

/-- The hypotheses can be met: every field solves the wave equation for some source, here in a birefringent magnetic material on a grid of 3 by 5 samples. -/
example (E : Fin 3 → Idx ![3, 5] → ℂ) : (∃ S, WaveEquation (kOf (⟨![3, 5], fun _ => 1, fun _ => 0, .float, fun _ => false, fun _ => false, fun _ => true, true, false⟩ : Grid.Obj 2 ℝ)) 1
    (fun _ => !![2, 1, 0; 1, 2, 0; 0, 0, 1]) (fun _ => !![1, 0, 0; 0, 2, 1; 0, 1, 3]) S E) ∧ (∀ a, (![3, 5] : Fin 2 → ℕ) a % 2 = 1) ∧
    Reciprocal (N := ![3, 5]) (fun _ => !![2, 1, 0; 1, 2, 0; 0, 0, 1]) ∧ Reciprocal (N := ![3, 5]) (fun _ => !![1, 0, 0; 0, 2, 1; 0, 1, 3]) := by
  refine ⟨⟨_, fun _ _ => rfl⟩, by decide, fun _ => ?_, fun _ => ?_⟩ <;> ext i j <;> fin_cases i <;> fin_cases j <;> rfl

/-- A row of four samples, and a square of two by two, are balanced; four by four samples are not. -/
example : Balanced ![4, 1] ∧ Balanced ![2, 2] ∧ Balanced ![3, 5, 7] ∧ ¬ Balanced ![4, 4] := by
  unfold Balanced; decide

/-- **C74 (the solver, partial).** The fields of two Solution objects for the same material that have converged to the fixed points of their iterations are reciprocal, on all grids with an odd number of samples along
each axis. -/
theorem C74_solver_partial (g : Grid.Obj d ℝ) (hs : ∀ a, g.step a ≠ 0) (hodd : ∀ a, g.shape a % 2 = 1) {k0 : ℝ} (hk0 : k0 ≠ 0) (hd : d ≤ 3) (m : Medium 3 g.shape)
    (hxi : ∀ x, m.xi x = 0) (hzeta : ∀ x, m.zeta x = 0) {muScalar : Bool} {i0 : Fin 3} {x0 : Idx g.shape} {mag : Bool} {beta : ℝ}
    (hc : Chosen m muScalar i0 x0 mag beta) (hr : RealPermeability m mag x0) {alpha alpha' : ℂ} (hα : alpha.im ≠ 0) (hα' : alpha'.im ≠ 0)
    (he : Reciprocal m.epsilon) (hm : Reciprocal m.mu) (S S' F F' : Field 3 g.shape)
    (h : Preconditioned (.vectorial hd) (backendK g k0) (prepare m mag alpha beta S F))
    (h' : Preconditioned (.vectorial hd) (backendK g k0) (prepare m mag alpha' beta S' F')) :
    reaction S' (getE k0 (prepare m mag alpha beta S F)) = reaction S (getE k0 (prepare m mag alpha' beta S' F')) :=
  C74_odd_partial g (fun a _ => hs a) hodd k0 he hm ((C32_wave_equation g hs hk0 hd m hxi hzeta hc hr hα S F).1 h)
    ((C32_wave_equation g hs hk0 hd m hxi hzeta hc hr hα' S' F').1 h')

/-- **C74 (iterates, partial).** Fields that have not yet converged are reciprocal up to an error that is proportional to their distances from the solutions. -/
theorem C74_iterates_partial (g : Grid.Obj d ℝ) (hs : ∀ a, 1 < g.shape a → g.step a ≠ 0) (hodd : ∀ a, g.shape a % 2 = 1) (k0 : ℝ)
    {epsilon mu : Idx g.shape → Matrix (Fin 3) (Fin 3) ℂ} (he : Reciprocal epsilon) (hm : Reciprocal mu) {S S' E E' : Fin 3 → Idx g.shape → ℂ}
    (h : WaveEquation (kOf g) k0 epsilon mu S E) (h' : WaveEquation (kOf g) k0 epsilon mu S' E') (F F' : Fin 3 → Idx g.shape → ℂ) :
    ‖reaction S' F - reaction S F'‖ ≤ Backend.norm S' * Backend.norm (F - E) + Backend.norm S * Backend.norm (F' - E') := by
  have hn : ∀ S G : Field 3 g.shape, ‖reaction S G‖ ≤ Backend.norm S * Backend.norm G := fun S G => by
    have e : Backend.norm (conjField S) = Backend.norm S := by
      unfold Backend.norm conjField
      simp only [RCLike.norm_conj]
    rw [reaction_eq, dot_eq, ← e, ← norm_toE, ← norm_toE]
    exact norm_inner_le_norm _ _
  have h0 := C74_odd_partial g hs hodd k0 he hm h h'
  have e : reaction S' F - reaction S F' = reaction S' (F - E) - reaction S (F' - E') := by
    rw [reaction_sub, reaction_sub, h0]; ring
  rw [e]
  exact (norm_sub_le _ _).trans (add_le_add (hn _ _) (hn _ _))

end Verif.Solver
