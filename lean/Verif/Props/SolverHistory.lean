import Verif.Model.Detfield
import Verif.Props.SolverStop
import Verif.Props.SolverConv
import Verif.Props.SolverExamples
import Verif.Props.SolverSymmetry
import Verif.Props.SolverResidue

/-!
# C94: fields for consecutive sources
-/

namespace Verif.Solver

open Verif Verif.Fourier Verif.Backend Complex
open Verif.Spec.Solver (WaveEquation)

variable {d n : ℕ} {N : Fin d → ℕ}

/-- The attributes that stay the same unless the bias is increased. -/
def operators (s : State n N) : ℂ × ℝ × Tensor n N × Tensor n N × Tensor n N × Tensor n N × Bool :=
  (s.alpha, s.beta, s.chiEE, s.chiEH, s.chiHE, s.chiHH, s.magnetic)

/-! ### Scaling -/

/-- What `solve` has come to, with the source and the field multiplied by a number. -/
noncomputable def Outcome.scale {σ : Type} (c : ℂ) : Outcome σ n N → Outcome σ n N
  | .running u s => .running u (scaleState c s)
  | .done u s => .done u (scaleState c s)
  | .raised e => .raised e

/-- A callback that does not depend on the scale of the field. -/
def ScaleInvariant {σ : Type} (callback : Callback σ n N) : Prop :=
  ∀ (c : ℂ), c ≠ 0 → ∀ u s, callback u (scaleState c s) = (callback u s).map fun r => (r.1, r.2.1, scaleState c r.2.2)

/-- Reading the residue stores its value only. -/
theorem relativeResidue_stores (s : State n N) : (relativeResidue s).2 = { s with residue := match (relativeResidue s).1 with
    | .ok r => some r
    | .error _ => s.residue } := by
  obtain ⟨field, source, alpha, beta, c1, c2, c3, c4, mag, p, it, res⟩ := s
  unfold relativeResidue
  cases res with
  | some r => rfl
  | none =>
    dsimp only
    split <;> rfl

/-- The test of the number of iterations and the residue does not depend on the scale. -/
theorem criterion_scaleInvariant (limit : WithTop ℝ) (rtol : ℝ) : ScaleInvariant (criterion limit rtol : Callback Unit n N) := by
  intro c hc u s
  have h1 : (relativeResidue (scaleState c s)).1 = (relativeResidue s).1 := (C78_fields hc ⟨0, 0, 0⟩ 0 (fun _ _ => 0) s).2.2.2.2
  have h2 := relativeResidue_stores (scaleState c s)
  have h3 := relativeResidue_stores s
  rw [h1] at h2
  unfold criterion
  have e : (scaleState c s).iteration = s.iteration := rfl
  rw [e]
  generalize relativeResidue (scaleState c s) = x at *
  generalize relativeResidue s = y at *
  obtain ⟨x1, x2⟩ := x
  obtain ⟨y1, y2⟩ := y
  dsimp only at h1 h2 h3
  subst h1 h2 h3
  split_ifs
  · cases x1 <;> rfl
  · rfl

theorem solveLoop_scale (kind : Kind d n) (k : Fin d → Idx N → ℝ) {σ : Type} {callback : Callback σ n N} (hcb : ScaleInvariant callback) {c : ℂ} (hc : c ≠ 0) (i : ℕ) (u : σ)
    (s : State n N) : solveLoop kind k callback i u (scaleState c s) = (solveLoop kind k callback i u s).scale c := by
  induction i generalizing u s with
  | zero => rfl
  | succ i ih =>
    simp only [solveLoop, step_scale hc]
    cases step kind k s with
    | error e => rfl
    | ok t =>
      simp only [Except.map, hcb c hc u t]
      cases callback u t with
      | error e => rfl
      | ok r =>
        obtain ⟨again, u', t'⟩ := r
        cases again
        · rfl
        · exact ih u' t'

theorem reset_smul (k0 : ℝ) (c : ℂ) (s : State n N) (S : Field n N) : reset k0 s (c • S) = scaleState c (reset k0 s S) := by
  simp only [reset, setE, setSource, scaleState, State.mk.injEq, and_true, true_and]
  refine ⟨?_, ?_, rfl⟩
  · funext a x
    simp
  · funext a x
    simp only [Pi.smul_apply, smul_eq_mul]
    ring

/-- **C94 (scaling).** The field that is calculated for a source times a number is the field for that source times the number, after the same number of iterations, and when an
exception is raised it is raised for both.  This holds for all media, also with gain, whatever happens during the iteration. -/
theorem C94_scaling (kind : Kind d n) (k : Fin d → Idx N → ℝ) (k0 : ℝ) {callback : Callback Unit n N} (hcb : ScaleInvariant callback) {c : ℂ} (hc : c ≠ 0) (s : State n N)
    (S : Field n N) (i : ℕ) : source2detfield kind k k0 callback s (c • S) i = (source2detfield kind k k0 callback s S i).scale c := by
  simp only [source2detfield, solve, reset_smul]
  exact solveLoop_scale kind k hcb hc i () (start (reset k0 s S))

/-- A case that is not trivial: half the source with another phase, with the default callback of a ScatteringMatrix. -/
example (s : State 1 demoGrid.shape) (S : Field 1 demoGrid.shape) (t : State 1 demoGrid.shape) (i : ℕ)
    (h : source2detfield .scalar (backendK demoGrid 1) 1 matrixCallback s S i = .done () t) :
    ∃ t', source2detfield .scalar (backendK demoGrid 1) 1 matrixCallback s ((I / 2) • S) i = .done () t' ∧ getE 1 t' = (I / 2) • getE 1 t := by
  have hc : (I / 2 : ℂ) ≠ 0 := div_ne_zero I_ne_zero two_ne_zero
  refine ⟨scaleState (I / 2) t, ?_, (C78_fields hc ⟨0, 0, 0⟩ 1 (fun _ _ => 0) t).1⟩
  rw [C94_scaling .scalar _ 1 (show ScaleInvariant matrixCallback from criterion_scaleInvariant _ _) hc, h]
  rfl

/-- **C94 (no source).** Without source the field is 0 after one iteration. -/
theorem C94_zero (kind : Kind d n) (k : Fin d → Idx N → ℝ) {k0 : ℝ} (limit : WithTop ℝ) {rtol : ℝ} (hr : 0 ≤ rtol) (s : State n N) (i : ℕ) :
    ∃ t, source2detfield kind k k0 (criterion limit rtol) s 0 (i + 1) = .done () t ∧ getE k0 t = 0 ∧ t.iteration = 1 ∧ operators t = operators s := by
  have hf : (start (reset k0 s 0)).field = 0 := by
    funext a x
    simp [start, reset, setE, setSource]
  have hso : (start (reset k0 s 0)).source = 0 := by
    funext a x
    simp [start, reset, setE, setSource]
  have hu : update kind k (start (reset k0 s 0)) = 0 := by
    rw [update_eq, hf, hso, (homogeneous_isLinear kind k _).map_zero, (green_isLinear kind k _).map_zero, (chiOp_isLinear k _).map_zero]
    simp
  have hn : Backend.norm (0 : Field n N) = 0 := (norm_eq_zero_iff _).2 rfl
  have hstep : step kind k (start (reset k0 s 0)) = .ok { start (reset k0 s 0) with iteration := 1, residue := none, prevNorm := ((0 : ℝ) : WithTop ℝ) } := by
    rw [step_unfold, hu, hn]
    show (if (0 : ℝ) < 1 then _ else _) = _
    rw [if_pos one_pos, add_zero]
    rfl
  set t : State n N := { start (reset k0 s 0) with iteration := 1, residue := none, prevNorm := ((0 : ℝ) : WithTop ℝ) } with ht
  have hE : getE k0 t = 0 := by
    funext a x
    show t.field a x / _ = 0
    rw [show t.field = 0 from hf]
    simp
  by_cases hl : (((1 : ℤ) : ℝ) : WithTop ℝ) < limit
  · have hres : relativeResidue t = (.ok ((0 : ℝ) : WithTop ℝ), { t with residue := some ((0 : ℝ) : WithTop ℝ) }) := by
      have h1 : t.residue = none := rfl
      have h2 : t.prevNorm = some 0 := rfl
      unfold relativeResidue
      simp only [h1, h2, lt_irrefl, if_false]
    have hc : criterion limit rtol () t = .ok (false, (), { t with residue := some ((0 : ℝ) : WithTop ℝ) }) := by
      unfold criterion
      rw [show t.iteration = 1 from rfl, if_pos hl, hres]
      have : ¬ ((rtol : ℝ) : WithTop ℝ) < ((0 : ℝ) : WithTop ℝ) := not_lt.2 (WithTop.coe_le_coe.2 hr)
      simp only [this, decide_false]
      rfl
    refine ⟨{ t with residue := some ((0 : ℝ) : WithTop ℝ) }, ?_, hE, rfl, rfl⟩
    simp only [source2detfield, solve, solveLoop, hstep, hc]
    rfl
  · have hc : criterion limit rtol () t = .ok (false, (), t) := by
      unfold criterion
      rw [show t.iteration = 1 from rfl, if_neg hl]
    refine ⟨t, ?_, hE, rfl, rfl⟩
    simp only [source2detfield, solve, solveLoop, hstep, hc]
    rfl

/-! ### History -/

/-- The states that a Solution object can have after calculations for any sources. -/
inductive Later (kind : Kind d n) (k : Fin d → Idx N → ℝ) (k0 : ℝ) (callback : Callback Unit n N) (s : State n N) : State n N → Prop
  | refl : Later kind k k0 callback s s
  | call {t t' : State n N} {S : Field n N} {i : ℕ} : Later kind k k0 callback s t → source2detfield kind k k0 callback t S i = .done () t' → Later kind k k0 callback s t'

/-- The result depends only on the operators. -/
theorem source2detfield_operators (kind : Kind d n) (k : Fin d → Idx N → ℝ) (k0 : ℝ) (callback : Callback Unit n N) {s t : State n N} (h : operators s = operators t)
    (S : Field n N) (i : ℕ) : source2detfield kind k k0 callback s S (i + 1) = source2detfield kind k k0 callback t S (i + 1) := by
  obtain ⟨field, source, alpha, beta, c1, c2, c3, c4, mag, p, it, res⟩ := s
  obtain ⟨field', source', alpha', beta', c1', c2', c3', c4', mag', p', it', res'⟩ := t
  simp only [operators, Prod.mk.injEq] at h
  obtain ⟨rfl, rfl, rfl, rfl, rfl, rfl, rfl⟩ := h
  rfl

theorem step_operators {kind : Kind d n} {k : Fin d → Idx N → ℝ} {s t : State n N} (h : step kind k s = .ok t) :
    operators t = operators s ∨ (t.field = s.field ∧ t.prevNorm = s.prevNorm ∧ s.prevNorm ≠ ((0 : ℝ) : WithTop ℝ)) := by
  unfold step at h
  simp only at h
  split at h
  · exact nomatch h
  · rename_i r hr
    split_ifs at h
    · simp only [Except.ok.injEq] at h
      subst h
      exact .inl rfl
    · simp only [Except.ok.injEq] at h
      subst h
      refine .inr ⟨rfl, rfl, fun h0 => ?_⟩
      rw [h0] at hr
      simp [divFloat] at hr

theorem run_operators {kind : Kind d n} {k : Fin d → Idx N → ℝ} {k0 : ℝ} {s : State n N} {E : Field n N} (h : ConvergesExponentially kind k k0 s E) {i : ℕ} {t : State n N}
    (ht : run kind k s i = .ok t) : operators t = operators s := by
  obtain ⟨q, h0, h1, hstep, -⟩ := h
  induction i generalizing t with
  | zero =>
    simp only [run, Except.ok.injEq] at ht
    rw [ht]
  | succ i ih =>
    obtain ⟨u, hu⟩ := run_of_succ ht
    have h2 := (hstep i u t hu ht).2
    have h3 : step kind k u = .ok t := by simpa only [run, hu] using ht
    rcases step_operators h3 with h4 | ⟨h4, h5, h6⟩
    · rw [h4, ih hu]
    · rw [h4, sub_self, (norm_eq_zero_iff (0 : Field n N)).2 rfl, h5] at h2
      exact absurd h2 h6

theorem later_operators {kind : Kind d n} {k : Fin d → Idx N → ℝ} {k0 : ℝ} {limit : WithTop ℝ} {rtol : ℝ} {s : State n N}
    (hconv : ∀ S, ∃ E, ConvergesExponentially kind k k0 (reset k0 s S) E) {t : State n N} (h : Later kind k k0 (criterion limit rtol) s t) : operators t = operators s := by
  induction h with
  | refl => rfl
  | call hl hd ih =>
    rename_i t t' S i
    cases i with
    | zero => exact nomatch hd
    | succ i =>
      rw [source2detfield_operators kind k k0 _ ih S i] at hd
      simp only [source2detfield, solve, criterion_eq] at hd
      rw [loop_done_iff] at hd
      obtain ⟨w, t0, r, -, hf, -, -, rfl, -⟩ := hd
      rw [follows_iff_run] at hf
      have := hf w.length (by simp)
      rw [List.getElem_concat_length rfl] at this
      obtain ⟨E, hE⟩ := hconv S
      exact run_operators (t := t0) hE.start this

/-- **C94 (history).** For a problem that converges for every source, the field that is calculated for a source does not depend on the calculations that have been done before
with the same Solution object. -/
theorem C94_history {kind : Kind d n} {k : Fin d → Idx N → ℝ} {k0 : ℝ} {limit : WithTop ℝ} {rtol : ℝ} {s : State n N}
    (hconv : ∀ S, ∃ E, ConvergesExponentially kind k k0 (reset k0 s S) E) {t : State n N} (h : Later kind k k0 (criterion limit rtol) s t) (S : Field n N) (i : ℕ) :
    source2detfield kind k k0 (criterion limit rtol) t S (i + 1) = source2detfield kind k k0 (criterion limit rtol) s S (i + 1) :=
  source2detfield_operators kind k k0 _ (later_operators hconv h) S i

theorem reset_prepare (k0 : ℝ) (m : Medium n N) (mag : Bool) {alpha : ℂ} (hα : alpha.im ≠ 0) (beta : ℝ) (S0 F0 S : Field n N) :
    reset k0 (prepare m mag alpha beta S0 F0) S = prepare m mag alpha beta S 0 := by
  rw [prepare_eq _ _ hα, prepare_eq _ _ hα]
  simp only [reset, setE, setSource, prepared, State.mk.injEq, and_true]
  funext a x
  simp

/-- **C94 (absorbing media).** For media that absorb a little everywhere the fields do not depend on the history. -/
theorem C94_absorbing {g : Grid.Obj d ℝ} (hs : ∀ a, g.step a ≠ 0) {k0 : ℝ} (hk0 : k0 ≠ 0) (hd : d ≤ 3) {m : Medium 3 g.shape} {muScalar mag : Bool} {x0 : Idx g.shape} {alpha : ℂ}
    {beta σ : ℝ} (hm : Passivity g k0 m alpha.re beta σ) (hc : Chosen m muScalar 0 x0 mag beta) (hr : RealPermeability m mag x0) (hα : 0 < alpha.im) (hβ : 0 < beta)
    (hσ : σ < alpha.im * beta) {δ : ℝ} (hδ : 0 < δ) (habs : ∀ x (v : Fin 3 → ℂ), δ * ∑ i, ‖v i‖ ^ 2 ≤ (star v ⬝ᵥ (m.epsilon x).mulVec v).im) {limit : WithTop ℝ} {rtol : ℝ}
    (S0 F0 : Field 3 g.shape) {t : State 3 g.shape} (h : Later (.vectorial hd) (backendK g k0) k0 (criterion limit rtol) (prepare m mag alpha beta S0 F0) t) (S : Field 3 g.shape)
    (i : ℕ) : source2detfield (.vectorial hd) (backendK g k0) k0 (criterion limit rtol) t S (i + 1) =
      source2detfield (.vectorial hd) (backendK g k0) k0 (criterion limit rtol) (prepare m mag alpha beta S0 F0) S (i + 1) :=
  C94_history (fun S => by
    rw [reset_prepare k0 m mag hα.ne' beta]
    obtain ⟨E, -, hE⟩ := C35_absorbing hs hk0 hd hm hc hr hα hβ hσ hδ habs S 0
    exact ⟨E, hE⟩) h S i

/-- A case that is not trivial: the field for a second source after another one. -/
example (S F S1 S2 : Field 3 demoGrid.shape) (i j : ℕ) (t : State 3 demoGrid.shape)
    (h : source2detfield (.vectorial (by norm_num)) (backendK demoGrid 1) 1 matrixCallback (prepare demoMedium true (1 + 19 * I) 1 S F) S1 j = .done () t) :
    source2detfield (.vectorial (by norm_num)) (backendK demoGrid 1) 1 matrixCallback t S2 (i + 1) =
      source2detfield (.vectorial (by norm_num)) (backendK demoGrid 1) 1 matrixCallback (prepare demoMedium true (1 + 19 * I) 1 S F) S2 (i + 1) :=
  C94_absorbing (σ := 18) demo_step one_ne_zero (by norm_num) (by simpa using demo_passivity) demo_chosen (fun h => absurd h (by decide)) (by norm_num) one_pos (by norm_num) one_pos
    demo_absorbing S F (.call .refl h) S2 i

/-! ### Gain -/

section Gain
variable {k : Fin d → Idx N → ℝ} (hk : ∀ x, origin x → ∀ a, k a x = 0) (k0 : ℝ)
include hk

/-- A call of two iterations when the second change is not less than the first. -/
theorem leaky_two (x0 : Idx N) {x a : ℝ} (hx : x ≠ 0) (ha : a ≠ 0) (h1 : x ≠ a) (h2 : 1 ≤ |1 - (1 - x / a) * (x / a)|) {rtol : ℝ} (hr : rtol < 1) {s : State 1 N}
    (hs : operators s = operators (prepare (leaky N x) false (a * I) 1 0 0)) : ∃ t, source2detfield .scalar k k0 (criterion ((2 : ℝ) : WithTop ℝ) rtol) s unitField 2 = .done () t ∧
      t.field = (((1 - x / a) * (x / a) : ℝ) * (I / x)) • unitField ∧ operators t = operators (prepare (leaky N x) false ((1.5 * a : ℝ) * I) 1 0 0) := by
  have hq : (a * I : ℂ).im ≠ 0 := by simpa using ha
  rw [source2detfield_operators .scalar k k0 _ hs unitField 1]
  unfold source2detfield solve
  rw [reset_prepare k0 _ false hq]
  set w : ℝ := (1 - x / a) * (x / a) with hw
  have hx' := ofReal_ne hx
  have hw0 : w ≠ 0 := mul_ne_zero (sub_ne_zero.2 fun h => h1 (((div_eq_one_iff_eq ha).1 h.symm))) (div_ne_zero hx ha)
  set P := prepare (leaky N x) false (a * I) 1 (unitField : Field 1 N) 0 with hP
  set v : ℂ := (w : ℂ) * (I / x) with hv
  have hv0 : v ≠ 0 := mul_ne_zero (ofReal_ne hw0) (div_ne_zero I_ne_zero hx')
  have hu : 0 < Backend.norm (unitField : Field 1 N) := by
    refine lt_of_le_of_ne (norm_nonneg' _) fun h => ?_
    have := congrFun (congrFun ((norm_eq_zero_iff _).1 h.symm) 0) x0
    exact one_ne_zero this
  set p : ℝ := ‖v‖ * Backend.norm (unitField : Field 1 N) with hp
  have hp0 : 0 < p := mul_pos (norm_pos_iff.2 hv0) hu
  have hPP : start P = at' P 0 ((0 : ℂ) • unitField) ⊤ := by
    rw [hP, prepare_eq _ _ hq]
    simp [start, at', prepared]
  have hs1 : step .scalar k (start P) = .ok (at' P 1 (v • unitField) (p : ℝ)) := by
    rw [hPP, step_eq _ _ _ (by exact WithTop.top_ne_coe) (by exact le_top), hP, leaky_update hk hx ha, ← hw, ← hP, sub_zero, ← hv, norm_smul']
    rw [if_pos (by exact WithTop.coe_lt_top _)]
    simp only [at', Except.ok.injEq, State.mk.injEq, true_and]
    refine ⟨?_, rfl, by simp, by simp⟩
    funext c y
    simp
  have hs2 : step .scalar k { at' P 1 (v • unitField) (p : ℝ) with residue := some ((1 : ℝ) : WithTop ℝ) } =
      .ok (updateOperators { at' P 1 (v • unitField) (p : ℝ) with iteration := 2, residue := none } ((1.5 * a : ℝ) * I)) := by
    have e : step .scalar k { at' P 1 (v • unitField) (p : ℝ) with residue := some ((1 : ℝ) : WithTop ℝ) } = step .scalar k (at' P 1 (v • unitField) (p : ℝ)) := rfl
    rw [e, step_eq _ _ _ (fun h => hp0.ne' (WithTop.coe_injective h)) (WithTop.coe_le_coe.2 hp0.le), hP, leaky_update hk hx ha, ← hw, ← hP, norm_smul']
    have e2 : (w : ℂ) * (I / x - v) = v * ((1 - w : ℝ) : ℂ) := by rw [hv]; push_cast; ring
    rw [if_neg]
    · have e3 : increased (at' P 1 (v • unitField) (p : ℝ)).alpha = (1.5 * a : ℝ) * I := by
        show increased (a * I) = _
        simp only [increased, mul_re, ofReal_re, I_re, mul_zero, ofReal_im, I_im, mul_one, sub_self, ofReal_zero, zero_add, mul_im, add_zero]
        push_cast
        ring
      rw [e3]
      have e4 : (at' P 1 (v • unitField) (p : ℝ)).iteration + 1 = 2 := by
        show P.iteration + ((1 : ℕ) : ℤ) + 1 = 2
        have : P.iteration = 0 := rfl
        rw [this]; norm_num
      rw [e4]
    · rw [e2, norm_mul, norm_real, Real.norm_eq_abs]
      refine not_lt.2 (WithTop.coe_le_coe.2 ?_)
      rw [hp]
      nlinarith [mul_le_mul_of_nonneg_left h2 hp0.le]
  have hres : relativeResidue (at' P 1 (v • unitField) (p : ℝ)) = (.ok ((1 : ℝ) : WithTop ℝ), { at' P 1 (v • unitField) (p : ℝ) with residue := some ((1 : ℝ) : WithTop ℝ) }) := by
    have hn : Backend.norm (at' P 1 (v • unitField) (p : ℝ)).field = p := norm_smul' v unitField
    have hpn : (at' P 1 (v • (unitField : Field 1 N)) (p : ℝ)).prevNorm = some p := rfl
    have hre : (at' P 1 (v • (unitField : Field 1 N)) (p : ℝ)).residue = none := rfl
    unfold relativeResidue
    simp only [hre, hpn, hn, if_pos hp0, if_neg hp0.ne', div_self hp0.ne']
  have hc1 : criterion ((2 : ℝ) : WithTop ℝ) rtol () (at' P 1 (v • unitField) (p : ℝ)) =
      .ok (true, (), { at' P 1 (v • unitField) (p : ℝ) with residue := some ((1 : ℝ) : WithTop ℝ) }) := by
    have hit : (at' P 1 (v • (unitField : Field 1 N)) (p : ℝ)).iteration = 1 := rfl
    unfold criterion
    rw [hit, hres, if_pos (WithTop.coe_lt_coe.2 (by norm_num))]
    have : ((rtol : ℝ) : WithTop ℝ) < ((1 : ℝ) : WithTop ℝ) := WithTop.coe_lt_coe.2 hr
    simp only [this, decide_true]
  set T := updateOperators { at' P 1 (v • unitField) (p : ℝ) with iteration := 2, residue := none } ((1.5 * a : ℝ) * I) with hT
  have hc2 : criterion ((2 : ℝ) : WithTop ℝ) rtol () T = .ok (false, (), T) := by
    have hit : T.iteration = 2 := rfl
    unfold criterion
    rw [hit, if_neg (by simp)]
  refine ⟨T, ?_, rfl, ?_⟩
  · simp only [solveLoop, hs1, hc1, hs2, hc2]
    rfl
  · have e := updateOperators_prepared (leaky N x) false hq ((1.5 * a : ℝ) * I) 1 unitField 0
    rw [← prepare_eq _ _ hq, ← hP] at e
    have e5 : operators T = operators (updateOperators P ((1.5 * a : ℝ) * I)) := rfl
    rw [e5, e, prepare_eq _ _ (by simp [ha]; norm_num)]
    rfl

omit hk in
/-- The constants that the code selects for a uniform medium with gain. -/
theorem amplifying_constants (x0 : Idx N) {tol y : ℝ} (hy : 0 < y) (h1 : tol < y) (htol : 0 ≤ tol) (k0 : ℝ) :
    (leaky N (-y)).constantsNonMagnetic tol k0 [] 0 x0 0 = ((-y + 1 / 20 : ℝ) * I, 1) := by
  have : Nonempty (Idx N) := ⟨x0⟩
  have ht : (leaky N (-y)).transposed tol := by
    refine ⟨.inl ((hasGain_smul_one tol _).2 (by simpa using h1)), ?_⟩
    rintro (h | h | h | h)
    · have : hasGain tol (fun _ : Idx N => (-(((-y : ℝ) : ℂ) * I)) • (1 : Matrix (Fin 1) (Fin 1) ℂ)) := by simp only [neg_smul]; exact h
      have := (hasGain_smul_one tol _).1 this
      simp at this; linarith
    · have : hasGain tol (fun _ : Idx N => (0 : ℂ) • (1 : Matrix (Fin 1) (Fin 1) ℂ)) := by simpa [hasLoss, leaky] using h
      have := (hasGain_smul_one tol _).1 this
      simp at this; linarith
    · have : hasGain tol (fun _ : Idx N => (0 : ℂ) • (1 : Matrix (Fin 1) (Fin 1) ℂ)) := by simpa [hasLoss, leaky] using h
      have := (hasGain_smul_one tol _).1 this
      simp at this; linarith
    · have : hasGain tol (fun _ : Idx N => (-1 : ℂ) • (1 : Matrix (Fin 1) (Fin 1) ℂ)) := by simpa [hasLoss, leaky] using h
      have := (hasGain_smul_one tol _).1 this
      simp at this; linarith
  have hb : (leaky N (-y)).betaNonMagnetic 0 x0 = 1 := by simp [Medium.betaNonMagnetic, Medium.muInv, leaky]
  have hsig : (leaky N (-y)).sigmaEE 0 1 = y := by
    have e : (leaky N (-y)).deltaEEBeta2 0 1 = fun _ => ((y ^ 2 : ℝ) : ℂ) • 1 := by
      funext z
      simp only [Medium.deltaEEBeta2, Medium.epsilonPrime, leaky, zero_mul, sub_zero, abs_zero, ofReal_zero, zero_smul, add_zero]
      rw [Matrix.conjTranspose_smul, Matrix.conjTranspose_one, smul_mul_smul_comm, Matrix.one_mul, ← add_smul]
      congr 1
      rw [RCLike.star_def, map_mul, conj_ofReal, conj_I]
      push_cast
      linear_combination (-(y : ℂ) ^ 2) * I_sq
    unfold Medium.sigmaEE
    rw [e, largestEigenvalue_smul_one, norm_real, Real.norm_of_nonneg (sq_nonneg y), Real.sqrt_sq hy.le]
    simp
  simp only [Medium.constantsNonMagnetic, hb, hsig, if_pos ht, increaseBias]
  simp
  norm_num
  ring

end Gain

/-- **C94 (violation).** Full claim: the field that is calculated for a source does not depend on earlier calculations.  On every grid, for a uniform medium with gain and the
constants that the code selects, two consecutive calls with the same source and the same callback function give different fields: the first call has increased the bias. -/
theorem C94_history_violates {g : Grid.Obj d ℝ} (hs : ∀ a, g.step a ≠ 0) (x0 : Idx g.shape) {k0 : ℝ} (hk0 : k0 ≠ 0) {tol : ℝ} (h0 : 0 ≤ tol) (h1 : tol < 1 / 10) {rtol : ℝ}
    (hr : rtol < 1) (S0 F0 : Field 1 g.shape) : ∃ t t', let m := leaky g.shape (-1 / 10)
      let c := m.constantsNonMagnetic tol k0 [] 0 x0 0
      source2detfield .scalar (backendK g k0) k0 (criterion ((2 : ℝ) : WithTop ℝ) rtol) (prepare m false c.1 c.2 S0 F0) unitField 2 = .done () t ∧
      source2detfield .scalar (backendK g k0) k0 (criterion ((2 : ℝ) : WithTop ℝ) rtol) t unitField 2 = .done () t' ∧ getE k0 t ≠ getE k0 t' := by
  have hkb : ∀ y, origin y → ∀ a, backendK g k0 a y = 0 := fun y hy => (backendK_origin g hs hk0 y).1 hy
  have hc := amplifying_constants (N := g.shape) x0 (y := 1 / 10) (by norm_num) h1 h0 k0
  dsimp only
  rw [show (-1 / 10 : ℝ) = -(1 / 10) by norm_num, hc]
  dsimp only
  obtain ⟨t, ht, hf, ho⟩ := leaky_two hkb k0 x0 (x := -(1 / 10)) (a := -(1 / 10) + 1 / 20) (by norm_num) (by norm_num) (by norm_num) (by norm_num [abs_of_pos]) hr
    (s := prepare (leaky g.shape (-(1 / 10))) false ((-(1 / 10) + 1 / 20 : ℝ) * I) 1 S0 F0) (by
      rw [prepare_eq _ _ (by simp; norm_num), prepare_eq _ _ (by simp; norm_num)]; rfl)
  obtain ⟨t', ht', hf', -⟩ := leaky_two hkb k0 x0 (x := -(1 / 10)) (a := 1.5 * (-(1 / 10) + 1 / 20)) (by norm_num) (by norm_num) (by norm_num) (by norm_num [abs_of_pos]) hr ho
  refine ⟨t, t', ht, ht', fun he => ?_⟩
  have h2 : t.field = t'.field := by rw [field_getE hk0 t, field_getE hk0 t', he]
  rw [hf, hf'] at h2
  have h3 := congrFun (congrFun h2 0) x0
  simp only [Pi.smul_apply, unitField, smul_eq_mul, mul_one] at h3
  have h4 := mul_right_cancel₀ (div_ne_zero I_ne_zero (ofReal_ne (by norm_num : (-(1 / 10) : ℝ) ≠ 0))) h3
  have h5 := ofReal_injective h4
  norm_num at h5

end Verif.Solver
