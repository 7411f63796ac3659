import Verif.Lemmas.SolverSymmetry

/-!
# C76–C78: translations, units and amplitudes

Statements about complete executions: `run` gives the state, or the exception, after any number of passes of the loop.
-/

namespace Verif.Solver

open Verif Verif.Fourier Verif.Backend Complex
open Verif.Spec.Subpixel (circular)

variable {d n : ℕ} {N : Fin d → ℕ}

/-! ### C76 -/

/-- A material that has been moved by the given number of samples along each axis. -/
def Medium.move (m : Medium n N) (j : Fin d → ℤ) : Medium n N := ⟨circular m.epsilon j, circular m.xi j, circular m.zeta j, circular m.mu j⟩

/-- **C76 (executions).** Moving material, source and initial field circularly by any number of samples moves the arrays in all states of the execution, and changes neither bias nor norms nor the
iteration in which an exception is raised; for all grids, materials and sources, scalar and vectorial. -/
theorem C76_run (hN : ∀ a, 0 < N a) (kind : Kind d n) (k : Fin d → Idx N → ℝ) (m : Medium n N) (mag : Bool) (alpha : ℂ) (beta : ℝ) (S F : Field n N) (j : Fin d → ℤ) (i : ℕ) :
    run kind k (prepare (m.move j) mag alpha beta (fun c => circular (S c) j) fun c => circular (F c) j) i =
      (run kind k (prepare m mag alpha beta S F) i).map (moveState j) :=
  run_map (moveState j) (fun s => step_move hN kind k s j) (prepare m mag alpha beta S F) i

/-- **C76 (fields).** The electric and magnetic flux density fields of moved states have been moved; their relative residues are the same. -/
theorem C76_fields (hN : ∀ a, 0 < N a) (co : Const) (k0 : ℝ) (k : Fin d → Idx N → ℝ) (s : State n N) (j : Fin d → ℤ) (c : Fin n) :
    getE k0 (moveState j s) c = circular (getE k0 s c) j ∧ getB co k0 k (moveState j s) c = circular (getB co k0 k s c) j ∧
      getSource (moveState j s) c = circular (getSource s c) j ∧ (relativeResidue (moveState j s)).1 = (relativeResidue s).1 := by
  refine ⟨rfl, ?_, rfl, ?_⟩
  · have hc : curl n k (moveField (getE k0 s) j) = moveField (curl n k (getE k0 s)) j := convolve_move hN (curlFt_mul k) _ j
    funext x
    show curl n k (moveField (getE k0 s) j) c x / _ = _
    rw [hc]
    rfl
  · have hn := norm_move hN s.field j
    unfold relativeResidue
    rw [show (moveState j s).residue = s.residue from rfl, show (moveState j s).prevNorm = s.prevNorm from rfl, show (moveState j s).field = moveField s.field j from rfl, hn]
    cases s.residue with
    | some r => rfl
    | none =>
      dsimp only
      split <;> rfl

/-- **C76 (choices).** The code treats a moved material as magnetic if and only if it treats the material so, and chooses the same reference permeability for materials that are not magnetic. -/
theorem C76_choice (hN : ∀ a, 0 < N a) (m : Medium n N) (muScalar : Bool) (i0 : Fin n) (x0 : Idx N) (j : Fin d → ℤ) :
    (m.move j).isMagnetic muScalar x0 = m.isMagnetic muScalar x0 ∧
      (m.isMagnetic muScalar x0 = false → (m.move j).betaNonMagnetic i0 x0 = m.betaNonMagnetic i0 x0) := by
  let e : Idx N → Idx N := fun x a => Spec.Subpixel.wrap (N a) (hN a) (((x a : ℕ) : ℤ) - j a)
  have he : Function.Bijective e := Finite.injective_iff_bijective.1 fun x y h => funext fun a => Subpixel.wrap_injective _ _ _ _ _ (congrFun h a)
  have hall : ∀ {α : Type} (f : Idx N → α) (v : α), (∀ x, circular f j x = v) ↔ ∀ x, f x = v := fun f v =>
    ⟨fun h y => by obtain ⟨x, rfl⟩ := he.2 y; exact h x, fun h x => h _⟩
  have hmu : (∀ x, circular m.mu j x = circular m.mu j x0) ↔ ∀ x, m.mu x = m.mu x0 := by
    rw [hall]
    constructor
    · intro h x; rw [h x, h x0]
    · intro h x; rw [h x]; exact (h _).symm
  constructor
  · unfold Medium.isMagnetic
    show (!decide ((∀ x, circular m.xi j x = 0) ∧ (∀ x, circular m.zeta j x = 0) ∧ muScalar = true ∧ ∀ x, circular m.mu j x = circular m.mu j x0)) = _
    simp only [hall m.xi, hall m.zeta, hmu]
  · intro h
    have h4 : ∀ x, m.mu x = m.mu x0 := by
      have : (∀ x, m.xi x = 0) ∧ (∀ x, m.zeta x = 0) ∧ muScalar = true ∧ ∀ x, m.mu x = m.mu x0 := by simpa [Medium.isMagnetic] using h
      exact this.2.2.2
    unfold Medium.betaNonMagnetic Medium.muInv
    show ((m.mu (e x0))⁻¹ i0 i0).re = _
    rw [h4 (e x0)]

/-- A case that is not trivial: on a grid of four samples, a point moved by three samples. -/
example : circular (N := fun _ : Fin 1 => 4) (fun x => (x 0 : ℕ)) (fun _ => 3) (fun _ => 1) = 2 := by decide

/-! ### C77 -/

/-- The grid with all lengths multiplied by `c`. -/
def scaledGrid (g : Grid.Obj d ℝ) (c : ℝ) : Grid.Obj d ℝ where
  shape := g.shape
  step := fun i => g.step i * c
  center := fun i => g.center i * c
  dt := if d = 0 then .float else (g.dt.promote .float).promote (g.dt.promote .float)
  flat := g.flat
  originAtCenter := g.originAtCenter
  centerAtIndex := g.centerAtIndex
  multidimensional := g.multidimensional
  stepShort := false

theorem scaledGrid_eq (g : Grid.Obj d ℝ) (hN : ∀ a, 1 ≤ g.shape a) (c : ℝ) : Grid.mul g ⟨.float, fun _ => c⟩ = .ok (scaledGrid g c) := Grid.rebuild_eq hN _ _ _ _ _

theorem kOf_scaled (g : Grid.Obj d ℝ) (hs : ∀ a, g.step a ≠ 0) {c : ℝ} (hc : c ≠ 0) (a : Fin d) (x : Idx g.shape) : kOf (scaledGrid g c) a x = kOf g a x / c := by
  rw [C24_kOf g fun a _ => hs a]
  refine (C24_kOf (scaledGrid g c) (fun a _ => mul_ne_zero (hs a) hc) a x).trans ?_
  show 2 * Real.pi * ((if 2 * (x a : ℕ) < g.shape a then ((x a : ℕ) : ℝ) else ((x a : ℕ) : ℝ) - g.shape a) / (g.shape a * (g.step a * c))) = _
  have := hs a
  have h3 : (g.shape a : ℝ) ≠ 0 := by have := (Nat.zero_le _).trans_lt (x a).isLt; positivity
  field_simp

/-- **C77 (operators).** Multiplying all lengths, those of the grid and the wavelength, by the same factor does not change the wavenumbers of the back end.  All operators are functions of these. -/
theorem C77_backend (g : Grid.Obj d ℝ) (hs : ∀ a, g.step a ≠ 0) {k0 c : ℝ} (hk0 : k0 ≠ 0) (hc : c ≠ 0) :
    backendK (scaledGrid g c) (k0 / c) = backendK g k0 := by
  funext a x
  have h1 := C31_backend g hs hk0 a x
  have h2 := C31_backend (scaledGrid g c) (fun a => mul_ne_zero (hs a) hc) (div_ne_zero hk0 hc) a x
  have h3 := (kOf_scaled g hs hc a x).symm.trans h2
  rw [h1] at h3
  field_simp at h3
  exact h3.symm

/-- **C77 (executions).** All states of the execution are the same, for all grids, materials and sources; the reported electric fields differ by the square of the factor. -/
theorem C77_run (g : Grid.Obj d ℝ) (hs : ∀ a, g.step a ≠ 0) {k0 c : ℝ} (hk0 : k0 ≠ 0) (hc : c ≠ 0) (kind : Kind d n) (s : State n g.shape) (i : ℕ) :
    run kind (backendK (scaledGrid g c) (k0 / c)) s i = run kind (backendK g k0) s i ∧ ∀ t : State n g.shape, getE (k0 / c) t = ((c ^ 2 : ℝ) : ℂ) • getE k0 t := by
  refine ⟨by rw [C77_backend g hs hk0 hc]; rfl, fun t => ?_⟩
  funext e x
  have h1 := ofReal_ne hk0
  have h2 := ofReal_ne hc
  simp only [getE, Pi.smul_apply, smul_eq_mul]
  push_cast
  field_simp

/-- **C77 (bias).** The bias that the code adds to limit the width of the Green function is the same when the thickness of the boundary is scaled too. -/
theorem C77_bias {k0 c : ℝ} (hc : 0 < c) (thickness : List ℝ) (alpha : ℂ) : increaseBias (k0 / c) (thickness.map (c * ·)) alpha = increaseBias k0 thickness alpha := by
  cases thickness with
  | nil => rfl
  | cons t ts =>
    have hmin : ∀ (ts : List ℝ) t, (ts.map (c * ·)).foldl min (c * t) = c * ts.foldl min t := by
      intro ts
      induction ts with
      | nil => intro t; rfl
      | cons u us ih => intro t; simp only [List.map_cons, List.foldl_cons, ← mul_min_of_nonneg _ _ hc.le, ih]
    unfold increaseBias
    simp only [List.map_cons]
    rw [hmin, show -(k0 / c) * (c * ts.foldl min t) = -k0 * ts.foldl min t by field_simp]

/-- A case that is not trivial: micrometers instead of meters. -/
example (g : Grid.Obj 2 ℝ) (hs : ∀ a, g.step a ≠ 0) : backendK (scaledGrid g 1e6) (3 / 1e6) = backendK g 3 := C77_backend g hs (by norm_num) (by norm_num)

/-! ### C78 -/

/-- **C78 (amplitude and phase).** Multiplying the source and the initial field by a complex number other than zero multiplies the fields of all states of the execution, for all materials and numbers of iterations; the bias, relative
residues, and exceptions are the same. -/
theorem C78_run {z : ℂ} (hz : z ≠ 0) (kind : Kind d n) (k : Fin d → Idx N → ℝ) (m : Medium n N) (mag : Bool) {alpha : ℂ} (hα : alpha.im ≠ 0) (beta : ℝ) (S F : Field n N) (i : ℕ) :
    run kind k (prepare m mag alpha beta (z • S) (z • F)) i = (run kind k (prepare m mag alpha beta S F) i).map (scaleState z) := by
  rw [← run_map (scaleState z) (fun s => step_scale hz kind k s)]
  congr 1
  rw [prepare_eq m mag hα, prepare_eq m mag hα]
  unfold prepared scaleState
  congr 1
  funext c x
  simp only [Pi.smul_apply, smul_eq_mul]
  ring

/-- **C78 (fields).** What the accessors report for a state that has been multiplied. -/
theorem C78_fields {z : ℂ} (hz : z ≠ 0) (co : Const) (k0 : ℝ) (k : Fin d → Idx N → ℝ) (s : State n N) :
    getE k0 (scaleState z s) = z • getE k0 s ∧ getB co k0 k (scaleState z s) = z • getB co k0 k s ∧ getSource (scaleState z s) = z • getSource s ∧
      getJ co k0 (scaleState z s) = z • getJ co k0 s ∧ (relativeResidue (scaleState z s)).1 = (relativeResidue s).1 := by
  have hE : getE k0 (scaleState z s) = z • getE k0 s := by
    funext c x
    simp only [getE, scaleState, Pi.smul_apply, smul_eq_mul]
    ring
  have hS : getSource (scaleState z s) = z • getSource s := by
    funext c x
    simp only [getSource, scaleState, Pi.smul_apply, smul_eq_mul]
    ring
  have hn : ‖z‖ ≠ 0 := norm_ne_zero_iff.2 hz
  refine ⟨hE, ?_, hS, ?_, ?_⟩
  · funext c x
    simp only [getB, hE, (curl_isLinear k).map_smul, Pi.smul_apply, smul_eq_mul]
    ring
  · funext c x
    simp only [getJ, hS, Pi.smul_apply, smul_eq_mul]
    ring
  · have hF : Backend.norm (scaleState z s).field = ‖z‖ * Backend.norm s.field := norm_scale z s.field
    have h0 : ‖z‖ * Backend.norm s.field = 0 ↔ Backend.norm s.field = 0 := by simp [hn]
    unfold relativeResidue
    rw [show (scaleState z s).residue = s.residue from rfl, show (scaleState z s).prevNorm = s.prevNorm.map (‖z‖ * ·) from rfl, hF]
    cases s.residue with
    | some r => rfl
    | none =>
      cases s.prevNorm with
      | top =>
        show (match (if ‖z‖ * Backend.norm s.field = 0 then _ else _ : Except PyErr (WithTop ℝ)) with | .ok r => _ | .error e => _ : Except PyErr (WithTop ℝ) × State n N).1 =
          (match (if Backend.norm s.field = 0 then _ else _ : Except PyErr (WithTop ℝ)) with | .ok r => _ | .error e => _ : Except PyErr (WithTop ℝ) × State n N).1
        simp only [h0]
        split_ifs <;> rfl
      | coe p =>
        have hp : 0 < ‖z‖ * p ↔ 0 < p := by
          have : 0 < ‖z‖ := norm_pos_iff.2 hz
          exact mul_pos_iff_of_pos_left this
        show (match (if 0 < ‖z‖ * p then (if ‖z‖ * Backend.norm s.field = 0 then _ else _) else _ : Except PyErr (WithTop ℝ)) with | .ok r => _ | .error e => _ : Except PyErr (WithTop ℝ) × State n N).1 =
          (match (if 0 < p then (if Backend.norm s.field = 0 then _ else _) else _ : Except PyErr (WithTop ℝ)) with | .ok r => _ | .error e => _ : Except PyErr (WithTop ℝ) × State n N).1
        simp only [h0, hp, mul_div_mul_left _ _ hn]
        split_ifs <;> rfl

/-- **C78 (superposition).** For all states with the same operators: the field after an accepted iteration is a linear function of source and field. -/
theorem C78_next (kind : Kind d n) (k : Fin d → Idx N → ℝ) (s : State n N) (a b : ℂ) (F F' S S' : Field n N) :
    (next kind k { s with field := a • F + b • F', source := a • S + b • S' }).field =
      a • (next kind k { s with field := F, source := S }).field + b • (next kind k { s with field := F', source := S' }).field := by
  have hH := homogeneous_isLinear kind k s
  have hX := chiOp_isLinear k s
  have hG := green_isLinear kind k s.alpha
  have e : ∀ F S : Field n N, (next kind k { s with field := F, source := S }).field = homogeneous kind k s F + chiOp k s (green kind k s.alpha S) := by
    intro F S
    have h1 : (next kind k { s with field := F, source := S }).field = F + update kind k { s with field := F, source := S } := rfl
    rw [h1, update_eq]
    show F + (homogeneous kind k s F - F + chiOp k s (green kind k s.alpha S)) = _
    abel
  rw [e, e, e, hH.map_add, hH.map_smul, hH.map_smul, hG.map_add, hG.map_smul, hG.map_smul, hX.map_add, hX.map_smul, hX.map_smul, smul_add, smul_add]
  abel

/-- An execution in which the bias has not been increased has only accepted all updates. -/
theorem run_unbiased (kind : Kind d n) (k : Fin d → Idx N → ℝ) {s : State n N} (hα : s.alpha.im ≠ 0) (i : ℕ) : ∀ t, run kind k s i = .ok t →
    |s.alpha.im| ≤ |t.alpha.im| ∧ (t.alpha = s.alpha → ∃ p j r, t = { (next kind k)^[i] s with prevNorm := p, iteration := j, residue := r }) := by
  induction i with
  | zero =>
    intro t ht
    obtain rfl : s = t := Except.ok.inj ht
    exact ⟨le_rfl, fun _ => ⟨s.prevNorm, s.iteration, s.residue, rfl⟩⟩
  | succ i ih =>
    intro t' ht'
    simp only [run] at ht'
    cases ht : run kind k s i with
    | error e => rw [ht] at ht'; exact (nomatch ht')
    | ok t =>
      rw [ht] at ht'
      obtain ⟨h1, h2⟩ := ih t ht
      dsimp only at ht'
      rw [step_unfold] at ht'
      cases hd : divFloat (Backend.norm (update kind k t)) t.prevNorm with
      | error e => rw [hd] at ht'; exact (nomatch ht')
      | ok r =>
        rw [hd] at ht'
        dsimp only at ht'
        split_ifs at ht' with hr
        · obtain rfl := Except.ok.inj ht'
          refine ⟨h1, fun h => ?_⟩
          obtain ⟨p, j, r, h3⟩ := h2 h
          refine ⟨(Backend.norm (update kind k t) : ℝ), t.iteration + 1, none, ?_⟩
          rw [Function.iterate_succ_apply', h3]
          rfl
        · obtain rfl := Except.ok.inj ht'
          have h3 : (increased t.alpha).im = 1.5 * t.alpha.im := by
            unfold increased
            have : (1.5 : ℂ) = ((1.5 : ℝ) : ℂ) := by push_cast; rfl
            rw [this]
            simp
          have h0 : 0 < |t.alpha.im| := lt_of_lt_of_le (abs_pos.2 hα) h1
          have h4 : |s.alpha.im| < |(increased t.alpha).im| := by
            rw [h3, abs_mul, abs_of_pos (by norm_num : (0 : ℝ) < 1.5)]
            linarith
          exact ⟨h4.le, fun h => absurd (congrArg (fun z : ℂ => |z.im|) h).symm h4.ne⟩

theorem iterate_next_field (kind : Kind d n) (k : Fin d → Idx N → ℝ) (s : State n N) (i : ℕ) : ∃ F, (next kind k)^[i] s = { s with field := F } := by
  induction i with
  | zero => exact ⟨s.field, rfl⟩
  | succ i ih =>
    obtain ⟨F, h⟩ := ih
    rw [Function.iterate_succ_apply', h]
    exact ⟨_, rfl⟩

/-- **C78 (superposition of executions).** As long as the bias has not been increased in any of the three executions, the field for a superposition of sources and initial fields is the superposition of the
fields, in all iterations. -/
theorem C78_superposition (kind : Kind d n) (k : Fin d → Idx N → ℝ) {s : State n N} (hα : s.alpha.im ≠ 0) (a b : ℂ) (F F' S S' : Field n N) (i : ℕ) {t t' u : State n N}
    (ht : run kind k { s with field := F, source := S } i = .ok t) (ht' : run kind k { s with field := F', source := S' } i = .ok t')
    (hu : run kind k { s with field := a • F + b • F', source := a • S + b • S' } i = .ok u)
    (h1 : t.alpha = s.alpha) (h2 : t'.alpha = s.alpha) (h3 : u.alpha = s.alpha) : u.field = a • t.field + b • t'.field := by
  obtain ⟨p1, j1, r1, e1⟩ := (run_unbiased kind k (s := { s with field := F, source := S }) hα i t ht).2 h1
  obtain ⟨p2, j2, r2, e2⟩ := (run_unbiased kind k (s := { s with field := F', source := S' }) hα i t' ht').2 h2
  obtain ⟨p3, j3, r3, e3⟩ := (run_unbiased kind k (s := { s with field := a • F + b • F', source := a • S + b • S' }) hα i u hu).2 h3
  rw [e1, e2, e3]
  clear e1 e2 e3 h1 h2 h3 ht ht' hu
  show ((next kind k)^[i] _).field = a • ((next kind k)^[i] _).field + b • ((next kind k)^[i] _).field
  induction i with
  | zero => rfl
  | succ i ih =>
    simp only [Function.iterate_succ_apply']
    obtain ⟨G1, g1⟩ := iterate_next_field kind k { s with field := F, source := S } i
    obtain ⟨G2, g2⟩ := iterate_next_field kind k { s with field := F', source := S' } i
    obtain ⟨G3, g3⟩ := iterate_next_field kind k { s with field := a • F + b • F', source := a • S + b • S' } i
    rw [g1, g2, g3] at ih ⊢
    dsimp only at ih
    subst ih
    exact C78_next kind k s a b G1 G2 S S'

/-- **C78 (superposition of solutions).** For all grids and materials. -/
theorem C78_solutions {k : Fin d → Idx N → ℝ} {k0 : ℝ} {epsilon mu : Idx N → Matrix (Fin 3) (Fin 3) ℂ} {S S' E E' : Fin 3 → Idx N → ℂ} (a b : ℂ)
    (h : Spec.Solver.WaveEquation k k0 epsilon mu S E) (h' : Spec.Solver.WaveEquation k k0 epsilon mu S' E') :
    Spec.Solver.WaveEquation k k0 epsilon mu (a • S + b • S') (a • E + b • E') := by
  intro c x
  have hL := curl_isLinear (n := 3) (m := 3) k
  have hM := fun A : Tensor 3 N => mulField_isLinear A
  have h1 := h c x
  have h2 := h' c x
  simp only [spec_curl, spec_act] at h1 h2 ⊢
  rw [hL.map_add, hL.map_smul, hL.map_smul, (hM _).map_add, (hM _).map_smul, (hM _).map_smul, hL.map_add, hL.map_smul, hL.map_smul, (hM _).map_add, (hM _).map_smul, (hM _).map_smul]
  simp only [Pi.add_apply, Pi.smul_apply, smul_eq_mul, ← h1, ← h2]
  ring

end Verif.Solver
