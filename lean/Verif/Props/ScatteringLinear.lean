import Verif.Props.ScatteringSource
import Verif.Props.MatCache
import Mathlib.Algebra.Module.LinearMap.Defs
import Mathlib.Algebra.Module.Pi
import Mathlib.Analysis.Complex.Basic

/-!
# C97: the product with a scattering matrix is linear, and caching does not change it
-/

namespace Verif.Scattering

open Verif.Fourier Verif.Spec.Modes Complex Verif.Mat Verif.Spec.Mat

variable {d : ℕ}

/-! ### Specification -/

/-- The conversions between amplitudes and components are linear. -/
structure Polarization.Linear (P : Polarization) : Prop where
  rotate : ∀ k, IsLinearMap ℂ (P.rotate k)
  unrotate : ∀ k, IsLinearMap ℂ (P.unrotate k)

theorem isLinear_of {V W : Type} [AddCommMonoid V] [AddCommMonoid W] [Module ℂ V] [Module ℂ W] {f : V → W} (h : ∀ (a b : ℂ) v w, f (a • v + b • w) = a • f v + b • f w) : IsLinearMap ℂ f where
  map_add v w := by simpa using h 1 1 v w
  map_smul a v := by simpa using h a 0 v 0

theorem lin_combination {V W : Type} [AddCommMonoid V] [AddCommMonoid W] [Module ℂ V] [Module ℂ W] {f : V → W} (h : IsLinearMap ℂ f) (a b : ℂ) (v w : V) :
    f (a • v + b • w) = a • f v + b • f w := by
  rw [h.map_add, h.map_smul, h.map_smul]

theorem scalar_linear : scalar.Linear := ⟨fun _ => ⟨fun _ _ => rfl, fun _ _ => rfl⟩, fun _ => ⟨fun _ _ => rfl, fun _ _ => rfl⟩⟩

theorem rotateVectorial_linear (k : Fin 3 → ℝ) (a b : ℂ) (v w : Fin 2 → ℂ) (c : Fin 3) :
    rotateVectorial k (fun q => a * v q + b * w q) c = a * rotateVectorial k v c + b * rotateVectorial k w c := by
  unfold rotateVectorial
  refine Fin.cases ?_ (fun c => ?_) c
  · simp only [Fin.cons_zero]
    ring
  · simp only [Fin.cons_succ]
    ring

theorem unrotateVectorial_linear (k : Fin 3 → ℝ) (a b : ℂ) (v w : Fin 3 → ℂ) (q : Fin 2) :
    unrotateVectorial k (fun c => a * v c + b * w c) q = a * unrotateVectorial k v q + b * unrotateVectorial k w q := by
  unfold unrotateVectorial
  dsimp only
  ring

theorem vectorial_linear : vectorial.Linear where
  rotate k := isLinear_of fun a b v w => funext fun c => rotateVectorial_linear k a b v w c
  unrotate k := isLinear_of fun a b v w => funext fun q => unrotateVectorial_linear k a b v w q

section
variable (s : Setup d) (P : Polarization) (hP : P.Linear)

theorem oneSide_sum (v : Fin s.count → Fin P.p → ℂ) (c : Fin P.c) (i : Fin s.shape0) (x : Idx s.shape) :
    s.oneSide P v c i x = ∑ m, P.rotate (s.dir m) (v m) c * s.phase m * s.axialPhase m (s.position i) * ∏ a, twiddle (s.shape a) (x a) (s.mode (Fin.rev m) a) := by
  unfold Setup.oneSide
  dsimp only
  unfold ft
  rw [sum_fold (fun m => s.mode (Fin.rev m)) _ (rev_injective s) fun q => ∏ a, twiddle (s.shape a) (x a) (q a)]

include hP

theorem oneSide_linear (a b : ℂ) (v w : Fin s.count → Fin P.p → ℂ) (c : Fin P.c) (i : Fin s.shape0) (x : Idx s.shape) :
    s.oneSide P (fun m q => a * v m q + b * w m q) c i x = a * s.oneSide P v c i x + b * s.oneSide P w c i x := by
  simp only [oneSide_sum, Finset.mul_sum]
  rw [← Finset.sum_add_distrib]
  refine Finset.sum_congr rfl fun m _ => ?_
  have h : P.rotate (s.dir m) (fun q => a * v m q + b * w m q) = a • P.rotate (s.dir m) (v m) + b • P.rotate (s.dir m) (w m) :=
    lin_combination (hP.rotate (s.dir m)) a b (v m) (w m)
  rw [h]
  simp only [Pi.add_apply, Pi.smul_apply, smul_eq_mul]
  ring

omit hP in
/-- The field of the plane waves, without a test for zeros. -/
noncomputable def Setup.exactFree (v : Amplitudes s P) : Field s P := fun c i x =>
  s.oneSide P (s.corrected v 0) c i x + (starRingEnd ℂ) (s.oneSide P (fun m q => (starRingEnd ℂ) (s.corrected v 1 m q)) c i x)

theorem exactFree_linear : IsLinearMap ℂ (s.exactFree P) := isLinear_of fun a b v w => by
  funext c i x
  show s.exactFree P (a • v + b • w) c i x = a * s.exactFree P v c i x + b * s.exactFree P w c i x
  unfold Setup.exactFree
  have h0 : s.corrected (a • v + b • w) 0 = fun m q => a * s.corrected v 0 m q + b * s.corrected w 0 m q := by
    funext m q
    simp only [Setup.corrected, Pi.add_apply, Pi.smul_apply, smul_eq_mul]
    ring
  have h1 : (fun m q => (starRingEnd ℂ) (s.corrected (a • v + b • w) 1 m q)) =
      fun m q => (starRingEnd ℂ) a * (starRingEnd ℂ) (s.corrected v 1 m q) + (starRingEnd ℂ) b * (starRingEnd ℂ) (s.corrected w 1 m q) := by
    funext m q
    rw [← map_mul, ← map_mul, ← map_add]
    congr 1
    simp only [Setup.corrected, Pi.add_apply, Pi.smul_apply, smul_eq_mul]
    ring
  rw [h0, h1, oneSide_linear s P hP, oneSide_linear s P hP, map_add, map_mul, map_mul, Complex.conj_conj, Complex.conj_conj]
  ring

theorem detect_linear (planes : Fin 2 → Fin s.shape0) : IsLinearMap ℂ (s.detect P planes) := isLinear_of fun a b f g => by
  funext side m q
  show s.detect P planes (a • f + b • g) side m q = a * s.detect P planes f side m q + b * s.detect P planes g side m q
  unfold Setup.detect
  dsimp only
  have key : ∀ (a b : ℂ) (f g : Fin P.c → Idx s.shape → ℂ), P.unrotate (s.dir m) (fun c => ift (fun x => a * f c x + b * g c x) (s.mode (Fin.rev m))) q =
      a * P.unrotate (s.dir m) (fun c => ift (f c) (s.mode (Fin.rev m))) q + b * P.unrotate (s.dir m) (fun c => ift (g c) (s.mode (Fin.rev m))) q := by
    intro a b f g
    have h1 : (fun c => ift (fun x => a * f c x + b * g c x) (s.mode (Fin.rev m))) =
        a • (fun c => ift (f c) (s.mode (Fin.rev m))) + b • fun c => ift (g c) (s.mode (Fin.rev m)) := by
      funext c
      simp only [ift, Pi.add_apply, Pi.smul_apply, smul_eq_mul]
      rw [← mul_div_assoc, ← mul_div_assoc, ← add_div, Finset.mul_sum, Finset.mul_sum, ← Finset.sum_add_distrib]
      congr 1
      exact Finset.sum_congr rfl fun k _ => by ring
    rw [h1, lin_combination (hP.unrotate (s.dir m))]
    rfl
  by_cases h0 : side = 0
  · subst h0
    simp only [if_true, Pi.add_apply, Pi.smul_apply, smul_eq_mul]
    rw [key a b (fun c x => f c (planes 0) x) (fun c x => g c (planes 0) x)]
    ring
  · simp only [if_neg h0, Pi.add_apply, Pi.smul_apply, smul_eq_mul, map_add, map_mul (starRingEnd ℂ) a, map_mul (starRingEnd ℂ) b]
    rw [key ((starRingEnd ℂ) a) ((starRingEnd ℂ) b) (fun c x => (starRingEnd ℂ) (f c (planes side) x)) (fun c x => (starRingEnd ℂ) (g c (planes side) x))]
    simp only [map_mul, map_add, Complex.conj_conj]
    ring

theorem mask_linear (side : Fin 2) : IsLinearMap ℂ (fun v : Amplitudes s P => mask v side) := isLinear_of fun a b v w => by
  funext i m q
  show mask (a • v + b • w) side i m q = a * mask v side i m q + b * mask w side i m q
  unfold mask
  split_ifs <;> simp

omit hP in
theorem freespace_exact (v : Amplitudes s P) (hP : P.Linear) (hv : ∀ side, s.Significant v side) : s.freespace P v = s.exactFree P v := by
  have hz : ∀ c i x, s.oneSide P (fun _ _ => 0) c i x = 0 := by
    intro c i x
    have := oneSide_linear s P hP 0 0 (fun _ _ => 0) (fun _ _ => 0) c i x
    simpa using this
  have hw : ∀ side, (∀ m q, v side m q = 0) → s.corrected v side = fun _ _ => 0 := by
    intro side h
    funext m q
    simp [Setup.corrected, h m q]
  funext c i x
  rw [freespace_sides]
  unfold Setup.sideField Setup.exactFree
  rw [if_pos rfl, if_neg (by decide : ¬ (1 : Fin 2) = 0)]
  congr 1
  · split_ifs with hc
    · rcases hv 0 with h | h
      · rw [hw 0 h, hz]
      · exact absurd hc h
    · rfl
  · split_ifs with hc
    · rcases hv 1 with h | h
      · have : (fun m q => (starRingEnd ℂ) (s.corrected v 1 m q)) = fun _ _ => 0 := by
          rw [hw 1 h]
          funext m q
          simp
        rw [this, hz, map_zero]
      · exact absurd hc h
    · rfl

omit hP in
theorem mask_significant (v : Amplitudes s P) (side : Fin 2) (hv : ∀ side, s.Significant v side) (i : Fin 2) : s.Significant (mask v side) i := by
  by_cases h : i = side
  · exact .inl fun m q => by simp [mask, h]
  · rcases hv i with h1 | h1
    · exact .inl fun m q => by simp [mask, h1 m q]
    · refine .inr ?_
      rw [corrected_mask, if_neg h]
      exact h1

end

/-! ### Vectors and amplitudes -/

theorem flatten_unflatten {M p : ℕ} (v : Fin (2 * p * M) → ℂ) : flatten (unflatten v) = v := by
  funext i
  unfold flatten unflatten
  dsimp only
  congr 1
  rw [Fin.ext_iff]
  show ((i : ℕ) / p / M * M + (i : ℕ) / p % M) * p + (i : ℕ) % p = i
  rw [Nat.div_add_mod', Nat.div_add_mod']

theorem unflatten_flatten {M p : ℕ} (w : Fin 2 → Fin M → Fin p → ℂ) : unflatten (flatten w) = w := by
  funext side m q
  have h1 : (((side : ℕ) * M + m) * p + q) / p = side * M + m := by
    have hp : 0 < p := (Nat.zero_le _).trans_lt q.2
    rw [mul_comm, Nat.mul_add_div hp, Nat.div_eq_of_lt q.2, add_zero]
  have h2 : (((side : ℕ) * M + m) * p + q) % p = q := by
    rw [mul_comm, Nat.mul_add_mod, Nat.mod_eq_of_lt q.2]
  have h3 : ((side : ℕ) * M + m) / M = side := by
    have hM : 0 < M := (Nat.zero_le _).trans_lt m.2
    rw [mul_comm, Nat.mul_add_div hM, Nat.div_eq_of_lt m.2, add_zero]
  have h4 : ((side : ℕ) * M + m) % M = m := by
    rw [mul_comm, Nat.mul_add_mod, Nat.mod_eq_of_lt m.2]
  unfold flatten unflatten
  simp only [h1, h2, h3, h4]

/-! ### The product -/

section Product
variable (s : Setup d) (P : Polarization) (c mu0 : ℝ) (sources detectors : Fin 2 → Fin s.shape0) (solveField : Field s P → Field s P)

/-- The amplitudes of the sources, 640. -/
noncomputable def Setup.sourceVector (v : Amplitudes s P) : Amplitudes s P := fun side m q => v side m q * (s.transverseCos (s.mode m) * s.sourceAmplitude c mu0)

/-- A vector of which neither the amplitudes nor those of the sources are taken for zero, unless they are zero. -/
def Setup.Proper (v : Amplitudes s P) : Prop := ∀ side, s.Significant v side ∧ s.Significant (s.sourceVector P c mu0 v) side

/-- The sources without a test for zeros. -/
noncomputable def Setup.exactSource (v : Amplitudes s P) : Field s P := fun e i x =>
  if i = sources 1 then s.exactFree P (mask (s.sourceVector P c mu0 v) 0) e i x
  else if i = sources 0 then s.exactFree P (mask (s.sourceVector P c mu0 v) 1) e i x
  else 0

/-- The product without a test for zeros. -/
noncomputable def Setup.exactScatter (v : Amplitudes s P) : Amplitudes s P :=
  s.detect P detectors fun e i x => solveField (s.exactSource P c mu0 sources v) e i x - (if i = detectors 0 then s.exactFree P (mask v 0) e i x else 0) -
    if i = detectors 1 then s.exactFree P (mask v 1) e i x else 0

theorem sourceVector_linear : IsLinearMap ℂ (s.sourceVector P c mu0) := isLinear_of fun a b v w => by
  funext i m q
  simp only [Setup.sourceVector, Pi.add_apply, Pi.smul_apply, smul_eq_mul]
  ring

theorem source_exact (hP : P.Linear) (v : Amplitudes s P) (hv : s.Proper P c mu0 v) : s.source P c mu0 sources v = s.exactSource P c mu0 sources v := by
  have hm : ∀ keep : Fin 2, (fun side m q => s.sourceVector P c mu0 v side m q * if side = keep then 1 else 0) = mask (s.sourceVector P c mu0 v) (1 - keep) := by
    intro keep
    funext side m q
    unfold mask
    have : (side = keep) ↔ ¬ side = 1 - keep := by fin_cases side <;> fin_cases keep <;> decide
    by_cases h : side = keep
    · rw [if_pos h, if_neg (this.1 h), mul_one]
    · rw [if_neg h, if_pos (not_not.1 fun h' => h (this.2 h')), mul_zero]
  have hf : ∀ side, s.freespace P (mask (s.sourceVector P c mu0 v) side) = s.exactFree P (mask (s.sourceVector P c mu0 v) side) := fun side =>
    freespace_exact s P _ hP (mask_significant s P _ side fun i => (hv i).2)
  funext e i x
  have h0 := hm 0
  have h1 := hm 1
  show (if i = sources 1 then s.freespace P (fun side m q => s.sourceVector P c mu0 v side m q * if side = 1 then 1 else 0) e i x else
    if i = sources 0 then s.freespace P (fun side m q => s.sourceVector P c mu0 v side m q * if side = 0 then 1 else 0) e i x else 0) = _
  rw [h0, h1, show (1 : Fin 2) - 0 = 1 from rfl, show (1 : Fin 2) - 1 = 0 from rfl, hf, hf]
  rfl

theorem exactSource_linear (hP : P.Linear) : IsLinearMap ℂ (s.exactSource P c mu0 sources) := isLinear_of fun a b v w => by
  funext e i x
  show s.exactSource P c mu0 sources (a • v + b • w) e i x = a * s.exactSource P c mu0 sources v e i x + b * s.exactSource P c mu0 sources w e i x
  have h : ∀ side, s.exactFree P (mask (s.sourceVector P c mu0 (a • v + b • w)) side) =
      a • s.exactFree P (mask (s.sourceVector P c mu0 v) side) + b • s.exactFree P (mask (s.sourceVector P c mu0 w) side) := by
    intro side
    rw [lin_combination (sourceVector_linear s P c mu0), lin_combination (mask_linear s P hP side), lin_combination (exactFree_linear s P hP)]
  unfold Setup.exactSource
  rw [h, h]
  split_ifs <;> simp

theorem scatter_exact (hP : P.Linear) (v : Amplitudes s P) (hv : s.Proper P c mu0 v) :
    s.scatter P detectors (fun w => solveField (s.source P c mu0 sources w)) v = s.exactScatter P c mu0 sources detectors solveField v := by
  have hf : ∀ side, s.freespace P (mask v side) = s.exactFree P (mask v side) := fun side => freespace_exact s P _ hP (mask_significant s P _ side fun i => (hv i).1)
  unfold Setup.scatter Setup.exactScatter
  dsimp only
  rw [source_exact s P c mu0 sources hP v hv, hf, hf]
  congr 1
  funext e i x
  split_ifs <;> simp

/-- The product is homogeneous if the solver is. -/
theorem exactScatter_smul (hP : P.Linear) (hsolve : ∀ (z : ℂ) f, solveField (z • f) = z • solveField f) (z : ℂ) (v : Amplitudes s P) :
    s.exactScatter P c mu0 sources detectors solveField (z • v) = z • s.exactScatter P c mu0 sources detectors solveField v := by
  unfold Setup.exactScatter
  rw [← (detect_linear s P hP detectors).map_smul]
  congr 1
  rw [(exactSource_linear s P c mu0 sources hP).map_smul, hsolve]
  have h : ∀ side, s.exactFree P (mask (z • v) side) = z • s.exactFree P (mask v side) := by
    intro side
    rw [(mask_linear s P hP side).map_smul, (exactFree_linear s P hP).map_smul]
  rw [h, h]
  funext e i x
  simp only [Pi.smul_apply, smul_eq_mul]
  split_ifs <;> ring

/-- The product is linear if the solver is. -/
theorem exactScatter_linear (hP : P.Linear) (hsolve : IsLinearMap ℂ solveField) : IsLinearMap ℂ (s.exactScatter P c mu0 sources detectors solveField) := isLinear_of fun a b v w => by
  unfold Setup.exactScatter
  rw [← lin_combination (detect_linear s P hP detectors)]
  congr 1
  rw [lin_combination (exactSource_linear s P c mu0 sources hP), lin_combination hsolve]
  have h : ∀ side, s.exactFree P (mask (a • v + b • w) side) = a • s.exactFree P (mask v side) + b • s.exactFree P (mask w side) := by
    intro side
    rw [lin_combination (mask_linear s P hP side), lin_combination (exactFree_linear s P hP)]
  rw [h, h]
  funext e i x
  simp only [Pi.add_apply, Pi.smul_apply, smul_eq_mul]
  split_ifs <;> ring

/-- **C97**: there is one matrix such that the product with every vector of which no amplitudes are taken for zero is the product with that matrix, when the field that the solver
returns is a linear function of the source. -/
theorem C97_linear_partial (hP : P = scalar ∨ P = vectorial) (hsolve : IsLinearMap ℂ solveField) : ∃ matrix : Fin (2 * P.p * s.count) → Fin (2 * P.p * s.count) → ℂ, ∀ v,
    s.Proper P c mu0 (unflatten v) → s.product P c mu0 sources detectors solveField v = fun i => ∑ j, matrix i j * v j := by
  have hl : P.Linear := by
    rcases hP with rfl | rfl
    · exact scalar_linear
    · exact vectorial_linear
  have hE := exactScatter_linear s P c mu0 sources detectors solveField hl hsolve
  refine ⟨fun i j => flatten (s.exactScatter P c mu0 sources detectors solveField (unflatten (single j 1))) i, fun v hv => ?_⟩
  unfold Setup.product
  rw [scatter_exact s P c mu0 sources detectors solveField hl _ hv]
  have hs : (unflatten v : Amplitudes s P) = ∑ j, v j • (unflatten (single j 1) : Amplitudes s P) := by
    funext side m q
    simp only [Finset.sum_apply, Pi.smul_apply, smul_eq_mul, unflatten, single]
    simp
  have : s.exactScatter P c mu0 sources detectors solveField (unflatten v) = ∑ j, v j • s.exactScatter P c mu0 sources detectors solveField (unflatten (single j 1)) := by
    conv_lhs => rw [hs]
    have h2 := map_sum (hE.mk' _) (fun j => v j • (unflatten (single j 1) : Amplitudes s P)) Finset.univ
    simp only [IsLinearMap.mk'_apply] at h2
    rw [h2]
    exact Finset.sum_congr rfl fun j _ => hE.map_smul _ _
  rw [this]
  funext i
  simp only [flatten, Finset.sum_apply, Pi.smul_apply, smul_eq_mul]
  exact Finset.sum_congr rfl fun j _ => mul_comm _ _

/-- **C96 (default operators).** The product with a DepositionMatrix without operators is that with its ScatteringMatrix plus what the detectors of each side measure of the incident waves that
come from that side. -/
theorem C96_default (hP : P = scalar ∨ P = vectorial) (hdet : detectors 0 ≠ detectors 1) (v : Fin (2 * P.p * s.count) → ℂ) (side : Fin 2) :
    unflatten (s.deposit P c mu0 sources detectors solveField v) side =
      unflatten (s.product P c mu0 sources detectors solveField v) side + s.detect P detectors (s.freespace P (mask (unflatten v) side)) side := by
  have hl : P.Linear := by
    rcases hP with rfl | rfl
    · exact scalar_linear
    · exact vectorial_linear
  unfold Setup.deposit Setup.product
  rw [unflatten_flatten, unflatten_flatten]
  unfold Setup.scatter
  set E := solveField (s.source P c mu0 sources (unflatten v))
  symm
  rw [detect_congr s P detectors _ (E - s.freespace P (mask (unflatten v) side)) side]
  · have := congrFun ((detect_linear s P hl detectors).map_sub E (s.freespace P (mask (unflatten v) side))) side
    rw [this]
    simp
  · intro e x
    dsimp only
    by_cases h0 : side = 0
    · subst h0
      rw [if_neg hdet, if_pos rfl]
      rfl
    · have h1 : side = 1 := by omega
      subst h1
      rw [if_pos rfl, if_neg hdet.symm]
      rfl

/-- The vectors of a history. -/
def vectors {n : ℕ} : List (CacheOp ℂ n) → List (Vec ℂ n)
  | [] => []
  | .product vs :: ops => vs ++ vectors ops
  | .setCaching _ :: ops => vectors ops

end Product

/-! ### Caching -/

section Cache
variable {n m : ℕ}

theorem product_congr {f g : Vec ℂ n → Vec ℂ m} (k : Cache ℂ m n) (v : Vec ℂ n) (h : f v = g v) : k.product f v = k.product g v := by
  unfold Cache.product Cache.calculate
  rw [h]

theorem matvec_congr {f g : Vec ℂ n → Vec ℂ m} (vs : List (Vec ℂ n)) (h : ∀ v ∈ vs, f v = g v) : ∀ k : Cache ℂ m n, k.matvec f vs = k.matvec g vs := by
  induction vs with
  | nil => exact fun _ => rfl
  | cons v vs ih =>
    intro k
    unfold Cache.matvec
    rw [product_congr k v (h v (by simp))]
    dsimp only
    rw [ih fun w hw => h w (by simp [hw])]

theorem run_congr {f g : Vec ℂ n → Vec ℂ m} (ops : List (CacheOp ℂ n)) (h : ∀ v ∈ vectors ops, f v = g v) : ∀ k : Cache ℂ m n, k.run f ops = k.run g ops := by
  induction ops with
  | nil => exact fun _ => rfl
  | cons op ops ih =>
    intro k
    cases op with
    | product vs =>
      unfold Cache.run
      rw [matvec_congr vs (fun v hv => h v (by simp [vectors, hv]))]
      dsimp only
      rw [ih fun w hw => h w (by simp [vectors, hw])]
    | setCaching b => exact ih (fun w hw => h w (by simpa [vectors] using hw)) _

theorem expected_congr {f g : Vec ℂ n → Vec ℂ m} (ops : List (CacheOp ℂ n)) (h : ∀ v ∈ vectors ops, f v = g v) : expected f ops = expected g ops := by
  induction ops with
  | nil => rfl
  | cons op ops ih =>
    cases op with
    | product vs =>
      unfold expected
      rw [ih fun w hw => h w (by simp [vectors, hw]), List.map_congr_left fun v hv => h v (by simp [vectors, hv])]
    | setCaching b => exact ih fun w hw => h w (by simpa [vectors] using hw)

end Cache

section Product
variable (s : Setup d) (P : Polarization) (c mu0 : ℝ) (sources detectors : Fin 2 → Fin s.shape0) (solveField : Field s P → Field s P)

/-- **C97 (caching).** Every history of products and assignments to `caching` of a new ScatteringMatrix returns the products without caching, when no amplitudes of its vectors are taken
for zero, and the field that the solver returns is proportional to the source (C94). -/
theorem C97_cached_partial (hP : P = scalar ∨ P = vectorial) (hsolve : ∀ (z : ℂ) f, solveField (z • f) = z • solveField f) (b : Bool) (ops : List (CacheOp ℂ (2 * P.p * s.count)))
    (hops : ∀ v ∈ vectors ops, s.Proper P c mu0 (unflatten v)) :
    ((Cache.init b).run (s.product P c mu0 sources detectors solveField) ops).1 = expected (s.product P c mu0 sources detectors solveField) ops := by
  have hl : P.Linear := by
    rcases hP with rfl | rfl
    · exact scalar_linear
    · exact vectorial_linear
  have hg : ∀ v ∈ vectors ops, s.product P c mu0 sources detectors solveField v = flatten (s.exactScatter P c mu0 sources detectors solveField (unflatten v)) := fun v hv => by
    unfold Setup.product
    rw [scatter_exact s P c mu0 sources detectors solveField hl _ (hops v hv)]
  have hh : BasisHomogeneous fun v : Vec ℂ (2 * P.p * s.count) => flatten (s.exactScatter P c mu0 sources detectors solveField (unflatten v)) := by
    have hu : ∀ (z : ℂ) (v : Vec ℂ (2 * P.p * s.count)) (i : Fin (2 * P.p * s.count)), flatten (s.exactScatter P c mu0 sources detectors solveField (unflatten fun j => z * v j)) i =
        z * flatten (s.exactScatter P c mu0 sources detectors solveField (unflatten v)) i := by
      intro z v i
      have : (unflatten fun j => z * v j : Amplitudes s P) = z • (unflatten v : Amplitudes s P) := rfl
      rw [this, exactScatter_smul s P c mu0 sources detectors solveField hl hsolve]
      rfl
    refine ⟨fun r => ?_, fun i a r => ?_⟩
    · have := hu 0 (fun _ => 0) r
      simpa using this
    · have h1 : (single i a : Vec ℂ (2 * P.p * s.count)) = fun j => a * single i 1 j := by
        funext j
        simp [single]
      rw [h1]
      exact hu a (single i 1) r
  rw [run_congr ops hg, expected_congr ops hg]
  exact (C47_scattering _).2 hh b ops

end Product

/-! ### A history for which caching changes the product -/

/-- The field of the sources in one-dimensional empty space: every sample emits a wave in both directions. -/
noncomputable def emptySpace (s : Setup 0) : Field s scalar → Field s scalar := fun f e i x =>
  ∑ j, f e j x * (I * s.step0 / (2 * s.k0)) * exp (I * ((s.k0 * |s.position i - s.position j| : ℝ) : ℂ))

theorem emptySpace_linear (s : Setup 0) : IsLinearMap ℂ (emptySpace s) := isLinear_of fun a b f g => by
  funext e i x
  show emptySpace s (a • f + b • g) e i x = a * emptySpace s f e i x + b * emptySpace s g e i x
  unfold emptySpace
  rw [Finset.mul_sum, Finset.mul_sum, ← Finset.sum_add_distrib]
  refine Finset.sum_congr rfl fun j _ => ?_
  simp only [Pi.add_apply, Pi.smul_apply, smul_eq_mul]
  ring

/-- The field of the source of a forward wave is that wave, behind the source. -/
theorem emptySpace_source (s : Setup 0) (hs : s.Regular) (hstep : 0 < s.step0) (c mu0 : ℝ) (hc : c ≠ 0) (hmu : mu0 ≠ 0) (sources : Fin 2 → Fin s.shape0) (hsrc : sources 0 ≠ sources 1) (a : ℂ)
    (ha : 1e-8 * s.step0 < ‖a‖ * (2 * s.k0)) (e : Fin scalar.c) (i : Fin s.shape0) (hi : sources 0 ≤ i) (x : Idx s.shape) :
    emptySpace s (s.source scalar c mu0 sources fun side _ _ => if side = 0 then a else 0) e i x = a * exp (I * ((s.k0 * s.position i : ℝ) : ℂ)) := by
  have hk := hs.k0
  have hA : s.sourceAmplitude c mu0 = -2 * I * s.k0 / s.step0 := sourceAmplitude_eq s c mu0 hc hmu hstep.ne'
  have hcos : ∀ m : Fin s.count, s.transverseCos (s.mode m) = 1 := by
    intro m
    unfold Setup.transverseCos
    simp
  have hcur : ∀ keep : Fin 2, (s.currents (P := scalar) c mu0 (fun side _ _ => if side = 0 then a else 0) keep) =
      fun side _ _ => if side = 0 then (if keep = 0 then a * s.sourceAmplitude c mu0 else 0) else 0 := by
    intro keep
    funext side m q
    unfold Setup.currents
    rw [hcos]
    by_cases h0 : side = 0
    · subst h0
      by_cases h1 : keep = 0
      · simp [h1]
      · simp [h1, Ne.symm h1]
    · simp [h0]
  have hbig : 1e-8 < ‖a * s.sourceAmplitude c mu0‖ := by
    rw [hA]
    simp only [norm_div, norm_mul, norm_neg, norm_I, norm_real, Complex.norm_ofNat, mul_one]
    rw [Real.norm_of_nonneg hk.le, Real.norm_of_nonneg hstep.le, ← mul_div_assoc, lt_div_iff₀ hstep]
    exact ha
  have hsig : ∀ (keep side : Fin 2), s.Significant (P := scalar) (fun side _ _ => if side = 0 then (if keep = 0 then a * s.sourceAmplitude c mu0 else 0) else 0) side := by
    intro keep side
    by_cases h0 : side = 0
    · by_cases h1 : keep = 0
      · right
        intro h
        rw [corrected_zero] at h
        have := h ⟨0, by rw [count_zero s]; norm_num⟩ (0 : Fin 1)
        rw [if_pos h0, if_pos h1] at this
        linarith
      · exact .inl fun m q => by simp [h1]
    · exact .inl fun m q => by simp [h0]
  have hfree : ∀ keep e j x, s.freespace scalar (s.currents c mu0 (fun side _ _ => if side = 0 then a else 0) keep) e j x =
      (if keep = 0 then a * s.sourceAmplitude c mu0 else 0) * exp (I * ((s.k0 * s.position j : ℝ) : ℂ)) := by
    intro keep e j x
    rw [hcur, C66_partial s hs scalar scalar_lawful _ (hsig keep)]
    exact incident_zero s hk _ e j x
  have hsource : ∀ j, s.source scalar c mu0 sources (fun side _ _ => if side = 0 then a else 0) e j x =
      if j = sources 0 then a * s.sourceAmplitude c mu0 * exp (I * ((s.k0 * s.position j : ℝ) : ℂ)) else 0 := by
    intro j
    have : s.source scalar c mu0 sources (fun side _ _ => if side = 0 then a else 0) e j x =
        if j = sources 1 then s.freespace scalar (s.currents c mu0 (fun side _ _ => if side = 0 then a else 0) 1) e j x
        else if j = sources 0 then s.freespace scalar (s.currents c mu0 (fun side _ _ => if side = 0 then a else 0) 0) e j x else 0 := rfl
    rw [this, hfree, hfree]
    by_cases h1 : j = sources 1
    · have h0 : j ≠ sources 0 := fun h => hsrc (h.symm.trans h1)
      rw [if_pos h1, if_neg h0]
      simp
    · rw [if_neg h1, if_pos rfl]
  unfold emptySpace
  simp only [hsource]
  rw [Finset.sum_eq_single (sources 0) (fun j _ hj => by rw [if_neg hj]; ring) (fun h => absurd (Finset.mem_univ _) h)]
  rw [if_pos rfl, hA]
  have habs : |s.position i - s.position (sources 0)| = s.position i - s.position (sources 0) := by
    refine abs_of_nonneg ?_
    unfold Setup.position
    have : ((sources 0 : ℕ) : ℝ) ≤ (i : ℕ) := by exact_mod_cast hi
    nlinarith
  rw [habs]
  have h1 : (s.k0 : ℂ) ≠ 0 := by exact_mod_cast hk.ne'
  have h2 : (s.step0 : ℂ) ≠ 0 := by exact_mod_cast hstep.ne'
  have h3 : exp (I * ((s.k0 * s.position i : ℝ) : ℂ)) =
      exp (I * ((s.k0 * s.position (sources 0) : ℝ) : ℂ)) * exp (I * ((s.k0 * (s.position i - s.position (sources 0)) : ℝ) : ℂ)) := by
    rw [← exp_add]
    congr 1
    push_cast
    ring
  rw [h3]
  generalize exp (I * ((s.k0 * s.position (sources 0) : ℝ) : ℂ)) = u
  generalize exp (I * ((s.k0 * (s.position i - s.position (sources 0)) : ℝ) : ℂ)) = w
  field_simp
  linear_combination (-a * u * w) * I_sq

/-- The product depends on the fields at the detectors. -/
theorem scatter_congr (s : Setup d) (P : Polarization) (planes : Fin 2 → Fin s.shape0) (f g : Amplitudes s P → Field s P) (v : Amplitudes s P)
    (h : ∀ side e x, f v e (planes side) x = g v e (planes side) x) : s.scatter P planes f v = s.scatter P planes g v := by
  funext side
  unfold Setup.scatter
  refine detect_congr s P planes _ _ side fun e x => ?_
  dsimp only
  rw [h]

theorem unflatten_single (s : Setup 0) (i : Fin (2 * scalar.p * s.count)) (hi : (i : ℕ) = 0) (a : ℂ) :
    (unflatten (single i a) : Amplitudes s scalar) = fun side _ _ => if side = 0 then a else 0 := by
  funext side m q
  unfold unflatten single
  have hc := count_zero s
  have hm : (m : ℕ) = 0 := by have := m.2; omega
  have hq : (q : ℕ) = 0 := by have := q.2; have : scalar.p = 1 := rfl; omega
  have hp : scalar.p = 1 := rfl
  have : ((⟨((side : ℕ) * s.count + m) * scalar.p + q, by
      have := side.2
      rw [hm, hq, hp, hc]
      omega⟩ : Fin (2 * scalar.p * s.count)) = i) ↔ side = 0 := by
    rw [Fin.ext_iff, Fin.ext_iff, hi]
    simp only [hm, hq, hp, hc]
    simp
  simp only [this]

/-- The product in empty space. -/
theorem product_empty (s : Setup 0) (hs : s.Regular) (hstep : 0 < s.step0) (c mu0 : ℝ) (hc : c ≠ 0) (hmu : mu0 ≠ 0) (sources detectors : Fin 2 → Fin s.shape0) (hsrc : sources 0 ≠ sources 1)
    (horder : ∀ side, sources 0 ≤ detectors side) (a : ℂ) (ha : 1e-8 * s.step0 < ‖a‖ * (2 * s.k0)) (i : Fin (2 * scalar.p * s.count)) (hi : (i : ℕ) = 0) :
    s.product scalar c mu0 sources detectors (emptySpace s) (single i a) =
      flatten (s.scatter scalar detectors (s.incident scalar) fun side _ _ => if side = 0 then a else 0) := by
  unfold Setup.product
  rw [unflatten_single s i hi]
  congr 1
  refine scatter_congr s scalar detectors _ _ _ fun side e x => ?_
  rw [emptySpace_source s hs hstep c mu0 hc hmu sources hsrc a ha e _ (horder side), incident_zero s hs.k0]

/-- **C97 (violation).** Full claim: caching does not change the products.  In empty space, for samples that are not too far apart, the product with the first basis vector is that vector.  After
a product with the same vector of an amplitude of at most 1e-8 it is not. -/
theorem C97_cached_violates (s : Setup 0) (hs : s.Regular) (hstep : 0 < s.step0) (c mu0 : ℝ) (hc : c ≠ 0) (hmu : mu0 ≠ 0) (sources detectors : Fin 2 → Fin s.shape0)
    (hsrc : sources 0 ≠ sources 1) (hdet : detectors 0 ≠ detectors 1) (horder : ∀ side, sources 0 ≤ detectors side) (a : ℂ) (hsmall : ‖a‖ ≤ 1e-8)
    (ha : 1e-8 * s.step0 < ‖a‖ * (2 * s.k0)) (i : Fin (2 * scalar.p * s.count)) (hi : (i : ℕ) = 0) :
    ((Cache.init true).run (s.product scalar c mu0 sources detectors (emptySpace s)) [.product [single i 1]]).1 = [[single i 1]] ∧
    ((Cache.init true).run (s.product scalar c mu0 sources detectors (emptySpace s)) [.product [single i a], .product [single i 1]]).1.getLast? ≠ some [single i 1] := by
  have hcount := count_zero s
  have hk := hs.k0
  have ha0 : a ≠ 0 := by
    rintro rfl
    simp only [norm_zero, zero_mul] at ha
    nlinarith
  have ha1 : 1e-8 * s.step0 < ‖(1 : ℂ)‖ * (2 * s.k0) := by
    rw [norm_one]
    nlinarith
  set f := s.product scalar c mu0 sources detectors (emptySpace s) with hf
  have hone : f (single i 1) = single i 1 := by
    rw [hf, product_empty s hs hstep c mu0 hc hmu sources detectors hsrc horder 1 ha1 i hi]
    have hsig : ∀ side, s.Significant (P := scalar) (fun side _ _ => if side = 0 then 1 else 0) side := by
      intro side
      by_cases h0 : side = 0
      · right
        intro h
        rw [corrected_zero] at h
        have := h ⟨0, by rw [hcount]; norm_num⟩ (0 : Fin 1)
        rw [if_pos h0] at this
        norm_num at this
      · exact .inl fun m q => by simp [h0]
    rw [C54_partial s hs scalar (.inl rfl) detectors hdet _ hsig]
    rw [← unflatten_single s i hi, flatten_unflatten]
  have hleak : ∃ r, f (single i a) r / a ≠ single i 1 r := by
    have hr : 1 < 2 * scalar.p * s.count := by rw [hcount]; decide
    refine ⟨⟨1, hr⟩, ?_⟩
    have h0 : (single i 1 : Vec ℂ (2 * scalar.p * s.count)) ⟨1, hr⟩ = 0 := by
      unfold single
      rw [if_neg]
      rw [Fin.ext_iff, hi]
      exact one_ne_zero
    rw [h0, hf, product_empty s hs hstep c mu0 hc hmu sources detectors hsrc horder a ha i hi]
    refine div_ne_zero ?_ ha0
    have hl := (C54_violates s hk detectors hdet a ha0 hsmall).2 ⟨0, by rw [hcount]; norm_num⟩ (0 : Fin 1)
    have h3 : ∀ w : Amplitudes s scalar, flatten w ⟨1, hr⟩ = w 1 ⟨0, by rw [hcount]; norm_num⟩ (0 : Fin 1) := by
      intro w
      conv_rhs => rw [← unflatten_flatten w]
      unfold unflatten
      congr 1
      rw [Fin.ext_iff]
      simp [hcount, scalar]
    rw [h3]
    exact hl.2
  have hi1 : (single i 1 : Vec ℂ (2 * scalar.p * s.count)) i = 1 := by simp [single]
  have hia : (single i a : Vec ℂ (2 * scalar.p * s.count)) i = a := by simp [single]
  refine ⟨?_, ?_⟩
  · simp only [Cache.run, Cache.matvec, List.cons.injEq, and_true]
    simp only [Cache.product, nonZeros_single i (one_ne_zero (α := ℂ)), Cache.lookup, Cache.init, basisIndex, Cache.calculate, List.length_singleton, Nat.one_pos, if_true,
      and_self, List.head?_cons, Option.map_none]
    exact hone
  · have hp1 : ((Cache.init true : Cache ℂ (2 * scalar.p * s.count) (2 * scalar.p * s.count)).product f (single i a)).2 =
        ⟨true, Function.update (fun _ => none) i (some fun r => f (single i a) r / a), [single i a]⟩ := by
      simp only [Cache.product, nonZeros_single i ha0, Cache.lookup, Cache.init, basisIndex, Cache.calculate, List.length_singleton, Nat.one_pos, if_true,
        and_self, List.head?_cons, Option.map_none, hia]
    have hp2 : ((⟨true, Function.update (fun _ => none) i (some fun r => f (single i a) r / a), [single i a]⟩ : Cache ℂ (2 * scalar.p * s.count) (2 * scalar.p * s.count)).product f
        (single i 1)).1 = fun r => f (single i a) r / a := by
      simp [Cache.product, nonZeros_single i (one_ne_zero (α := ℂ)), Cache.lookup, basisIndex, hi1]
    simp only [Cache.run, Cache.matvec, hp1, hp2]
    obtain ⟨r, hr⟩ := hleak
    intro h
    simp only [List.getLast?_cons_cons, List.getLast?_singleton, Option.some.injEq, List.cons.injEq, and_true] at h
    exact hr (congrFun h r)

/-- A setup, planes and an amplitude as in the refutation; the solver is linear, as C97 requires. -/
example : demo0.Regular ∧ 0 < demo0.step0 ∧ ‖(1e-8 : ℂ)‖ ≤ 1e-8 ∧ 1e-8 * demo0.step0 < ‖(1e-8 : ℂ)‖ * (2 * demo0.k0) ∧ IsLinearMap ℂ (emptySpace demo0) := by
  refine ⟨demo0_regular, by norm_num [demo0], by norm_num, ?_, emptySpace_linear demo0⟩
  have := Real.pi_gt_three
  have h1 : ‖(1e-8 : ℂ)‖ = 1e-8 := by norm_num
  rw [h1]
  simp only [demo0]
  nlinarith

/-- A proper vector: unit amplitudes from both sides. -/
example (c mu0 : ℝ) (hc : c ≠ 0) (hmu : mu0 ≠ 0) : demo0.Proper scalar c mu0 (unflatten fun _ => 1) := by
  have hcount := count_zero demo0
  have hcos : ∀ m : Fin demo0.count, demo0.transverseCos (demo0.mode m) = 1 := by
    intro m
    unfold Setup.transverseCos
    simp
  intro side
  refine ⟨.inr fun h => ?_, .inr fun h => ?_⟩
  · rw [corrected_zero] at h
    have := h ⟨0, by rw [hcount]; norm_num⟩ (0 : Fin 1)
    simp only [unflatten, norm_one] at this
    norm_num at this
  · rw [corrected_zero] at h
    have h2 := h ⟨0, by rw [hcount]; norm_num⟩ (0 : Fin 1)
    simp only [unflatten, Setup.sourceVector] at h2
    rw [hcos, sourceAmplitude_eq demo0 c mu0 hc hmu (by norm_num [demo0])] at h2
    simp only [demo0, norm_div, norm_mul, norm_neg, norm_I, norm_real, Complex.norm_ofNat, mul_one, ofReal_one, one_mul, norm_one] at h2
    rw [Real.norm_of_nonneg Real.pi_pos.le, Real.norm_of_nonneg (by norm_num)] at h2
    have := Real.pi_gt_three
    norm_num at h2
    linarith

end Verif.Scattering
