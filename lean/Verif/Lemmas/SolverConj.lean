import Verif.Lemmas.SolverCover
import Verif.Lemmas.SolverReal

/-!
# Complex conjugation of calculations
-/

namespace Verif.Solver

open Verif Verif.Fourier Verif.Backend Complex Matrix

variable {d n : ℕ} {N : Fin d → ℕ}

/-- The frequencies are such that conjugated fields have conjugated second derivatives. -/
structure EvenDyads (n : ℕ) (k : Fin d → Idx N → ℝ) : Prop where
  square : ∀ q, k2 k (opposite q) = k2 k q
  dyad : n ≠ 1 → ∀ a b q, k a (opposite q) * k b (opposite q) = k a q * k b q

/-- The frequencies are such that conjugated fields have conjugated derivatives: minus each frequency is sampled, for vector fields; its magnitude is, for scalar fields. -/
structure Reversible (n : ℕ) (k : Fin d → Idx N → ℝ) : Prop where
  square : ∀ q, k2 k (opposite q) = k2 k q
  odd : n ≠ 1 → Odd k

theorem Reversible.even {k : Fin d → Idx N → ℝ} (h : Reversible n k) : EvenDyads n k :=
  ⟨h.square, fun hn a b q => by rw [h.odd hn, h.odd hn, neg_mul_neg]⟩

/-- The complex conjugates of the tensors. -/
noncomputable def conjTensor (A : Tensor n N) : Tensor n N := fun x => (A x).map (starRingEnd ℂ)

/-- The material with the time reversed. -/
noncomputable def Medium.reversed (m : Medium n N) : Medium n N := ⟨conjTensor m.epsilon, fun x => -(conjTensor m.xi x), fun x => -(conjTensor m.zeta x), conjTensor m.mu⟩

/-- The state with all numbers conjugated. -/
noncomputable def State.conj (s : State n N) : State n N where
  field := conjField s.field
  source := conjField s.source
  alpha := (starRingEnd ℂ) s.alpha
  beta := s.beta
  chiEE := conjTensor s.chiEE
  chiEH := conjTensor s.chiEH
  chiHE := conjTensor s.chiHE
  chiHH := conjTensor s.chiHH
  magnetic := s.magnetic
  prevNorm := s.prevNorm
  iteration := s.iteration
  residue := s.residue

theorem conj_map_eq (A : Matrix (Fin n) (Fin n) ℂ) : A.map (starRingEnd ℂ) = Aᴴᵀ := by
  ext i j; rfl

theorem conj_map_mul (A B : Matrix (Fin n) (Fin n) ℂ) : (A * B).map (starRingEnd ℂ) = A.map (starRingEnd ℂ) * B.map (starRingEnd ℂ) := Matrix.map_mul

theorem conj_map_inv (A : Matrix (Fin n) (Fin n) ℂ) : (A⁻¹).map (starRingEnd ℂ) = (A.map (starRingEnd ℂ))⁻¹ := by
  rw [conj_map_eq, conj_map_eq, conjTranspose_nonsing_inv, transpose_nonsing_inv]

theorem conj_map_smul (z : ℂ) (A : Matrix (Fin n) (Fin n) ℂ) : (z • A).map (starRingEnd ℂ) = (starRingEnd ℂ) z • A.map (starRingEnd ℂ) := by
  ext i j; simp

theorem conj_map_add (A B : Matrix (Fin n) (Fin n) ℂ) : (A + B).map (starRingEnd ℂ) = A.map (starRingEnd ℂ) + B.map (starRingEnd ℂ) := by
  ext i j; simp

theorem conj_map_sub (A B : Matrix (Fin n) (Fin n) ℂ) : (A - B).map (starRingEnd ℂ) = A.map (starRingEnd ℂ) - B.map (starRingEnd ℂ) := by
  ext i j; simp

theorem conj_map_one : (1 : Matrix (Fin n) (Fin n) ℂ).map (starRingEnd ℂ) = 1 := Matrix.map_one _ (map_zero _) (map_one _)

theorem convolve_conj {l : ℕ} {op op' : (Fin n → Idx N → ℂ) → (Fin l → Idx N → ℂ)}
    (h : ∀ (F F' : Fin n → Idx N → ℂ) q, (∀ c, F' c q = (starRingEnd ℂ) (F c (opposite q))) → ∀ c, op' F' c q = (starRingEnd ℂ) (op F c (opposite q))) (F : Field n N) :
    convolve op' (conjField F) = conjField (convolve op F) := by
  funext c
  apply ft_inj
  unfold convolve conjField
  rw [C23_ft_ift]
  funext q
  rw [ft_conj, C23_ft_ift]
  exact h _ _ q (fun c => ft_conj _ _) c

section
variable {k : Fin d → Idx N → ℝ} (hk : Reversible n k)
include hk

theorem curl_conjField (kind : Kind d n) (F : Field n N) : curl n k (conjField F) = conjField (curl n k F) := by
  cases kind with
  | scalar =>
    have h0 : ∀ (F : Field 1 N) c x, curlFt 1 k F c x = 0 := by
      intro F c x
      obtain rfl : c = 0 := Subsingleton.elim _ _
      unfold curlFt otherDims
      by_cases hd : 0 < d <;> simp [hd]
    exact convolve_conj (fun F F' q _ c => by rw [h0, h0, map_zero]) F
  | vectorial hd => exact curl_conj (hk.odd (by decide)) F

end

section
variable {k : Fin d → Idx N → ℝ} (hk : EvenDyads n k)
include hk

theorem green_conj (kind : Kind d n) (alpha : ℂ) (F : Field n N) : green kind k ((starRingEnd ℂ) alpha) (conjField F) = conjField (green kind k alpha F) := by
  have hg : ∀ q, gScalar k ((starRingEnd ℂ) alpha) q = (starRingEnd ℂ) (gScalar k alpha (opposite q)) := fun q => by
    unfold gScalar
    rw [hk.square]
    simp
  cases kind with
  | scalar =>
    refine convolve_conj (fun F F' q h c => ?_) F
    show F' c q * _ = (starRingEnd ℂ) (F c (opposite q) * _)
    rw [h, hg, map_mul]
  | vectorial hd =>
    refine convolve_conj (fun F F' q h c => ?_) F
    show (F' c q - longitudinalFt k Backend.origin hd F' c q) * gScalar k _ q + longitudinalFt k Backend.origin hd F' c q * (I * (((starRingEnd ℂ) alpha).im : ℂ) / (starRingEnd ℂ) alpha) =
      (starRingEnd ℂ) ((F c (opposite q) - longitudinalFt k Backend.origin hd F c (opposite q)) * gScalar k alpha (opposite q) +
        longitudinalFt k Backend.origin hd F c (opposite q) * (I * (alpha.im : ℂ) / alpha))
    have hL : longitudinalFt k Backend.origin hd F' c q = (starRingEnd ℂ) (longitudinalFt k Backend.origin hd F c (opposite q)) := by
      have ho : Backend.origin (opposite q) ↔ Backend.origin q := by
        unfold Backend.origin
        refine forall_congr' fun a => ?_
        rw [opposite_val]
        have := (q a).isLt
        split_ifs <;> omega
      have hw : ∀ c c' : ℕ, (waveComponent k c (opposite q) : ℂ) * (waveComponent k c' (opposite q) : ℂ) = (waveComponent k c q : ℂ) * (waveComponent k c' q : ℂ) := fun c c' => by
        unfold waveComponent
        split_ifs
        · exact_mod_cast hk.dyad (by decide) _ _ q
        all_goals simp
      rw [longitudinalFt_wave, longitudinalFt_wave]
      by_cases h0 : Backend.origin q
      · rw [if_pos h0, if_pos (ho.2 h0)]
        split_ifs
        · exact h c
        · simp
      · rw [if_neg h0, if_neg fun h1 => h0 (ho.1 h1), hk.square]
        simp only [h, map_mul, map_div₀, map_sum, conj_ofReal]
        rw [mul_div_assoc', mul_div_assoc', Finset.mul_sum, Finset.mul_sum]
        congr 1
        refine Finset.sum_congr rfl fun j _ => ?_
        rw [← mul_assoc, ← mul_assoc, hw]
    rw [hL, h, hg]
    simp

end

theorem mulField_conj (A : Tensor n N) (F : Field n N) : mulField (conjTensor A) (conjField F) = conjField (mulField A F) := by
  funext c x
  simp [mulField, conjTensor, conjField]

theorem chiOp_conj {k : Fin d → Idx N → ℝ} (kind : Kind d n) (s : State n N) (hr : s.magnetic = true → Reversible n k) (F : Field n N) : chiOp k s.conj (conjField F) = conjField (chiOp k s F) := by
  have ha : ∀ F G : Field n N, conjField F + conjField G = conjField (F + G) := fun F G => by
    funext c x
    simp [conjField]
  cases h : s.magnetic with
  | true =>
    rw [chiOp_magnetic k s h, chiOp_magnetic k s.conj h, curl_conjField (hr h) kind]
    show mulField (conjTensor s.chiEE) _ + mulField (conjTensor s.chiHE) _ + curl n k (mulField (conjTensor s.chiEH) _ + mulField (conjTensor s.chiHH) _) = _
    simp only [mulField_conj, ha, curl_conjField (hr h) kind]
  | false =>
    rw [chiOp_nonmagnetic k s h, chiOp_nonmagnetic k s.conj h]
    exact mulField_conj _ _

section
variable {k : Fin d → Idx N → ℝ} (hk : EvenDyads n k)
include hk

theorem update_conj (kind : Kind d n) (s : State n N) (hr : s.magnetic = true → Reversible n k) : update kind k s.conj = conjField (update kind k s) := by
  have ha : ∀ F G : Field n N, (fun c x => conjField F c x + conjField G c x) = conjField (fun c x => F c x + G c x) := fun F G => by
    funext c x
    simp [conjField]
  have hb : ∀ F G : Field n N, (fun c x => conjField F c x - conjField G c x) = conjField (fun c x => F c x - G c x) := fun F G => by
    funext c x
    simp [conjField]
  unfold update
  dsimp only
  rw [show s.conj.field = conjField s.field from rfl, show s.conj.source = conjField s.source from rfl, show s.conj.alpha = (starRingEnd ℂ) s.alpha from rfl,
    chiOp_conj kind s hr, ha, green_conj hk kind, hb, chiOp_conj kind s hr]

end

theorem norm_conjField (F : Field n N) : Backend.norm (conjField F) = Backend.norm F := by
  simp [Backend.norm, conjField]

theorem updateOperators_conj (s : State n N) (alpha : ℂ) : updateOperators s.conj ((starRingEnd ℂ) alpha) = (updateOperators s alpha).conj := by
  have e : ((((starRingEnd ℂ) s.alpha).im : ℂ) / (((starRingEnd ℂ) alpha).im : ℂ)) = (starRingEnd ℂ) ((s.alpha.im : ℂ) / (alpha.im : ℂ)) := by simp
  have h1 : ∀ A : Tensor n N, (fun x => ((((starRingEnd ℂ) s.alpha).im : ℂ) / (((starRingEnd ℂ) alpha).im : ℂ)) • conjTensor A x) = conjTensor fun x => ((s.alpha.im : ℂ) / (alpha.im : ℂ)) • A x := by
    intro A
    funext x
    rw [e]
    exact (conj_map_smul _ _).symm
  unfold updateOperators State.conj
  dsimp only
  congr 1
  · funext c x
    rw [e]
    exact (map_mul _ _ _).symm
  · funext x
    unfold conjTensor
    dsimp only
    rw [conj_map_smul, conj_map_add, conj_map_smul, conj_map_smul, conj_map_one]
    simp [div_neg, neg_div]
  · exact h1 _
  · exact h1 _
  · exact h1 _

theorem prepared_conj (m : Medium n N) (mag : Bool) (alpha : ℂ) (beta : ℝ) (S F : Field n N) :
    prepared m.reversed mag ((starRingEnd ℂ) alpha) beta (conjField S) (conjField F) = (prepared m mag alpha beta S F).conj := by
  have hf : factor ((starRingEnd ℂ) alpha) beta = (starRingEnd ℂ) (factor alpha beta) := by simp [factor, div_neg, neg_div]
  have hu : ∀ x, m.reversed.muInv x = (m.muInv x).map (starRingEnd ℂ) := fun x => (conj_map_inv _).symm
  have hEH : ∀ x, m.reversed.chiEHBeta x = (m.chiEHBeta x).map (starRingEnd ℂ) := by
    intro x
    unfold Medium.chiEHBeta
    rw [hu, conj_map_smul, conj_map_mul]
    show (-I) • (-(m.xi x).map (starRingEnd ℂ) * _) = _
    simp
  have hHE : ∀ x, m.reversed.chiHEBeta x = (m.chiHEBeta x).map (starRingEnd ℂ) := by
    intro x
    unfold Medium.chiHEBeta
    rw [hu, conj_map_smul, conj_map_mul]
    show I • (_ * -(m.zeta x).map (starRingEnd ℂ)) = _
    simp
  have hE : ∀ x, m.reversed.epsilonPrime x = (m.epsilonPrime x).map (starRingEnd ℂ) := by
    intro x
    unfold Medium.epsilonPrime
    rw [hHE, conj_map_sub, conj_map_mul, conj_map_smul]
    show (m.epsilon x).map (starRingEnd ℂ) - -(m.xi x).map (starRingEnd ℂ) * _ = _
    simp
  unfold prepared State.conj
  dsimp only
  congr 1
  · funext c x
    rw [hf]
    exact (map_mul _ _ _).symm
  · funext x
    unfold conjTensor
    dsimp only
    rw [conj_map_sub, conj_map_smul, conj_map_smul, conj_map_one, hE, hf]
    simp [div_neg, neg_div]
  · funext x
    unfold conjTensor
    dsimp only
    rw [conj_map_smul, hEH, hf]
  · funext x
    unfold conjTensor
    dsimp only
    rw [conj_map_smul, hHE, hf]
  · funext x
    unfold conjTensor
    dsimp only
    rw [conj_map_smul, conj_map_sub, conj_map_smul, conj_map_one, hu]
    simp [div_neg, neg_div]

theorem prepare_conj (m : Medium n N) (mag : Bool) (alpha : ℂ) (beta : ℝ) (S F : Field n N) :
    prepare m.reversed mag ((starRingEnd ℂ) alpha) beta (conjField S) (conjField F) = (prepare m mag alpha beta S F).conj := by
  unfold prepare
  rw [prepared_conj, updateOperators_conj]

section
variable {k : Fin d → Idx N → ℝ} (hk : EvenDyads n k)
include hk

theorem step_conj (kind : Kind d n) (s : State n N) (hr : s.magnetic = true → Reversible n k) : step kind k s.conj = (step kind k s).map State.conj := by
  rw [step_unfold, step_unfold, update_conj hk kind s hr, norm_conjField, show s.conj.prevNorm = s.prevNorm from rfl]
  cases divFloat (Backend.norm (update kind k s)) s.prevNorm with
  | error e => rfl
  | ok r =>
    dsimp only
    split_ifs
    · show Except.ok _ = Except.ok _
      congr 1
      unfold State.conj
      dsimp only
      congr 1
      funext c x
      exact (map_add _ _ _).symm
    · show Except.ok _ = Except.ok _
      congr 1
      rw [← updateOperators_conj]
      congr 1
      show increased ((starRingEnd ℂ) s.alpha) = (starRingEnd ℂ) (increased s.alpha)
      unfold increased
      have h15 : (starRingEnd ℂ) (1.5 : ℂ) = 1.5 := by rw [show (1.5 : ℂ) = ((1.5 : ℝ) : ℂ) by norm_num, conj_ofReal]
      simp [h15]

omit hk in
theorem step_magnetic (kind : Kind d n) (s : State n N) {t : State n N} (h : step kind k s = .ok t) : t.magnetic = s.magnetic := by
  rw [step_unfold] at h
  cases hr : divFloat (Backend.norm (update kind k s)) s.prevNorm with
  | error e => rw [hr] at h; cases h
  | ok r =>
    rw [hr] at h
    dsimp only at h
    split_ifs at h
    · obtain rfl := Except.ok.inj h; rfl
    · obtain rfl := Except.ok.inj h; rfl

theorem run_conj_magnetic (kind : Kind d n) (s : State n N) (hr : s.magnetic = true → Reversible n k) (i : ℕ) :
    run kind k s.conj i = (run kind k s i).map State.conj ∧ ∀ t, run kind k s i = .ok t → t.magnetic = s.magnetic := by
  induction i with
  | zero => exact ⟨rfl, fun t h => by obtain rfl := Except.ok.inj h; rfl⟩
  | succ i ih =>
    obtain ⟨h1, h2⟩ := ih
    simp only [run, h1]
    cases h : run kind k s i with
    | error e => exact ⟨rfl, fun t h => nomatch h⟩
    | ok u =>
      have hu := h2 u h
      exact ⟨step_conj hk kind u fun hm => hr (hu.symm.trans hm), fun t ht => (step_magnetic kind u ht).trans hu⟩

theorem run_conj (kind : Kind d n) (s : State n N) (hr : s.magnetic = true → Reversible n k) (i : ℕ) : run kind k s.conj i = (run kind k s i).map State.conj :=
  (run_conj_magnetic hk kind s hr i).1

end

section
variable {k : Fin d → Idx N → ℝ} (hk : Reversible n k)
include hk

omit hk in
theorem getE_conj (k0 : ℝ) (s : State n N) : getE k0 s.conj = conjField (getE k0 s) := by
  funext c x
  simp [getE, conjField, State.conj]

omit hk in
theorem getSource_conj (s : State n N) : getSource s.conj = conjField (getSource s) := by
  funext c x
  simp [getSource, conjField, State.conj]

theorem getB_conj (kind : Kind d n) (co : Const) (k0 : ℝ) (s : State n N) : getB co k0 k s.conj = fun c x => -(starRingEnd ℂ) (getB co k0 k s c x) := by
  funext c x
  unfold getB
  rw [getE_conj, curl_conjField hk kind]
  simp [conjField]
  ring

theorem getH_conj (kind : Kind d n) (co : Const) (k0 : ℝ) (i0 : Fin n) (x0 : Idx N) (s : State n N) :
    getH co k0 k i0 x0 s.conj = fun c x => -(starRingEnd ℂ) (getH co k0 k i0 x0 s c x) := by
  funext c x
  unfold getH
  dsimp only
  rw [getE_conj, curl_conjField hk kind, show s.conj.magnetic = s.magnetic from rfl, show s.conj.beta = s.beta from rfl]
  have hmu : (fun x => (s.beta : ℂ) • (1 - (-I * (s.conj.alpha.im : ℂ)) • s.conj.chiHH x)) = conjTensor fun x => (s.beta : ℂ) • (1 - (-I * (s.alpha.im : ℂ)) • s.chiHH x) := by
    funext x
    unfold conjTensor State.conj
    dsimp only
    rw [conj_map_smul, conj_map_sub, conj_map_one, conj_map_smul]
    simp [conjTensor]
  have hco : (fun x => (-I * (s.conj.alpha.im : ℂ)) • s.conj.chiHE x) = conjTensor fun x => (-I * (s.alpha.im : ℂ)) • s.chiHE x := by
    funext x
    unfold conjTensor State.conj
    dsimp only
    rw [conj_map_smul]
    simp [conjTensor]
  split_ifs
  · rw [hmu, hco, mulField_conj, mulField_conj]
    simp [conjField]
    ring
  · have h1 : s.conj.chiHH x0 i0 i0 = (starRingEnd ℂ) (s.chiHH x0 i0 i0) := rfl
    have h2 : s.conj.alpha.im = -s.alpha.im := rfl
    rw [h1, h2]
    simp [conjField]
    ring

theorem getD_conj (kind : Kind d n) (co : Const) (k0 : ℝ) (i0 : Fin n) (x0 : Idx N) (s : State n N) :
    getD co k0 k i0 x0 s.conj = conjField (getD co k0 k i0 x0 s) := by
  have hn : curl n k (fun c x => -(starRingEnd ℂ) (getH co k0 k i0 x0 s c x)) = fun c x => -(starRingEnd ℂ) (curl n k (getH co k0 k i0 x0 s) c x) := by
    have h1 : (fun c x => -(starRingEnd ℂ) (getH co k0 k i0 x0 s c x)) = (-1 : ℂ) • conjField (getH co k0 k i0 x0 s) := by
      funext c x
      simp [conjField]
    rw [h1, (curl_isLinear k).map_smul, curl_conjField hk kind]
    funext c x
    simp [conjField]
  funext c x
  unfold getD
  rw [getH_conj hk kind, hn]
  have h2 : s.conj.alpha.im = -s.alpha.im := rfl
  have h3 : s.conj.source c x = (starRingEnd ℂ) (s.source c x) := rfl
  rw [h2, h3, show s.conj.beta = s.beta from rfl]
  simp [conjField]
  ring

omit hk in
theorem residue_conj (s : State n N) : (relativeResidue s.conj).1 = (relativeResidue s).1 := by
  have hF : Backend.norm s.conj.field = Backend.norm s.field := norm_conjField s.field
  unfold relativeResidue
  rw [show s.conj.residue = s.residue from rfl, show s.conj.prevNorm = s.prevNorm from rfl, hF]
  cases s.residue with
  | some r => rfl
  | none =>
    cases s.prevNorm with
    | top =>
      dsimp only
      split <;> rfl
    | coe p =>
      dsimp only
      split <;> rfl

end

end Verif.Solver
