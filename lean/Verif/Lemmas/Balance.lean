import Verif.Spec.Balance
import Verif.Lemmas.Continuous
import Mathlib.Analysis.Calculus.Deriv.Mul
import Mathlib.Analysis.Calculus.Deriv.Star

/-!
# Lemmas for C125 and C126: derivatives of products, and products of functions that vary slowly
-/

namespace Verif.Balance

open Verif Verif.Fourier Verif.Continuous Verif.Spec.Continuous Verif.Spec.Balance Complex

variable {d : ℕ} {f h : Point → ℂ}

local notation "conj" => starRingEnd ℂ

/-- Differentiable along all axes. -/
def Smooth (f : Point → ℂ) : Prop := ∀ r a, DifferentiableAt ℝ (fun t => f (Function.update r a t)) (r a)

theorem Smooth.hasDerivAt (hf : Smooth f) (r : Point) (a : Fin 3) : HasDerivAt (fun t => f (Function.update r a t)) (partialDeriv a f r) (r a) := (hf r a).hasDerivAt

theorem partialDeriv_of (r : Point) (a : Fin 3) {v : ℂ} (h : HasDerivAt (fun t => f (Function.update r a t)) v (r a)) : partialDeriv a f r = v := h.deriv

theorem hasDerivAt_mul (hf : Smooth f) (hh : Smooth h) (r : Point) (a : Fin 3) :
    HasDerivAt (fun t => f (Function.update r a t) * h (Function.update r a t)) (partialDeriv a f r * h r + f r * partialDeriv a h r) (r a) := by
  have := (hf.hasDerivAt r a).mul (hh.hasDerivAt r a)
  rw [Function.update_eq_self] at this
  exact this

theorem Smooth.mul (hf : Smooth f) (hh : Smooth h) : Smooth fun r => f r * h r := fun r a => (hasDerivAt_mul hf hh r a).differentiableAt

theorem hasDerivAt_conj (hf : Smooth f) (r : Point) (a : Fin 3) : HasDerivAt (fun t => conj (f (Function.update r a t))) (conj (partialDeriv a f r)) (r a) := (hf.hasDerivAt r a).star

theorem Smooth.conj (hf : Smooth f) : Smooth fun r => conj (f r) := fun r a => (hasDerivAt_conj hf r a).differentiableAt

theorem Smooth.add (hf : Smooth f) (hh : Smooth h) : Smooth fun r => f r + h r := fun r a => (hf r a).add (hh r a)

theorem Smooth.sub (hf : Smooth f) (hh : Smooth h) : Smooth fun r => f r - h r := fun r a => (hf r a).sub (hh r a)

theorem Smooth.const_mul (z : ℂ) (hf : Smooth f) : Smooth fun r => z * f r := fun r a => (hf r a).const_mul z

theorem pd_mul (hf : Smooth f) (hh : Smooth h) (a : Fin 3) (r : Point) : partialDeriv a (fun r => f r * h r) r = partialDeriv a f r * h r + f r * partialDeriv a h r :=
  (hasDerivAt_mul hf hh r a).deriv

theorem pd_conj (hf : Smooth f) (a : Fin 3) (r : Point) : partialDeriv a (fun r => conj (f r)) r = conj (partialDeriv a f r) := (hasDerivAt_conj hf r a).deriv

theorem pd_add (hf : Smooth f) (hh : Smooth h) (a : Fin 3) (r : Point) : partialDeriv a (fun r => f r + h r) r = partialDeriv a f r + partialDeriv a h r := deriv_fun_add (hf r a) (hh r a)

theorem pd_sub (hf : Smooth f) (hh : Smooth h) (a : Fin 3) (r : Point) : partialDeriv a (fun r => f r - h r) r = partialDeriv a f r - partialDeriv a h r := deriv_fun_sub (hf r a) (hh r a)

theorem pd_const_mul (z : ℂ) (hf : Smooth f) (a : Fin 3) (r : Point) : partialDeriv a (fun r => z * f r) r = z * partialDeriv a f r := deriv_const_mul z (hf r a)

/-- The derivative of a real part. -/
theorem pd_re (hf : Smooth f) (a : Fin 3) (r : Point) : partialDeriv a (fun r => ((f r).re : ℂ)) r = ((partialDeriv a f r).re : ℂ) := by
  have e : (fun r => ((f r).re : ℂ)) = fun r => (1 / 2 : ℂ) * (f r + conj (f r)) := by
    funext r
    rw [re_eq_add_conj]
    ring
  rw [e, pd_const_mul _ (hf.add hf.conj), pd_add hf hf.conj, pd_conj hf, re_eq_add_conj]
  ring

theorem Smooth.re (hf : Smooth f) : Smooth fun r => ((f r).re : ℂ) := by
  have e : (fun r => ((f r).re : ℂ)) = fun r => (1 / 2 : ℂ) * (f r + Complex.conjCLE (f r)) := by
    funext r
    rw [re_eq_add_conj, Complex.conjCLE_apply]
    ring
  rw [e]
  exact (hf.add hf.conj).const_mul _

/-! ### Products of waves -/

theorem wave_mul_conj (κ κ' r : Point) : wave κ r * conj (wave κ' r) = wave (κ - κ') r := by
  unfold wave
  rw [← exp_conj, ← exp_add]
  congr 1
  rw [map_mul, conj_I, conj_ofReal]
  simp only [Pi.sub_apply, sub_mul, Finset.sum_sub_distrib]
  push_cast
  ring

theorem wave_conj (κ r : Point) : conj (wave κ r) = wave (-κ) r := by
  unfold wave
  rw [← exp_conj, map_mul, conj_I, conj_ofReal]
  simp only [Pi.neg_apply, neg_mul, Finset.sum_neg_distrib]
  push_cast
  ring_nf

/-- The difference of two such wavenumbers is resolved, with either sign. -/
theorem resolved_sub {N : Fin d → ℕ} {step : Fin d → ℝ} {κ κ' : Point} (h : WellResolved N step κ) (h' : WellResolved N step κ') : Resolved N step (κ - κ') := by
  intro c
  refine ⟨fun hc => ?_, fun hc => ?_⟩
  · obtain ⟨j, h1, h2, h3⟩ := (h c).1 hc
    obtain ⟨j', h1', h2', h3'⟩ := (h' c).1 hc
    refine ⟨j - j', by omega, by omega, ?_⟩
    rw [Pi.sub_apply, h3, h3']
    push_cast
    ring
  · rw [Pi.sub_apply, (h c).2 hc, (h' c).2 hc, sub_zero]

theorem resolved_of_wellResolved {N : Fin d → ℕ} {step : Fin d → ℝ} {κ : Point} (h : WellResolved N step κ) : Resolved N step κ := by
  intro c
  refine ⟨fun hc => ?_, (h c).2⟩
  obtain ⟨j, h1, h2, h3⟩ := (h c).1 hc
  exact ⟨j, by omega, by omega, h3⟩

theorem halfBand_le (N : Fin d → ℕ) (step : Fin d → ℝ) : HalfBand N step ≤ BandLimited N step :=
  Submodule.span_mono (Set.image_mono fun _ h => resolved_of_wellResolved h)

/-- The product of such a function and a conjugate varies slowly enough for the grid. -/
theorem mul_conj_mem {N : Fin d → ℕ} {step : Fin d → ℝ} (hf : f ∈ HalfBand N step) (hh : h ∈ HalfBand N step) : (fun r => f r * conj (h r)) ∈ BandLimited N step := by
  unfold HalfBand at hf hh
  induction hf using Submodule.span_induction with
  | mem f hf =>
    obtain ⟨κ, hκ, rfl⟩ := hf
    induction hh using Submodule.span_induction with
    | mem h hh =>
      obtain ⟨κ', hκ', rfl⟩ := hh
      refine Submodule.subset_span ⟨κ - κ', resolved_sub hκ hκ', ?_⟩
      funext r
      exact (wave_mul_conj κ κ' r).symm
    | zero =>
      convert Submodule.zero_mem (BandLimited N step) using 1
      funext r
      simp
    | add x y _ _ hx hy =>
      convert Submodule.add_mem _ hx hy using 1
      funext r
      simp [mul_add]
    | smul z x _ hx =>
      convert Submodule.smul_mem _ (conj z) hx using 1
      funext r
      simp only [Pi.smul_apply, smul_eq_mul, map_mul]
      ring
  | zero =>
    convert Submodule.zero_mem (BandLimited N step) using 1
    funext r
    simp
  | add x y _ _ hx hy =>
    convert Submodule.add_mem _ hx hy using 1
    funext r
    simp [add_mul]
  | smul z x _ hx =>
    convert Submodule.smul_mem _ z hx using 1
    funext r
    simp only [Pi.smul_apply, smul_eq_mul]
    ring

/-- The real part of such a product as well. -/
theorem re_mul_conj_mem {N : Fin d → ℕ} {step : Fin d → ℝ} (hf : f ∈ HalfBand N step) (hh : h ∈ HalfBand N step) : (fun r => (((f r * conj (h r)).re : ℝ) : ℂ)) ∈ BandLimited N step := by
  have e : (fun r => (((f r * conj (h r)).re : ℝ) : ℂ)) = (1 / 2 : ℂ) • ((fun r => f r * conj (h r)) + fun r => h r * conj (f r)) := by
    funext r
    rw [re_eq_add_conj]
    simp only [Pi.smul_apply, Pi.add_apply, smul_eq_mul, map_mul, conj_conj]
    ring
  rw [e]
  exact Submodule.smul_mem _ _ (Submodule.add_mem _ (mul_conj_mem hf hh) (mul_conj_mem hh hf))

/-- The derivatives of such functions vary as slowly. -/
theorem partialDeriv_mem {N : Fin d → ℕ} {step : Fin d → ℝ} (hf : f ∈ HalfBand N step) (a : Fin 3) : Smooth f ∧ partialDeriv a f ∈ HalfBand N step := by
  unfold HalfBand at hf
  induction hf using Submodule.span_induction with
  | mem f hf =>
    obtain ⟨κ, hκ, rfl⟩ := hf
    refine ⟨fun r a => (wave_hasDerivAt κ r a _).differentiableAt, ?_⟩
    have e : partialDeriv a (wave κ) = (I * (κ a : ℂ)) • wave κ := by
      funext r
      have h := wave_hasDerivAt κ r a (r a)
      rw [Function.update_eq_self] at h
      exact partialDeriv_of r a h
    rw [e]
    exact Submodule.smul_mem _ _ (Submodule.subset_span ⟨κ, hκ, rfl⟩)
  | zero =>
    refine ⟨fun r a => differentiableAt_const (0 : ℂ), ?_⟩
    have e : partialDeriv a 0 = 0 := funext fun r => deriv_const _ _
    rw [e]
    exact Submodule.zero_mem _
  | add x y _ _ hx hy =>
    refine ⟨hx.1.add hy.1, ?_⟩
    have e : partialDeriv a (x + y) = partialDeriv a x + partialDeriv a y := funext fun r => pd_add hx.1 hy.1 a r
    rw [e]
    exact Submodule.add_mem _ hx.2 hy.2
  | smul z x _ hx =>
    refine ⟨hx.1.const_mul z, ?_⟩
    have e : partialDeriv a (z • x) = z • partialDeriv a x := funext fun r => pd_const_mul z hx.1 a r
    rw [e]
    exact Submodule.smul_mem _ _ hx.2

theorem curl_mem {N : Fin d → ℕ} {step : Fin d → ℝ} {F : Fin 3 → Point → ℂ} (hF : ∀ c, F c ∈ HalfBand N step) (c : Fin 3) : curl F c ∈ HalfBand N step := by
  have key : ∀ a b a' b', (fun r => partialDeriv a (F b) r - partialDeriv a' (F b') r) ∈ HalfBand N step := fun a b a' b' =>
    Submodule.sub_mem _ (partialDeriv_mem (hF b) a).2 (partialDeriv_mem (hF b') a').2
  unfold curl
  fin_cases c
  · exact key 1 2 2 1
  · exact key 2 0 0 2
  · exact key 0 1 1 0

/-! ### Identities of vector analysis -/

/-- `∇ · Re(E × H*) / 2 = Re(H* · ∇ × E - E · (∇ × H)*) / 2`. -/
theorem divergence_flow {E H : Fin 3 → Point → ℂ} (hE : ∀ c, Smooth (E c)) (hH : ∀ c, Smooth (H c)) (r : Point) :
    divergence (fun c r => (flow E H c r : ℂ)) r = (((∑ c, (curl E c r * conj (H c r) - E c r * conj (curl H c r))).re / 2 : ℝ) : ℂ) := by
  have hp : ∀ a b c e, Smooth fun r => E a r * conj (H b r) - E c r * conj (H e r) := fun a b c e => ((hE a).mul (hH b).conj).sub ((hE c).mul (hH e).conj)
  have hpd : ∀ x a b c e, partialDeriv x (fun r => E a r * conj (H b r) - E c r * conj (H e r)) r =
      partialDeriv x (E a) r * conj (H b r) + E a r * conj (partialDeriv x (H b) r) - (partialDeriv x (E c) r * conj (H e r) + E c r * conj (partialDeriv x (H e) r)) := fun x a b c e => by
    rw [pd_sub ((hE a).mul (hH b).conj) ((hE c).mul (hH e).conj), pd_mul (hE a) (hH b).conj, pd_mul (hE c) (hH e).conj, pd_conj (hH b), pd_conj (hH e)]
  have hf : ∀ x a b c e, partialDeriv x (fun r => (((E a r * conj (H b r) - E c r * conj (H e r)).re / 2 : ℝ) : ℂ)) r =
      (((partialDeriv x (E a) r * conj (H b r) + E a r * conj (partialDeriv x (H b) r) - (partialDeriv x (E c) r * conj (H e r) + E c r * conj (partialDeriv x (H e) r))).re / 2 : ℝ) : ℂ) :=
      fun x a b c e => by
    have e1 : (fun r => (((E a r * conj (H b r) - E c r * conj (H e r)).re / 2 : ℝ) : ℂ)) = fun r => (1 / 2 : ℂ) * ((E a r * conj (H b r) - E c r * conj (H e r)).re : ℂ) := by
      funext r
      push_cast
      ring
    rw [e1, pd_const_mul _ (hp a b c e).re, pd_re (hp a b c e), hpd]
    push_cast
    ring
  unfold divergence flow
  simp only [cross_apply, Fin.sum_univ_three, Matrix.cons_val_zero, Matrix.cons_val_one, Matrix.cons_val_two, Matrix.head_cons, Matrix.tail_cons, curl]
  rw [hf, hf, hf, ← ofReal_add, ← ofReal_add]
  congr 1
  rw [← add_div, ← add_div, ← add_re, ← add_re]
  congr 2
  simp only [map_sub]
  ring

/-- The stress of one field, without its unit. -/
noncomputable def tension (F : Fin 3 → Point → ℂ) (i j : Fin 3) (r : Point) : ℂ :=
  (1 / 2 : ℂ) * ((F i r * conj (F j r)).re : ℂ) - (if i = j then 1 / 4 else 0 : ℂ) * (((F 0 r * conj (F 0 r)).re : ℂ) + ((F 1 r * conj (F 1 r)).re : ℂ) + ((F 2 r * conj (F 2 r)).re : ℂ))

theorem stress_tension (epsilon0 mu0 : ℝ) (E H : Fin 3 → Point → ℂ) (i j : Fin 3) (r : Point) :
    (stress epsilon0 mu0 E H i j r : ℂ) = (epsilon0 : ℂ) * tension E i j r + (mu0 : ℂ) * tension H i j r := by
  have e : ∀ z : ℂ, (z * conj z).re = normSq z := fun z => by rw [mul_conj, ofReal_re]
  unfold stress tension
  simp only [e, Fin.sum_univ_three]
  split_ifs <;> push_cast <;> ring

theorem tension_smooth {F : Fin 3 → Point → ℂ} (hF : ∀ c, Smooth (F c)) (i j : Fin 3) : Smooth (tension F i j) :=
  have h : ∀ i j, Smooth fun r => ((F i r * conj (F j r)).re : ℂ) := fun i j => ((hF i).mul (hF j).conj).re
  ((h i j).const_mul _).sub ((((h 0 0).add (h 1 1)).add (h 2 2)).const_mul _)

theorem pd_tension {F : Fin 3 → Point → ℂ} (hF : ∀ c, Smooth (F c)) (i j a : Fin 3) (r : Point) :
    partialDeriv a (tension F i j) r = (1 / 2 : ℂ) * ((partialDeriv a (F i) r * conj (F j r) + F i r * conj (partialDeriv a (F j) r)).re : ℂ) -
      (if i = j then 1 / 4 else 0 : ℂ) * (((partialDeriv a (F 0) r * conj (F 0 r) + F 0 r * conj (partialDeriv a (F 0) r)).re : ℂ) +
        ((partialDeriv a (F 1) r * conj (F 1 r) + F 1 r * conj (partialDeriv a (F 1) r)).re : ℂ) + ((partialDeriv a (F 2) r * conj (F 2 r) + F 2 r * conj (partialDeriv a (F 2) r)).re : ℂ)) := by
  have h : ∀ i j, Smooth fun r => F i r * conj (F j r) := fun i j => (hF i).mul (hF j).conj
  have hp : ∀ i j, partialDeriv a (fun r => ((F i r * conj (F j r)).re : ℂ)) r = ((partialDeriv a (F i) r * conj (F j r) + F i r * conj (partialDeriv a (F j) r)).re : ℂ) := fun i j => by
    rw [pd_re (h i j), pd_mul (hF i) (hF j).conj, pd_conj (hF j)]
  unfold tension
  rw [pd_sub ((h i j).re.const_mul _) ((((h 0 0).re.add (h 1 1).re).add (h 2 2).re).const_mul _), pd_const_mul _ (h i j).re, pd_const_mul _ (((h 0 0).re.add (h 1 1).re).add (h 2 2).re),
    pd_add ((h 0 0).re.add (h 1 1).re) (h 2 2).re, pd_add (h 0 0).re (h 1 1).re, hp, hp, hp, hp]

theorem divergence_tension {F : Fin 3 → Point → ℂ} (hF : ∀ c, Smooth (F c)) (j : Fin 3) (r : Point) :
    divergence (fun i => tension F i j) r = (((divergence F r * conj (F j r) + crossProduct (fun c => curl F c r) (fun c => conj (F c r)) j).re / 2 : ℝ) : ℂ) := by
  unfold divergence
  simp only [Fin.sum_univ_three, pd_tension hF, curl, cross_apply]
  fin_cases j
  all_goals
    simp only [Fin.zero_eta, Fin.mk_one, Fin.reduceFinMk, Fin.isValue, Matrix.cons_val_zero, Matrix.cons_val_one, Matrix.cons_val, zero_ne_one, one_ne_zero, Fin.reduceEq, if_true, if_false,
      add_re, sub_re, sub_im, add_im, mul_re, conj_re, conj_im]
    push_cast
    ring

/-- The divergence of the stress tensor. -/
theorem divergence_stress {E H : Fin 3 → Point → ℂ} (hE : ∀ c, Smooth (E c)) (hH : ∀ c, Smooth (H c)) (epsilon0 mu0 : ℝ) (j : Fin 3) (r : Point) :
    divergence (fun i r => (stress epsilon0 mu0 E H i j r : ℂ)) r =
      ((epsilon0 * (divergence E r * conj (E j r) + crossProduct (fun c => curl E c r) (fun c => conj (E c r)) j).re / 2 +
        mu0 * (divergence H r * conj (H j r) + crossProduct (fun c => curl H c r) (fun c => conj (H c r)) j).re / 2 : ℝ) : ℂ) := by
  have e : ∀ i, (fun r => (stress epsilon0 mu0 E H i j r : ℂ)) = fun r => (epsilon0 : ℂ) * tension E i j r + (mu0 : ℂ) * tension H i j r := fun i =>
    funext fun r => stress_tension epsilon0 mu0 E H i j r
  have e2 : divergence (fun i r => (stress epsilon0 mu0 E H i j r : ℂ)) r = (epsilon0 : ℂ) * divergence (fun i => tension E i j) r + (mu0 : ℂ) * divergence (fun i => tension H i j) r := by
    unfold divergence
    rw [Finset.mul_sum, Finset.mul_sum, ← Finset.sum_add_distrib]
    refine Finset.sum_congr rfl fun i _ => ?_
    dsimp only
    rw [e i, pd_add ((tension_smooth hE i j).const_mul _) ((tension_smooth hH i j).const_mul _), pd_const_mul _ (tension_smooth hE i j), pd_const_mul _ (tension_smooth hH i j)]
  rw [e2, divergence_tension hE, divergence_tension hH]
  push_cast
  ring

end Verif.Balance
