import Verif.Model.Backend
import Verif.Spec.Backend
import Verif.Props.Fourier
import Verif.Props.Grid02
import Mathlib.Tactic.IntervalCases

/-!
# C24 and C25: vector calculus and projections of the back end
-/

set_option linter.unusedSectionVars false

namespace Verif.Backend

open Verif Verif.Fourier Verif.Spec.Backend Complex

variable {d : ℕ}

/-! ### The k-vectors of a grid -/

/-- The k-vectors are those of the frequencies of the discrete Fourier transform on that grid. -/
theorem C24_kOf (g : Grid.Obj d ℝ) (hs : ∀ a, 1 < g.shape a → g.step a ≠ 0) (a : Fin d) (x : Idx g.shape) :
    kOf g a x = 2 * Real.pi * ((if 2 * (x a : ℕ) < g.shape a then ((x a : ℕ) : ℝ) else ((x a : ℕ) : ℝ) - g.shape a) /
      (g.shape a * g.step a)) := by
  have hN : ∀ a, 1 ≤ g.shape a := fun a => (Nat.zero_le _).trans_lt (x a).isLt
  obtain ⟨f, hf, -, hc⟩ := Grid.C05_k (2 * Real.pi) g hN hs
  unfold kOf
  rw [hf]
  simp only [hc, Spec.Grid.fftFrequencies]
  have hx : (x a : ℕ) < g.shape a := (x a).isLt
  rw [List.map_map, List.getD_eq_getElem?_getD, List.getElem?_map, List.getElem?_range hx]
  simp only [Option.map_some, Option.getD_some, Function.comp_apply]
  split <;> push_cast <;> ring

/-- Only the first sample has a zero k-vector. -/
theorem kOf_origin (g : Grid.Obj d ℝ) (hs : ∀ a, g.step a ≠ 0) (x : Idx g.shape) : origin x ↔ ∀ a, kOf g a x = 0 := by
  unfold origin
  refine forall_congr' fun a => ?_
  rw [C24_kOf g fun a _ => hs a]
  have hx : (x a : ℕ) < g.shape a := (x a).isLt
  have hN : (g.shape a : ℝ) ≠ 0 := by exact_mod_cast (by omega : g.shape a ≠ 0)
  constructor
  · intro h; rw [h]; simp
  · intro h
    have h1 := (mul_eq_zero.1 h).resolve_left (by positivity)
    have h2 := (div_eq_zero_iff.1 h1).resolve_right (mul_ne_zero hN (hs a))
    split at h2
    · exact_mod_cast h2
    · have h3 : ((x a : ℕ) : ℝ) = g.shape a := by linarith
      have : (x a : ℕ) = g.shape a := by exact_mod_cast h3
      omega

/-! ### C24, at every spatial frequency -/

section Pointwise
variable {X : Type} {m n : ℕ} (k : Fin d → X → ℝ)

/-- **C24.** The transform of the curl is `i k × F`; missing axes of the grid and missing components of the field count as zero. -/
theorem C24_curl_ft (F : Fin m → X → ℂ) (x : X) :
    (fun c => curlFt 3 k F c x) = fun c => I * crossProduct (kVector k x) (vector F x) c := by
  funext c
  rw [cross_apply]
  match c with
  | 0 =>
    by_cases h1 : 1 < m <;> by_cases h2 : 2 < m <;> by_cases h3 : 1 < d <;> by_cases h4 : 2 < d <;>
      simp [curlFt, otherDims, kVector, vector, h1, h2, h3, h4]
  | 1 =>
    by_cases h1 : 0 < m <;> by_cases h2 : 2 < m <;> by_cases h3 : 0 < d <;> by_cases h4 : 2 < d <;>
      simp [curlFt, otherDims, kVector, vector, h1, h2, h3, h4]
  | 2 =>
    by_cases h1 : 0 < m <;> by_cases h2 : 1 < m <;> by_cases h3 : 0 < d <;> by_cases h4 : 1 < d <;>
      simp [curlFt, otherDims, kVector, vector, h1, h2, h3, h4]

/-- **C24.** For scalar calculations the curl is zero. -/
theorem C24_curl_ft_scalar (F : Fin 1 → X → ℂ) : curlFt 1 k F = fun _ _ => 0 := by
  funext c x
  simp only [curlFt, otherDims, Nat.mod_one]
  split_ifs <;> simp

/-- **C24.** The transform of the divergence is `i k · F`, for each column of a tensor field. -/
theorem C24_div_ft {p : ℕ} (hd : d ≤ 3) (F : Fin 3 → Fin p → X → ℂ) :
    divFt k F = .ok fun j x => I * (kVector k x ⬝ᵥ fun c => F c j x) := by
  rw [divFt, dif_pos hd]
  congr 1
  funext j x
  unfold dotProduct kVector
  rw [Finset.mul_sum]
  interval_cases d <;> simp [Fin.sum_univ_succ, Fin.castLE, mul_assoc]

/-- The divergence of fields with fewer components than the grid has axes is not defined: the code raises. -/
theorem C24_div_ft_short {p : ℕ} (h : m < d) (F : Fin m → Fin p → X → ℂ) : divFt k F = .error .indexError := by
  rw [divFt, dif_neg (by omega)]

/-- **C24.** `cross` is the cross product, for all pairs of fields. -/
theorem C24_cross (A B : Fin 3 → X → ℂ) (x : X) :
    (fun c => cross A B c x) = crossProduct (fun c => A c x) (fun c => B c x) := by
  funext c
  rw [cross_apply]
  match c with
  | 0 => simp [cross, otherDims]
  | 1 => simp [cross, otherDims]
  | 2 => simp [cross, otherDims]

/-- **C24.** The divergence of a curl is zero at every spatial frequency. -/
theorem C24_div_curl_ft (hd : d ≤ 3) (F : Fin m → X → ℂ) :
    divFt (p := 1) k (fun c _ => curlFt 3 k F c) = .ok fun _ _ => 0 := by
  rw [C24_div_ft k hd]
  congr 1
  funext j x
  have := C24_curl_ft k F x
  rw [this]
  have h2 := dot_self_cross (kVector k x) (vector F x)
  have : (kVector k x ⬝ᵥ fun c => I * crossProduct (kVector k x) (vector F x) c) =
      I * (kVector k x ⬝ᵥ crossProduct (kVector k x) (vector F x)) := by
    simp only [dotProduct, Finset.mul_sum]
    exact Finset.sum_congr rfl fun c _ => by ring
  rw [this, h2]; simp

/-- **C24.** The curl of a longitudinal field, `F = k φ`, is zero at every spatial frequency. -/
theorem C24_curl_gradient_ft (phi : X → ℂ) : curlFt 3 k (fun c x => kVector k x c * phi x) = fun _ _ => 0 := by
  funext c x
  have := congrFun (C24_curl_ft k (fun (c : Fin 3) x => kVector k x c * phi x) x) c
  rw [this]
  have h : vector (fun (c : Fin 3) x => kVector k x c * phi x) x = phi x • kVector k x := by
    funext c; simp [vector, c.isLt, mul_comm]
  rw [h, LinearMap.map_smul, cross_self]; simp

end Pointwise

/-! ### C24, for fields in space -/

section Space
variable {N : Fin d → ℕ} {m : ℕ} (k : Fin d → Idx N → ℝ)

theorem ift_zero : ift (fun _ : Idx N => (0 : ℂ)) = fun _ => 0 := by
  funext x; unfold ift; simp

/-- **C24.** The divergence of every curl is zero. -/
theorem C24_div_curl (hd : d ≤ 3) (F : Fin m → Idx N → ℂ) : div k (curl 3 k F) = .ok fun _ => 0 := by
  unfold div curl convolve
  simp only [C23_ft_ift]
  rw [C24_div_curl_ft k hd]
  simp only [Except.map, ift_zero]

end Space

/-! ### C25, at every spatial frequency -/

section Pointwise
variable {X : Type} {m : ℕ} {k : Fin d → X → ℝ} {o : X → Prop} [DecidablePred o]

/-- The component along the first `d` axes. -/
theorem longitudinalFt_lt (h : d ≤ m) (F : Fin m → X → ℂ) (a : Fin d) (x : X) :
    longitudinalFt k o h F (Fin.castLE h a) x = if o x then F (Fin.castLE h a) x else
      (k a x : ℂ) * ((∑ b : Fin d, (k b x : ℂ) * F (Fin.castLE h b) x) / (k2 k x : ℂ)) := by
  unfold longitudinalFt
  simp only [Fin.val_castLE, a.isLt, dif_pos]
  split_ifs <;> rfl

/-- The other components. -/
theorem longitudinalFt_ge (h : d ≤ m) (F : Fin m → X → ℂ) {c : Fin m} (hc : ¬ (c : ℕ) < d) (x : X) :
    longitudinalFt k o h F c x = 0 := by
  unfold longitudinalFt
  simp only [hc, dif_neg, not_false_eq_true]

theorem castLE_cases (h : d ≤ m) (c : Fin m) : (∃ a : Fin d, c = Fin.castLE h a) ∨ ¬ (c : ℕ) < d := by
  by_cases hc : (c : ℕ) < d
  · exact .inl ⟨⟨c, hc⟩, rfl⟩
  · exact .inr hc

theorem k2_ne_zero {x : X} (hx : ∃ a, k a x ≠ 0) : (k2 k x : ℂ) ≠ 0 := by
  obtain ⟨a, ha⟩ := hx
  have : 0 < k2 k x := by
    unfold k2
    exact Finset.sum_pos' (fun b _ => sq_nonneg _) ⟨a, Finset.mem_univ a, by positivity⟩
  exact_mod_cast this.ne'

theorem k2_sum (x : X) : ∑ a, (k a x : ℂ) * (k a x : ℂ) = (k2 k x : ℂ) := by
  unfold k2; push_cast; exact Finset.sum_congr rfl fun a _ => by ring

theorem sum_comp (h : d ≤ m) (f : Fin m → ℂ) (hf : ∀ c : Fin m, ¬ (c : ℕ) < d → f c = 0) :
    ∑ c, f c = ∑ a : Fin d, f (Fin.castLE h a) := by
  classical
  have : ∑ a : Fin d, f (Fin.castLE h a) = ∑ c ∈ Finset.univ.image (Fin.castLE h), f c := by
    rw [Finset.sum_image]
    intro a _ b _ hab
    exact Fin.castLE_injective h hab
  rw [this]
  symm
  refine Finset.sum_subset (Finset.subset_univ _) fun c _ hc => hf c fun hlt => hc ?_
  exact Finset.mem_image.2 ⟨⟨c, hlt⟩, Finset.mem_univ _, rfl⟩

/-- **C25.** The two projections of a field add up to the field. -/
theorem C25_sum_ft (h : d ≤ m) (F : Fin m → X → ℂ) (c : Fin m) (x : X) :
    longitudinalFt k o h F c x + transversalFt k o h F c x = F c x := by
  unfold transversalFt; ring

variable (hk : ∀ x, o x ↔ ∀ a, k a x = 0)
include hk

/-- The longitudinal projection leaves fields along `k` unchanged. -/
theorem C25_longitudinal_ft_longitudinal (h : d ≤ m) (F : Fin m → X → ℂ) :
    longitudinalFt k o h (longitudinalFt k o h F) = longitudinalFt k o h F := by
  funext c x
  rcases castLE_cases h c with ⟨a, rfl⟩ | hc
  · rw [longitudinalFt_lt]
    split_ifs with ho
    · rfl
    · have hne : (k2 k x : ℂ) ≠ 0 := k2_ne_zero (by rw [hk] at ho; push Not at ho; exact ho)
      simp only [longitudinalFt_lt, if_neg ho]
      congr 1
      simp_rw [← mul_assoc, ← Finset.sum_mul, k2_sum]
      field_simp
  · rw [longitudinalFt_ge h _ hc, longitudinalFt_ge h _ hc]

theorem longitudinalFt_sub (h : d ≤ m) (F G : Fin m → X → ℂ) :
    longitudinalFt k o h (fun c x => F c x - G c x) = fun c x => longitudinalFt k o h F c x - longitudinalFt k o h G c x := by
  funext c x
  rcases castLE_cases h c with ⟨a, rfl⟩ | hc
  · simp only [longitudinalFt_lt]
    split_ifs with ho
    · rfl
    · simp only [mul_sub, Finset.sum_sub_distrib, sub_div]
  · simp only [longitudinalFt_ge h _ hc, sub_zero]

/-- **C25.** The longitudinal part of a transversal field is zero. -/
theorem C25_longitudinal_ft_transversal (h : d ≤ m) (F : Fin m → X → ℂ) :
    longitudinalFt k o h (transversalFt k o h F) = fun _ _ => 0 := by
  have := longitudinalFt_sub hk h F (longitudinalFt k o h F)
  rw [C25_longitudinal_ft_longitudinal hk] at this
  refine Eq.trans this ?_
  funext c x; ring

/-- **C25.** The transversal part of a longitudinal field is zero. -/
theorem C25_transversal_ft_longitudinal (h : d ≤ m) (F : Fin m → X → ℂ) :
    transversalFt k o h (longitudinalFt k o h F) = fun _ _ => 0 := by
  funext c x
  unfold transversalFt
  rw [C25_longitudinal_ft_longitudinal hk]; ring

/-- **C25.** The transversal projection is idempotent. -/
theorem C25_transversal_ft_transversal (h : d ≤ m) (F : Fin m → X → ℂ) :
    transversalFt k o h (transversalFt k o h F) = transversalFt k o h F := by
  funext c x
  conv_lhs => unfold transversalFt
  rw [show (fun c x => F c x - longitudinalFt k o h F c x) = transversalFt k o h F from rfl,
    C25_longitudinal_ft_transversal hk]
  unfold transversalFt; ring

/-- **C25.** The two projections are orthogonal at every spatial frequency, also those of different fields. -/
theorem C25_orthogonal_ft (h : d ≤ m) (F G : Fin m → X → ℂ) (x : X) :
    ∑ c, (starRingEnd ℂ) (longitudinalFt k o h F c x) * transversalFt k o h G c x = 0 := by
  rw [sum_comp h _ fun c hc => by rw [longitudinalFt_ge h _ hc]; simp]
  unfold transversalFt
  simp only [longitudinalFt_lt]
  by_cases ho : o x
  · simp [ho]
  · have hne : (k2 k x : ℂ) ≠ 0 := k2_ne_zero (by rw [hk] at ho; push Not at ho; exact ho)
    simp only [if_neg ho, map_mul, conj_ofReal]
    set p := (starRingEnd ℂ) ((∑ b : Fin d, (k b x : ℂ) * F (Fin.castLE h b) x) / (k2 k x : ℂ))
    set q := ∑ b : Fin d, (k b x : ℂ) * G (Fin.castLE h b) x with hq
    have : ∀ a, (k a x : ℂ) * p * (G (Fin.castLE h a) x - (k a x : ℂ) * (q / (k2 k x : ℂ))) =
        p * ((k a x : ℂ) * G (Fin.castLE h a) x) - p * (q / (k2 k x : ℂ)) * ((k a x : ℂ) * (k a x : ℂ)) := fun a => by ring
    simp_rw [this]
    rw [Finset.sum_sub_distrib, ← Finset.mul_sum, ← Finset.mul_sum, ← hq, k2_sum]
    field_simp; ring

/-- **C25.** The transversal part is divergence free. -/
theorem C25_transversal_div_ft (hd : d ≤ m) (F : Fin m → X → ℂ) :
    divFt (p := 1) k (fun c _ => transversalFt k o hd F c) = .ok fun _ _ => 0 := by
  rw [divFt, dif_pos hd]
  congr 1
  funext j x
  simp_rw [mul_assoc]
  rw [← Finset.mul_sum]
  by_cases ho : o x
  · have := (hk x).1 ho; simp [this]
  · have hne : (k2 k x : ℂ) ≠ 0 := k2_ne_zero (by rw [hk] at ho; push Not at ho; exact ho)
    unfold transversalFt
    simp only [longitudinalFt_lt, if_neg ho]
    set q := ∑ b : Fin d, (k b x : ℂ) * F (Fin.castLE hd b) x with hq
    have : ∀ a, (k a x : ℂ) * (F (Fin.castLE hd a) x - (k a x : ℂ) * (q / (k2 k x : ℂ))) =
        (k a x : ℂ) * F (Fin.castLE hd a) x - (q / (k2 k x : ℂ)) * ((k a x : ℂ) * (k a x : ℂ)) := fun a => by ring
    simp_rw [this]
    rw [Finset.sum_sub_distrib, ← Finset.mul_sum, ← hq, k2_sum]
    field_simp; ring

/-- **C25.** The longitudinal part is curl free. -/
theorem C25_longitudinal_curl_ft (hd : d ≤ 3) (F : Fin 3 → X → ℂ) : curlFt 3 k (longitudinalFt k o hd F) = fun _ _ => 0 := by
  funext c x
  by_cases ho : o x
  · have hz := (hk x).1 ho
    have := congrFun (C24_curl_ft k (longitudinalFt k o hd F) x) c
    rw [this]
    have : kVector k x = 0 := by funext c; unfold kVector; split_ifs <;> simp [hz]
    rw [this]; simp
  · set phi : ℂ := (∑ b : Fin d, (k b x : ℂ) * F (Fin.castLE hd b) x) / (k2 k x : ℂ) with hphi
    have := congrFun (C24_curl_ft k (longitudinalFt k o hd F) x) c
    rw [this]
    have : vector (longitudinalFt k o hd F) x = phi • kVector k x := by
      funext c
      simp only [vector, c.isLt, dif_pos, Pi.smul_apply, smul_eq_mul, kVector]
      rcases castLE_cases hd c with ⟨a, rfl⟩ | hc
      · have ha : ((Fin.castLE hd a : Fin 3) : ℕ) < d := a.isLt
        rw [dif_pos ha]
        have := longitudinalFt_lt (k := k) (o := o) hd F a x
        rw [if_neg ho] at this
        refine Eq.trans this ?_
        rw [mul_comm]; rfl
      · rw [dif_neg hc, mul_zero]
        exact longitudinalFt_ge hd _ hc x
    rw [this, LinearMap.map_smul, cross_self]; simp

/-- **C25.** The projections are determined by these properties, away from the zero frequency: whenever a field is the sum of a part
along `k` and a part perpendicular to `k`, these are its projections. -/
theorem C25_unique_ft (h : d ≤ m) {F T : Fin m → X → ℂ} {phi : X → ℂ} {x : X} (ho : ¬ o x)
    (hF : ∀ c, F c x = (if hc : (c : ℕ) < d then (k ⟨c, hc⟩ x : ℂ) else 0) * phi x + T c x)
    (hT : ∑ a : Fin d, (k a x : ℂ) * T (Fin.castLE h a) x = 0) (c : Fin m) :
    longitudinalFt k o h F c x = (if hc : (c : ℕ) < d then (k ⟨c, hc⟩ x : ℂ) else 0) * phi x ∧ transversalFt k o h F c x = T c x := by
  have hne : (k2 k x : ℂ) ≠ 0 := k2_ne_zero (by rw [hk] at ho; push Not at ho; exact ho)
  have key : longitudinalFt k o h F c x = (if hc : (c : ℕ) < d then (k ⟨c, hc⟩ x : ℂ) else 0) * phi x := by
    rcases castLE_cases h c with ⟨a, rfl⟩ | hc
    · have ha : ((Fin.castLE h a : Fin m) : ℕ) < d := a.isLt
      rw [longitudinalFt_lt, if_neg ho, dif_pos ha]
      have : ∑ b : Fin d, (k b x : ℂ) * F (Fin.castLE h b) x = (k2 k x : ℂ) * phi x := by
        have e : ∀ b : Fin d, (k b x : ℂ) * F (Fin.castLE h b) x =
            ((k b x : ℂ) * (k b x : ℂ)) * phi x + (k b x : ℂ) * T (Fin.castLE h b) x := by
          intro b
          rw [hF, dif_pos (by exact b.isLt)]
          have : (⟨((Fin.castLE h b : Fin m) : ℕ), b.isLt⟩ : Fin d) = b := rfl
          rw [this]; ring
        simp_rw [e]
        rw [Finset.sum_add_distrib, hT, add_zero, ← Finset.sum_mul, k2_sum]
      rw [this]
      have e2 : (⟨((Fin.castLE h a : Fin m) : ℕ), ha⟩ : Fin d) = a := rfl
      rw [e2]
      field_simp
    · rw [longitudinalFt_ge h _ hc, dif_neg hc, zero_mul]
  exact ⟨key, by unfold transversalFt; rw [key, hF]; ring⟩

end Pointwise

/-- **C25.** At the zero frequency all components along the axes of the grid are longitudinal, the others are transversal. -/
theorem C25_zero_frequency {X : Type} {m : ℕ} {k : Fin d → X → ℝ} {o : X → Prop} [DecidablePred o] (h : d ≤ m) (F : Fin m → X → ℂ)
    {x : X} (ho : o x) (c : Fin m) :
    longitudinalFt k o h F c x = (if (c : ℕ) < d then F c x else 0) ∧ transversalFt k o h F c x = (if (c : ℕ) < d then 0 else F c x) := by
  unfold transversalFt longitudinalFt
  simp only [ho, if_true]
  split_ifs <;> simp

/-! ### C25, for fields in space -/

section Space
variable {N : Fin d → ℕ} {m : ℕ} {k : Fin d → Idx N → ℝ}

/-- **C25.** The projections of every field in space add up to it. -/
theorem C25_sum (h : d ≤ m) (F : Fin m → Idx N → ℂ) (c : Fin m) (x : Idx N) :
    longitudinal k h F c x + transversal k h F c x = F c x := by
  unfold longitudinal transversal convolve
  set L := longitudinalFt k origin h (fun c' => ft (F c'))
  set T := transversalFt k origin h (fun c' => ft (F c'))
  have := congrFun (C23_ift_linear 1 1 (L c) (T c)) x
  simp only [one_mul] at this
  rw [← this]
  have e : (fun k' => L c k' + T c k') = ft (F c) := by
    funext y; exact C25_sum_ft h (fun c' => ft (F c')) c y
  rw [e, C23_ift_ft]

variable (hk : ∀ x, origin x ↔ ∀ a, k a x = 0)
include hk

/-- **C25.** The projections in space are idempotent and their composition is zero. -/
theorem C25_idempotent (h : d ≤ m) (F : Fin m → Idx N → ℂ) :
    longitudinal k h (longitudinal k h F) = longitudinal k h F ∧ transversal k h (transversal k h F) = transversal k h F ∧
      longitudinal k h (transversal k h F) = (fun _ _ => 0) ∧ transversal k h (longitudinal k h F) = fun _ _ => 0 := by
  unfold longitudinal transversal convolve
  simp only [C23_ft_ift]
  refine ⟨?_, ?_, ?_, ?_⟩
  · rw [show (fun c' => longitudinalFt k origin h (fun c' => ft (F c')) c') = longitudinalFt k origin h (fun c' => ft (F c')) from rfl,
      C25_longitudinal_ft_longitudinal hk]
  · rw [show (fun c' => transversalFt k origin h (fun c' => ft (F c')) c') = transversalFt k origin h (fun c' => ft (F c')) from rfl,
      C25_transversal_ft_transversal hk]
  · rw [show (fun c' => transversalFt k origin h (fun c' => ft (F c')) c') = transversalFt k origin h (fun c' => ft (F c')) from rfl,
      C25_longitudinal_ft_transversal hk]
    funext c; exact ift_zero
  · rw [show (fun c' => longitudinalFt k origin h (fun c' => ft (F c')) c') = longitudinalFt k origin h (fun c' => ft (F c')) from rfl,
      C25_transversal_ft_longitudinal hk]
    funext c; exact ift_zero

/-- **C25.** The projections in space of two fields are orthogonal. -/
theorem C25_orthogonal (h : d ≤ m) (F G : Fin m → Idx N → ℂ) :
    ∑ c, ∑ x, (starRingEnd ℂ) (longitudinal k h F c x) * transversal k h G c x = 0 := by
  rcases isEmpty_or_nonempty (Idx N) with he | ⟨⟨x0⟩⟩
  · simp
  have h0 := prod_ne_zero_of_idx x0
  have key : ∀ c, (∏ a, (N a : ℂ)) * ∑ x, (starRingEnd ℂ) (longitudinal k h F c x) * transversal k h G c x =
      ∑ y, (starRingEnd ℂ) (longitudinalFt k origin h (fun c' => ft (F c')) c y) * transversalFt k origin h (fun c' => ft (G c')) c y := by
    intro c
    rw [← C23_inner]
    unfold longitudinal transversal convolve
    simp only [C23_ft_ift]
  have : (∏ a, (N a : ℂ)) * ∑ c, ∑ x, (starRingEnd ℂ) (longitudinal k h F c x) * transversal k h G c x = 0 := by
    rw [Finset.mul_sum]
    simp_rw [key]
    rw [Finset.sum_comm]
    exact Finset.sum_eq_zero fun y _ => C25_orthogonal_ft hk h _ _ y
  exact (mul_eq_zero.1 this).resolve_left h0

/-- **C25.** In space, transversal fields are divergence free and longitudinal fields curl free. -/
theorem C25_div_curl (hd : d ≤ 3) (F : Fin 3 → Idx N → ℂ) :
    div k (transversal k hd F) = .ok (fun _ => 0) ∧ curl 3 k (longitudinal k hd F) = fun _ _ => 0 := by
  constructor
  · unfold div transversal convolve
    simp only [C23_ft_ift]
    rw [C25_transversal_div_ft hk hd]
    simp only [Except.map, ift_zero]
  · unfold curl longitudinal convolve
    simp only [C23_ft_ift]
    rw [show (fun c' => longitudinalFt k origin hd (fun c' => ft (F c')) c') = longitudinalFt k origin hd (fun c' => ft (F c')) from rfl,
      C25_longitudinal_curl_ft hk hd]
    funext c; exact ift_zero

end Space

/-! ### Examples: the hypotheses hold for every grid with non-zero steps -/

example (g : Grid.Obj 2 ℝ) (hs : ∀ a, g.step a ≠ 0) (F : Fin 3 → Idx g.shape → ℂ) :
    div (kOf g) (transversal (kOf g) (by decide) F) = .ok (fun _ => 0) := (C25_div_curl (kOf_origin g hs) _ F).1

/-- A field that is neither longitudinal nor transversal. -/
example : longitudinalFt (X := Unit) (fun (a : Fin 2) _ => ![3, 4] a) (fun _ => False) (by decide : 2 ≤ 3)
    (fun c _ => ![1, 0, 1] c) = fun c _ => ![9 / 25, 12 / 25, 0] c := by
  funext c x
  match c with
  | 0 => simp [longitudinalFt, k2, Fin.sum_univ_succ]; norm_num
  | 1 => simp [longitudinalFt, k2, Fin.sum_univ_succ]; norm_num
  | 2 => simp [longitudinalFt]

end Verif.Backend
