import Verif.Props.ScatteringLinear
import Verif.Props.ScatteringGrid

/-!
Concrete cases, not trivial, that meet the hypotheses of the theorems about the modes, the free-space fields, the sources and the products of a scattering matrix.
-/

namespace Verif.Scattering

open Verif.Fourier Verif.Spec.Modes Complex Verif.Mat Verif.Spec.Mat

/-- Source or detection planes at the samples 3 and 16 of 20. -/
def demoPlanes : Fin 2 → Fin demo0.shape0 := fun side => if side = 0 then ⟨3, by norm_num [demo0]⟩ else ⟨16, by norm_num [demo0]⟩

theorem demoPlanes_ne : demoPlanes 0 ≠ demoPlanes 1 := fun h => by
  have := congrArg Fin.val h
  simp [demoPlanes] at this

/-- Amplitudes 1 from both sides. -/
theorem unit_significant : ∀ side, demo0.Significant (P := scalar) (fun _ _ _ => 1) side := by
  intro side
  right
  intro h
  rw [corrected_zero] at h
  have hc := count_zero demo0
  have := h ⟨0, by rw [hc]; norm_num⟩ (0 : Fin 1)
  norm_num at this

/-- `C53_sound`, `C53_members_partial`, `C53_order` and `C53_reverse_partial`: 4 samples, half a wavelength apart. -/
example (q : Idx demo.shape) (h : q ∈ demo.modes) : Propagating demo.k0 (demo.wavevector q) := C53_sound demo (by norm_num [demo]) demo_regular.k0 q h

example : ({ demo with tol := 0 }).modes.Nodup := (C53_members_partial { demo with tol := 0 } rfl demo_regular.k0).1

example : (demo.modes.map demo.wavevector).Pairwise RasterLT := C53_order demo fun a => by norm_num [demo]

example : demo.modes.reverse.map demo.wavevector = demo.modes.map fun q a => -demo.wavevector q a :=
  C53_reverse_partial demo (by norm_num [demo]) demo_regular.k0 (fun a => by norm_num [demo]) fun a => .inr (by simp only [demo]; rw [abs_of_pos (by norm_num)]; linarith)

/-- `C54_partial`: unit amplitudes pass through empty space. -/
example : demo0.scatter scalar demoPlanes (demo0.incident scalar) (fun _ _ _ => 1) = fun _ _ _ => 1 :=
  C54_partial demo0 demo0_regular scalar (.inl rfl) demoPlanes demoPlanes_ne _ unit_significant

/-- `C54_detect` and `C54_code`. -/
example (side : Fin 2) : demo0.detect scalar demoPlanes (demo0.sideField scalar (fun _ _ _ => 1) side) side = fun _ _ => 1 := by
  rw [C54_detect demo0 (by norm_num) demo0_regular.tol demo0_regular.k0 scalar scalar_lawful demoPlanes (fun _ _ _ => 1) side]
  rw [if_neg]
  rcases unit_significant side with h | h
  · have := h ⟨0, by rw [count_zero]; norm_num⟩ (0 : Fin 1)
    norm_num at this
  · exact h

example (side : Fin 2) : demo0.scatter scalar demoPlanes (demo0.freespace scalar) (fun _ _ _ => 1) side = open Classical in
    if allClose0 (demo0.corrected (P := scalar) (fun _ _ _ => 1) side) then 0 else fun _ _ => 1 :=
  C54_code demo0 (by norm_num) demo0_regular.tol demo0_regular.k0 scalar scalar_lawful demoPlanes demoPlanes_ne _ _ (fun _ _ _ => rfl) side

/-- `C66_partial`: unit amplitudes from both sides; `C66_polarization` and `C66_transverse`: circular polarization. -/
example (i : Fin demo0.shape0) (x : Idx demo0.shape) : demo0.freespace scalar (fun _ _ _ => 1) (0 : Fin 1) i x =
    superposition demo0.k0 demo0.waves (fun m => scalar.rotate (demo0.dir m) fun _ => 1) (fun m => scalar.rotate (demo0.dir m) fun _ => 1) (0 : Fin 1) (demo0.position i) (demo0.transverse x) :=
  C66_partial demo0 demo0_regular scalar scalar_lawful _ unit_significant (0 : Fin 1) i x

example (m : Fin demo.count) : vectorial.rotate (demo.dir m) ![1, I] = polarized (demo.dir m) ![1, I] :=
  C66_polarization demo (by norm_num) demo_regular.tol demo_regular.k0 m _

example (m : Fin demo.count) : ∑ c : Fin 3, vectorial.rotate (demo.dir m) ![1, I] c * (starRingEnd ℂ) (vectorial.rotate (demo.dir m) ![1, I] c) = 2 := by
  rw [(C66_transverse demo (by norm_num) demo_regular.tol demo_regular.k0 m ![1, I]).2, Fin.sum_univ_two]
  simp
  norm_num

/-- `C67_front`, `C67_back_partial`, `C67_detectors` and `C67_order`: 20 samples with a step 1/4, boundaries of one and a half and of one, wavelength 1/2. -/
example : (3 / 2 : ℝ) < (sourcePlanes 20 (1 / 4) (3 / 2) 1).1 * (1 / 4) := (C67_front 20 (1 / 4) (3 / 2) 1 (by norm_num) (by norm_num)).1

example : (20 - 1 - (sourcePlanes 20 (1 / 4) (3 / 2) 1).2) * (1 / 4 : ℝ) = 1 :=
  (C67_back_partial 20 (1 / 4) (3 / 2) 1 (by norm_num) (by norm_num)).2.2.2 ⟨4, by norm_num⟩

example : |((detectorPlanes 20 (1 / 4) (3 / 2) 1 (1 / 2)).1 - (sourcePlanes 20 (1 / 4) (3 / 2) 1).1) * (1 / 4 : ℝ) - 1 / 2| < 1 / 4 :=
  (C67_detectors 20 (1 / 4) (3 / 2) 1 (1 / 2) (by norm_num) (by norm_num) (by norm_num) (by norm_num)).1

example : (detectorPlanes 20 (1 / 4) (3 / 2) 1 (1 / 2)).1 < (detectorPlanes 20 (1 / 4) (3 / 2) 1 (1 / 2)).2 :=
  (C67_order 20 (1 / 4) (3 / 2) 1 (1 / 2) (by norm_num) (by norm_num) (by norm_num) (by norm_num) (by norm_num)).2.2.1

/-- `C96_default`: any solver, any vector. -/
example (f : Field demo0 scalar → Field demo0 scalar) (v : Fin (2 * scalar.p * demo0.count) → ℂ) (side : Fin 2) :
    unflatten (demo0.deposit scalar 3 (1 / 2) demoPlanes demoPlanes f v) side =
      unflatten (demo0.product scalar 3 (1 / 2) demoPlanes demoPlanes f v) side + demo0.detect scalar demoPlanes (demo0.freespace scalar (mask (unflatten v) side)) side :=
  C96_default demo0 scalar 3 (1 / 2) demoPlanes demoPlanes f (.inl rfl) demoPlanes_ne v side

/-- `C97_linear_partial` and `C97_cached_partial`: the field of a solver that returns three times the source. -/
example : ∃ matrix : Fin (2 * scalar.p * demo0.count) → Fin (2 * scalar.p * demo0.count) → ℂ, ∀ v, demo0.Proper scalar 3 (1 / 2) (unflatten v) →
    demo0.product scalar 3 (1 / 2) demoPlanes demoPlanes (fun f => (3 : ℂ) • f) v = fun i => ∑ j, matrix i j * v j :=
  C97_linear_partial demo0 scalar 3 (1 / 2) demoPlanes demoPlanes _ (.inl rfl) ⟨fun _ _ => smul_add _ _ _, fun _ _ => smul_comm _ _ _⟩

example (b : Bool) : ((Cache.init b).run (demo0.product scalar 3 (1 / 2) demoPlanes demoPlanes fun f => (3 : ℂ) • f) [.product [0], .setCaching true, .product [0, 0]]).1 =
    expected (demo0.product scalar 3 (1 / 2) demoPlanes demoPlanes fun f => (3 : ℂ) • f) [.product [0], .setCaching true, .product [0, 0]] :=
  C97_cached_partial demo0 scalar 3 (1 / 2) demoPlanes demoPlanes _ (.inl rfl) (fun _ _ => smul_comm _ _ _) b _ fun v hv => by
    have : v = 0 := by simpa [vectors] using hv
    subst this
    exact fun side => ⟨.inl fun _ _ => rfl, .inl fun m q => by simp [Setup.sourceVector, unflatten]⟩

end Verif.Scattering
