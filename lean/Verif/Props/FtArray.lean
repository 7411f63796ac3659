import Verif.Model.FtArray
import Verif.Props.Fourier

/-!
# Property C137: the Fourier transforms of the back end do not depend on the library
-/

namespace Verif.FtArray

open Verif Verif.Assign Verif.Fourier

variable {d : ℕ}

/-! ### Specification -/

/-- The component in row `r` and column `c` of an array with the spatial axes `S`, as a function of the sample point. -/
def component (S : Fin d → ℕ) (E : Field d ℂ) (r c : ℕ) : Idx S → ℂ := fun x => E.val (Fin.cons r (Fin.cons c fun a => (x a : ℕ)))

/-- The array has the given number of samples along each axis. -/
def Sampled (E : Field d ℂ) (S : Fin d → ℕ) : Prop := ∀ a : Fin d, E.shape a.succ.succ = S a

/-- The component of the field that an array represents on a grid with the shape `N`: it does not depend on the position along axes of length 1. -/
def represented (N : Fin d → ℕ) (E : Field d ℂ) (r c : ℕ) : Idx N → ℂ :=
  fun x => E.val (Fin.cons r (Fin.cons c fun a => if E.shape a.succ.succ = 1 then 0 else (x a : ℕ)))

/-! ### Lemmas -/

theorem space_eq {E : Field d ℂ} {S : Fin d → ℕ} (h : Sampled E S) : space E = S := funext h

theorem component_fftn {E : Field d ℂ} {S : Fin d → ℕ} (h : Sampled E S) (r c : ℕ) : component S (fftn E) r c = Fourier.ft (component S E r c) := by
  obtain rfl := space_eq h
  funext k
  simp only [component, fftn, Fourier.ft, place, Fin.cons_zero, Fin.cons_succ, Fin.cons_one]

theorem component_ifftn {E : Field d ℂ} {S : Fin d → ℕ} (h : Sampled E S) (r c : ℕ) : component S (ifftn E) r c = Fourier.ift (component S E r c) := by
  obtain rfl := space_eq h
  funext k
  simp only [component, ifftn, Fourier.ift, place, Fin.cons_zero, Fin.cons_succ, Fin.cons_one]

theorem single_zero {S : Fin d → ℕ} (h : ∀ a, S a = 1) (x : Idx S) (a : Fin d) : (x a : ℕ) = 0 := by
  have := (x a).isLt
  have := h a
  omega

theorem ft_single {S : Fin d → ℕ} (h : ∀ a, S a = 1) (f : Idx S → ℂ) : Fourier.ft f = f := by
  funext k
  rw [Fourier.ft, Finset.sum_eq_single k]
  · simp [twiddle, single_zero h]
  · intro x _ hx
    exact absurd (funext fun a => Fin.ext ((single_zero h x a).trans (single_zero h k a).symm)) hx
  · simp

theorem ift_single {S : Fin d → ℕ} (h : ∀ a, S a = 1) (f : Idx S → ℂ) : Fourier.ift f = f := by
  funext k
  rw [Fourier.ift, Finset.sum_eq_single k]
  · simp [untwiddle, single_zero h, h]
  · intro x _ hx
    exact absurd (funext fun a => Fin.ext ((single_zero h x a).trans (single_zero h k a).symm)) hx
  · simp

/-! ### C137 -/

/-- **C137 (transform).** With either library, the Fourier transform of an array on the grid, and of an array that does not depend on the position, is its discrete Fourier transform over the
spatial axes, for each of its components. -/
theorem C137_ft (lib : Library) {N : Fin d → ℕ} {E : Field d ℂ} {S : Fin d → ℕ} (hE : Sampled E S) (h1 : ∀ a, 1 ≤ S a) (hS : S = N ∨ ∀ a, S a = 1) :
    ∃ F, ft lib N E = .ok F ∧ Sampled F S ∧ F.shape = E.shape ∧ ∀ r c, component S F r c = Fourier.ft (component S E r c) := by
  by_cases hs : ∃ a, 1 < S a
  · have hN : S = N := hS.resolve_right fun h => by obtain ⟨a, ha⟩ := hs; have := h a; omega
    refine ⟨fftn E, ?_, hE, rfl, component_fftn hE⟩
    cases lib
    · rw [ft, space_eq hE]
      rw [if_pos hs, if_pos hN]
    · rfl
  · have h0 : ∀ a, S a = 1 := fun a => by
      have := h1 a
      by_contra h
      exact hs ⟨a, by omega⟩
    cases lib
    · refine ⟨E, ?_, hE, rfl, fun r c => (ft_single h0 _).symm⟩
      rw [ft, space_eq hE]
      rw [if_neg hs]
    · exact ⟨fftn E, rfl, hE, rfl, component_fftn hE⟩

/-- **C137 (inverse transform).** -/
theorem C137_ift (lib : Library) {N : Fin d → ℕ} {E : Field d ℂ} {S : Fin d → ℕ} (hE : Sampled E S) (h1 : ∀ a, 1 ≤ S a) (hS : S = N ∨ ∀ a, S a = 1) :
    ∃ F, ift lib N E = .ok F ∧ Sampled F S ∧ F.shape = E.shape ∧ ∀ r c, component S F r c = Fourier.ift (component S E r c) := by
  by_cases hs : ∃ a, 1 < S a
  · have hN : S = N := hS.resolve_right fun h => by obtain ⟨a, ha⟩ := hs; have := h a; omega
    refine ⟨ifftn E, ?_, hE, rfl, component_ifftn hE⟩
    cases lib
    · rw [ift, space_eq hE]
      rw [if_pos hs, if_pos hN]
    · rfl
  · have h0 : ∀ a, S a = 1 := fun a => by
      have := h1 a
      by_contra h
      exact hs ⟨a, by omega⟩
    cases lib
    · refine ⟨E, ?_, hE, rfl, fun r c => (ift_single h0 _).symm⟩
      rw [ift, space_eq hE]
      rw [if_neg hs]
    · exact ⟨ifftn E, rfl, hE, rfl, component_ifftn hE⟩

/-- **C137 (pair).** The one undoes the other, also when the libraries differ. -/
theorem C137_inverse (lib lib' : Library) {N : Fin d → ℕ} {E : Field d ℂ} {S : Fin d → ℕ} (hE : Sampled E S) (h1 : ∀ a, 1 ≤ S a) (hS : S = N ∨ ∀ a, S a = 1) :
    (∃ F G, ft lib N E = .ok F ∧ ift lib' N F = .ok G ∧ G.shape = E.shape ∧ ∀ r c, component S G r c = component S E r c) ∧
    ∃ F G, ift lib N E = .ok F ∧ ft lib' N F = .ok G ∧ G.shape = E.shape ∧ ∀ r c, component S G r c = component S E r c := by
  constructor
  · obtain ⟨F, e, hF, hs, hc⟩ := C137_ft lib hE h1 hS
    obtain ⟨G, e', -, hs', hc'⟩ := C137_ift lib' hF h1 hS
    exact ⟨F, G, e, e', hs'.trans hs, fun r c => by rw [hc', hc, C23_ift_ft]⟩
  · obtain ⟨F, e, hF, hs, hc⟩ := C137_ift lib hE h1 hS
    obtain ⟨G, e', -, hs', hc'⟩ := C137_ft lib' hF h1 hS
    exact ⟨F, G, e, e', hs'.trans hs, fun r c => by rw [hc', hc, C23_ft_ift]⟩

/-- **C137 (stock library).** Without `pyfftw` all arrays are transformed, over their own axes. -/
theorem C137_stock (N : Fin d → ℕ) {E : Field d ℂ} {S : Fin d → ℕ} (hE : Sampled E S) :
    (∃ F, ft .stock N E = .ok F ∧ F.shape = E.shape ∧ ∀ r c, component S F r c = Fourier.ft (component S E r c)) ∧
    ∃ F, ift .stock N E = .ok F ∧ F.shape = E.shape ∧ ∀ r c, component S F r c = Fourier.ift (component S E r c) :=
  ⟨⟨_, rfl, rfl, component_fftn hE⟩, ⟨_, rfl, rfl, component_ifftn hE⟩⟩

/-- **C137 (library)** is violated by all other arrays, e.g. those that depend on the position along some of the axes: these raise an AssertionError with `pyfftw`, and only with that. -/
theorem C137_library_violates (lib : Library) {N : Fin d → ℕ} {E : Field d ℂ} {S : Fin d → ℕ} (hE : Sampled E S) (hs : ∃ a, 1 < S a) (hN : S ≠ N) :
    (ft lib N E = .error .assertion ↔ lib = .fftw) ∧ (ift lib N E = .error .assertion ↔ lib = .fftw) := by
  cases lib
  · rw [ft, ift, space_eq hE]
    rw [if_pos hs, if_neg hN, if_pos hs, if_neg hN]
    simp
  · simp [ft, ift]

/-- **C137 (fields)** is violated by arrays with axes of length 1: these represent fields that do not depend on the position, of which the Fourier transform is zero except at the first
point, where it is larger by the number of samples. -/
theorem C137_field_violates (lib : Library) {N : Fin d → ℕ} [∀ a, NeZero (N a)] {E : Field d ℂ} (hE : Sampled E fun _ => 1) (r c : ℕ) :
    ∃ F, ft lib N E = .ok F ∧ F.val (Fin.cons r (Fin.cons c fun _ => 0)) = E.val (Fin.cons r (Fin.cons c fun _ => 0)) ∧
      Fourier.ft (represented N E r c) (fun _ => 0) = (∏ a, (N a : ℂ)) * E.val (Fin.cons r (Fin.cons c fun _ => 0)) := by
  obtain ⟨F, e, -, -, h⟩ := C137_ft lib (N := N) hE (fun _ => le_rfl) (.inr fun _ => rfl)
  refine ⟨F, e, ?_, ?_⟩
  · have := congrFun (h r c) fun _ => 0
    rw [ft_single (fun _ => rfl)] at this
    simpa [component] using this
  · have hE' : ∀ a : Fin d, E.shape a.succ.succ = 1 := hE
    simp [Fourier.ft, represented, hE', twiddle, Finset.sum_const, Finset.card_univ, Fintype.card_pi]

/-! ### Examples -/

/-- A vector field on a grid with 3 × 2 points. -/
noncomputable def demo : Field 2 ℂ := ⟨![3, 1, 3, 2], fun i => (i 0 : ℂ) + (i 2 : ℂ) * (i 3 : ℂ)⟩

theorem demo_sampled : Sampled demo ![3, 2] := fun a => by fin_cases a <;> rfl

/-- `C137_ft`, `C137_ift`, `C137_inverse`, `C137_stock` -/
example := C137_ft .fftw (N := ![3, 2]) demo_sampled (fun a => by fin_cases a <;> simp) (.inl rfl)
example := C137_ift .fftw (N := ![3, 2]) demo_sampled (fun a => by fin_cases a <;> simp) (.inl rfl)
example := C137_inverse .fftw .stock (N := ![3, 2]) demo_sampled (fun a => by fin_cases a <;> simp) (.inl rfl)
example := C137_stock ![3, 2] demo_sampled

/-- `C137_library_violates`: the field on a grid with 3 × 4 points. -/
example := C137_library_violates .fftw (N := ![3, 4]) demo_sampled ⟨0, by simp⟩ (fun h => by simpa using congrFun h 1)

/-- `C137_field_violates`: a constant on a grid with 3 × 3 points. -/
example := C137_field_violates .fftw (N := fun _ : Fin 2 => 3) (E := ⟨fun _ => 1, fun _ => 1⟩) (fun _ => rfl) 0 0

end Verif.FtArray
