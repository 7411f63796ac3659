import Verif.Props.Dim
import Verif.Props.Bound
import Verif.Props.Display
import Verif.Props.Complex2rgb
import Verif.Props.Channels
import Verif.Props.Annotate
import Verif.Props.Config
import Verif.Props.Device
import Verif.Props.Assign
import Verif.Props.Backend
import Verif.Props.Round125
import Verif.Props.StopCriterion

/-!
# More concrete cases that meet the assumptions of the theorems about the utility functions and the back end

Each is an application of the named theorem.
-/

namespace Verif.Dim

open Verif Verif.Spec.Dim

/-- Two rows of three elements. -/
def table : ND ℕ := ⟨[2, 3], [1, 2, 3, 4, 5, 6]⟩

theorem table_wf : table.WF := rfl

/-- `C11_left_to_add`, `C11_left_to_remove`, `C11_left_to_raises_partial`. -/
example : ∃ r, leftTo table 4 = .ok r ∧ r.shape = [1, 1, 2, 3] ∧ r.data = table.data := by
  obtain ⟨r, h, hs, -, hd, -⟩ := C11_left_to_add table_wf (n := 4) (by decide)
  exact ⟨r, h, hs, hd⟩

example := C11_left_to_remove (a := (⟨[1, 1, 2, 3], table.data⟩ : ND ℕ)) rfl (k := 2) (s := [2, 3]) rfl

example : leftTo table 1 = .error .valueError := C11_left_to_raises_partial table_wf (by decide) (i := 0) (by decide) (by decide)

/-- `C11_right_to_add`, `C11_right_to_remove_ndim`, `C11_right_to_remove_partial`. -/
example := C11_right_to_add table_wf (n := 4) (by decide)

example (r : ND ℕ) (h : rightTo (⟨[2, 3, 1], table.data⟩ : ND ℕ) 2 = .ok r) : r.ndim = 1 := C11_right_to_remove_ndim (by decide) (s := [2, 3]) rfl h

example := C11_right_to_remove_partial (a := (⟨[2, 3, 1, 1], table.data⟩ : ND ℕ)) rfl (s := [2, 3]) rfl

/-- `C11_add_both`, `C11_add_left_ndim`, `C11_add_right_ndim`. -/
example : add table (some 1) (some 2) none = .ok ⟨[1, 2, 3, 1, 1], table.data⟩ := C11_add_both table_wf 1 2 none

example : add table (some 1) none (some 5) = .ok ⟨[1, 2, 3, 1, 1], table.data⟩ := C11_add_left_ndim table_wf 1 5 (by decide)

example : add table none (some 1) (some 5) = .ok ⟨[1, 1, 2, 3, 1], table.data⟩ := C11_add_right_ndim table_wf 1 5 (by decide)

/-- `C11_elements`, `C12_to_axis`, `C12_to_axis_array`. -/
example : ElementAt [1, 1, 2, 3] table.data [0, 0, 1, 2] 6 :=
  (C11_elements table_wf (n := 4) (by decide) (l := ⟨[1, 1, 2, 3], table.data⟩) (r := ⟨[2, 3, 1, 1], table.data⟩) (by decide) (by decide) (index := [1, 2])
    ⟨.cons (by norm_num) (.cons (by norm_num) .nil), rfl⟩).1

example := C12_to_axis [10, 20, 30] (axis := -2) (ndim := 4) (target := 2) ⟨by norm_num, .inr (by norm_num)⟩

example : toAxis table 1 (some 4) = .ok ⟨[1, 2, 3, 1], table.data⟩ := C12_to_axis_array table_wf (axis := 1) (by decide) (by decide)

end Verif.Dim

namespace Verif.Bound

open Verif Verif.Grid Verif.Spec.Grid Verif.Spec.Bound

theorem exampleGrid_on (i : Fin 5) : OnGrid (exampleGrid 1) ![(i : ℚ)] := by
  intro a
  have : a = 0 := Subsingleton.elim _ _
  subst this
  exact ⟨i, i.2, by simp [axisOf, Axis.first, exampleGrid, firstSample, centerPos]⟩

/-- `C20_between_partial`, `C20_extinction_between_partial` and `C20_extinction_beyond_partial`: boundaries with a thickness of 2 on a grid of 5 samples. -/
example := C20_between_partial (b := linear (exampleGrid 1) (fun _ _ => 2) fun _ _ => 1) (exampleGrid_plain 1) (fun _ => one_pos) (exampleGrid_on 3)

example : extinction (linear (exampleGrid 1) (fun _ _ => 2) fun _ _ => 1) ![2] = .ok 0 :=
  C20_extinction_between_partial (b := linear (exampleGrid 1) (fun _ _ => 2) fun _ _ => 1) (exampleGrid_plain 1) (fun _ => one_pos) (exampleGrid_on 2) (by decide +kernel)

/-- `C21_range_partial`, `C21_outermost_partial`. -/
example := C21_range_partial (thickness := fun _ _ => 2) (kappaMax := fun _ _ => (1 : ℚ)) (B := 3) (exampleGrid_plain 1) (fun _ => one_pos) (exampleGrid_on 1) (fun _ _ => zero_le_one) (fun _ _ => by norm_num) (by norm_num)

/-- `C22_no_gain`. -/
example : 0 ≤ (susceptibility (2 - Complex.I) (1 / 2)).im := C22_no_gain _ (by norm_num)

end Verif.Bound

namespace Verif.Display

open Verif Verif.Spec.Display

/-- `C16_range`, `C16_periodic`, `C17_mirror`. -/
example := C16_range (K := ℚ) (h := 5 / 7) (s := 1 / 2) (v := 3) (by norm_num) (by norm_num) (by norm_num) (by norm_num) (by norm_num)

example : hsv2rgb (5 / 7 + 1 : ℚ) (1 / 2) 3 = hsv2rgb (5 / 7) (1 / 2) 3 := C16_periodic (by norm_num) (by norm_num) _ _

example := C17_mirror (x := (⟨1 / 4, 1 / 2, 1⟩ : Pixel ℚ)) (by norm_num) (by norm_num)

/-- `C18_range`, `C18_normalization`, `C18_scaling`, `C18_injective`, `C18_integer`. -/
example := C18_normalization (ty := .float) (by decide) (image := [0, 3, Complex.I]) (nrm := 2) (by norm_num) ⟨3, by simp, by norm_num⟩ false

example := C18_scaling (Complex.I / 2) (c := 3 / 2) (by norm_num) (by simp; norm_num) (by simp; norm_num)

example (z : ℂ) (hz : ‖z‖ ≤ 1) (h : pixel false z.arg ‖z‖ = pixel false (Complex.I).arg ‖Complex.I‖) : z = Complex.I := C18_injective hz (by simp) h

example : |(toInteger 255 (1 / 3) : ℝ) - 1 / 3 * 255| ≤ 1 / 2 := (C18_integer (maxInt := 255) (c := 1 / 3) (by norm_num) (by norm_num)).2.2

/-- `C19_extent`, `C19_single`, `C19_short`. -/
example := C19_extent (K := ℚ) [] 0 1 10 10 (m := 4) (n := 3) (by norm_num) (by norm_num) true

example := C19_single (K := ℚ) 10 10 (n := 3) (by norm_num) true

example : grid2extent [[0], [10, 20, 30]] false = (.error .valueError : Except PyErr (List ℚ)) := C19_short [] (v := [0]) (h := [10, 20, 30]) (.inl (by simp)) false

/-- `C131_rgb2hsv_partial`: an opacity between the smallest and the largest channel; `C131_axis`. -/
example := C131_rgb2hsv_partial (1 / 4 : ℚ) (1 / 2) 1 (1 / 3) (by norm_num) (by norm_num)

example : toFront 1 (fromFront 1 (stackChannels fun _ => [(7 : ℚ), 8, 9])) [2, 5, 6] = some 9 := C131_axis (fun _ => [(7 : ℚ), 8, 9]) (rest := [5, 6]) (by decide) 2

end Verif.Display

namespace Verif.Config

/-- `C29_first`, `C29_numpy`, `C29_history`, `C29_file_unreadable`. -/
example := C29_first (lower := id) (available := fun dev => dev == some "cpu") rfl [{ type := some "torch", device := some "cuda" }]

example := C29_numpy (lower := id) (available := fun _ => false) rfl (fun _ => rfl) [{ type := some "torch", device := some "cuda" }]

example := C29_history (lower := id) (available := fun dev => dev == some "cpu") (contains := fun _ => true) rfl

example := C29_file_unreadable (lower := id) (available := fun _ => false) rfl .missing (.inl rfl)

/-- `C124_cpu`, `C124_ordinal`, `C124_load`. -/
example : (machine 2).torch (some "cpu") = some "cpu" := C124_cpu rfl rfl (by decide +kernel)

example := C124_load (M := machine 2) (lower := id) rfl [{ type := some "torch", device := some "cuda:1" }]

end Verif.Config

namespace Verif.Assign

/-- `C30_full_rank`: a matrix field of shape 1, 3, 4 is transposed. -/
example := (C30_full_rank (d := 1) (⟨[1, 3, 4], fun i => i.getD 1 0⟩ : Arr ℕ) ![1, 3, 4] rfl).2 ⟨rfl, by decide⟩

end Verif.Assign

namespace Verif.Backend

open Verif Verif.Fourier

/-- `C24_kOf`, `C24_div_ft`, `C24_div_ft_short`, `C24_div_curl_ft`, `C24_div_curl`: two axes. -/
example (g : Grid.Obj 2 ℝ) (hs : ∀ a, g.step a ≠ 0) := C24_kOf g fun a _ => hs a

example (X : Type) (k : Fin 2 → X → ℝ) (F : Fin 3 → Fin 2 → X → ℂ) := C24_div_ft k (by decide) F

example (X : Type) (k : Fin 2 → X → ℝ) (F : Fin 1 → Fin 2 → X → ℂ) : divFt k F = .error .indexError := C24_div_ft_short k (by decide) F

example (X : Type) (k : Fin 2 → X → ℝ) (F : Fin 3 → X → ℂ) := C24_div_curl_ft k (by decide) F

example (N : Fin 2 → ℕ) (k : Fin 2 → Idx N → ℝ) (F : Fin 3 → Idx N → ℂ) : div k (curl 3 k F) = .ok fun _ => 0 := C24_div_curl k (by decide) F

/-- The `C25` theorems for the Fourier transforms: two points with different wavevectors, one of which is 0. -/
example := C25_sum_ft (X := Bool) (k := fun (a : Fin 2) x => if x then ![3, 4] a else 0) (o := fun x => x = false) (m := 3) (by decide)

theorem twoPoints (x : Bool) : x = false ↔ ∀ a : Fin 2, (fun (a : Fin 2) (x : Bool) => if x then ![(3 : ℝ), 4] a else 0) a x = 0 := by
  cases x <;> simp

/-- `C25_longitudinal_ft_longitudinal`, `C25_longitudinal_ft_transversal`, `C25_transversal_ft_longitudinal`, `C25_transversal_ft_transversal`, `C25_orthogonal_ft`, `C25_transversal_div_ft`,
`C25_longitudinal_curl_ft`, `C25_unique_ft`, `C25_zero_frequency`. -/
example := C25_longitudinal_ft_longitudinal twoPoints (m := 3) (by decide)

example := C25_longitudinal_ft_transversal twoPoints (m := 3) (by decide)

example := C25_transversal_ft_longitudinal twoPoints (m := 3) (by decide)

example := C25_transversal_ft_transversal twoPoints (m := 3) (by decide)

example := C25_orthogonal_ft twoPoints (m := 3) (by decide)

example := C25_transversal_div_ft twoPoints (m := 3) (by decide)

example := C25_longitudinal_curl_ft twoPoints (by decide)

/-- `C25_sum`, `C25_idempotent`, `C25_orthogonal`: grids with two axes. -/
example (g : Grid.Obj 2 ℝ) (hs : ∀ a, g.step a ≠ 0) := C25_idempotent (kOf_origin g hs) (m := 3) (by decide)

example (g : Grid.Obj 2 ℝ) (hs : ∀ a, g.step a ≠ 0) := C25_orthogonal (kOf_origin g hs) (m := 3) (by decide)

end Verif.Backend

namespace Verif.Round125

/-- `C13_series`, `C13_near`, `C13_tiny`. -/
example := C13_series (x := -3) (by norm_num)

example : 63 / 100 * 3 < round125 3 ∧ round125 3 < 159 / 100 * 3 := C13_near (by norm_num)

example : round125 (1 / 10 ^ 12) = 1 / 10 ^ 10 := C13_tiny (by norm_num) (by norm_num)

end Verif.Round125

namespace Verif.StopCriterion

/-- A state after 51 iterations. -/
noncomputable def later : State := { it0 := 27, it1 := 52, res0 := 1 / 2, res1 := 1, previous := some 51 }

/-- `C15_limit_partial`, `C15_raises`, `C15_next_check`. -/
example := C15_limit_partial (target := 1 / 10000) (limit := 40) (s := later) (iteration := 53) (residue := 1 / 3) (by norm_num) (by simp [resetNew, later]) (by simp [resetNew, later])

example := C15_raises (target := 1 / 10000) (limit := 10000) (s := later) (residue := 1 / 3) (p := 51) rfl (by simp [later]) (by simp [later]) (by simp [later]) (by norm_num)

example (s' : State) (h : call (1 / 10000) 10000 later 52 (1 / 3) = .ok (true, s')) := C15_next_check (iteration := 52) (by norm_num) rfl (by simp [later]) (by simp [later]) h

end Verif.StopCriterion
