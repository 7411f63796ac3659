import Verif.Props.Grid02
import Verif.Props.GridArguments
import Verif.Props.StopCriterion
import Verif.Props.Device
import Verif.Props.MatNumpy
import Verif.Props.Channels
import Verif.Props.Annotate

/-!
# Concrete cases that meet the assumptions of C01, C14, C95, C109, C124 and C131
-/

namespace Verif

/-- `C01_axis` and `C01_axis_error`: the last axis of two, and the third. -/
example := Grid.C01_axis Grid.exampleGrid 1 (.inl rfl)

example := Grid.C01_axis_error Grid.exampleGrid 2 (.inr (.inl le_rfl))

/-- `C14_reason`: the target is reached. -/
example : (1 / 100000 : ℝ) < 1 / 10000 ∨ (10000 : ℤ) ≤ 52 := by
  obtain ⟨s', h⟩ : ∃ s', StopCriterion.call (1 / 10000) 10000 { it0 := 27, it1 := 52, res0 := 1 / 2, res1 := 1, previous := some 51 } 52 (1 / 100000) = .ok (false, s') :=
    StopCriterion.C14_target (p := 51) rfl (by norm_num) (by norm_num) (by norm_num)
  exact StopCriterion.C14_reason h

/-- `C124_names`: two names for the second GPU. -/
example := Config.C124_names (M := Config.machine 2) id { type := some "torch", device := some "gpu:1" } { type := some "torch", device := some "cuda:1" } "gpu:1" "cuda:1" ":1" rfl rfl
  (by decide +kernel) (.inl (by decide +kernel))

/-- `C95_function_partial`: nested sequences without text. -/
example := Mat.C95_function_partial (fun m : ℕ => m + 10) (fun args (_ : List (Mat.Value ℕ ℕ ℕ)) => args) [.sequence [.matrix 1, .other 3]] (by
  intro v hv h
  obtain rfl := List.mem_singleton.1 hv
  cases h with
  | sequence hv h => rcases List.mem_cons.1 hv with rfl | hv
                     · cases h
                     · obtain rfl := List.mem_singleton.1 hv
                       cases h)

/-- `C109_uniform`: a color map of 256 colors from three. -/
example := Display.C109_uniform (K := ℚ) 256 3 3 (by norm_num) fun i j => if i = j then 1 else 0

/-- `C131_hsv2rgb`: orange. -/
example := Display.C131_hsv2rgb (1 / 12 : ℚ) 1 1 (some (1 / 4)) (p := ⟨1, 1 / 2, 0⟩) (by decide +kernel)

end Verif
