import Verif.Props.SamplingError
import Verif.Props.UnbiasedExamples

/-!
# C120: concrete cases
-/

set_option linter.unusedSectionVars false

namespace Effector

open Spec

/-- The hypotheses of `C120_given_limits` are met: `PDP` of `x_0 x_1` with two of three instances, centred, after another `fit` and an `eval` (and none of these on the object with all
instances). -/
example : ∃ (res : (Fin 2 ↪ Fin threeReal.length) → EvalOut ℝ) (mu sd : List ℝ),
    (∀ e, pdpSampled (.pdp fun r => r 0 * r 1) (outcome e) threeReal (.int (2 : ℕ)) (some (fun _ => 0, fun _ => 2)) [.fit (.int 1) (.bool true) 100 true, .eval 0 [1] false (.bool false) false true]
      0 [0, 1, 2] false (.str "zero_integral") true = .ok (res e)) ∧
    pdpSampled (.pdp fun r => r 0 * r 1) (fun _ _ => []) threeReal (.str "all") (some (fun _ => 0, fun _ => 2)) [] 0 [0, 1, 2] true (.str "zero_integral") false = .ok (mu, some sd) ∧
    mu.length = 3 ∧ ErrorIs res mu (sd.map (· ^ 2)) := by
  refine C120_given_limits (.pdp fun r => r 0 * r 1) threeReal 2 (by norm_num) (by simp [threeReal]) (fun _ => 0) (fun _ => 2) ?_ _ [] 0 (by norm_num) ?_ (by intro _ _ _ _ h; cases h) [0, 1, 2]
    (by simp) false (.str "zero_integral") .zeroIntegral rfl true false _
  · intro r hr t
    simp only [threeReal, List.mem_cons, List.not_mem_nil, or_false] at hr
    rcases hr with rfl | rfl | rfl <;> fin_cases t <;> norm_num
  · intro f c points vec h _
    simp at h
    exact h.2.2.1

/-- Three instances, one of them different. -/
def oddOne : List (Row ℚ 2) := [![0, 0], ![1, 0], ![2, 1]]

/-- A model with outputs 0 and 1. -/
def oddModel : PdpModel ℚ 2 := .pdp fun r => if r 1 ≤ 1 / 2 then 0 else 1

example : RangeIn oddModel 0 0 1 := by
  intro r v
  simp only [oddModel, PdpModel.at]
  split <;> norm_num

example : AllWithin oddOne (fun _ => 0) (fun _ => 2) := by
  intro r hr t
  simp only [oddOne, List.mem_cons, List.not_mem_nil, or_false] at hr
  rcases hr with rfl | rfl | rfl <;> fin_cases t <;> norm_num

/-- The bound of `C120_worst_case` is attained: the draw of the third of three instances is off by `2 / 3 = (1 - 1 / 3) * (1 - 0)`. -/
example : pdpSampled oddModel (fun _ _ => [2]) oddOne (.int 1) (some (fun _ => 0, fun _ => 2)) [] 0 [0, 1] false (.bool false) true = .ok ([1, 1], none) ∧
    pdpSampled oddModel (fun _ _ => []) oddOne (.str "all") (some (fun _ => 0, fun _ => 2)) [] 0 [0, 1] false (.bool false) true = .ok ([1 / 3, 1 / 3], none) := by
  constructor <;> decide +kernel

/-- And the mean squared error of `C120_given_limits`: `(0 - 1/3)^2`, `(0 - 1/3)^2`, `(1 - 1/3)^2` have the mean `2/9 = (3 - 1) / (1 * (3 - 1)) * popVar [0, 0, 1]`. -/
example : popVar ([0, 0, 1] : List ℚ) = 2 / 9 ∧ ((3 : ℚ) - 1) / (1 * (3 - 1)) * popVar ([0, 0, 1] : List ℚ) = ((0 - 1 / 3) ^ 2 + (0 - 1 / 3) ^ 2 + (1 - 1 / 3) ^ 2) / 3 := by
  constructor <;> (simp only [popVar, avg, List.sum_cons, List.sum_nil, List.length_cons, List.length_nil, List.map_cons, List.map_nil]; norm_num)

end Effector
