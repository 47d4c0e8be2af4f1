import Verif.Props.RegionalSwallow
import Verif.Props.RegionalApiExamples
import Verif.Props.CrashesExamples

/-!
# C110: concrete cases, and what the lost exceptions do to the regions
-/

set_option linter.unusedSectionVars false
set_option synthInstance.maxSize 2000
set_option synthInstance.maxHeartbeats 200000

namespace Effector

open Spec

/-- A class fitted on `interactionData` when the call number `k` of the model raises: what `fit(0)` raised (`none`: nothing), the nodes of the pruned tree, the number of calls, and
the number of the calls that raised. -/
def fitWhen (bb : BlackBoxes ℚ 2) (f : Row ℚ 2 → ℚ) (g : Row ℚ 2 → Row ℚ 2) (k : ℕ) (meth : String) (bin : BinMethod ℚ) :
    Option (Option PyErr × Option (List (ℕ × String × ℚ × ℕ)) × ℕ × ℕ) :=
  match regionalNew bb meth interactionData none (.str "all") none none 3 none (fun q => toString q) with
  | .ok o =>
    let r := runRegionalFit (flaky f g k) o (.int 0) (interactionKw bin) ⟨0, [], RegionalState.init⟩
    some ((match r.2 with | .ok () => none | .error e => some e), (r.1.obj.treePruned 0).join.map (·.map fun nd => (nd.idx, nd.name, nd.heterogeneity, nd.rows.length)), r.1.trace.length,
      (r.1.trace.filter fun e => e.failed.isSome).length)
  | .error _ => none

/-- The model `x_0 + 2 x_0 x_1`, its gradient, and the bins of `fit`. -/
def fitInteraction (k : ℕ) (meth : String) : Option (Option PyErr × Option (List (ℕ × String × ℚ × ℕ)) × ℕ × ℕ) :=
  fitWhen interactionBB (fun r => r 0 + 2 * r 0 * r 1) (fun r => ![1 + 2 * r 1, 2 * r 0]) k meth (.fixed 1 (some 2) 1)

/-- **C110 is false for RegionalALE** (bug: a bare `except:` around `fit` in the heterogeneity function).  When the model always answers, feature 0 is split at
`x_1 == 0`.  When one call of the model raises, `fit` still returns normally; depending on the call that raised there are no regions, or other regions, or a region
reported with heterogeneity 10^8. -/
theorem C110_false_ale :
    fitInteraction 100 "ale" = some (none, some [(0, "x_0", 2, 6), (1, "x_0 | x_1 == 0", 0, 3), (2, "x_0 | x_1 != 0", 0, 3)], 21, 0) ∧
    fitInteraction 1 "ale" = some (none, some [(0, "x_0", 100000000, 6)], 20, 1) ∧
    fitInteraction 4 "ale" = some (none, some [(0, "x_0", 2, 6), (1, "x_0 | x_1 == 1", 0, 3), (2, "x_0 | x_1 != 1", 0, 3)], 20, 1) ∧
    fitInteraction 16 "ale" = some (none, some [(0, "x_0", 2, 6), (1, "x_0 | x_1 == 0", 100000000, 3), (2, "x_0 | x_1 != 0", 0, 3)], 20, 1) := by
  refine ⟨?_, ?_, ?_, ?_⟩ <;> decide +kernel

/-- **C110 is false for RegionalPDP**, for the same reason. -/
theorem C110_false_pdp :
    fitInteraction 100 "pdp" = some (none, some [(0, "x_0", 1, 6), (1, "x_0 | x_1 == 0", 0, 3), (2, "x_0 | x_1 != 0", 0, 3)], 14, 0) ∧
    fitInteraction 1 "pdp" = some (none, some [(0, "x_0", 100000000, 6)], 14, 1) ∧
    fitInteraction 11 "pdp" = some (none, some [(0, "x_0", 1, 6), (1, "x_0 | x_1 == 0", 100000000, 3), (2, "x_0 | x_1 != 0", 0, 3)], 14, 1) := by
  refine ⟨?_, ?_, ?_⟩ <;> decide +kernel

/-- **C110 is false for RegionalDerPDP**, for the same reason: the call number 1 is the gradient. -/
theorem C110_false_derpdp :
    fitWhen additiveBB (fun r => r 0 + 10 * r 1) (fun _ => ![1, 10]) 1 "d-pdp" (.fixed 1 (some 2) 1) = some (none, some [(0, "x_0", 100000000, 6)], 14, 1) := by
  decide +kernel

/-- The first branch of `Swallows`: the call number 0 (the average output) is outside the `try`, and its exception reaches the caller of `fit`. -/
example : fitInteraction 0 "ale" = some (some (.userError 0), none, 1, 1) ∧ fitInteraction 0 "pdp" = some (some (.userError 0), none, 1, 1) := by
  refine ⟨?_, ?_⟩ <;> decide +kernel

/-- The model of the examples, with an explainer (here one that returns the gradient) and a spline (here a constant). -/
def explainedBB : BlackBoxes ℚ 2 :=
  { interactionBB with ext := { explain := fun X => .ok (X.map fun r => ![1 + 2 * r 1, 2 * r 0]), spline := fun l => .ok fun _ => mean (l.map (·.2)) } }

/-- The hypothesis of `C110_answered_fit`, `C110_answered_eval` and `C110_shap` is met. -/
example (k : ℕ) : AnswersAs (flaky (fun r : Row ℚ 2 => r 0 + 2 * r 0 * r 1) (fun r => ![1 + 2 * r 1, 2 * r 0]) k) explainedBB :=
  ⟨_, _, flaky_answers _ _ k, (fun j' h => by injection h with h; exact h.symm), rfl⟩

/-- Non-vacuity of `C110_shap`: a call that raises reaches the caller, at whatever point of the search, and is the last call. -/
example : ∀ k ∈ List.range 14, fitWhen explainedBB (fun r => r 0 + 2 * r 0 * r 1) (fun r => ![1 + 2 * r 1, 2 * r 0]) k "shap" (.str "greedy") =
    some (some (.userError k), none, k + 1, 1) := by
  decide +kernel

end Effector
