import Verif.Props.CrashesExamples
import Verif.Props.CallCountsAle

/-!
# C108: concrete cases
-/

set_option linter.unusedSectionVars false

namespace Effector

open Spec

/-- The number of calls that requests to a fresh PDP object on two rows make, when the call number `k` raises. -/
def pdpCallsWhen (k : ℕ) (which : PdpWhich) (qs : List (PdpReq ℚ 2)) : ℕ :=
  (runReqs (runPdpReq (flaky (fun r => r 0 + r 1) id k) { exRunPdp with which := which }) qs ⟨0, [], PdpState.init [![0, 0], ![1, 4]]⟩).1.trace.length

/-- Non-vacuity of `C108_pdp_fit` and `C108_pdp_eval`: without vectorisation a curve at three positions costs three calls (six for numerical derivatives), with it
one (two); a fit of both features with `zero_start` costs one call (two) each; the second request does not fit again; a call that raises is the last. -/
example : pdpCallsWhen 100 .pdp [.fit (.str "all") (.str "zero_start") 100 true, .eval 0 [0, 1, 2] false (.str "zero_start") false false] = 2 * 1 + 3 ∧
    pdpCallsWhen 100 .derNum [.fit (.str "all") (.str "zero_start") 100 true, .eval 0 [0, 1, 2] false (.str "zero_start") false false] = 2 * 2 + 6 ∧
    pdpCallsWhen 100 .derJac [.fit (.str "all") (.str "zero_start") 100 true, .eval 0 [0, 1, 2] false (.str "zero_start") false true] = 2 * 1 + 1 ∧
    pdpCallsWhen 3 .pdp [.fit (.str "all") (.str "zero_start") 100 true, .eval 0 [0, 1, 2] false (.str "zero_start") false false] = 2 * 1 + 2 := by
  refine ⟨?_, ?_, ?_, ?_⟩ <;> decide +kernel

/-- The number of calls that requests to a fresh ALE object on `exRunBase` make. -/
def aleCallsWhen (k : ℕ) (qs : List (AleReq ℚ 2)) : ℕ :=
  (runReqs (runAleReq (flaky (fun r => r 0 * r 1) id k) (runAleCfg (flaky (fun r => r 0 * r 1) id k) id exRunBase 0) exRunBase.data) qs
    ⟨0, [], ⟨AleState.init, none⟩⟩).1.trace.length

/-- Non-vacuity of `C108_ale_fit`, `C108_ale_eval`: two calls for each feature; none to evaluate. -/
example : aleCallsWhen 100 [exFitTwo] = 4 ∧ aleCallsWhen 100 [exFitTwo, .eval 0 [0, 1 / 2] false (.bool false), .eval 1 [0, 2] true (.bool false)] = 4 ∧
    aleCallsWhen 2 [exFitTwo] = 3 := by
  refine ⟨?_, ?_, ?_⟩ <;> decide +kernel

/-- Non-vacuity of `C108_rhale`: without `model_jac` and two features, the model is called four times, twice on the rows as they are; the attempt that was interrupted
at its third call is made again from the start. -/
example : (runReqs (runAleReq (flaky (fun r => r 0 + r 1) id 2) (runRhaleCfg (flaky (fun r => r 0 + r 1) id 2) false exRunBase 0) exRunBase.data)
      [exFitTwo, exFitTwo, exFitTwo] ⟨0, [], ⟨AleState.init, none⟩⟩).1.trace.length = 3 + 4 := by
  decide +kernel

/-- Non-vacuity of `C108_shap_fit`, `C108_shap_eval`: `fit("all")` calls the explainer once for each of the two features, `eval` not at all. -/
example : (runReqs (runShapReq (flakyExplain 100) exRunShap) [.fit (.str "all") (.bool false) 100, .eval 0 [0] false (.bool false), .eval 1 [0] false (.bool false)]
      ⟨0, [], ShapState.init [![0, 0], ![1, 4]]⟩).1.trace.length = 2 := by
  decide +kernel

end Effector
