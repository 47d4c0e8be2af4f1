import Verif.Props.Insulation
import Verif.Props.HeapExamples

/-!
# C106: a concrete schedule, and the array `axis_limits`
-/

set_option linter.unusedSectionVars false

namespace Effector

open Spec

/-- A PDP object for x_0 * x_1 with the limits 0..5 for both features. -/
def exLimCfg : HeapPdpCfg ℚ 2 where
  cast := id
  kind := .pdp exQuietModel
  axisLo := fun _ => 0
  axisHi := fun _ => 5

/-- The caller fits, overwrites its data set, evaluates. -/
def exSched : List (Sched (PdpOp ℚ 2) ℚ 2) :=
  [.call (.fit (.str "all") (.bool false) 30 true), .write 0 [![7, 7]], .call (.eval 1 [1] false (.bool false) true false)]

/-- Hypotheses of `C106_pdp_insulated` (one array, which the caller overwrites). -/
example : OwnWrites 1 exSched ∧ KeepsLimits exSched ∧ (∀ op, Sched.call op ∈ exSched → exLimCfg.kind.Safe op.vec) := by
  refine ⟨fun a X hm => ?_, fun lo hi hm => ?_, fun op _ => trivial⟩
  · simp [exSched] at hm; omega
  · simp [exSched] at hm

/-- The calls of a schedule and a last `eval`: the caller's data set afterwards, and the result. -/
def exLimRun (l : List (Sched (PdpOp ℚ 2) ℚ 2)) (xs : List ℚ) (centering : PyVal) : HeapM ℚ 2 (Py (PdpOut ℚ)) := do
  let self ← heapConstruct exQuietModel 0 [0, 1, 2] false
  let q ← heapSched exLimCfg (HeapPdp.init self) l
  let r ← heapEval q.1 q.2 0 xs false centering false true
  return r.2

/-- Overwriting the data set in between changes nothing. -/
theorem C106_example :
    (exLimRun exSched [1, 2] (.str "zero_start") [exHeapData]).2 = .ok (.meanOnly [3, 6]) ∧
      (exLimRun [] [1, 2] (.str "zero_start") [exHeapData]).2 = .ok (.meanOnly [3, 6]) ∧
      (exLimRun exSched [1, 2] (.str "zero_start") [exHeapData]).1.head?.map asPairs = some [(7, 7)] := by
  refine ⟨?_, ?_, ?_⟩ <;> decide +kernel

/-- **C106**, false for `axis_limits`: the object keeps a reference.  The caller re-uses its array (2..5 instead of 0..5) between construction and the first `eval`: the
curve is that of fewer instances.  Re-used between `fit` and `eval`: the curve "centred at its start" does not start at 0. -/
theorem C106_false_axis_limits :
    (exLimRun [] [1] (.bool false) [exHeapData]).2 = .ok (.meanOnly [3]) ∧
      (exLimRun [.limits (fun _ => 2) (fun _ => 5)] [1] (.bool false) [exHeapData]).2 = .ok (.meanOnly [4]) ∧
      (exLimRun [.call (.fit (.str "all") (.str "zero_start") 30 true), .limits (fun _ => 2) (fun _ => 5)] [2] (.str "zero_start") [exHeapData]).2 = .ok (.meanOnly [6]) := by
  refine ⟨?_, ?_, ?_⟩ <;> decide +kernel

end Effector
