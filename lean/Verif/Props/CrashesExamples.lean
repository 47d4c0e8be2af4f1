import Verif.Props.CrashesRetry

/-!
# C109: concrete cases, and where it fails
-/

set_option linter.unusedSectionVars false

namespace Effector

open Spec

/-- A model `f` (gradient `g`) that raises at its `k`-th call, counted from 0, and at no other. -/
def flaky {D : ℕ} (f : Row ℚ D → ℚ) (g : Row ℚ D → Row ℚ D) (k : ℕ) : World ℕ ℚ D where
  model := fun n X => (n + 1, if n = k then .error (.userError k) else .ok (X.map f))
  jac := fun n X => (n + 1, if n = k then .error (.userError k) else .ok (X.map g))
  explain := fun n X => (n + 1, if n = k then .error (.userError k) else .ok (X.map g))

theorem flaky_answers {D : ℕ} (f : Row ℚ D → ℚ) (g : Row ℚ D → Row ℚ D) (k : ℕ) :
    AnswersWith (flaky f g k) (fun X => X.map f) (fun X => X.map g) (fun X => X.map g) := by
  refine ⟨fun t X y h => ?_, fun t X y h => ?_, fun t X y h => ?_⟩ <;>
    (simp only [flaky] at h; split at h <;> [cases h; (injection h with h; exact h.symm)])

/-- A PDP object of the model `x_0 + x_1` with limits [0,1] and [0,5]. -/
def exRunPdp : RunPdpCfg ℚ 2 where
  cast := id
  which := .pdp
  axisLo := ![0, 0]
  axisHi := ![1, 5]
  avg := 0

/-- The outcomes of requests to a fresh PDP object on these rows, when the call number `k` of the model raises. -/
def outcomesWhen (k : ℕ) (rows : List (Row ℚ 2)) (qs : List (PdpReq ℚ 2)) : List (Py (PdpAns ℚ)) :=
  (runReqs (runPdpReq (flaky (fun r => r 0 + r 1) id k) exRunPdp) qs ⟨0, [], PdpState.init rows⟩).2

/-- **C109 is false with axis limits that exclude instances** (bug: `_fit_feature` overwrites `self.data` before it calls the model).  The PDP of feature 0 at 0 is 5.
If before it an `eval` of feature 1 fails because the model raises, it is 0: the failed request has thrown away the instance (1, 10). -/
theorem C109_false_pdp :
    outcomesWhen 0 [![0, 0], ![1, 10]] [.eval 1 [0] false (.str "zero_start") false true, .eval 0 [0] false (.bool false) false true] =
      [.error (.userError 0), .ok (.curve (.meanOnly [0]))] ∧
    outcomesWhen 1 [![0, 0], ![1, 10]] [.eval 0 [0] false (.bool false) false true] = [.ok (.curve (.meanOnly [5]))] := by
  refine ⟨?_, ?_⟩ <;> decide +kernel

/-- **C109, trying again, is false for `fit` with such limits.**  After `fit("all")` a centred `eval` of feature 0 raises; after a `fit("all")` that failed half way
and was made again, it does not. -/
theorem C109_false_pdp_fit :
    outcomesWhen 100 [![0, 0], ![1, 3], ![1, 10]] [.fit (.str "all") (.str "zero_start") 100 true, .eval 0 [0, 1] false (.str "zero_start") false true] =
      [.ok .fitted, .error .valueError] ∧
    outcomesWhen 1 [![0, 0], ![1, 3], ![1, 10]] [.fit (.str "all") (.str "zero_start") 100 true, .fit (.str "all") (.str "zero_start") 100 true,
      .eval 0 [0, 1] false (.str "zero_start") false true] = [.error (.userError 1), .ok .fitted, .ok (.curve (.meanOnly [0, 1]))] := by
  refine ⟨?_, ?_⟩ <;> decide +kernel

/-- Non-vacuity of `C109_pdp_within`: rows within the limits; the second `eval` is the interrupted one made again. -/
example : AllWithin [![(0 : ℚ), 0], ![1, 4]] exRunPdp.axisLo exRunPdp.axisHi ∧
    outcomesWhen 1 [![0, 0], ![1, 4]] [.eval 1 [0, 2] false (.str "zero_start") false false, .eval 1 [0, 2] false (.str "zero_start") false false,
      .eval 0 [0] false (.bool false) false true] =
      [.error (.userError 1), .ok (.curve (.meanOnly [0, 2])), .ok (.curve (.meanOnly [2]))] := by
  refine ⟨?_, by decide +kernel⟩
  intro r hr t
  simp only [List.mem_cons, List.not_mem_nil, or_false] at hr
  rcases hr with rfl | rfl <;> fin_cases t <;> simp [exRunPdp]; norm_num

/-- The base part of an ALE or RHALE object on four instances, limits [0,1] and [0,4]. -/
def exRunBase : Base ℚ 2 where
  data := [![0, 0], ![1, 4], ![0, 4], ![1, 0]]
  indices := [0, 1, 2, 3]
  axisLo := ![0, 0]
  axisHi := ![1, 4]

/-- `fit("all")` with two equal bins. -/
def exFitTwo : AleReq ℚ 2 := .fit (.str "all") (.fixed 2 (some 1) 0) (.bool false)

/-- Non-vacuity of `C109_ale`: the call number 2 of the model raises, in the fit of feature 1; feature 0 is fitted by then. -/
example : (runReqs (runAleReq (flaky (fun r => r 0 * r 1) id 2) (runAleCfg (flaky (fun r => r 0 * r 1) id 2) id exRunBase 0) exRunBase.data)
      [exFitTwo, .eval 0 [0, 1 / 2] false (.bool false), exFitTwo, .eval 1 [0, 2] false (.bool false)] ⟨0, [], ⟨AleState.init, none⟩⟩).2 =
    [.error (.userError 2), .ok (.curve ([0, 1], none)), .ok .fitted, .ok (.curve ([0, 1], none))] := by
  decide +kernel

/-- Non-vacuity of `C109_rhale`: the first call of the gradient raises; the second time it is asked, it answers; it is not asked again. -/
example : let y := runReqs (runAleReq (flaky (fun r => r 0 * r 1) (fun r => ![r 1, r 0]) 0) (runRhaleCfg (flaky (fun r => r 0 * r 1) (fun r => ![r 1, r 0]) 0) true exRunBase 0)
      exRunBase.data) [exFitTwo, exFitTwo, .eval 0 [0, 1 / 2] false (.bool false), .eval 1 [0, 2] false (.bool false)] ⟨0, [], ⟨AleState.init, none⟩⟩
    y.2 = [.error (.userError 0), .ok .fitted, .ok (.curve ([0, 1], none)), .ok (.curve ([0, 1], none))] ∧ y.1.trace.length = 2 := by
  refine ⟨?_, ?_⟩ <;> decide +kernel

/-- An explainer that centres the column, and raises at its `k`-th call. -/
def flakyExplain (k : ℕ) : World ℕ ℚ 2 where
  model := fun n X => (n, .ok (X.map fun _ => 0))
  jac := fun n X => (n, .ok X)
  explain := fun n X => (n + 1, if n = k then .error (.userError k) else .ok (X.map fun r t => r t - (X.map fun q => q t).sum / X.length))

/-- A ShapDP object whose spline is the first value, limits [0,1] and [0,5]. -/
def exRunShap : RunShapCfg ℚ 2 where
  spline := fun l => .ok fun _ => (l.map (·.2)).headD 0
  axisLo := ![0, 0]
  axisHi := ![1, 5]
  avg := 0

/-- The outcomes of requests to a fresh ShapDP object on these rows, when the call number `k` of the explainer raises. -/
def shapOutcomesWhen (k : ℕ) (rows : List (Row ℚ 2)) (qs : List (ShapReq ℚ 2)) : List (Py (ShapAns ℚ)) :=
  (runReqs (runShapReq (flakyExplain k) exRunShap) qs ⟨0, [], ShapState.init rows⟩).2

/-- **C109 is false for ShapDP with axis limits that exclude instances**: the SHAP dependence of feature 0 is -1/2 at 0, and 0 after an `eval` of feature 1 that failed. -/
theorem C109_false_shap :
    shapOutcomesWhen 0 [![0, 0], ![1, 10]] [.eval 1 [0] false (.bool false), .eval 0 [0] false (.bool false)] =
      [.error (.userError 0), .ok (.curve ([0], none))] ∧
    shapOutcomesWhen 1 [![0, 0], ![1, 10]] [.eval 0 [0] false (.bool false)] = [.ok (.curve ([-1/2], none))] := by
  refine ⟨?_, ?_⟩ <;> decide +kernel

/-- Non-vacuity of `C109_shap_within`: the rows are within the limits, and the failed request does no harm. -/
example : shapOutcomesWhen 0 [![0, 0], ![1, 4]] [.eval 1 [0] false (.bool false), .eval 0 [0] false (.bool false), .eval 1 [0] false (.bool false)] =
    [.error (.userError 0), .ok (.curve ([-1/2], none)), .ok (.curve ([-2], none))] := by
  decide +kernel

end Effector
