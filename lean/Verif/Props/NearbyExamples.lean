import Verif.Props.Nearby
import Mathlib.Data.Fin.VecNotation

/-!
# C107: cases that meet the hypotheses, and the search for bins

Greedy bins depend on the effects through a comparison of two costs: two effect tables that differ by 1/1000 on every row can give different bins, and then curves that differ by
more than a thousand times the bound of `C107_rhale` over the same distance.
-/

set_option linter.unusedSectionVars false

namespace Effector

open Spec

/-- Two models that differ by at most 1/10: a threshold and a smooth one, and their PDPs. -/
example : NearPdp (1 / 10 : ℚ) (0 : Fin 1) (.pdp fun r => r 0 * r 0) (.pdp fun r => if r 0 ≤ 1 then r 0 * r 0 + 1 / 10 else r 0 * r 0 - 1 / 20) := by
  intro r
  show |r 0 * r 0 - (if r 0 ≤ 1 then r 0 * r 0 + 1 / 10 else r 0 * r 0 - 1 / 20)| ≤ 1 / 10
  rw [abs_le]
  split <;> constructor <;> linarith

def nearRows : List (Row ℚ 1) := [![0], ![1 / 2], ![3 / 2], ![7 / 4], ![2]]

/-- Effects 0, 2, and three times `t`. -/
def nearEff (t : ℚ) : List (Row ℚ 1) := [![0], ![2], ![t], ![t], ![t]]

example : EvalArgsOk nearRows (fun _ : Fin 1 => 0) (fun _ => 2) 0 [0, 1] true :=
  ⟨by norm_num, Or.inl rfl, ![0], by simp [nearRows], by simp⟩

/-- An ALE object with 17 rows, 17 different values of the feature: the default bins and a fit with 25 bins are equal bins. -/
def nearBase : Base ℚ 1 := { data := (List.range 17).map fun i => ![(i : ℚ)], indices := List.range 17, axisLo := ![0], axisHi := ![16] }

example : (∀ s, nearBase.axisLo s < nearBase.axisHi s) ∧
    15 < distinct ((nearBase.data.filter fun r => nearBase.axisLo 0 ≤ r 0 ∧ r 0 ≤ nearBase.axisHi 0).map fun r => r 0) ∧
    EqualBins (K := ℚ) 25 17 (.fixed 25 (some 0) 10) ∧ EqualBins (K := ℚ) 25 17 (.str "fixed") := by
  refine ⟨by decide +kernel, by decide +kernel, ⟨by decide, by decide, by decide⟩, ⟨by decide, by decide⟩⟩

/-- Two of the curves, with 4 bins: the models `x²` and `x² + 1/10` above 7 differ by at most 1/10, the curves between 0 and 8 by `1/10 ≤ 2 · 4 · (1/10) · (8/16)`. -/
example : (aleEval (aleCfg id (List.map fun r => r 0 * r 0) nearBase) (aleRun (aleCfg id (List.map fun r => r 0 * r 0) nearBase) [.fit (.int 0) (.fixed 4 (some 0) 10) (.bool false)]) 0
      [0, 8] false (.bool false)).2 = .ok ([0, 64], none) ∧
    (aleEval (aleCfg id (List.map fun r => if 7 < r 0 then r 0 * r 0 + 1 / 10 else r 0 * r 0) nearBase)
      (aleRun (aleCfg id (List.map fun r => if 7 < r 0 then r 0 * r 0 + 1 / 10 else r 0 * r 0) nearBase) [.fit (.int 0) (.fixed 4 (some 0) 10) (.bool false)]) 0
      [0, 8] false (.bool false)).2 = .ok ([0, 64 + 1 / 10], none) := by
  refine ⟨?_, ?_⟩ <;> decide +kernel

/-- Two tables of effects that differ by at most 1/1000. -/
theorem nearEff_near : NearSource (1 / 1000) 0 nearRows (fun _ => 0) (fun _ => 0) (.given (nearEff (1645 / 1000))) (.given (nearEff (1646 / 1000))) := by
  refine ⟨rfl, rfl, ?_⟩
  decide +kernel

/-- With two fixed bins the curves at 1 are the same and those at 2 differ by 1/1000. -/
example : rhaleFitEval (fun _ _ => []) (fun _ => 0) none nearRows (some (nearEff (1645 / 1000))) none 0 (.fixed 2 (some 2) 0) (.bool false) [0, 1, 2] false (.bool false) =
      .ok ([0, 1, 1 + 1645 / 1000], none) ∧
    rhaleFitEval (fun _ _ => []) (fun _ => 0) none nearRows (some (nearEff (1646 / 1000))) none 0 (.fixed 2 (some 2) 0) (.bool false) [0, 1, 2] false (.bool false) =
      .ok ([0, 1, 1 + 1646 / 1000], none) := by
  refine ⟨?_, ?_⟩ <;> decide +kernel

/-- **C107 is false for the greedy (and so the default) bins of RHALE.**  The two tables of `nearEff_near` differ by at most 1/1000; with `Greedy(init_nof_bins=2, min_points_per_bin=2,
discount=0, cat_limit=0)` the first merges the two initial bins and the second does not: the curves at 1 differ by more than 1/3. -/
theorem C107_false_greedy :
    ∃ y₁ y₂ : ℚ,
      rhaleFitEval (fun _ _ => []) (fun _ => 0) none nearRows (some (nearEff (1645 / 1000))) none 0 (.greedy 2 (some 2) 0 0) (.bool false) [0, 1] false (.bool false) = .ok ([0, y₁], none) ∧
      rhaleFitEval (fun _ _ => []) (fun _ => 0) none nearRows (some (nearEff (1646 / 1000))) none 0 (.greedy 2 (some 2) 0 0) (.bool false) [0, 1] false (.bool false) = .ok ([0, y₂], none) ∧
      1 / 3 < |y₁ - y₂| :=
  ⟨1387 / 1000, 1, by decide +kernel, by decide +kernel, by decide +kernel⟩

end Effector
