import Verif.Props.RegionUnitsApi
import Verif.Props.RegionalApiExamples

/-!
# C104: concrete objects, and where the property fails
-/

set_option linter.unusedSectionVars false

namespace Effector

open Spec

/-- The interaction model of `interactionBB` in another unit: `k f + b`. -/
def interactionIn (k b : ℚ) : BlackBoxes ℚ 2 :=
  { interactionBB with model := List.map fun r => k * (r 0 + 2 * r 0 * r 1) + b, jac := some (List.map fun r i => k * (![1 + 2 * r 1, 2 * r 0] : Row ℚ 2) i) }

/-- Construct and fit feature 0: the nodes of the pruned tree. -/
def treeIn (meth : String) (k b : ℚ) (kw : FitKw ℚ 2) : Option (List (ℕ × String × ℚ × ℕ)) :=
  match regionalNew (interactionIn k b) meth interactionData none (.str "all") none none 3 none (fun q => toString q) with
  | .ok o => if lastKw o 0 [RegCall.fit (.int 0) kw] = none then none else nodesOf o [RegCall.fit (.int 0) kw] 0
  | .error _ => none

/-- The trees of `f` and of `-3 f + 7`, with `heter_small_enough` converted, for the four classes: the same split, the heterogeneities times 3. -/
example :
    treeIn "rhale" 1 0 (interactionKw (.greedy 2 (some 2) (1 / 2) 1)) = some [(0, "x_0", 2, 6), (1, "x_0 | x_1 == 0", 0, 3), (2, "x_0 | x_1 != 0", 0, 3)] ∧
    treeIn "rhale" (-3) 7 (kwIn |-3| (interactionKw (.greedy 2 (some 2) (1 / 2) 1))) = some [(0, "x_0", 6, 6), (1, "x_0 | x_1 == 0", 0, 3), (2, "x_0 | x_1 != 0", 0, 3)] ∧
    treeIn "ale" 1 0 (interactionKw (.fixed 1 (some 2) 1)) = some [(0, "x_0", 2, 6), (1, "x_0 | x_1 == 0", 0, 3), (2, "x_0 | x_1 != 0", 0, 3)] ∧
    treeIn "ale" (-3) 7 (kwIn |-3| (interactionKw (.fixed 1 (some 2) 1))) = some [(0, "x_0", 6, 6), (1, "x_0 | x_1 == 0", 0, 3), (2, "x_0 | x_1 != 0", 0, 3)] ∧
    treeIn "pdp" 1 0 (interactionKw (.str "greedy")) = some [(0, "x_0", 1, 6), (1, "x_0 | x_1 == 0", 0, 3), (2, "x_0 | x_1 != 0", 0, 3)] ∧
    treeIn "pdp" (-3) 7 (kwIn |-3| (interactionKw (.str "greedy"))) = some [(0, "x_0", 3, 6), (1, "x_0 | x_1 == 0", 0, 3), (2, "x_0 | x_1 != 0", 0, 3)] ∧
    treeIn "d-pdp" 1 0 (interactionKw (.str "greedy")) = some [(0, "x_0", 1, 6), (1, "x_0 | x_1 == 0", 0, 3), (2, "x_0 | x_1 != 0", 0, 3)] ∧
    treeIn "d-pdp" (-3) 7 (kwIn |-3| (interactionKw (.str "greedy"))) = some [(0, "x_0", 3, 6), (1, "x_0 | x_1 == 0", 0, 3), (2, "x_0 | x_1 != 0", 0, 3)] := by
  refine ⟨?_, ?_, ?_, ?_, ?_, ?_, ?_, ?_⟩ <;> decide +kernel

/-- The search of `exCfg` in another unit. -/
def exCfgIn (q : ℚ) : RegCfg ℚ 3 :=
  { exCfg with heter := fun x _ => if x.length < 2 then 100000000 else q * Spec.popVar (col x 0), smallEnough := q * (1 / 10) }

/-- It meets the hypotheses of `C104_important_splits` and `C104_pruned_tree`; by `exCfg_search` and `exCfg_pruned` the search succeeds and the tree has depth 2. -/
example (q : ℚ) (_hq : 0 < q) (hs : q ≤ 100000) : OtherUnit q exCfg (exCfgIn q) ∧ 0 ≤ exCfg.dropThres ∧
    exCfg.heter exCfg.data exCfg.dataEffect * ((exCfg.data.length : ℚ) + 2 ^ exCfg.maxLevels) ≤ 100000000 ∧
    (exCfgIn q).heter (exCfgIn q).data (exCfgIn q).dataEffect * ((exCfg.data.length : ℚ) + 2 ^ exCfg.maxLevels) ≤ 100000000 := by
  refine ⟨⟨rfl, rfl, rfl, rfl, rfl, rfl, rfl, rfl, rfl, rfl, rfl, rfl, (fun e he => by cases he), (fun e he => by cases he), fun P => ?_⟩, by decide +kernel, by decide +kernel, ?_⟩
  · show ((if (exCfg.data.filter P).length < 2 then (100000000 : ℚ) else Spec.popVar (col (exCfg.data.filter P) 0)) = 100000000 ∧
        (if (exCfg.data.filter P).length < 2 then (100000000 : ℚ) else q * Spec.popVar (col (exCfg.data.filter P) 0)) = 100000000) ∨
      (0 ≤ (if (exCfg.data.filter P).length < 2 then (100000000 : ℚ) else Spec.popVar (col (exCfg.data.filter P) 0)) ∧
        (if (exCfg.data.filter P).length < 2 then (100000000 : ℚ) else q * Spec.popVar (col (exCfg.data.filter P) 0)) =
          q * (if (exCfg.data.filter P).length < 2 then (100000000 : ℚ) else Spec.popVar (col (exCfg.data.filter P) 0)) ∧ 2 ≤ (exCfg.data.filter P).length)
    by_cases h : (exCfg.data.filter P).length < 2
    · simp only [if_pos h]
      exact Or.inl ⟨trivial, trivial⟩
    · simp only [if_neg h]
      exact Or.inr ⟨popVar_nonneg _, trivial, by omega⟩
  · have h1 : Spec.popVar (col exCfg.data 0) = 131 / 16 := by decide +kernel
    show (if exCfg.data.length < 2 then (100000000 : ℚ) else q * Spec.popVar (col exCfg.data 0)) * ((exCfg.data.length : ℚ) + 2 ^ exCfg.maxLevels) ≤ 100000000
    rw [if_neg (by decide), h1]
    have h2 : ((exCfg.data.length : ℚ) + 2 ^ exCfg.maxLevels) = 12 := by decide +kernel
    rw [h2]
    linarith

/-- **C104 fails if `heter_small_enough` is not converted.**  It is an absolute number, by default 1/10: with the default threshold the interaction is found when the model's output is
counted in one unit and missed when it is counted in another one, a hundred times larger. -/
theorem C104_false_threshold :
    (interactionKw (.greedy 2 (some 2) (1 / 2) 1)).smallEnough = (FitKw.default "rhale" : FitKw ℚ 2).smallEnough ∧
    treeIn "rhale" 1 0 (interactionKw (.greedy 2 (some 2) (1 / 2) 1)) = some [(0, "x_0", 2, 6), (1, "x_0 | x_1 == 0", 0, 3), (2, "x_0 | x_1 != 0", 0, 3)] ∧
    treeIn "rhale" (1 / 100) 0 (interactionKw (.greedy 2 (some 2) (1 / 2) 1)) = some [(0, "x_0", 1 / 50, 6)] := by
  decide +kernel

/-- **C104 fails for large heterogeneities.**  At least four instances per subregion are asked for, so that the only split is not admitted; but the penalty for that is the absolute
number 1e8, and when the model's output is counted in a unit 1e-9 times as large, the penalty is an improvement. -/
theorem C104_false_penalty :
    treeIn "rhale" 1 0 { interactionKw (.greedy 2 (some 2) (1 / 2) 1) with minPoints := 4 } = some [(0, "x_0", 2, 6)] ∧
    treeIn "rhale" (10 ^ 9) 0 (kwIn (10 ^ 9) { interactionKw (.greedy 2 (some 2) (1 / 2) 1) with minPoints := 4 }) =
      some [(0, "x_0", 2 * 10 ^ 9, 6), (1, "x_0 | x_1 == 0", 10 ^ 8, 3), (2, "x_0 | x_1 != 0", 10 ^ 8, 3)] := by
  decide +kernel

end Effector
