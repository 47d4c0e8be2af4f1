import Verif.Props.ColumnsMovedShapley
import Verif.Props.ConditioningScaleExamples

/-!
# C128: a table with an identifier column, in another order
-/

namespace Effector

open Spec

/-- The two features of `interactionData` are the columns 2 and 0; column 1 is an identifier. -/
def wideData : List (Row ℚ 3) := [![0, 101, 0], ![0, 507, 1], ![0, 233, 2], ![1, 102, 0], ![1, 44, 1], ![1, 999, 2]]

def wideModel (r : Row ℚ 3) : ℚ := r 2 + 2 * r 2 * r 0

def wideJac (r : Row ℚ 3) : Row ℚ 3 := ![2 * r 2, 0, 1 + 2 * r 0]

def noShap3 : ShapExt ℚ 3 := { explain := fun _ => .error .valueError, spline := fun _ => .error .valueError }

/-- The hypotheses of `C128_regional_trees`. -/
example : Function.Injective (![2, 0] : Fin 2 → Fin 3) ∧ ModelMoved ![2, 0] cModel wideModel (some cJac) (some wideJac) none none ∧ wideData.map (onlyColumns ![2, 0]) = interactionData ∧
    SameLimits (K := ℚ) (2 : Fin 3) (0 : Fin 2) none none ∧ SameColumns ![2, 0] (some fun _ : Fin 2 => FeatType.cont) (some fun _ : Fin 3 => FeatType.cont) ∧
    (∀ j : Fin 2, namesOr (some ![ "id", "age", "income" ] : Option (Fin 3 → String)) (![1, 2] j) = namesOr (some ![ "age", "income" ]) j) := by
  refine ⟨by decide, ⟨fun r => rfl, Or.inr ⟨cJac, wideJac, rfl, rfl, fun r => ?_⟩, rfl⟩, by decide +kernel, trivial, fun j => rfl, by decide⟩
  funext i
  fin_cases i <;> rfl

/-- Construct and fit one feature: column, heterogeneity, instances and position of the nodes of the pruned tree. -/
def treeOfColumns {D : ℕ} (meth : String) (ext : ShapExt ℚ D) (f : Row ℚ D → ℚ) (j : Option (Row ℚ D → Row ℚ D)) (data : List (Row ℚ D)) (s : Fin D) (kw : FitKw ℚ D) :
    Option (List (Option ℕ × ℚ × ℕ × Option ℚ)) :=
  match regionalNew (rowBoxes (fun _ n => List.range n) id f j ext) meth data none (.str "all") none (some fun _ => .cont) 3 none (fun q => toString q) with
  | .ok o => if lastKw o s [RegCall.fit (.int (s : ℕ)) kw] = none then none else
      ((regRunM o [RegCall.fit (.int (s : ℕ)) kw]).treePruned s).join.map (·.map fun nd => (nd.foc.map Fin.val, nd.heterogeneity, nd.rows.length, nd.position))
  | .error _ => none

/-- The arguments of `fit`, with feature 1 as the conditioning feature. -/
def onFeature1 (bin : BinMethod ℚ) : FitKw ℚ 2 := { interactionKw bin with foc := some [1] }

/-- The trees of the four classes, on the table of two columns and on the table of three. -/
theorem C128_example :
    treeOfColumns "rhale" noShap cModel (some cJac) interactionData 0 (onFeature1 (.greedy 2 (some 2) (1 / 2) 1)) =
      some [(none, 2, 6, none), (some 1, 0, 3, some (1 / 4)), (some 1, 0, 3, some (1 / 4))] ∧
    treeOfColumns "rhale" noShap3 wideModel (some wideJac) wideData 2 (fitMoved ![2, 0] (onFeature1 (.greedy 2 (some 2) (1 / 2) 1))) =
      some [(none, 2, 6, none), (some 0, 0, 3, some (1 / 4)), (some 0, 0, 3, some (1 / 4))] ∧
    treeOfColumns "ale" noShap cModel none interactionData 0 (onFeature1 (.fixed 1 (some 2) 1)) = some [(none, 2, 6, none), (some 1, 0, 3, some (1 / 4)), (some 1, 0, 3, some (1 / 4))] ∧
    treeOfColumns "ale" noShap3 wideModel none wideData 2 (fitMoved ![2, 0] (onFeature1 (.fixed 1 (some 2) 1))) =
      some [(none, 2, 6, none), (some 0, 0, 3, some (1 / 4)), (some 0, 0, 3, some (1 / 4))] ∧
    treeOfColumns "pdp" noShap cModel none interactionData 0 (onFeature1 (.str "greedy")) = some [(none, 1, 6, none), (some 1, 0, 3, some (1 / 4)), (some 1, 0, 3, some (1 / 4))] ∧
    treeOfColumns "pdp" noShap3 wideModel none wideData 2 (fitMoved ![2, 0] (onFeature1 (.str "greedy"))) =
      some [(none, 1, 6, none), (some 0, 0, 3, some (1 / 4)), (some 0, 0, 3, some (1 / 4))] ∧
    treeOfColumns "d-pdp" noShap3 wideModel (some wideJac) wideData 2 (fitMoved ![2, 0] (onFeature1 (.str "greedy"))) =
      some [(none, 1, 6, none), (some 0, 0, 3, some (1 / 4)), (some 0, 0, 3, some (1 / 4))] := by
  refine ⟨?_, ?_, ?_, ?_, ?_, ?_, ?_⟩ <;> decide +kernel

/-- Construct, fit one feature, and evaluate at the node `i`, not centred. -/
def evalOfColumns {D : ℕ} (meth : String) (ext : ShapExt ℚ D) (f : Row ℚ D → ℚ) (j : Option (Row ℚ D → Row ℚ D)) (data : List (Row ℚ D)) (s : Fin D) (kw : FitKw ℚ D) (i : ℕ) (xs : List ℚ) :
    Option (List ℚ) :=
  match regionalNew (rowBoxes (fun _ n => List.range n) id f j ext) meth data none (.str "all") none (some fun _ => .cont) 3 none (fun q => toString q) with
  | .ok o => if lastKw o s [RegCall.fit (.int (s : ℕ)) kw] = none then none else
      match (regionalEvalM o (regRunM o [RegCall.fit (.int (s : ℕ)) kw]) s i xs false (.bool false)).2 with
      | .ok r => some r.1
      | .error _ => none
  | .error _ => none

/-- The effect of the same column in the two subregions. -/
theorem C128_example_eval :
    evalOfColumns "pdp" noShap cModel none interactionData 0 (onFeature1 (.str "greedy")) 1 [0, 1, 2] = some [0, 1, 2] ∧
    evalOfColumns "pdp" noShap3 wideModel none wideData 2 (fitMoved ![2, 0] (onFeature1 (.str "greedy"))) 1 [0, 1, 2] = some [0, 1, 2] ∧
    evalOfColumns "pdp" noShap cModel none interactionData 0 (onFeature1 (.str "greedy")) 2 [0, 1, 2] = some [0, 3, 6] ∧
    evalOfColumns "pdp" noShap3 wideModel none wideData 2 (fitMoved ![2, 0] (onFeature1 (.str "greedy"))) 2 [0, 1, 2] = some [0, 3, 6] := by
  refine ⟨?_, ?_, ?_, ?_⟩ <;> decide +kernel

/-- The Shapley values of the two models for the baseline 0 (the interaction is shared equally), and the mean for the curve. -/
def shap2 : ShapExt ℚ 2 := { explain := fun x => .ok (x.map fun r => ![r 0 + r 0 * r 1, r 0 * r 1]), spline := fun p => .ok fun _ => mean (p.map (·.2)) }

def shap3 : ShapExt ℚ 3 := { explain := fun x => .ok (x.map fun r => ![r 2 * r 0, 0, r 2 + r 2 * r 0]), spline := fun p => .ok fun _ => mean (p.map (·.2)) }

/-- The hypothesis on the explainers of `C128_shap`. -/
example : ShapMoved ![2, 0] shap2 shap3 := by
  refine ⟨fun x => ?_, rfl⟩
  simp only [shap2, shap3, Except.map, List.map_map]
  congr 1
  apply List.map_congr_left
  intro r _
  funext i
  fin_cases i <;> rfl

/-- The trees and the effects of ShapDP. -/
theorem C128_example_shap :
    treeOfColumns "shap" shap2 cModel none interactionData 0 (onFeature1 (.str "greedy")) =
      some [(none, 7 / 6, 6, none), (some 1, 2 / 3, 3, some (1 / 4)), (some 1, 4 / 3, 3, some (1 / 4))] ∧
    treeOfColumns "shap" shap3 wideModel none wideData 2 (fitMoved ![2, 0] (onFeature1 (.str "greedy"))) =
      some [(none, 7 / 6, 6, none), (some 0, 2 / 3, 3, some (1 / 4)), (some 0, 4 / 3, 3, some (1 / 4))] ∧
    evalOfColumns "shap" shap2 cModel none interactionData 0 (onFeature1 (.str "greedy")) 2 [0, 1] = some [2, 2] ∧
    evalOfColumns "shap" shap3 wideModel none wideData 2 (fitMoved ![2, 0] (onFeature1 (.str "greedy"))) 2 [0, 1] = some [2, 2] := by
  refine ⟨?_, ?_, ?_, ?_⟩ <;> decide +kernel

/-- The exact Shapley values of the same column of the same instance, without and with the other columns. -/
theorem C128_example_shapley :
    shapleyValue Finset.univ (shapleyGame cModel [![0, 0], ![2, 1]] ![1, 1]) 0 = -1 / 2 ∧
    shapleyValue Finset.univ (shapleyGame wideModel [![0, 7, 0], ![1, 9, 2]] ![1, 8, 1]) 2 = -1 / 2 ∧
    shapleyValue Finset.univ (shapleyGame wideModel [![0, 7, 0], ![1, 9, 2]] ![1, 8, 1]) 1 = 0 := by
  refine ⟨?_, ?_, ?_⟩ <;> decide +kernel

/-- The identifier happens to tell the subregions apart. -/
def sortedIds : List (Row ℚ 3) := [![0, 1, 0], ![1, 1, 0], ![2, 1, 0], ![0, 2, 1], ![1, 2, 1], ![2, 2, 1]]

def sortedModel (r : Row ℚ 3) : ℚ := r 0 + 2 * r 0 * r 2

def allFeatures3 (bin : BinMethod ℚ) : FitKw ℚ 3 := fitMoved ![0, 2] (interactionKw bin)

/-- **With the conditioning features left to the library (`foc = "all"`) C128 is false**: a column the model does not use takes part in the search, and of two columns that separate the instances equally well the first one wins.  Here
the subregions are split by the identifier (column 1), and not by the column the model uses (column 2). -/
theorem C128_false_all :
    (∀ r : Row ℚ 3, sortedModel r = cModel (onlyColumns ![0, 2] r)) ∧ sortedIds.map (onlyColumns ![0, 2]) = interactionData ∧
    treeOfColumns "ale" noShap cModel none interactionData 0 (interactionKw (.fixed 1 (some 2) 1)) = some [(none, 2, 6, none), (some 1, 0, 3, some (1 / 4)), (some 1, 0, 3, some (1 / 4))] ∧
    treeOfColumns "ale" noShap3 sortedModel none sortedIds 0 (allFeatures3 (.fixed 1 (some 2) 1)) = some [(none, 2, 6, none), (some 1, 0, 3, some (5 / 4)), (some 1, 0, 3, some (5 / 4))] := by
  refine ⟨fun r => rfl, ?_, ?_, ?_⟩ <;> decide +kernel

end Effector
