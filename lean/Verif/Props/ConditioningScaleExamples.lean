import Verif.Props.ConditioningScaleApi
import Verif.Props.RegionalApiExamples

/-!
# C127: a temperature in Celsius and in Fahrenheit; and a logarithmic scale
-/

namespace Effector

open Spec

/-- Feature 1 in Fahrenheit. -/
def fahrenheit : Fin 2 → ℚ → ℚ := ![id, fun x => 9 / 5 * x + 32]

/-- The derivative with respect to feature 1, per degree Fahrenheit. -/
def perFahrenheit (r : Row ℚ 2) : Row ℚ 2 := ![r 0, 5 / 9 * r 1]

/-- `x_0 (1 + 2 x_1)`, of the table in Fahrenheit. -/
def fModel (r : Row ℚ 2) : ℚ := r 0 + 2 * r 0 * (5 / 9 * (r 1 - 32))

def cModel (r : Row ℚ 2) : ℚ := r 0 + 2 * r 0 * r 1

def cJac (r : Row ℚ 2) : Row ℚ 2 := ![1 + 2 * r 1, 2 * r 0]

def fJac (r : Row ℚ 2) : Row ℚ 2 := ![1 + 2 * (5 / 9 * (r 1 - 32)), 5 / 9 * (2 * r 0)]

def noShap : ShapExt ℚ 2 := { explain := fun _ => .error .valueError, spline := fun _ => .error .valueError }

/-- The hypotheses of `C127_regional_trees`. -/
example : fahrenheit 0 = id ∧ ModelConverted fahrenheit perFahrenheit 0 cModel fModel (some cJac) (some fJac) none none ∧ SameLimits (K := ℚ) (0 : Fin 2) (0 : Fin 2) none none ∧
    Converts ((some fun _ => FeatType.cont).getD (getFeatureTypes interactionData 3)) fahrenheit := by
  refine ⟨rfl, ⟨fun r => ?_, Or.inr ⟨cJac, fJac, rfl, rfl, fun r => ?_⟩, rfl, fun r => rfl⟩, trivial, fun j => ?_⟩
  · simp [fModel, cModel, converted, fahrenheit]
    left; ring
  · funext i
    fin_cases i
    · simp [fJac, cJac, converted, fahrenheit, perFahrenheit]
      ring
    · simp [fJac, cJac, converted, fahrenheit, perFahrenheit]
  · fin_cases j
    · exact ⟨1, 0, one_pos, by funext x; simp [fahrenheit]⟩
    · exact ⟨9 / 5, 32, by norm_num, rfl⟩

/-- Construct and fit feature 0: number, heterogeneity, instances and position of the nodes of the pruned tree. -/
def treeOfTable (meth : String) (f : Row ℚ 2 → ℚ) (j : Option (Row ℚ 2 → Row ℚ 2)) (data : List (Row ℚ 2)) (kw : FitKw ℚ 2) : Option (List (ℕ × ℚ × ℕ × Option ℚ)) :=
  match regionalNew (rowBoxes (fun _ n => List.range n) id f j noShap) meth data none (.str "all") none (some fun _ => .cont) 3 none (fun q => toString q) with
  | .ok o => if lastKw o 0 [RegCall.fit (.int 0) kw] = none then none else
      ((regRunM o [RegCall.fit (.int 0) kw]).treePruned 0).join.map (·.map fun nd => (nd.idx, nd.heterogeneity, nd.rows.length, nd.position))
  | .error _ => none

/-- The trees of the four classes: the split at 1/4 degree Celsius is the one at 32.45 degrees Fahrenheit. -/
theorem C127_example :
    treeOfTable "rhale" cModel (some cJac) interactionData (interactionKw (.greedy 2 (some 2) (1 / 2) 1)) = some [(0, 2, 6, none), (1, 0, 3, some (1 / 4)), (2, 0, 3, some (1 / 4))] ∧
    treeOfTable "rhale" fModel (some fJac) (interactionData.map (converted fahrenheit)) (interactionKw (.greedy 2 (some 2) (1 / 2) 1)) =
      some [(0, 2, 6, none), (1, 0, 3, some (649 / 20)), (2, 0, 3, some (649 / 20))] ∧
    treeOfTable "ale" cModel none interactionData (interactionKw (.fixed 1 (some 2) 1)) = some [(0, 2, 6, none), (1, 0, 3, some (1 / 4)), (2, 0, 3, some (1 / 4))] ∧
    treeOfTable "ale" fModel none (interactionData.map (converted fahrenheit)) (interactionKw (.fixed 1 (some 2) 1)) = some [(0, 2, 6, none), (1, 0, 3, some (649 / 20)), (2, 0, 3, some (649 / 20))] ∧
    treeOfTable "pdp" cModel none interactionData (interactionKw (.str "greedy")) = some [(0, 1, 6, none), (1, 0, 3, some (1 / 4)), (2, 0, 3, some (1 / 4))] ∧
    treeOfTable "pdp" fModel none (interactionData.map (converted fahrenheit)) (interactionKw (.str "greedy")) = some [(0, 1, 6, none), (1, 0, 3, some (649 / 20)), (2, 0, 3, some (649 / 20))] ∧
    treeOfTable "d-pdp" cModel (some cJac) interactionData (interactionKw (.str "greedy")) = some [(0, 1, 6, none), (1, 0, 3, some (1 / 4)), (2, 0, 3, some (1 / 4))] ∧
    treeOfTable "d-pdp" fModel (some fJac) (interactionData.map (converted fahrenheit)) (interactionKw (.str "greedy")) =
      some [(0, 1, 6, none), (1, 0, 3, some (649 / 20)), (2, 0, 3, some (649 / 20))] := by
  refine ⟨?_, ?_, ?_, ?_, ?_, ?_, ?_, ?_⟩ <;> decide +kernel

/-- Three values of feature 1. -/
def threeLevels : List (Row ℚ 2) := [![0, 0], ![1, 0], ![0, 1], ![1, 1], ![0, 2], ![1, 2], ![0, 2], ![1, 2], ![0, 2], ![1, 2]]

/-- The slope is 3 when feature 1 is positive, else 1; of feature 1 or of its cube. -/
def slopeByLevel (r : Row ℚ 2) : ℚ := if 0 < r 1 then 3 * r 0 else r 0

/-- **C127 is false for other increasing conversions of a numerical feature**, here the cube: the candidate positions are equally spaced between the smallest and the largest value, so on another scale they are other ones.  For a
categorical feature, whose candidates are its values, any increasing conversion will do. -/
theorem C127_false_nonlinear :
    (∀ r ∈ threeLevels, slopeByLevel (converted ![id, fun x => x ^ 3] r) = slopeByLevel r) ∧
    treeOfTable "ale" slopeByLevel none threeLevels (interactionKw (.fixed 1 (some 2) 1)) = some [(0, 4 / 5, 10, none), (1, 0, 2, some (1 / 2)), (2, 0, 8, some (1 / 2))] ∧
    treeOfTable "ale" slopeByLevel none (threeLevels.map (converted ![id, fun x => x ^ 3])) (interactionKw (.fixed 1 (some 2) 1)) = some [(0, 4 / 5, 10, none), (1, 1, 4, some 2), (2, 0, 6, some 2)] := by
  refine ⟨?_, ?_, ?_⟩ <;> decide +kernel

end Effector
