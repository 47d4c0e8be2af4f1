import Verif.Props.RegionalApiSplits
import Verif.Props.RegionalExamples

/-!
# C71, C77, C79, C81: concrete objects, from the constructor to `eval`
-/

set_option linter.unusedSectionVars false

namespace Effector

open Spec

/-- Feature 0 has slope 1 where feature 1 is 0 and slope 3 where it is 1. -/
def interactionBB : BlackBoxes ℚ 2 :=
  { cast := id, model := List.map fun r => r 0 + 2 * r 0 * r 1, jac := some (List.map fun r => ![1 + 2 * r 1, 2 * r 0]),
    ext := { explain := fun _ => .error .valueError, spline := fun _ => .error .valueError }, choice := fun _ n => List.range n }

/-- Three values of feature 0 for each value of feature 1. -/
def interactionData : List (Row ℚ 2) := [![0, 0], ![1, 0], ![2, 0], ![0, 1], ![1, 1], ![2, 1]]

/-- The arguments of `fit`. -/
def interactionKw (bin : BinMethod ℚ) : FitKw ℚ 2 :=
  { dropThres := 1 / 10, smallEnough := 1 / 10, maxDepth := 1, nofCandidates := 2, minPoints := 2, foc := none, splitCat := false, bin := bin,
    centering := .bool false, nof := .str "all", points := 4, vec := true }

/-- The nodes of the pruned tree after a history: number, heterogeneity, instances. -/
def nodesOf (o : RegionalObj ℚ 2) (calls : List (RegCall ℚ 2)) (f : Fin 2) : Option (List (ℕ × String × ℚ × ℕ)) :=
  ((regRunM o calls).treePruned f).join.map (·.map fun nd => (nd.idx, nd.name, nd.heterogeneity, nd.rows.length))

/-- What `regionalEvalM` returns for the mean effect. -/
def evalOf (o : RegionalObj ℚ 2) (calls : List (RegCall ℚ 2)) (f : Fin 2) (n : ℕ) (xs : List ℚ) : Option (List ℚ) :=
  meanPart (regionalEvalM o (regRunM o calls) f n xs false (.bool false)).2

/-- RegionalRHALE, through the public API: construct and fit.  The feature is split once, into two subregions of heterogeneity 0. -/
example : (match regionalNew interactionBB "rhale" interactionData none (.str "all") none none 3 none (fun q => toString q) with
    | .ok o =>
      let calls := [RegCall.fit (.int 0) (interactionKw (.greedy 2 (some 2) (1 / 2) 1))]
      decide ((lastKw o 0 calls).isSome = true) && decide (nodesOf o calls 0 = some [(0, "x_0", 2, 6), (1, "x_0 | x_1 == 0", 0, 3), (2, "x_0 | x_1 != 0", 0, 3)])
    | .error _ => false) = true := by decide +kernel

/-- RegionalPDP, through the public API: construct, fit, evaluate at the two subregions: the slopes 1 and 3; and at the root: 2. -/
example : (match regionalNew interactionBB "pdp" interactionData none (.str "all") none none 3 none (fun q => toString q) with
    | .ok o =>
      let calls := [RegCall.fit (.int 0) (interactionKw (.str "greedy"))]
      decide ((lastKw o 0 calls).isSome = true) && decide (nodesOf o calls 0 = some [(0, "x_0", 1, 6), (1, "x_0 | x_1 == 0", 0, 3), (2, "x_0 | x_1 != 0", 0, 3)]) &&
        decide (evalOf o calls 0 1 [0, 1, 2] = some [0, 1, 2]) && decide (evalOf o calls 0 2 [0, 1, 2] = some [0, 3, 6]) &&
        decide (evalOf o calls 0 0 [0, 1, 2] = some [0, 2, 4])
    | .error _ => false) = true := by decide +kernel

/-- A second, failing fit (one point per subregion) keeps the trees of the first. -/
example : (match regionalNew interactionBB "pdp" interactionData none (.str "all") none none 3 none (fun q => toString q) with
    | .ok o =>
      let calls := [RegCall.fit (.int 0) (interactionKw (.str "greedy")), RegCall.fit (.str "all") { interactionKw (.str "greedy") with minPoints := 1 }]
      decide ((nodesOf o calls 0).map List.length = some 3 ∧ nodesOf o calls 1 = none)
    | .error _ => false) = true := by decide +kernel

/-- The same data with the additive model `x_0 + 10 x_1`. -/
def additiveBB : BlackBoxes ℚ 2 :=
  { interactionBB with model := List.map fun r => r 0 + 10 * r 1, jac := some (List.map fun _ => ![1, 10]) }

/-- C79 through the API: RegionalRHALE and RegionalALE leave it unsplit. -/
example : (match regionalNew additiveBB "rhale" interactionData none (.str "all") none none 3 none (fun q => toString q) with
    | .ok o => decide (nodesOf o [RegCall.fit (.int 0) (interactionKw (.greedy 2 (some 2) (1 / 2) 1))] 0 = some [(0, "x_0", 0, 6)])
    | .error _ => false) = true ∧
    (match regionalNew additiveBB "ale" interactionData none (.str "all") none none 3 none (fun q => toString q) with
    | .ok o => decide (nodesOf o [RegCall.fit (.int 0) (interactionKw (.fixed 1 (some 2) 1))] 0 = some [(0, "x_0", 0, 6)])
    | .error _ => false) = true := by decide +kernel

/-- The hypotheses of `C71_rhale_api` are met (`C = 2`, `w = 2`). -/
example : FitArgsOk (interactionKw (.greedy 2 (some 2) (1 / 2) 1)) (.str "all") [0, 1] ∧
    TypesOk interactionData none 3 (interactionKw (.greedy 2 (some 2) (1 / 2) 1)) ∧
    (regionalRhaleEffects interactionBB none interactionData).length = interactionData.length ∧
    (∀ f : Fin 2, (∀ r ∈ regionalRhaleEffects interactionBB none interactionData, 0 ≤ r f ∧ r f ≤ 0 + 4) ∧ (∀ r ∈ interactionData, 0 ≤ r f ∧ r f ≤ 0 + 2)) := by
  refine ⟨⟨by decide, by decide, by decide, by rfl⟩, Or.inl rfl, by decide +kernel, by decide +kernel⟩

end Effector
