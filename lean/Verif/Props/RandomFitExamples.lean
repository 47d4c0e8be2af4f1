import Verif.Props.RandomTotal
import Verif.Props.Randomness

/-!
# C117: examples, and what is false of a fit with random draws
-/

set_option linter.unusedSectionVars false

namespace Effector

open Spec

/-! ### A fit that draws nothing -/

section

variable {K : Type} [Field K] [LinearOrder K] {D : ℕ} {σ : Type} [PySqrt K]

/-- If a draw changes neither the state nor the heterogeneity function, the fit is the one without draws. -/
theorem randomFit_eq (w : World σ K D) (draw : σ → σ × (ℕ → ℕ → List ℕ)) (o : RegionalObj K D) (features : PyVal) (kw : FitKw K D) (hs : ∀ s, (draw s).1 = s)
    (hh : ∀ s f, runHeter (S := RegionalState K D) w (drawn o (draw s).2) kw f = runHeter w o kw f) :
    randomFit w draw o features kw = runRegionalFit w o features kw := by
  have h1 : ∀ f, randomHeter (S := RegionalState K D) w draw o kw f = runHeter w o kw f := by
    intro f
    unfold randomHeter
    cases e : runHeter (S := RegionalState K D) w o kw f with
    | error e => rfl
    | ok h =>
      refine congrArg Except.ok ?_
      funext x g y
      unfold redraw
      simp only [hh, e, hs]
  have h2 : ∀ l, randomFitLoop w draw o kw l = runRegionalFitLoop w o kw l := by
    intro l
    induction l with
    | nil => rfl
    | cons f t ih =>
      unfold randomFitLoop runRegionalFitLoop
      rw [h1, ih]
      unfold runRegionalFitOne
      funext y
      cases e : runHeter (S := RegionalState K D) w o kw f with
      | error e => rfl
      | ok h => rfl
  unfold randomFit runRegionalFit
  simp only [h2]

/-- **C117, nothing is drawn.**  `fit` of RegionalRHALE and RegionalALE, and of RegionalPDP and RegionalDerPDP with `nof_instances="all"`, does not depend on the outcomes of
the draws: with any outcomes (which leave the user's code as it is) it is the fit of C104-C111, in the object and in what the user's code is asked. -/
theorem C117_nothing_drawn (w : World σ K D) (draw : σ → σ × (ℕ → ℕ → List ℕ)) (o : RegionalObj K D) (features : PyVal) (kw : FitKw K D) (hs : ∀ s, (draw s).1 = s)
    (hm : o.cfg.methodName ≠ "shap") (hn : o.cfg.methodName = "rhale" ∨ o.cfg.methodName = "ale" ∨ kw.nof = .str "all") :
    randomFit w draw o features kw = runRegionalFit w o features kw := by
  refine randomFit_eq w draw o features kw hs fun s f => ?_
  unfold runHeter
  have e : (drawn o (draw s).2).cfg.methodName = o.cfg.methodName := rfl
  dsimp only
  rw [e]
  by_cases h1 : o.cfg.methodName = "rhale"
  · rw [if_pos h1, if_pos h1]; rfl
  by_cases h2 : o.cfg.methodName = "ale"
  · rw [if_neg h1, if_neg h1, if_pos h2, if_pos h2]; rfl
  rcases hn with hn | hn | hn
  · exact absurd hn h1
  · exact absurd hn h2
  rw [if_neg h1, if_neg h2, if_neg hm, if_neg h1, if_neg h2, if_neg hm, hn]
  rfl

end

/-- Three values of feature 0 for each of the values 0, 1 and 5 of feature 1. -/
def threeGroups : List (Row ℚ 2) := [![0, 0], ![1, 0], ![2, 0], ![0, 1], ![1, 1], ![2, 1], ![0, 5], ![1, 5], ![2, 5]]

/-- The user's code: the model `x_0 + 2 x_0 x_1`.  The state counts the draws. -/
def drawWorld : World ℕ ℚ 2 where
  model := fun s X => (s, .ok (X.map fun r => r 0 + 2 * r 0 * r 1))
  jac := fun s X => (s, .ok (X.map fun r => ![1 + 2 * r 1, 2 * r 0]))
  explain := fun s _ => (s, .error .valueError)

/-- Feature 0 is numerical, feature 1 categorical. -/
def groupTypes : Fin 2 → FeatType := ![.cont, .cat]

/-- Outcomes of `np.random.choice(N, 2, replace=False)`: the first draw, of the whole data set, is an instance of the first group and one of the second; the next six (the sides of
the three candidates) are two neighbours; after that the first and the last instance. -/
def unlucky (s : ℕ) : ℕ × (ℕ → ℕ → List ℕ) :=
  (s + 1, fun N n => if n = 2 ∧ 2 ≤ N then (if s = 0 then [0, 3 % N] else if s ≤ 6 then [0, 1] else [0, N - 1]) else List.range n)

/-- Each outcome is one of a draw without replacement, of 2 out of at least 4 instances, and of 2 out of 3 after the first. -/
example : ∀ s N, 4 ≤ N ∨ (s ≠ 0 ∧ 2 ≤ N) → (((unlucky s).2 N 2).length = 2 ∧ ((unlucky s).2 N 2).Nodup ∧ ∀ i ∈ (unlucky s).2 N 2, i < N) := by
  intro s N h
  unfold unlucky
  dsimp only
  rw [if_pos ⟨rfl, by omega⟩]
  split_ifs with h1 h2
  · rw [Nat.mod_eq_of_lt (by omega : 3 < N)]
    simp; omega
  · simp; omega
  · simp; omega

/-- The nodes of a tree: instances, heterogeneity, weight. -/
def shown (t : Option (Option (List (Node ℚ 2)))) : List (ℕ × ℚ × ℚ) := (t.join.getD []).map fun n => (n.rows.length, n.heterogeneity, n.weight)

/-- `RegionalPDP`, constructed on these data. -/
def groupObj : Py (RegionalObj ℚ 2) := regionalNew interactionBB "pdp" threeGroups none (.str "all") none (some groupTypes) 3 none (fun q => toString q)

/-- The pruned tree after `RegionalPDP.fit(0, nof_instances=2)` with these outcomes, and the heterogeneity and the drop with which the splits were chosen. -/
def unluckyFit : Option (List (ℕ × ℚ × ℚ) × List (ℚ × ℚ)) :=
  match groupObj with
  | .ok o =>
    let r := randomFit drawWorld unlucky o (.int 0) { interactionKw (.str "greedy") with nof := .int 2 } ⟨0, [], RegionalState.init⟩
    match r.2 with
    | .ok () => some (shown (r.1.obj.treePruned 0), (((r.1.obj.splits 0).bind (·.2)).map fun s => s.levels.map fun sp => (sp.wHeter, sp.wHeterDrop)).getD [])
    | .error _ => none
  | .error _ => none

/-- **C117, what does not hold.**  The heterogeneities in the tree are not the ones a split was chosen (and kept) for: `RegionalPDP.fit(0, nof_instances=2)` on nine instances
returns a pruned tree whose root has heterogeneity 1 and whose two subregions, of 3 and 6 instances, have 0 and 4, on average 8/3; the split was kept because the subregions
had heterogeneity 0, a drop of 1, when the candidates were compared. -/
theorem C117_shown_is_measured_again : unluckyFit = some ([(9, 1, 1), (3, 0, 1 / 3), (6, 4, 2 / 3)], [(0, 1)]) ∧ (1 / 3 * 0 + 2 / 3 * 4 : ℚ) > 1 := by
  constructor
  · decide +kernel
  · norm_num

/-- The hypotheses of `C117_fit` and of `C117_nothing_drawn` (with all instances) are met. -/
example : (match groupObj with
    | .ok o => o.cfg.instanceEffects.isNone && decide (o.cfg.methodName ≠ "shap") &&
        (match (randomFit drawWorld (fun s => (s, (unlucky s).2)) o (.int 0) (interactionKw (.str "greedy")) ⟨0, [], RegionalState.init⟩) with
        | (_, .ok ()) => true
        | _ => false)
    | .error _ => false) = true := by
  decide +kernel

/-- A heterogeneity that is another number each time: the parity of the number of measurements so far, or the penalty for less than two instances. -/
def parityHeter : HeterR ℕ ℚ 2 Unit := fun x _ y => ({ y with world := y.world + 1 }, .ok (if x.length < 2 then 100000000 else ((y.world % 2 : ℕ) : ℚ)))

/-- The arguments of the search. -/
def parityCfg : RegCfg ℚ 2 :=
  { feature := 0, heter := fun _ _ => 0, data := threeGroups, dataEffect := none, types := groupTypes, names := fun _ => "", catLimit := 3, foc := [1], minPoints := 2,
    nofSplits := 2, maxLevels := 1, dropThres := 0, smallEnough := 0, splitCat := false }

/-- The hypotheses of `C117_search_returns` are met. -/
example : RandomArgsOk parityCfg parityHeter ∧ parityCfg.maxLevels ≤ parityCfg.foc.length := by
  refine ⟨⟨by unfold parityCfg threeGroups; simp, by decide, ?_, ?_, ?_⟩, by decide⟩
  · intro f _ _
    have h : ∀ f : Fin 2, distinct (threeGroups.map (· f)) ≤ max 2 3 := by decide +kernel
    exact h f
  · intro x e _ y
    refine ⟨_, _, rfl, ?_⟩
    split_ifs
    · norm_num
    · have h : y.world % 2 ≤ 1 := by omega
      have h' : ((y.world % 2 : ℕ) : ℚ) ≤ 1 := by exact_mod_cast h
      exact ⟨by positivity, by linarith⟩
  · intro e he
    cases he

/-- Those of `C117_search` as well; the drop and the stored heterogeneities depend on the state in which the search starts. -/
example : ((runSearch parityCfg parityHeter ⟨0, [], ()⟩).2.toOption.join.map fun s => s.levels.map fun sp => (sp.position, sp.wHeterDrop, sp.heterogeneity)) = some [(0, -4 / 11, [1, 0])] ∧
    ((runSearch parityCfg parityHeter ⟨1, [], ()⟩).2.toOption.join.map fun s => s.levels.map fun sp => (sp.position, sp.wHeterDrop, sp.heterogeneity)) = some [(0, 4 / 11, [0, 1])] := by
  refine ⟨?_, ?_⟩ <;> decide +kernel

end Effector
