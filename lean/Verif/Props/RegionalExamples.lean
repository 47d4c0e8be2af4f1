import Verif.Props.Regional
import Mathlib.Data.Fin.VecNotation

/-!
# C50, C59: examples, and where the properties fail
-/

set_option linter.unusedSectionVars false

namespace Effector

/-- The pruned tree of a fit, or nothing. -/
def prunedTree (cfg : RegionalCfg ℚ 3) (a : FitArgs ℚ 3) (f : Fin 3) : Option (List (Node ℚ 3)) :=
  match searchAllSplits (regionsOf cfg a f) with
  | .ok sp => match splitsToTree (regionsOf cfg a f) (posTextOf cfg.fmt none) sp true with
    | .ok t => t
    | .error _ => none
  | .error _ => none

theorem prunedTree_spec {cfg : RegionalCfg ℚ 3} {a : FitArgs ℚ 3} {f : Fin 3} {tree : List (Node ℚ 3)} (h : prunedTree cfg a f = some tree) :
    Spec.TreeFor cfg a f none true (some tree) := by
  unfold prunedTree at h
  rcases h1 : searchAllSplits (regionsOf cfg a f) with e | sp
  · rw [h1] at h; cases h
  · rw [h1] at h
    simp only at h
    rcases h2 : splitsToTree (regionsOf cfg a f) (posTextOf cfg.fmt none) sp true with e | t
    · rw [h2] at h; cases h
    · rw [h2] at h
      simp only at h
      exact ⟨sp, h1, by rw [h2, h]⟩

/-- The mean effect, if there was no exception. -/
def meanPart (r : Py (EvalOut ℚ)) : Option (List ℚ) := match r with
  | .ok (x, _) => some x
  | .error _ => none

/-- Three binary features, every combination twice. -/
def cubeData : List (Row ℚ 3) :=
  [![0, 0, 0], ![1, 0, 0], ![0, 0, 1], ![1, 0, 1], ![0, 1, 0], ![1, 1, 0], ![0, 1, 1], ![1, 1, 1]] ++
  [![0, 0, 0], ![1, 0, 0], ![0, 0, 1], ![1, 0, 1], ![0, 1, 0], ![1, 1, 0], ![0, 1, 1], ![1, 1, 1]]

/-- A fit of depth 2. -/
def cubeArgs : FitArgs ℚ 3 :=
  { heter := fun _ x _ => Spec.popVar (x.map fun r => r 1 + r 2), dropThres := 0, smallEnough := 0, maxDepth := 2, nofCandidates := 1,
    minPoints := 2, foc := none, splitCat := false, bin := .str "greedy" }

/-- The same, with a threshold that no split reaches. -/
def strictArgs : FitArgs ℚ 3 := { cubeArgs with dropThres := 2 }

/-- The same, with depth 0: no splits are searched. -/
def flatArgs : FitArgs ℚ 3 := { cubeArgs with maxDepth := 0 }

/-- RegionalRHALE of the model `9 * x`. -/
def cubeCfg : RegionalCfg ℚ 3 :=
  { bb := { cast := id, model := List.map fun r => 9 * r 0, jac := some (List.map fun _ => ![9, 9, 9]),
            ext := { explain := fun _ => .error .valueError, spline := fun _ => .error .valueError }, choice := fun _ n => List.range n },
    methodName := "rhale", data := cubeData, instanceEffects := some (cubeData.map fun _ => ![9, 9, 9]),
    types := ![.cont, .cat, .cat], names := ![("x" : String), "y", "z"], catLimit := 2, defaultArgs := cubeArgs, fmt := fun q => toString q }

theorem cubeCfg_aligned : Spec.Aligned cubeCfg := by
  intro e he; cases he; rfl

/-- The scaling used in the examples. -/
def unitScales : Fin 3 → Scale ℚ := fun _ => { mean := 0, std := 1 }

theorem cube_tree : (prunedTree cubeCfg cubeArgs 0).map (·.map fun nd => (nd.idx, nd.name, nd.level, nd.rows.length)) =
    some [(0, "x", 0, 16), (1, "x | y == 0", 1, 8), (2, "x | y != 0", 1, 8), (3, "x | y == 0 and z == 0", 2, 4),
      (4, "x | y == 0 and z != 0", 2, 4), (5, "x | y != 0 and z == 0", 2, 4), (6, "x | y != 0 and z != 0", 2, 4)] := by
  decide +kernel

theorem cube_fits : Spec.fits cubeCfg cubeArgs 0 = true ∧ Spec.fits cubeCfg strictArgs 0 = true ∧ Spec.fits cubeCfg flatArgs 0 = true := by
  decide +kernel

theorem cube_min : 2 ≤ cubeArgs.minPoints ∧ 2 ≤ strictArgs.minPoints := by decide

theorem cube_node_three :
    ((prunedTree cubeCfg cubeArgs 0).map fun tree => (tree[3]?).map fun nd => (nd.idx,
      meanPart (createAndEval cubeCfg.bb cubeCfg.methodName nd.rows none 0 [0, 1] false (.bool false)),
      meanPart (regionalEval cubeCfg (regionalRun cubeCfg [.fit cubeArgs 0]) 0 3 [0, 1] false (.bool false)).2)) =
    some (some (3, some [9 / 2, 27 / 2], some [0, 1 / 2])) := by
  decide +kernel

/-- **C50 is false for RHALE at level 2.** The effect of a model with constant slope 9, evaluated at a node of level 2, does not have slope 9: the node holds
its data instead of its effects. -/
theorem C50_false_rhale_level_two : ¬ ∀ (cfg : RegionalCfg ℚ 3) (ops : List (RegionalOp ℚ 3)) (f : Fin 3) (φ : Row ℚ 3 → Row ℚ 3),
    (∀ l, rhaleEffects cfg.bb.model cfg.bb.jac none l = l.map φ) → cfg.methodName = "rhale" → cfg.instanceEffects = some (cfg.data.map φ) →
    (∀ sc, RegionalOp.plot f (some sc) ∉ ops) → ∀ a, Spec.afterRefit cfg f (Spec.lastRegFit cfg f ops) = some a →
    ∀ tree, Spec.TreeFor cfg a f none true (some tree) → ∀ nd ∈ tree, ∀ xs het c m, prepCentering c = .ok m →
    (regionalEval cfg (regionalRun cfg ops) f nd.idx xs het c).2 = createAndEval cfg.bb cfg.methodName nd.rows none f xs het c := by
  intro hall
  have h := cube_node_three
  rcases ht : prunedTree cubeCfg cubeArgs 0 with _ | tree
  · rw [ht] at h; cases h
  rw [ht] at h
  simp only [Option.map_some, Option.some.injEq] at h
  rcases h3 : tree[3]? with _ | nd
  · rw [h3] at h; cases h
  rw [h3] at h
  simp only [Option.map_some, Option.some.injEq, Prod.mk.injEq] at h
  obtain ⟨hi, e1, e2⟩ := h
  have := hall cubeCfg [.fit cubeArgs 0] 0 (fun _ => ![9, 9, 9]) (fun l => rfl) rfl rfl (by simp) cubeArgs
    (by simp [Spec.lastRegFit, Spec.regFitStep, cube_fits.1, Spec.afterRefit, cube_min.1]) tree (prunedTree_spec ht) nd (List.mem_of_getElem? h3)
    [0, 1] false (.bool false) .off rfl
  rw [hi] at this
  rw [this, e1] at e2
  norm_num at e2

/-- The hypotheses of `C50_node_equals_global_partial` are met at node 1 of the example, where the slope is 9 as it should be. -/
theorem C50_hypotheses_met :
    Spec.afterRefit cubeCfg 0 (Spec.lastRegFit cubeCfg 0 [.fit cubeArgs 0]) = some cubeArgs ∧
    (prunedTree cubeCfg cubeArgs 0).map (fun tree => (tree[1]?).map fun nd => (nd.idx, nd.level)) = some (some (1, 1)) ∧
    meanPart (regionalEval cubeCfg (regionalRun cubeCfg [.fit cubeArgs 0]) 0 1 [0, 1] false (.bool false)).2 = some [9 / 2, 27 / 2] := by
  refine ⟨by simp [Spec.lastRegFit, Spec.regFitStep, cube_fits.1, Spec.afterRefit, cube_min.1], by decide +kernel, by decide +kernel⟩

/-! ## C59 -/

/-- fit, plot with scaling, fit with other arguments. -/
def staleOps : List (RegionalOp ℚ 3) := [.fit cubeArgs 0, .plot 0 (some unitScales), .fit strictArgs 0]

theorem stale_lastFit : Spec.lastRegFit cubeCfg 0 staleOps = some strictArgs := by
  have h : Spec.fits cubeCfg strictArgs 0 = true := cube_fits.2.1
  simp [Spec.lastRegFit, staleOps, Spec.regFitStep, h, cube_min.2]

theorem stale_facts :
    (prunedTree cubeCfg strictArgs 0).map (·.map fun nd => nd.idx) = some [0] ∧
    meanPart (regionalEval cubeCfg (regionalRun cubeCfg staleOps) 0 1 [0, 1] false (.bool false)).2 = some [9 / 2, 27 / 2] := by
  decide +kernel

/-- **C59 is false for the scaled tree.** The last fit found no important split, so its tree consists of the root; `eval` at node 1 nevertheless returns the
effect of a sub-region of the previous fit instead of raising `AssertionError`, because a scaled plot was made in between. -/
theorem C59_false_stale_tree : ¬ ∀ (cfg : RegionalCfg ℚ 3), Spec.Aligned cfg → ∀ (ops : List (RegionalOp ℚ 3)) (f : Fin 3) (a : FitArgs ℚ 3),
    Spec.lastRegFit cfg f ops = some a → ∀ tree, Spec.TreeFor cfg a f none true (some tree) → ∀ n, (∀ nd ∈ tree, nd.idx ≠ n) →
    ∀ xs het c, ∃ e, (regionalEval cfg (regionalRun cfg ops) f n xs het c).2 = .error e := by
  intro hall
  obtain ⟨h1, h2⟩ := stale_facts
  rcases ht : prunedTree cubeCfg strictArgs 0 with _ | tree
  · rw [ht] at h1; cases h1
  rw [ht] at h1
  simp only [Option.map_some, Option.some.injEq] at h1
  obtain ⟨e, he⟩ := hall cubeCfg cubeCfg_aligned staleOps 0 strictArgs stale_lastFit tree (prunedTree_spec ht) 1 (by
    intro nd hm hi
    have := List.mem_map_of_mem (f := fun nd : Node ℚ 3 => nd.idx) hm
    rw [h1] at this
    simp [hi] at this) [0, 1] false (.bool false)
  rw [he] at h2
  cases h2

/-- A second consequence: after a scaled plot of a feature for which no split had been found, a fit that finds splits does not help: `eval` raises
`AttributeError` (the stored scaled tree is `None`). -/
theorem C59_false_none_tree :
    (match (regionalEval cubeCfg (regionalRun cubeCfg [.fit flatArgs 0, .plot 0 (some unitScales), .fit cubeArgs 0]) 0 1 [0, 1] false (.bool false)).2 with
      | .error e => some e
      | .ok _ => none) = some .attributeError := by
  decide +kernel

/-- The hypotheses of `C59_no_fit_after_scaled_plot_partial` are met by a history. -/
theorem C59_hypotheses_met : Spec.lastRegFit cubeCfg 0 ([.fit cubeArgs 0] ++ RegionalOp.plot 0 (some unitScales) :: [.eval 0 1 [0, 1] true (.bool false)]) =
    some cubeArgs := by
  simp [Spec.lastRegFit, Spec.regFitStep, cube_fits.1, Spec.afterRefit, cube_min.1]

end Effector
