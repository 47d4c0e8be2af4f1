import Verif.Props.RegionalHistory
import Verif.Props.TreeData
import Verif.Props.RegionalExamples

/-!
# C80: what a regional effect conditions on
-/

set_option linter.unusedSectionVars false

namespace Effector

open Spec

variable {K : Type} [Field K] [LinearOrder K] [IsStrictOrderedRing K] {D : ℕ}

/-- The features a fit with arguments `a` may condition on: the given ones, or else all but the feature itself. -/
def Spec.MayCondition (a : FitArgs K D) (f g : Fin D) : Prop :=
  match a.foc with
  | some l => g ∈ l
  | none => g ≠ f

theorem mem_foc {cfg : RegionalCfg K D} {a : FitArgs K D} {f g : Fin D} (h : g ∈ (regionsOf cfg a f).foc) : MayCondition a f g := by
  unfold MayCondition
  unfold regionsOf at h
  simp only at h
  cases ha : a.foc with
  | none =>
    rw [ha] at h
    simpa [focAll] using h
  | some l =>
    rw [ha] at h
    simpa using h

/-- **C80.**  After any history of calls on a regional effect: if the feature `f` was last fitted with the arguments `a`, then in its full and in its pruned tree every
node but the root shows a condition on a feature that `a` allows (by default: not on `f` itself), at a candidate position of that feature, with the feature's own
type; no node is deeper than `max_depth`; and there is no tree at all if `f` is categorical and `split_categorical_features` is off. -/
theorem C80_conditions [PySqrt K] (cfg : RegionalCfg K D) (hal : Aligned cfg) (ops : List (RegionalOp K D)) (f : Fin D) (a : FitArgs K D)
    (ha : lastRegFit cfg f ops = some a) (tree : List (Node K D))
    (ht : (regionalRun cfg ops).treeFull f = some (some tree) ∨ (regionalRun cfg ops).treePruned f = some (some tree)) :
    (cfg.types f = .cat → a.splitCat = true) ∧
    ∀ nd ∈ tree, nd.level ≤ a.maxDepth ∧ (nd.level = 0 → nd.foc = none) ∧
      (0 < nd.level → ∃ g pos, nd.foc = some g ∧ nd.position = some pos ∧ nd.typ = some (cfg.types g) ∧ MayCondition a f g ∧
        Candidate cfg.data cfg.types a.nofCandidates g pos) := by
  obtain ⟨-, h2, -⟩ := C59_trees_of_last_fit cfg hal ops f
  obtain ⟨full, pruned, hf, hp, htf, htp⟩ := h2 a ha
  obtain ⟨imp, sp, hsp, htree⟩ : ∃ imp sp, searchAllSplits (regionsOf cfg a f) = .ok sp ∧
      splitsToTree (regionsOf cfg a f) (posTextOf cfg.fmt none) sp imp = .ok (some tree) := by
    rcases ht with ht | ht
    · rw [hf] at ht
      cases ht
      obtain ⟨sp, h1, h2⟩ := htf
      exact ⟨false, sp, h1, h2⟩
    · rw [hp] at ht
      cases ht
      obtain ⟨sp, h1, h2⟩ := htp
      exact ⟨true, sp, h1, h2⟩
  cases sp with
  | none => cases htree
  | some s =>
    have hT : TreeOf (regionsOf cfg a f) (posTextOf cfg.fmt none) imp s tree := ⟨hsp, htree⟩
    obtain ⟨hnd, hH⟩ := hT.heap hal
    constructor
    · intro hc
      by_contra hcon
      have : searchAllSplits (regionsOf cfg a f) = .ok none := by
        unfold searchAllSplits
        rw [if_pos ⟨hc, by show a.splitCat = false; simpa using hcon⟩]
      rw [hsp] at this
      cases this
    · intro nd hm
      obtain ⟨i, hi⟩ := List.getElem?_of_mem hm
      obtain ⟨n, hn, hu⟩ := usedSplits_prefix (regionsOf cfg a f) imp s
      have hdepth : nd.level ≤ a.maxDepth := by
        have h1 := hH.level_le rfl hi
        rw [hu, List.length_take] at h1
        have h2 : s.levels.length ≤ a.maxDepth := (searchAllSplits_ok (regionsOf cfg a f) hal s hsp).depth
        omega
      refine ⟨hdepth, ?_⟩
      cases i with
      | zero =>
        rw [hH.root] at hi
        cases hi
        exact ⟨fun _ => rfl, fun h => absurd h (Nat.lt_irrefl 0)⟩
      | succ i =>
        obtain ⟨par, sp, l, h1, h2, h3, h4, h5, rfl⟩ := hH.node i nd hi
        refine ⟨fun h => absurd h (Nat.succ_ne_zero _), fun _ => ⟨sp.feature, sp.position, rfl, rfl, ?_⟩⟩
        rw [hu, List.getElem?_take] at h2
        split at h2
        · obtain ⟨⟨ha1, ha2⟩, -, -, ha3, -⟩ := C41_best_split_at_every_level (regionsOf cfg a f) hal s hsp l sp h2
          exact ⟨congrArg some ha3, mem_foc ha1, ha2⟩
        · cases h2

/-- The hypotheses are met by a fit whose pruned tree has seven nodes on three levels, conditioning on two other features. -/
theorem C80_example : Spec.lastRegFit cubeCfg 0 [.fit cubeArgs 0] = some cubeArgs ∧
    ∃ tree, (regionalRun cubeCfg [.fit cubeArgs 0]).treePruned 0 = some (some tree) ∧
      tree.map (fun nd => (nd.level, nd.foc)) = [(0, none), (1, some 1), (1, some 1), (2, some 2), (2, some 2), (2, some 2), (2, some 2)] := by
  have h0 : Spec.lastRegFit cubeCfg 0 [.fit cubeArgs 0] = some cubeArgs := by
    simp only [Spec.lastRegFit, List.foldl_cons, List.foldl_nil, Spec.regFitStep]
    exact if_pos ⟨trivial, cube_min.1, cube_fits.1⟩
  refine ⟨h0, ?_⟩
  have hk : (((regionalRun cubeCfg [.fit cubeArgs 0]).treePruned 0).bind id).map (·.map fun nd => (nd.level, nd.foc)) =
      some [(0, none), (1, some 1), (1, some 1), (2, some 2), (2, some 2), (2, some 2), (2, some 2)] := by decide +kernel
  rcases h : (regionalRun cubeCfg [.fit cubeArgs 0]).treePruned 0 with _ | _ | tree
  · rw [h] at hk; cases hk
  · rw [h] at hk; cases hk
  · rw [h] at hk
    exact ⟨tree, rfl, Option.some.inj hk⟩

end Effector
