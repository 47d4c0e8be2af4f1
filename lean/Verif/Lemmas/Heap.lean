import Verif.Lemmas.Tree
import Mathlib.Tactic.Ring
import Mathlib.Tactic.Linarith

/-!
# The partition tree in heap order

The nodes of the tree that `splits_to_tree` returns are numbered like a binary heap: node `i + 1` is a child of node `i / 2`.
-/

set_option linter.unusedSectionVars false

namespace Effector

variable {K : Type} [Field K] [LinearOrder K] [IsStrictOrderedRing K] {D : ℕ}

/-- The effects that `splits_to_tree` splits for the children of a node: line 437 replaces them by the rows below level 0. -/
def effOf (par : Node K D) : Option (List (Row K D)) := if par.level = 0 then par.effects else some par.rows

/-- Node number `i + 1`, as a function of its parent and of the split of its level `l + 1`. -/
def heapNode (tc : TreeCfg K D) (hasEff : Bool) (nInit : ℕ) (par : Node K D) (sp : Split K D) (l i : ℕ) : Node K D :=
  let parts := splitRows par.rows sp.feature sp.position sp.typ
  let rows := if i % 2 = 0 then parts.1 else parts.2
  let effParts : Option (List (Row K D) × List (Row K D)) :=
    if hasEff then (effOf par).map fun e => splitEff par.rows e sp.feature sp.position sp.typ else none
  { idx := i + 1,
    name := childName par.name (conditionText (tc.names sp.feature) (tc.posText sp.feature sp.position) sp.typ i) sp.nofInstances.length,
    parent := some (i / 2), level := l + 1, heterogeneity := sp.heterogeneity.getD (i + 2 - 2 ^ (l + 1)) 0,
    weight := (rows.length : K) / (nInit : K), nofInstances := sp.nofInstances.getD (i + 2 - 2 ^ (l + 1)) 0, rows := rows,
    effects := effParts.map fun p => if i % 2 = 0 then p.1 else p.2,
    foc := some sp.feature, typ := some sp.typ, position := some sp.position, comparison := some (comparisonSign sp.typ i) }

/-- The tree in heap order, with root `root` and the given splits. -/
structure Heap (tc : TreeCfg K D) (hasEff : Bool) (nInit : ℕ) (root : Node K D) (splits : List (Split K D)) (tree : List (Node K D)) : Prop where
  len : tree.length = 2 ^ (splits.length + 1) - 1
  root : tree[0]? = some root
  node : ∀ (i : ℕ) (nd : Node K D), tree[i + 1]? = some nd → ∃ par sp l, tree[i / 2]? = some par ∧ splits[l]? = some sp ∧
    2 ^ (l + 1) ≤ i + 2 ∧ i + 2 < 2 ^ (l + 2) ∧ par.level = l ∧ nd = heapNode tc hasEff nInit par sp l i

/-- What the loop keeps about the last level. -/
def ParentsOk (k : ℕ) (tree : List (Node K D)) (parents : List (ParentInfo K D)) : Prop :=
  parents.length = 2 ^ k ∧ ∀ (j : ℕ), j < 2 ^ k → ∃ nd, tree[2 ^ k - 1 + j]? = some nd ∧ nd.level = k ∧
    parents.getD j noParent = { name := nd.name, rows := nd.rows, effects := effOf nd }

theorem conditionText_mod {f p : String} {typ : FeatType} {i j : ℕ} (h : i % 2 = j % 2) : conditionText f p typ i = conditionText f p typ j := by
  unfold conditionText; rw [h]

theorem comparisonSign_mod {typ : FeatType} {i j : ℕ} (h : i % 2 = j % 2) : comparisonSign typ i = comparisonSign typ j := by
  unfold comparisonSign; rw [h]

theorem two_pow_succ_mod (k j : ℕ) : (2 ^ (k + 1) + j) % 2 = j % 2 := by
  rw [pow_succ]; omega

theorem childNode_heap (tc : TreeCfg K D) (hasEff : Bool) (nInit : ℕ) (parents : List (ParentInfo K D)) (sp : Split K D) (k j : ℕ) (nd : Node K D)
    (hp : parents.getD (j / 2) noParent = { name := nd.name, rows := nd.rows, effects := effOf nd }) :
    childNode tc hasEff nInit parents sp (k + 1) (2 ^ (k + 1) - 1) (2 ^ k - 1) j = heapNode tc hasEff nInit nd sp k (2 ^ (k + 1) - 2 + j) ∧
    childInfo tc hasEff parents sp j = ParentInfo.mk (heapNode tc hasEff nInit nd sp k (2 ^ (k + 1) - 2 + j)).name
      (heapNode tc hasEff nInit nd sp k (2 ^ (k + 1) - 2 + j)).rows (heapNode tc hasEff nInit nd sp k (2 ^ (k + 1) - 2 + j)).effects := by
  have h2 : 2 ≤ 2 ^ (k + 1) := by rw [pow_succ]; have := Nat.one_le_two_pow (n := k); omega
  have hm : (2 ^ (k + 1) - 2 + j) % 2 = j % 2 := by rw [pow_succ]; have := Nat.one_le_two_pow (n := k); omega
  have e1 : 2 ^ (k + 1) - 2 + j + 1 = 2 ^ (k + 1) - 1 + j := by omega
  have e2 : (2 ^ (k + 1) - 2 + j) / 2 = 2 ^ k - 1 + j / 2 := by rw [pow_succ]; have := Nat.one_le_two_pow (n := k); omega
  have e3 : 2 ^ (k + 1) - 2 + j + 2 - 2 ^ (k + 1) = j := by omega
  unfold childNode heapNode childInfo
  simp only [hp, hm, e1, e2, e3, conditionText_mod hm, comparisonSign_mod hm]
  exact ⟨trivial, trivial⟩

theorem heap_step (tc : TreeCfg K D) (hasEff : Bool) (nInit : ℕ) (root : Node K D) (tree : List (Node K D)) (parents : List (ParentInfo K D))
    (done : List (Split K D)) (sp : Split K D) (hH : Heap tc hasEff nInit root done tree) (hP : ParentsOk done.length tree parents) :
    Heap tc hasEff nInit root (done ++ [sp]) (tree ++ (List.range (2 * parents.length)).map
        (childNode tc hasEff nInit parents sp (done.length + 1) tree.length (2 ^ done.length - 1))) ∧
      ParentsOk (done.length + 1) (tree ++ (List.range (2 * parents.length)).map
          (childNode tc hasEff nInit parents sp (done.length + 1) tree.length (2 ^ done.length - 1)))
        (nextParents ((List.range (2 * parents.length)).map (childInfo tc hasEff parents sp))) := by
  obtain ⟨hlen, hroot, hnode⟩ := hH
  obtain ⟨hpl, hpar⟩ := hP
  have hpos := Nat.one_le_two_pow (n := done.length)
  have hps : 2 ^ (done.length + 1) = 2 * 2 ^ done.length := by rw [pow_succ]; ring
  have hps2 : 2 ^ (done.length + 2) = 4 * 2 ^ done.length := by rw [pow_succ, pow_succ]; ring
  refine ⟨⟨?_, ?_, ?_⟩, ?_, ?_⟩
  · simp only [List.length_append, List.length_map, List.length_range, List.length_singleton, hlen, hpl]
    rw [hps, show done.length + 1 + 1 = done.length + 2 from rfl, hps2]; omega
  · rw [List.getElem?_append_left (by rw [hlen, hps]; omega)]
    exact hroot
  · intro i nd hi
    by_cases hlt : i + 1 < tree.length
    · rw [List.getElem?_append_left hlt] at hi
      obtain ⟨par, sp', l, h1, h2, h3, h4, h5, h6⟩ := hnode i nd hi
      refine ⟨par, sp', l, ?_, ?_, h3, h4, h5, h6⟩
      · rw [List.getElem?_append_left (by omega)]; exact h1
      · rw [List.getElem?_append_left]
        · exact h2
        · exact (List.getElem?_eq_some_iff.mp h2).1
    · rw [List.getElem?_append_right (by omega)] at hi
      have hj : i + 1 - tree.length < 2 * parents.length := by
        have := (List.getElem?_eq_some_iff.mp hi).1
        simpa using this
      rw [List.getElem?_map, List.getElem?_range hj] at hi
      simp only [Option.map_some, Option.some.injEq] at hi
      rw [hlen] at hj hi hlt
      rw [hpl] at hj
      obtain ⟨par, hp1, hp2, hp3⟩ := hpar ((i + 1 - (2 ^ (done.length + 1) - 1)) / 2) (by omega)
      have := (childNode_heap tc hasEff nInit parents sp done.length _ par hp3).1
      rw [this] at hi
      refine ⟨par, sp, done.length, ?_, by simp, by omega, by omega, hp2, ?_⟩
      · have e : i / 2 = 2 ^ done.length - 1 + (i + 1 - (2 ^ (done.length + 1) - 1)) / 2 := by omega
        rw [e, List.getElem?_append_left]
        · exact hp1
        · exact (List.getElem?_eq_some_iff.mp hp1).1
      · rw [← hi]
        congr 1
        omega
  · simp only [nextParents, List.length_map, List.length_range, hpl, hps]
  · intro j hj
    obtain ⟨par, hp1, hp2, hp3⟩ := hpar (j / 2) (by omega)
    obtain ⟨hc1, hc2⟩ := childNode_heap tc hasEff nInit parents sp done.length j par hp3
    refine ⟨heapNode tc hasEff nInit par sp done.length (2 ^ (done.length + 1) - 2 + j), ?_, rfl, ?_⟩
    · rw [List.getElem?_append_right (by omega), List.getElem?_map, hlen, Nat.add_sub_cancel_left, List.getElem?_range (by omega)]
      simp only [Option.map_some, hc1]
    · unfold nextParents
      rw [List.map_map, List.getD, List.getElem?_map, List.getElem?_range (by omega)]
      simp only [Option.map_some, Function.comp, hc2, Option.getD_some]
      unfold effOf
      simp [heapNode]

theorem heap_levels (tc : TreeCfg K D) (hasEff : Bool) (nInit : ℕ) (root : Node K D) (rest : List (Split K D)) :
    ∀ (tree : List (Node K D)) (parents : List (ParentInfo K D)) (done : List (Split K D)), Heap tc hasEff nInit root done tree →
      ParentsOk done.length tree parents →
      Heap tc hasEff nInit root (done ++ rest) (tree ++ treeLevels tc hasEff nInit (done.length + 1) tree.length (2 ^ done.length - 1) parents rest) := by
  induction rest with
  | nil => intro tree parents done hH _; simpa [treeLevels] using hH
  | cons sp t ih =>
    intro tree parents done hH hP
    obtain ⟨h1, h2⟩ := heap_step tc hasEff nInit root tree parents done sp hH hP
    have := ih _ _ (done ++ [sp]) h1 (by simpa using h2)
    unfold treeLevels
    have e : tree.length = 2 ^ (done ++ [sp]).length - 1 := by rw [hH.len]; simp
    rw [← e] at this
    simpa [List.append_assoc] using this

theorem heap_root (tc : TreeCfg K D) (hasEff : Bool) (nInit : ℕ) (root : Node K D) : Heap tc hasEff nInit root [] [root] :=
  ⟨rfl, rfl, by intro i nd h; simp at h⟩

theorem levelsShape_take {n : ℕ} {l : List (Split K D)} (h : LevelsShape n l) (k : ℕ) : LevelsShape n (l.take k) := by
  induction l generalizing n k with
  | nil => simpa using h
  | cons a t ih =>
    cases k with
    | zero => trivial
    | succ k => exact ⟨h.1, h.2.1, ih h.2.2 k⟩

theorem levelsShape_get {n : ℕ} {l : List (Split K D)} (h : LevelsShape n l) {i : ℕ} {sp : Split K D} (hi : l[i]? = some sp) :
    sp.nofInstances.length = n * 2 ^ (i + 1) ∧ sp.heterogeneity.length = n * 2 ^ (i + 1) := by
  induction l generalizing n i with
  | nil => simp at hi
  | cons a t ih =>
    cases i with
    | zero =>
      simp only [List.getElem?_cons_zero, Option.some.injEq] at hi
      subst hi
      exact ⟨by rw [h.1]; ring, by rw [h.2.1]; ring⟩
    | succ i =>
      simp only [List.getElem?_cons_succ] at hi
      obtain ⟨h1, h2⟩ := ih h.2.2 hi
      exact ⟨by rw [h1]; ring, by rw [h2]; ring⟩

/-- `splits_to_tree` succeeds and returns a tree in heap order, with pairwise different names. -/
theorem splitsToTree_heap (cfg : RegCfg K D) (posText : Fin D → K → String) (s : Splits K D) (imp : Bool)
    (used : List (Split K D)) (hused : used = if imp then chooseImportantSplits cfg (some s) else s.levels) (hs : LevelsShape 1 used) :
    ∃ tree, splitsToTree cfg posText (some s) imp = .ok (some tree) ∧ (tree.map (·.name)).Nodup ∧
      Heap { names := cfg.names, posText := posText } cfg.dataEffect.isSome s.nofInit (rootNode cfg s) used tree := by
  have hT : TreeInv [rootNode cfg s] 0 [({ name := cfg.names cfg.feature, rows := cfg.data, effects := cfg.dataEffect } : ParentInfo K D)] := by
    refine ⟨?_, by simp, by simp, ⟨(cfg.names cfg.feature).toList.length, ?_, ?_⟩⟩
    · intro i p hp
      cases i with
      | zero =>
        simp only [List.getElem?_cons_zero, Option.some.injEq] at hp
        subst hp
        exact ⟨rootNode cfg s, rfl, rfl, rfl⟩
      | succ i => simp at hp
    · intro p hp
      rw [List.mem_singleton] at hp
      rw [hp]
    · intro nd hnd
      rw [List.mem_singleton] at hnd
      rw [hnd]
      exact le_rfl
  obtain ⟨h1, h2⟩ := addLevels_eq { names := cfg.names, posText := posText } cfg.dataEffect.isSome s.nofInit 1 0 _ _ used hT hs
  refine ⟨_, ?_, h2, ?_⟩
  · unfold splitsToTree
    simp only [bind, Except.bind, pure, Except.pure]
    rw [← hused, h1]
  · have := heap_levels { names := cfg.names, posText := posText } cfg.dataEffect.isSome s.nofInit (rootNode cfg s) used [rootNode cfg s]
      [({ name := cfg.names cfg.feature, rows := cfg.data, effects := cfg.dataEffect } : ParentInfo K D)] []
      (heap_root _ _ _ _) ⟨rfl, fun j hj => ⟨rootNode cfg s, by
        have : j = 0 := by simpa using hj
        subst this; rfl, rfl, by
        have : j = 0 := by simpa using hj
        subst this; rfl⟩⟩
    simpa using this

end Effector
