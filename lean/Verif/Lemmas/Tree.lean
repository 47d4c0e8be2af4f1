import Verif.Model.Partitioning
import Verif.Lemmas.AleFit

/-!
# The tree that `splits_to_tree` builds, in closed form

`addLevels` looks parents up by name.  Here it is shown that all names are different, so that the look-up always finds the intended parent, and the tree
is written down explicitly.
-/

set_option linter.unusedSectionVars false

namespace Effector

variable {K : Type} [Field K] [LinearOrder K] [IsStrictOrderedRing K] {D : ℕ}

/-! ### Pairs -/

theorem flatMap_pair {α β : Type} (a b : α → β) (xs : List α) (d : α) :
    (xs.flatMap fun x => [a x, b x]) = (List.range (2 * xs.length)).map fun j => if j % 2 = 0 then a (xs.getD (j / 2) d) else b (xs.getD (j / 2) d) := by
  induction xs with
  | nil => rfl
  | cons x t ih =>
    rw [List.flatMap_cons, ih, List.length_cons, show 2 * (t.length + 1) = 2 * t.length + 1 + 1 by ring, List.range_succ_eq_map, List.range_succ_eq_map]
    simp only [List.map_cons, List.map_map, List.cons_append, List.nil_append]
    congr 1
    congr 1
    apply List.map_congr_left
    intro j _
    simp only [Function.comp, Nat.succ_eq_add_one]
    have h1 : (j + 1 + 1) % 2 = j % 2 := by omega
    have h2 : (j + 1 + 1) / 2 = j / 2 + 1 := by omega
    rw [h1, h2]
    simp

/-! ### Explicit nodes -/

/-- An arbitrary default. -/
def noParent : ParentInfo K D := { name := "", rows := [], effects := none }

/-- What `addChild` records about child `j`. -/
def childInfo (tc : TreeCfg K D) (hasEff : Bool) (parents : List (ParentInfo K D)) (sp : Split K D) (j : ℕ) : ParentInfo K D :=
  let par := parents.getD (j / 2) noParent
  let parts := splitRows par.rows sp.feature sp.position sp.typ
  let effParts : Option (List (Row K D) × List (Row K D)) :=
    if hasEff then par.effects.map fun e => splitEff par.rows e sp.feature sp.position sp.typ else none
  { name := childName par.name (conditionText (tc.names sp.feature) (tc.posText sp.feature sp.position) sp.typ j) sp.nofInstances.length
    rows := if j % 2 = 0 then parts.1 else parts.2
    effects := effParts.map fun p => if j % 2 = 0 then p.1 else p.2 }

/-- The node that `addChild` adds. -/
def childNode (tc : TreeCfg K D) (hasEff : Bool) (nInit : ℕ) (parents : List (ParentInfo K D)) (sp : Split K D) (level base pbase j : ℕ) : Node K D :=
  let info := childInfo tc hasEff parents sp j
  { idx := base + j, name := info.name, parent := some (pbase + j / 2), level := level, heterogeneity := sp.heterogeneity.getD j 0,
    weight := (info.rows.length : K) / (nInit : K), nofInstances := sp.nofInstances.getD j 0, rows := info.rows, effects := info.effects,
    foc := some sp.feature, typ := some sp.typ, position := some sp.position, comparison := some (comparisonSign sp.typ j) }

/-- All nodes below the root. -/
def treeLevels (tc : TreeCfg K D) (hasEff : Bool) (nInit : ℕ) : ℕ → ℕ → ℕ → List (ParentInfo K D) → List (Split K D) → List (Node K D)
  | _, _, _, _, [] => []
  | level, base, pbase, parents, sp :: t =>
    (List.range (2 * parents.length)).map (childNode tc hasEff nInit parents sp level base pbase) ++
      treeLevels tc hasEff nInit (level + 1) (base + 2 * parents.length) base
        (nextParents ((List.range (2 * parents.length)).map (childInfo tc hasEff parents sp))) t

/-- The lists in the splits have the lengths of a complete binary tree. -/
def LevelsShape : ℕ → List (Split K D) → Prop
  | _, [] => True
  | n, sp :: t => sp.nofInstances.length = 2 * n ∧ sp.heterogeneity.length = 2 * n ∧ LevelsShape (2 * n) t

/-! ### Names -/

theorem append_inj_len {s t s' t' : String} (h : s ++ t = s' ++ t') (hl : s.toList.length = s'.toList.length) : s = s' ∧ t = t' := by
  have h1 : s.toList ++ t.toList = s'.toList ++ t'.toList := by
    rw [← String.toList_append, ← String.toList_append, h]
  obtain ⟨h2, h3⟩ := List.append_inj h1 hl
  exact ⟨String.toList_inj.mp h2, String.toList_inj.mp h3⟩

/-- All conditions of one level have the same length. -/
theorem conditionText_length (f p : String) (typ : FeatType) (j : ℕ) :
    (conditionText f p typ j).toList.length = f.toList.length + 4 + p.toList.length := by
  unfold conditionText
  cases typ <;> split_ifs <;> simp [String.toList_append] <;> omega

theorem conditionText_parity {f p : String} {typ : FeatType} {i j : ℕ} (h : conditionText f p typ i = conditionText f p typ j) : i % 2 = j % 2 := by
  by_contra hne
  have key : ∀ a b : String, a.toList.length = b.toList.length → f ++ a ++ p = f ++ b ++ p → a = b := by
    intro a b hab hh
    rw [String.append_assoc, String.append_assoc] at hh
    have := (append_inj_len hh rfl).2
    exact (append_inj_len this hab).1
  unfold conditionText at h
  rcases Nat.mod_two_eq_zero_or_one i with hi | hi <;> rcases Nat.mod_two_eq_zero_or_one j with hj | hj
  · omega
  · cases typ with
    | cat => simp only [hi, hj] at h; exact absurd (key _ _ (by decide) h) (by decide)
    | cont => simp only [hi, hj] at h; exact absurd (key _ _ (by decide) h) (by decide)
  · cases typ with
    | cat => simp only [hi, hj] at h; exact absurd (key _ _ (by decide) h) (by decide)
    | cont => simp only [hi, hj] at h; exact absurd (key _ _ (by decide) h) (by decide)
  · omega

/-- The separator of a level. -/
def sepOf (n : ℕ) : String := if n = 2 then " | " else " and "

theorem childName_eq (p c : String) (n : ℕ) : childName p c n = p ++ (sepOf n ++ c) := by
  unfold childName sepOf
  split_ifs <;> rw [String.append_assoc]

theorem sepOf_pos (n : ℕ) : 0 < (sepOf n).toList.length := by
  unfold sepOf
  split_ifs <;> decide

/-! ### The look-up by name -/

theorem find_unique {tree : List (Node K D)} (hn : (tree.map (·.name)).Nodup) {i : ℕ} {nd : Node K D} (h : tree[i]? = some nd) :
    getNode tree nd.name = some nd := by
  unfold getNode
  induction tree generalizing i with
  | nil => simp at h
  | cons a t ih =>
    rw [List.map_cons, List.nodup_cons] at hn
    cases i with
    | zero =>
      simp only [List.getElem?_cons_zero, Option.some.injEq] at h
      subst h
      simp
    | succ i =>
      simp only [List.getElem?_cons_succ] at h
      have hmem : nd ∈ t := List.mem_of_getElem? h
      have hne : a.name ≠ nd.name := fun e => hn.1 (e ▸ List.mem_map_of_mem hmem)
      rw [List.find?_cons_of_neg (by simpa using hne)]
      exact ih hn.2 h

theorem getNode_append {tree l : List (Node K D)} {name : String} {nd : Node K D} (h : getNode tree name = some nd) : getNode (tree ++ l) name = some nd := by
  unfold getNode at *
  rw [List.find?_append, h]
  rfl

/-- Invariant of the loop over the levels: the previous level's nodes sit at `pbase`, `pbase + 1`, ...; all names are different; the previous level's
names all have the length `L` and no name is longer. -/
structure TreeInv (tree : List (Node K D)) (pbase : ℕ) (parents : List (ParentInfo K D)) : Prop where
  at_ : ∀ (i : ℕ) (p : ParentInfo K D), parents[i]? = some p → ∃ nd, tree[pbase + i]? = some nd ∧ nd.name = p.name ∧ nd.idx = pbase + i
  nodup : (tree.map (·.name)).Nodup
  pnodup : (parents.map (·.name)).Nodup
  len : ∃ L, (∀ p ∈ parents, p.name.toList.length = L) ∧ ∀ nd ∈ tree, nd.name.toList.length ≤ L

theorem addChild_eq (tc : TreeCfg K D) (hasEff : Bool) (nInit : ℕ) (parents : List (ParentInfo K D)) (sp : Split K D) (level pbase : ℕ)
    (tree extra : List (Node K D)) (ps : List (ParentInfo K D)) (hT : TreeInv tree pbase parents) (j : ℕ) (hj : j < 2 * parents.length)
    (h1 : sp.nofInstances.length = 2 * parents.length) (h2 : sp.heterogeneity.length = 2 * parents.length) (hlen : extra.length = j) :
    addChild tc hasEff nInit parents sp level (tree ++ extra, ps) j =
      .ok (tree ++ (extra ++ [childNode tc hasEff nInit parents sp level tree.length pbase j]), ps ++ [childInfo tc hasEff parents sp j]) := by
  have hj2 : j / 2 < parents.length := by omega
  have hp : parents[j / 2]? = some parents[j / 2] := List.getElem?_eq_getElem hj2
  have hgd : parents.getD (j / 2) noParent = parents[j / 2] := by simp [List.getD, hp]
  obtain ⟨nd, hnd, hname, hidx⟩ := hT.at_ _ _ hp
  have hget : getNode (tree ++ extra) parents[j / 2].name = some nd := by
    rw [← hname]
    exact getNode_append (find_unique hT.nodup hnd)
  have e1 : pyIndex parents (j / 2) = .ok parents[j / 2] := pyIndex_ok hp
  have e2 : pyIndex sp.heterogeneity j = .ok (sp.heterogeneity.getD j 0) := by
    apply pyIndex_ok
    have : j < sp.heterogeneity.length := by omega
    simp [List.getD, List.getElem?_eq_getElem this]
  have e3 : pyIndex sp.nofInstances j = .ok (sp.nofInstances.getD j 0) := by
    apply pyIndex_ok
    have : j < sp.nofInstances.length := by omega
    simp [List.getD, List.getElem?_eq_getElem this]
  unfold addChild
  simp only [e1, e2, e3, bind, Except.bind, addNode, hget, pure, Except.pure]
  unfold childNode childInfo
  simp only [hgd, List.length_append, hlen, hidx, List.append_assoc]

theorem foldlM_children (tc : TreeCfg K D) (hasEff : Bool) (nInit : ℕ) (parents : List (ParentInfo K D)) (sp : Split K D) (level pbase : ℕ)
    (tree : List (Node K D)) (hT : TreeInv tree pbase parents)
    (h1 : sp.nofInstances.length = 2 * parents.length) (h2 : sp.heterogeneity.length = 2 * parents.length) (k : ℕ) (hk : k ≤ 2 * parents.length) :
    (List.range k).foldlM (addChild tc hasEff nInit parents sp level) (tree, []) =
      .ok (tree ++ (List.range k).map (childNode tc hasEff nInit parents sp level tree.length pbase),
        (List.range k).map (childInfo tc hasEff parents sp)) := by
  induction k with
  | zero => simp [pure, Except.pure]
  | succ k ih =>
    rw [List.range_succ, List.foldlM_append, ih (by omega)]
    simp only [bind, Except.bind, List.foldlM_cons, List.foldlM_nil]
    rw [addChild_eq tc hasEff nInit parents sp level pbase tree _ _ hT k (by omega) h1 h2 (by simp)]
    simp [pure, Except.pure]

theorem childInfo_name (tc : TreeCfg K D) (hasEff : Bool) (parents : List (ParentInfo K D)) (sp : Split K D) (j : ℕ) :
    (childInfo tc hasEff parents sp j).name = (parents.getD (j / 2) noParent).name ++
      (sepOf sp.nofInstances.length ++ conditionText (tc.names sp.feature) (tc.posText sp.feature sp.position) sp.typ j) := by
  unfold childInfo
  exact childName_eq _ _ _

theorem children_names_nodup (tc : TreeCfg K D) (hasEff : Bool) (parents : List (ParentInfo K D)) (sp : Split K D) {L : ℕ}
    (hL : ∀ p ∈ parents, p.name.toList.length = L) (hn : (parents.map (·.name)).Nodup) :
    ((List.range (2 * parents.length)).map fun j => (childInfo tc hasEff parents sp j).name).Nodup := by
  apply List.Nodup.map_on _ List.nodup_range
  intro i hi j hj h
  rw [List.mem_range] at hi hj
  have hi2 : i / 2 < parents.length := by omega
  have hj2 : j / 2 < parents.length := by omega
  have gi : parents.getD (i / 2) noParent = parents[i / 2] := by simp [List.getD, List.getElem?_eq_getElem hi2]
  have gj : parents.getD (j / 2) noParent = parents[j / 2] := by simp [List.getD, List.getElem?_eq_getElem hj2]
  rw [childInfo_name, childInfo_name, gi, gj] at h
  obtain ⟨h1, h2⟩ := append_inj_len h (by rw [hL _ (List.getElem_mem hi2), hL _ (List.getElem_mem hj2)])
  obtain ⟨-, h3⟩ := append_inj_len h2 rfl
  have hpar := conditionText_parity h3
  have hidx : i / 2 = j / 2 := by
    have := (List.Nodup.getElem_inj_iff hn (i := i / 2) (j := j / 2) (hi := by simpa using hi2) (hj := by simpa using hj2)).mp (by simpa using h1)
    exact this
  omega

theorem treeInv_next (tc : TreeCfg K D) (hasEff : Bool) (nInit : ℕ) (parents : List (ParentInfo K D)) (sp : Split K D) (level pbase : ℕ)
    (tree : List (Node K D)) (hT : TreeInv tree pbase parents) :
    TreeInv (tree ++ (List.range (2 * parents.length)).map (childNode tc hasEff nInit parents sp level tree.length pbase)) tree.length
      (nextParents ((List.range (2 * parents.length)).map (childInfo tc hasEff parents sp))) := by
  obtain ⟨L, hL, hT2⟩ := hT.len
  have hlen : ∀ j < 2 * parents.length, (childInfo tc hasEff parents sp j).name.toList.length =
      L + ((sepOf sp.nofInstances.length).toList.length + ((tc.names sp.feature).toList.length + 4 + (tc.posText sp.feature sp.position).toList.length)) := by
    intro j hj
    have hj2 : j / 2 < parents.length := by omega
    have gj : parents.getD (j / 2) noParent = parents[j / 2] := by simp [List.getD, List.getElem?_eq_getElem hj2]
    rw [childInfo_name, gj, String.toList_append, String.toList_append, List.length_append, List.length_append, conditionText_length,
      hL _ (List.getElem_mem hj2)]
  have hnn := children_names_nodup tc hasEff parents sp hL hT.pnodup
  have hsep := sepOf_pos sp.nofInstances.length
  refine ⟨?_, ?_, ?_, ?_⟩
  · intro i p hp
    unfold nextParents at hp
    simp only [List.map_map, List.getElem?_map] at hp
    by_cases hi : i < 2 * parents.length
    · rw [List.getElem?_range hi] at hp
      simp only [Option.map_some, Function.comp, Option.some.injEq] at hp
      subst hp
      refine ⟨childNode tc hasEff nInit parents sp level tree.length pbase i, ?_, rfl, rfl⟩
      rw [List.getElem?_append_right (by omega), Nat.add_sub_cancel_left, List.getElem?_map, List.getElem?_range hi]
      rfl
    · rw [List.getElem?_eq_none (by simpa using hi)] at hp
      cases hp
  · rw [List.map_append, List.nodup_append]
    refine ⟨hT.nodup, ?_, ?_⟩
    · rw [List.map_map]
      exact hnn
    · intro a ha b hb hab
      obtain ⟨nd, hnd, rfl⟩ := List.mem_map.1 ha
      rw [List.map_map] at hb
      obtain ⟨j, hj, rfl⟩ := List.mem_map.1 hb
      have h1 := hT2 nd hnd
      have h2 := hlen j (List.mem_range.mp hj)
      rw [hab] at h1
      simp only [Function.comp] at h1
      have h3 : (childNode tc hasEff nInit parents sp level tree.length pbase j).name = (childInfo tc hasEff parents sp j).name := rfl
      rw [h3, h2] at h1
      omega
  · unfold nextParents
    rw [List.map_map, List.map_map]
    exact hnn
  · refine ⟨L + ((sepOf sp.nofInstances.length).toList.length + ((tc.names sp.feature).toList.length + 4 + (tc.posText sp.feature sp.position).toList.length)),
      ?_, ?_⟩
    · intro p hp
      unfold nextParents at hp
      rw [List.map_map] at hp
      obtain ⟨j, hj, rfl⟩ := List.mem_map.1 hp
      exact hlen j (List.mem_range.mp hj)
    · intro nd hnd
      rcases List.mem_append.mp hnd with h | h
      · exact (hT2 nd h).trans (by omega)
      · obtain ⟨j, hj, rfl⟩ := List.mem_map.1 h
        exact (hlen j (List.mem_range.mp hj)).le

/-- `addLevels` never fails on well-shaped splits, and the tree is the explicit one. -/
theorem addLevels_eq (tc : TreeCfg K D) (hasEff : Bool) (nInit : ℕ) (level pbase : ℕ) (tree : List (Node K D)) (parents : List (ParentInfo K D))
    (splits : List (Split K D)) (hT : TreeInv tree pbase parents) (hs : LevelsShape parents.length splits) :
    addLevels tc hasEff nInit level tree parents splits = .ok (tree ++ treeLevels tc hasEff nInit level tree.length pbase parents splits) ∧
      ((tree ++ treeLevels tc hasEff nInit level tree.length pbase parents splits).map (·.name)).Nodup := by
  induction splits generalizing level pbase tree parents with
  | nil => exact ⟨by simp [addLevels, treeLevels], by simpa [treeLevels] using hT.nodup⟩
  | cons sp t ih =>
    obtain ⟨h1, h2, h3⟩ := hs
    unfold addLevels treeLevels
    rw [h1, foldlM_children tc hasEff nInit parents sp level pbase tree hT h1 h2 _ le_rfl]
    simp only [bind, Except.bind]
    have hnext := treeInv_next tc hasEff nInit parents sp level pbase tree hT
    obtain ⟨i1, i2⟩ := ih (level + 1) tree.length _ _ hnext (by simpa [nextParents] using h3)
    rw [i1]
    simp only [List.length_append, List.length_map, List.length_range, List.append_assoc] at i2 ⊢
    exact ⟨trivial, i2⟩

end Effector
