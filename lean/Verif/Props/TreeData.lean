import Verif.Props.Tree

/-!
# C44-C46: what the nodes contain, and pruning
-/

set_option linter.unusedSectionVars false

namespace Effector

variable {K : Type} [Field K] [LinearOrder K] [IsStrictOrderedRing K] {D : ℕ}

namespace Spec

/-- The instance `r` satisfies the condition shown at the node, read as it is written. (The root shows no condition.) -/
def MeetsShown (nd : Node K D) (r : Row K D) : Prop :=
  ∀ f pos c, nd.foc = some f → nd.position = some pos → nd.comparison = some c →
    (c = "<=" → r f ≤ pos) ∧ (c = ">" → pos < r f) ∧ (c = "==" → r f = pos) ∧ (c = "!=" → r f ≠ pos)

/-- The instance `r` satisfies the condition of the node if `<=` is read as "less than" and `>` as "at least". -/
def MeetsStrict (nd : Node K D) (r : Row K D) : Prop :=
  ∀ f pos c, nd.foc = some f → nd.position = some pos → nd.comparison = some c →
    (c = "<=" → r f < pos) ∧ (c = ">" → pos ≤ r f) ∧ (c = "==" → r f = pos) ∧ (c = "!=" → r f ≠ pos)

/-- `a` is `nd` or one of its ancestors: the nodes whose conditions make up the name of `nd`. -/
inductive Ancestor (tree : List (Node K D)) : Node K D → Node K D → Prop
  | self (nd : Node K D) : Ancestor tree nd nd
  | up (nd par a : Node K D) (p : ℕ) : nd.parent = some p → tree[p]? = some par → Ancestor tree par a → Ancestor tree nd a

end Spec

theorem ancestor_root {tree : List (Node K D)} {nd a : Node K D} (h : nd.parent = none) : Spec.Ancestor tree nd a ↔ a = nd := by
  constructor
  · intro h1
    cases h1 with
    | self => rfl
    | up _ par _ p hp => rw [h] at hp; cases hp
  · rintro rfl; exact .self _

theorem ancestor_child {tree : List (Node K D)} {nd par a : Node K D} {p : ℕ} (hp : nd.parent = some p) (hpar : tree[p]? = some par) :
    Spec.Ancestor tree nd a ↔ a = nd ∨ Spec.Ancestor tree par a := by
  constructor
  · intro h1
    cases h1 with
    | self => exact .inl rfl
    | up _ par' _ p' hp' hpar' h =>
      rw [hp] at hp'; cases hp'
      rw [hpar] at hpar'; cases hpar'
      exact .inr h
  · rintro (rfl | h)
    · exact .self _
    · exact .up _ _ _ _ hp hpar h

theorem meetsStrict_heapNode (tc : TreeCfg K D) (hasEff : Bool) (nInit : ℕ) (par : Node K D) (sp : Split K D) (l i : ℕ) (r : Row K D) :
    Spec.MeetsStrict (heapNode tc hasEff nInit par sp l i) r ↔ Spec.OnSide sp.typ sp.position (decide (i % 2 = 1)) (r sp.feature) := by
  unfold Spec.MeetsStrict heapNode comparisonSign Spec.OnSide
  rcases Nat.mod_two_eq_zero_or_one i with hi | hi <;> cases sp.typ <;> simp [hi]

theorem meetsShown_iff_strict {nd : Node K D} {r : Row K D} (h : ∀ f pos, nd.foc = some f → nd.position = some pos → nd.typ = some .cont → r f ≠ pos)
    (hc : nd.comparison = none ∨ ∃ t j, nd.typ = some t ∧ nd.comparison = some (comparisonSign t j)) : Spec.MeetsShown nd r ↔ Spec.MeetsStrict nd r := by
  rcases hc with hc | ⟨t, j, h1, h2⟩
  · unfold Spec.MeetsShown Spec.MeetsStrict
    simp [hc]
  · unfold Spec.MeetsShown Spec.MeetsStrict
    rw [h2]
    constructor
    · intro hh f pos c hf hp hc
      obtain ⟨a1, a2, a3, a4⟩ := hh f pos c hf hp hc
      cases t with
      | cat =>
        simp only [Option.some.injEq] at hc
        subst hc
        unfold comparisonSign at *
        refine ⟨?_, ?_, a3, a4⟩ <;> intro e <;> split_ifs at e <;> simp at e
      | cont =>
        have := h f pos hf hp h1
        exact ⟨fun e => lt_of_le_of_ne (a1 e) this, fun e => (a2 e).le, a3, a4⟩
    · intro hh f pos c hf hp hc
      obtain ⟨a1, a2, a3, a4⟩ := hh f pos c hf hp hc
      cases t with
      | cat =>
        simp only [Option.some.injEq] at hc
        subst hc
        unfold comparisonSign at *
        refine ⟨?_, ?_, a3, a4⟩ <;> intro e <;> split_ifs at e <;> simp at e
      | cont =>
        have := h f pos hf hp h1
        exact ⟨fun e => (a1 e).le, fun e => lt_of_le_of_ne (a2 e) (Ne.symm this), a3, a4⟩

open Classical in
/-- **C44, what holds for all data.** The rows of a node are exactly the instances (with multiplicity, in their order) that satisfy the conditions of the
node and of all its ancestors, where a numerical `<=` stands for "less than" and `>` for "at least". -/
theorem C44_rows_meet_strict_conditions (cfg : RegCfg K D) (heff : EffAligned cfg) (posText : Fin D → K → String) (imp : Bool) (s : Splits K D)
    (tree : List (Node K D)) (h : TreeOf cfg posText imp s tree) (nd : Node K D) (hm : nd ∈ tree) :
    nd.rows = cfg.data.filter fun r => ∀ a, Spec.Ancestor tree nd a → Spec.MeetsStrict a r := by
  obtain ⟨hnd, hH⟩ := h.heap heff
  obtain ⟨i, hi⟩ := List.getElem?_of_mem hm
  clear hm
  induction i using Nat.strong_induction_on generalizing nd with
  | _ i ih =>
    cases i with
    | zero =>
      rw [hH.root] at hi; cases hi
      symm
      show _ = cfg.data
      apply List.filter_eq_self.mpr
      intro r _
      rw [decide_eq_true_eq]
      intro a ha
      rw [ancestor_root rfl] at ha
      subst ha
      intro f pos c hf
      cases hf
    | succ i =>
      obtain ⟨par, sp, l, h1, h2, h3, h4, h5, hndd⟩ := hH.node i nd hi
      have ihp := ih (i / 2) (by omega) par h1
      have hp : nd.parent = some (i / 2) := by rw [hndd]; rfl
      have hrows : nd.rows = par.rows.filter fun r => decide (Spec.OnSide sp.typ sp.position (decide (i % 2 = 1)) (r sp.feature)) := by
        rw [hndd]
        unfold heapNode
        rcases Nat.mod_two_eq_zero_or_one i with he | he
        · simp only [he, splitRows, goesFirst_iff]; simp
        · simp only [he, splitRows, goesSecond_iff]; simp
      rw [hrows, ihp, List.filter_filter]
      apply List.filter_congr
      intro r _
      rw [← Bool.decide_and, decide_eq_decide]
      constructor
      · rintro ⟨a1, a2⟩ a ha
        rcases (ancestor_child hp h1).mp ha with rfl | ha
        · rw [hndd]; exact (meetsStrict_heapNode ..).mpr a1
        · exact a2 a ha
      · intro hall
        refine ⟨?_, fun a ha => hall a ((ancestor_child hp h1).mpr (.inr ha))⟩
        have := hall nd (.self _)
        rw [hndd] at this
        exact (meetsStrict_heapNode ..).mp this

open Classical in
/-- **C44 (partial).** If no instance lies exactly on a numerical split position of the tree, the rows of a node are exactly the instances that satisfy all
the conditions shown in the node's name.  Missing: instances on a split position (`C44_false_on_ties`). -/
theorem C44_rows_meet_shown_conditions_partial (cfg : RegCfg K D) (heff : EffAligned cfg) (posText : Fin D → K → String) (imp : Bool) (s : Splits K D)
    (tree : List (Node K D)) (h : TreeOf cfg posText imp s tree)
    (hno : ∀ r ∈ cfg.data, ∀ sp ∈ s.levels, sp.typ = .cont → r sp.feature ≠ sp.position) (nd : Node K D) (hm : nd ∈ tree) :
    nd.rows = cfg.data.filter fun r => ∀ a, Spec.Ancestor tree nd a → Spec.MeetsShown a r := by
  rw [C44_rows_meet_strict_conditions cfg heff posText imp s tree h nd hm]
  obtain ⟨hnd, hH⟩ := h.heap heff
  obtain ⟨n, hn1, hn⟩ := usedSplits_prefix cfg imp s
  have hanc : ∀ a, Spec.Ancestor tree nd a → a ∈ tree := by
    intro a ha
    induction ha with
    | self => exact hm
    | up _ par _ p _ hpar _ ih => exact ih (List.mem_of_getElem? hpar)
  apply List.filter_congr
  intro r hr
  rw [decide_eq_decide]
  apply forall_congr'
  intro a
  apply forall_congr'
  intro ha
  symm
  obtain ⟨i, hi⟩ := List.getElem?_of_mem (hanc a ha)
  cases i with
  | zero =>
    rw [hH.root] at hi; cases hi
    exact meetsShown_iff_strict (by intro f pos hf; cases hf) (.inl rfl)
  | succ i =>
    obtain ⟨par, sp, l, h1, h2, h3, h4, h5, rfl⟩ := hH.node i a hi
    refine meetsShown_iff_strict ?_ (.inr ⟨sp.typ, i, rfl, rfl⟩)
    intro f pos hf hp ht
    simp only [heapNode, Option.some.injEq] at hf hp ht
    subst hf; subst hp
    refine hno r hr sp ?_ ht
    have := List.mem_of_getElem? h2
    rw [hn] at this
    exact List.mem_of_mem_take this

/-- **C44, the names.** The name of a node is the name of its parent followed by the condition that the node's feature, comparison sign and (rounded)
position make up. -/
theorem C44_name_shows_the_condition (cfg : RegCfg K D) (heff : EffAligned cfg) (posText : Fin D → K → String) (imp : Bool) (s : Splits K D)
    (tree : List (Node K D)) (h : TreeOf cfg posText imp s tree) (nd : Node K D) (hm : nd ∈ tree) (hl : 0 < nd.level) :
    ∃ par f pos c sep op, Spec.Ancestor tree nd par ∧ nd.parent = some par.idx ∧ nd.foc = some f ∧ nd.position = some pos ∧ nd.comparison = some c ∧
      (sep = " | " ∨ sep = " and ") ∧ (op = " " ++ c ++ " " ∨ op = "  " ++ c ++ " ") ∧
      nd.name = par.name ++ sep ++ (cfg.names f ++ op ++ posText f pos) := by
  obtain ⟨hnd, hH⟩ := h.heap heff
  have hidx := (C43_complete_binary_tree cfg heff posText imp s tree h).2.2.1
  obtain ⟨i, hi⟩ := List.getElem?_of_mem hm
  cases i with
  | zero => rw [hH.root] at hi; cases hi; simp [rootNode] at hl
  | succ i =>
    obtain ⟨par, sp, l, h1, h2, h3, h4, h5, rfl⟩ := hH.node i nd hi
    refine ⟨par, sp.feature, sp.position, comparisonSign sp.typ i, if sp.nofInstances.length = 2 then " | " else " and ",
      if sp.typ = .cont ∧ i % 2 = 1 then "  " ++ comparisonSign sp.typ i ++ " " else " " ++ comparisonSign sp.typ i ++ " ",
      .up _ _ _ _ rfl h1 (.self _), by rw [hidx _ _ h1]; rfl, rfl, rfl, rfl, ?_, ?_, ?_⟩
    · split_ifs <;> simp
    · split_ifs <;> simp
    · show childName par.name (conditionText (cfg.names sp.feature) (posText sp.feature sp.position) sp.typ i) sp.nofInstances.length = _
      unfold childName conditionText comparisonSign
      rcases Nat.mod_two_eq_zero_or_one i with he | he <;> cases sp.typ <;> simp only [he] <;> split_ifs <;> simp_all

/-- Feature 1 has the values 0, 1, 2 and is split at its middle 1. -/
def tieCfg : RegCfg ℚ 2 :=
  { feature := 0, heter := fun x _ => Spec.popVar (col x 0), data := [![0, 0], ![5, 1], ![5, 2]], dataEffect := none,
    types := ![.cont, .cont], names := ![("x" : String), "y"], catLimit := 1, foc := [1], minPoints := 1, nofSplits := 1,
    maxLevels := 1, dropThres := 0, smallEnough := 0, splitCat := false }

theorem tieCfg_tree :
    (match searchAllSplits tieCfg with
      | .ok (some s) => (match splitsToTree tieCfg (fun _ p => toString p) (some s) false with
        | .ok (some tree) => tree.map fun nd => ((nd.name, nd.parent, nd.foc), (nd.position, nd.comparison, nd.rows.map (· 1)))
        | _ => [])
      | _ => []) =
    [(("x", none, none), (none, none, [0, 1, 2])), (("x | y <= 1", some 0, some 1), (some 1, some "<=", [0])),
      (("x | y  > 1", some 0, some 1), (some 1, some ">", [1, 2]))] := by
  decide +kernel

/-- **C44 does not hold for instances on a split position**: the left node of the tree above is called `x | y <= 1` but does not contain the instance with
`y = 1`. -/
theorem C44_false_on_ties : ¬ ∀ (cfg : RegCfg ℚ 2), EffAligned cfg → ∀ posText imp s tree, TreeOf cfg posText imp s tree → ∀ nd ∈ tree, ∀ r,
    r ∈ nd.rows ↔ r ∈ cfg.data ∧ ∀ a, Spec.Ancestor tree nd a → Spec.MeetsShown a r := by
  intro hall
  have hd := tieCfg_tree
  rcases hs : searchAllSplits tieCfg with e | (_ | s)
  · rw [hs] at hd; simp at hd
  · rw [hs] at hd; simp at hd
  rw [hs] at hd
  simp only at hd
  rcases ht : splitsToTree tieCfg (fun _ p => toString p) (some s) false with e | (_ | tree)
  · rw [ht] at hd; simp at hd
  · rw [ht] at hd; simp at hd
  rw [ht] at hd
  simp only at hd
  match tree, hd, ht with
  | [], hd, _ => simp at hd
  | [_], hd, _ => simp at hd
  | root :: nd :: rest, hd, ht =>
    simp only [List.map_cons, List.cons.injEq, Prod.mk.injEq] at hd
    obtain ⟨⟨⟨-, r2, r3⟩, -⟩, ⟨⟨-, n2, n3⟩, n4, n5, n6⟩, -⟩ := hd
    have := (hall tieCfg (by intro e he; cases he) _ false s _ ⟨hs, ht⟩ nd (by simp) ![5, 1]).mpr ⟨by simp [tieCfg], by
      intro a ha
      rcases (ancestor_child n2 (show (root :: nd :: rest)[0]? = some root from rfl)).mp ha with rfl | ha
      · intro f pos c hf hp hc
        rw [n3] at hf; rw [n4] at hp; rw [n5] at hc
        cases hf; cases hp; cases hc
        simp
      · rw [ancestor_root r2] at ha
        subst ha
        intro f pos c hf
        rw [r3] at hf; cases hf⟩
    have := List.mem_map_of_mem (f := (· 1)) this
    rw [n6] at this
    simp at this

/-! ## C45 -/

/-- A node's `data_effect` is correct: row for row the effects of the node's rows. -/
def Spec.EffectsOfRows (data eff : List (Row K D)) (nd : Node K D) : Prop :=
  ∃ e, nd.effects = some e ∧ e.length = nd.rows.length ∧ (nd.rows.zip e).Sublist (data.zip eff)

theorem heapNode_effects (tc : TreeCfg K D) (nInit : ℕ) (par : Node K D) (sp : Split K D) (l i : ℕ) (e : List (Row K D)) (he : effOf par = some e)
    (hl : par.rows.length = e.length) :
    ∃ e', (heapNode tc true nInit par sp l i).effects = some e' ∧ e'.length = (heapNode tc true nInit par sp l i).rows.length ∧
      ((heapNode tc true nInit par sp l i).rows.zip e').Sublist (par.rows.zip e) := by
  obtain ⟨h1, h2, h3, h4⟩ := C39_effects_aligned par.rows e hl sp.feature sp.position sp.typ
  unfold heapNode
  simp only [he, if_true, Option.map_some]
  refine ⟨_, rfl, ?_, ?_⟩
  · split_ifs
    · exact h3.symm
    · exact h4.symm
  · split_ifs
    · rw [h1]; exact List.filter_sublist
    · rw [h2]; exact List.filter_sublist

/-- **C45 (partial).** In the nodes of the levels 0 and 1, `data_effect` holds, row for row, the effects of the node's instances.  Missing: deeper levels,
where this is false (`C45_deeper_nodes_hold_rows`, `C45_false_at_level_two`). -/
theorem C45_effects_of_rows_partial (cfg : RegCfg K D) (heff : EffAligned cfg) (eff : List (Row K D)) (he : cfg.dataEffect = some eff)
    (posText : Fin D → K → String) (imp : Bool) (s : Splits K D) (tree : List (Node K D)) (h : TreeOf cfg posText imp s tree)
    (nd : Node K D) (hm : nd ∈ tree) (hl : nd.level ≤ 1) : Spec.EffectsOfRows cfg.data eff nd := by
  obtain ⟨hnd, hH⟩ := h.heap heff
  rw [he] at hH
  obtain ⟨i, hi⟩ := List.getElem?_of_mem hm
  cases i with
  | zero =>
    rw [hH.root] at hi; cases hi
    exact ⟨eff, he, (heff eff he).symm, List.Sublist.refl _⟩
  | succ i =>
    obtain ⟨par, sp, l, h1, h2, h3, h4, h5, rfl⟩ := hH.node i nd hi
    have hl0 : l = 0 := by simp [heapNode] at hl; exact hl
    subst hl0
    have hi0 : i / 2 = 0 := by omega
    rw [hi0, hH.root] at h1
    cases h1
    exact heapNode_effects _ _ _ sp _ i eff he (heff eff he)

/-- **C45, what happens below level 1.** In every node of level 2 or deeper, `data_effect` is the node's data itself (partitioning.py:437 hands the data
instead of the effects to the next level). -/
theorem C45_deeper_nodes_hold_rows (cfg : RegCfg K D) (heff : EffAligned cfg) (eff : List (Row K D)) (he : cfg.dataEffect = some eff)
    (posText : Fin D → K → String) (imp : Bool) (s : Splits K D) (tree : List (Node K D)) (h : TreeOf cfg posText imp s tree)
    (nd : Node K D) (hm : nd ∈ tree) (hl : 2 ≤ nd.level) : nd.effects = some nd.rows := by
  obtain ⟨hnd, hH⟩ := h.heap heff
  rw [he] at hH
  obtain ⟨i, hi⟩ := List.getElem?_of_mem hm
  cases i with
  | zero => rw [hH.root] at hi; cases hi; simp [rootNode] at hl
  | succ i =>
    obtain ⟨par, sp, l, h1, h2, h3, h4, h5, rfl⟩ := hH.node i nd hi
    have hl0 : par.level ≠ 0 := by
      rw [h5]; simp only [heapNode] at hl; omega
    have hzz : ∀ (p : Row K D → Bool) (x : List (Row K D)), ((x.zip x).filter fun q => p q.1).map (·.2) = x.filter p := by
      intro p x
      induction x with
      | nil => rfl
      | cons a t ih => by_cases hp : p a <;> simp [hp, ih]
    unfold heapNode effOf
    simp only [if_neg hl0, Option.isSome_some, if_true, Option.map_some, splitEff, splitRows, Option.some.injEq]
    rw [hzz fun r => goesFirst sp.typ sp.position (r sp.feature), hzz fun r => goesSecond sp.typ sp.position (r sp.feature)]

/-- Without a `data_effect` no node has one. -/
theorem C45_no_effects (cfg : RegCfg K D) (heff : EffAligned cfg) (he : cfg.dataEffect = none) (posText : Fin D → K → String) (imp : Bool) (s : Splits K D)
    (tree : List (Node K D)) (h : TreeOf cfg posText imp s tree) (nd : Node K D) (hm : nd ∈ tree) : nd.effects = none := by
  obtain ⟨hnd, hH⟩ := h.heap heff
  rw [he] at hH
  obtain ⟨i, hi⟩ := List.getElem?_of_mem hm
  cases i with
  | zero => rw [hH.root] at hi; cases hi; exact he
  | succ i =>
    obtain ⟨par, sp, l, h1, h2, h3, h4, h5, rfl⟩ := hH.node i nd hi
    simp [heapNode]

/-- Four instances, two binary features; the effect of every instance is constant 9. -/
def effCfg : RegCfg ℚ 3 :=
  { feature := 0, heter := fun x _ => Spec.popVar (col x 0), data := [![0, 0, 0], ![1, 0, 1], ![5, 1, 0], ![7, 1, 1]],
    dataEffect := some [![9, 9, 9], ![9, 9, 9], ![9, 9, 9], ![9, 9, 9]],
    types := ![.cont, .cat, .cat], names := ![("x" : String), "y", "z"], catLimit := 2, foc := [1, 2], minPoints := 1, nofSplits := 1,
    maxLevels := 2, dropThres := 0, smallEnough := 0, splitCat := false }

theorem effCfg_tree :
    (match searchAllSplits effCfg with
      | .ok (some s) => (match splitsToTree effCfg (fun _ p => toString p) (some s) true with
        | .ok (some tree) => tree.map fun nd => (nd.level, nd.rows.map (· 0), nd.effects.map (·.map (· 0)))
        | _ => [])
      | _ => []) =
    [(0, [0, 1, 5, 7], some [9, 9, 9, 9]), (1, [0, 1], some [9, 9]), (1, [5, 7], some [9, 9]),
      (2, [0], some [0]), (2, [1], some [1]), (2, [5], some [5]), (2, [7], some [7])] := by
  decide +kernel

/-- **C45 is false at level 2**, also in the pruned tree. -/
theorem C45_false_at_level_two : ¬ ∀ (cfg : RegCfg ℚ 3) (eff : List (Row ℚ 3)), EffAligned cfg → cfg.dataEffect = some eff → ∀ posText imp s tree,
    TreeOf cfg posText imp s tree → ∀ nd ∈ tree, Spec.EffectsOfRows cfg.data eff nd := by
  intro hall
  have hd := effCfg_tree
  rcases hs : searchAllSplits effCfg with e | (_ | s)
  · rw [hs] at hd; simp at hd
  · rw [hs] at hd; simp at hd
  rw [hs] at hd
  simp only at hd
  rcases ht : splitsToTree effCfg (fun _ p => toString p) (some s) true with e | (_ | tree)
  · rw [ht] at hd; simp at hd
  · rw [ht] at hd; simp at hd
  rw [ht] at hd
  simp only at hd
  have hlen : tree.length = 7 := by simpa using congrArg List.length hd
  have h3 := congrArg (fun l => l[3]?) hd
  simp only [List.getElem?_map, List.getElem?_eq_getElem (show 3 < tree.length by omega)] at h3
  simp only [Option.map_some, List.getElem?_cons_succ, List.getElem?_cons_zero, Option.some.injEq, Prod.mk.injEq] at h3
  obtain ⟨-, h4, h5⟩ := h3
  obtain ⟨e, e1, e2, e3⟩ := hall effCfg _ (by intro e he; cases he; rfl) rfl _ true s tree ⟨hs, ht⟩ tree[3] (List.getElem_mem _)
  rw [e1] at h5
  simp only [Option.map_some, Option.some.injEq] at h5
  match e, h5, e2, e3 with
  | _ :: _ :: _, h5, _, _ => simp at h5
  | [a], h5, e2, e3 =>
    simp only [List.map_cons, List.map_nil, List.cons.injEq, and_true] at h5
    match hr : tree[3].rows with
    | [] => rw [hr] at h4; simp at h4
    | b :: t =>
      rw [hr] at e3
      have := e3.subset (show (b, a) ∈ _ by simp)
      have h6 := (List.of_mem_zip this).2
      have h7 : ∀ r ∈ [(![9, 9, 9] : Row ℚ 3), ![9, 9, 9], ![9, 9, 9], ![9, 9, 9]], r 0 = 9 := by decide +kernel
      have := h7 a h6
      rw [h5] at this
      norm_num at this

/-! ## C46 -/

theorem heap_prefix {tc : TreeCfg K D} {hasEff : Bool} {nInit : ℕ} {root : Node K D} {splits : List (Split K D)} {full pruned : List (Node K D)} {n : ℕ}
    (hn : n ≤ splits.length) (hF : Heap tc hasEff nInit root splits full) (hP : Heap tc hasEff nInit root (splits.take n) pruned) :
    pruned = full.take (2 ^ (n + 1) - 1) := by
  have hlenP : pruned.length = 2 ^ (n + 1) - 1 := by rw [hP.len, List.length_take, Nat.min_eq_left hn]
  have hle : 2 ^ (n + 1) ≤ 2 ^ (splits.length + 1) := Nat.pow_le_pow_right (by omega) (by omega)
  have hlenF := hF.len
  have key : ∀ i, i < 2 ^ (n + 1) - 1 → pruned[i]? = full[i]? := by
    intro i
    induction i using Nat.strong_induction_on with
    | _ i ih =>
      intro hi
      cases i with
      | zero => rw [hF.root, hP.root]
      | succ i =>
        have e1 : pruned[i + 1]? = some (pruned[i + 1]'(by omega)) := List.getElem?_eq_getElem _
        have e2 : full[i + 1]? = some (full[i + 1]'(by omega)) := List.getElem?_eq_getElem _
        obtain ⟨p1, s1, l1, a1, a2, a3, a4, a5, a6⟩ := hP.node i _ e1
        obtain ⟨p2, s2, l2, b1, b2, b3, b4, b5, b6⟩ := hF.node i _ e2
        rw [ih (i / 2) (by omega) (by omega), b1] at a1
        cases a1
        have hl : l1 = l2 := by have := pow_interval_unique a3 a4 b3 b4; omega
        subst hl
        rw [List.getElem?_take] at a2
        split_ifs at a2
        rw [b2] at a2
        cases a2
        rw [e1, e2, a6, b6]
  apply List.ext_getElem?
  intro i
  rw [List.getElem?_take]
  split_ifs with h
  · exact key i h
  · exact List.getElem?_eq_none (by omega)

/-- **C46.** The pruned tree consists exactly of the nodes of the full tree of the levels `0, ..., p`, in the same order and unchanged, `p` being the number of important
splits; its depth is at most `max_depth`; without important splits it is the root alone. -/
theorem C46_pruned_is_top_of_full (cfg : RegCfg K D) (heff : EffAligned cfg) (posText : Fin D → K → String) (s : Splits K D)
    (full pruned : List (Node K D)) (hf : TreeOf cfg posText false s full) (hp : TreeOf cfg posText true s pruned) :
    pruned = full.filter (fun nd => nd.level ≤ (chooseImportantSplits cfg (some s)).length) ∧
    (∀ nd ∈ pruned, nd.level ≤ cfg.maxLevels) ∧ (∀ nd ∈ full, nd.level ≤ cfg.maxLevels) ∧
    (chooseImportantSplits cfg (some s) = [] → ∃ root, pruned = [root] ∧ root.level = 0 ∧ root.rows = cfg.data) := by
  obtain ⟨-, hF⟩ := hf.heap heff
  obtain ⟨-, hP⟩ := hp.heap heff
  have hS := searchAllSplits_ok cfg heff s hf.search
  have hr : (rootNode cfg s).level = 0 := rfl
  obtain ⟨n, hn1, hn⟩ := choose_prefix cfg s
  have hlen : (chooseImportantSplits cfg (some s)).length = n := by rw [hn, List.length_take]; omega
  have hP' : Heap { names := cfg.names, posText := posText } cfg.dataEffect.isSome s.nofInit (rootNode cfg s) (s.levels.take n) pruned := by
    have : usedSplits cfg true s = s.levels.take n := hn
    rw [this] at hP
    exact hP
  have hF' : Heap { names := cfg.names, posText := posText } cfg.dataEffect.isSome s.nofInit (rootNode cfg s) s.levels full := hF
  have hpre := heap_prefix hn1 hF' hP'
  have hmax : ∀ nd ∈ full, nd.level ≤ cfg.maxLevels := by
    intro nd hm
    obtain ⟨i, hi⟩ := List.getElem?_of_mem hm
    exact (hF'.level_le hr hi).trans hS.depth
  refine ⟨?_, ?_, hmax, ?_⟩
  · rw [hpre, hlen]
    symm
    have := filter_interval (fun nd : Node K D => decide (nd.level ≤ n)) full 0 (2 ^ (n + 1) - 1) (by
      intro i nd hi
      obtain ⟨h1, h2⟩ := hF'.level hr i nd hi
      rw [decide_eq_true_eq]
      constructor
      · intro hl
        have : 2 ^ (nd.level + 1) ≤ 2 ^ (n + 1) := Nat.pow_le_pow_right (by omega) (by omega)
        omega
      · rintro ⟨-, hlt⟩
        have : 2 ^ nd.level < 2 ^ (n + 1) := by omega
        have := (Nat.pow_lt_pow_iff_right (a := 2) (by omega)).mp this
        omega)
    rw [this, List.drop_zero]
  · intro nd hm
    rw [hpre] at hm
    exact hmax nd (List.mem_of_mem_take hm)
  · intro he
    rw [he] at hlen
    have hn0 : n = 0 := by simpa using hlen.symm
    subst hn0
    refine ⟨rootNode cfg s, ?_, rfl, rfl⟩
    rw [hpre]
    have := hF'.root
    cases hfull : full with
    | nil => rw [hfull] at this; simp at this
    | cons a t => rw [hfull] at this; simp at this; simp [this]

end Effector
