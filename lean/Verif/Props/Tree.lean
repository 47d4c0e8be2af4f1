import Verif.Props.SearchTotal
import Mathlib.Data.List.Induction

/-!
# C40, C43-C46: the trees that `Regions.splits_to_tree` returns
-/

set_option linter.unusedSectionVars false

namespace Effector

variable {K : Type} [Field K] [LinearOrder K] [IsStrictOrderedRing K] {D : ℕ}

/-! ### Levels of a heap -/

theorem filter_interval {α : Type} (p : α → Bool) (l : List α) (a b : ℕ)
    (h : ∀ (i : ℕ) x, l[i]? = some x → (p x = true ↔ a ≤ i ∧ i < b)) : l.filter p = (l.take b).drop a := by
  induction l generalizing a b with
  | nil => simp
  | cons x t ih =>
    have h0 := h 0 x rfl
    have hs : ∀ (i : ℕ) y, t[i]? = some y → (p y = true ↔ a - 1 ≤ i ∧ i < b - 1) := by
      intro i y hi
      have := h (i + 1) y (by simpa using hi)
      rw [this]
      omega
    by_cases hp : p x = true
    · rw [List.filter_cons_of_pos hp, ih _ _ hs]
      obtain ⟨ha, hb⟩ := h0.mp hp
      obtain ⟨b, rfl⟩ : ∃ c, b = c + 1 := ⟨b - 1, by omega⟩
      have : a = 0 := by omega
      subst this
      simp
    · rw [List.filter_cons_of_neg hp, ih _ _ hs]
      rcases Nat.eq_zero_or_pos b with rfl | hb
      · simp
      · obtain ⟨b, rfl⟩ : ∃ c, b = c + 1 := ⟨b - 1, by omega⟩
        have ha : a ≠ 0 := by
          rintro rfl
          exact hp (h0.mpr ⟨le_rfl, by omega⟩)
        obtain ⟨a, rfl⟩ : ∃ c, a = c + 1 := ⟨a - 1, by omega⟩
        simp

section HeapFacts

variable {tc : TreeCfg K D} {hasEff : Bool} {nInit : ℕ} {root : Node K D} {splits : List (Split K D)} {tree : List (Node K D)}

theorem Heap.level (hH : Heap tc hasEff nInit root splits tree) (hr : root.level = 0) (i : ℕ) (nd : Node K D) (h : tree[i]? = some nd) :
    2 ^ nd.level ≤ i + 1 ∧ i + 1 < 2 ^ (nd.level + 1) := by
  cases i with
  | zero =>
    rw [hH.root] at h
    cases h
    rw [hr]
    decide
  | succ i =>
    obtain ⟨par, sp, l, -, -, h3, h4, -, rfl⟩ := hH.node i nd h
    exact ⟨h3, h4⟩

theorem pow_interval_unique {a b n : ℕ} (h1 : 2 ^ a ≤ n) (h2 : n < 2 ^ (a + 1)) (h3 : 2 ^ b ≤ n) (h4 : n < 2 ^ (b + 1)) : a = b := by
  have := (Nat.pow_lt_pow_iff_right (a := 2) (by omega)).mp (lt_of_le_of_lt h1 h4)
  have := (Nat.pow_lt_pow_iff_right (a := 2) (by omega)).mp (lt_of_le_of_lt h3 h2)
  omega

theorem Heap.levelNodes (hH : Heap tc hasEff nInit root splits tree) (hr : root.level = 0) (l : ℕ) :
    getLevelNodes tree l = (tree.take (2 ^ (l + 1) - 1)).drop (2 ^ l - 1) := by
  apply filter_interval
  intro i nd h
  obtain ⟨h1, h2⟩ := hH.level hr i nd h
  have hp := Nat.one_le_two_pow (n := l)
  have hp2 := Nat.one_le_two_pow (n := l + 1)
  rw [beq_iff_eq]
  constructor
  · rintro rfl; omega
  · rintro ⟨h3, h4⟩
    exact pow_interval_unique h1 h2 (by omega) (by omega)

theorem Heap.levelNodes_get (hH : Heap tc hasEff nInit root splits tree) (hr : root.level = 0) (l : ℕ) (j : ℕ) (hj : j < 2 ^ l) :
    (getLevelNodes tree l)[j]? = tree[2 ^ l - 1 + j]? := by
  rw [hH.levelNodes hr, List.getElem?_drop, List.getElem?_take]
  have hp := Nat.one_le_two_pow (n := l)
  rw [if_pos (by rw [pow_succ]; omega)]

theorem Heap.levelNodes_length (hH : Heap tc hasEff nInit root splits tree) (hr : root.level = 0) (l : ℕ) (hl : l ≤ splits.length) :
    (getLevelNodes tree l).length = 2 ^ l := by
  rw [hH.levelNodes hr, List.length_drop, List.length_take, hH.len]
  have h1 : 2 ^ (l + 1) ≤ 2 ^ (splits.length + 1) := Nat.pow_le_pow_right (by omega) (by omega)
  have hp := Nat.one_le_two_pow (n := l)
  have : 2 ^ (l + 1) = 2 * 2 ^ l := by rw [pow_succ]; ring
  omega

/-- The rows of the nodes of a level are the regions of the level. -/
theorem Heap.levelRows (hH : Heap tc hasEff nInit root splits tree) (hr : root.level = 0) (l : ℕ) (hl : l ≤ splits.length) :
    (getLevelNodes tree l).map (·.rows) = Spec.regions root.rows (splits.take l) := by
  induction l with
  | zero =>
    rw [List.take_zero, regions_nil, hH.levelNodes hr]
    have := hH.root
    cases ht : tree with
    | nil => rw [ht] at this; simp at this
    | cons a t => rw [ht] at this; simp at this; simp [this]
  | succ l ih =>
    have ih := ih (by omega)
    have hlt : l < splits.length := hl
    have ht : splits.take (l + 1) = splits.take l ++ [splits[l]] := by rw [List.take_add_one, List.getElem?_eq_getElem hlt]; rfl
    rw [ht, regions_snoc, ← ih]
    unfold splitAll
    rw [flatMap_pair _ _ _ []]
    apply List.ext_getElem?
    intro j
    rw [List.length_map, hH.levelNodes_length hr l (by omega)]
    have hp := Nat.one_le_two_pow (n := l)
    have h2 : 2 ^ (l + 1) = 2 * 2 ^ l := by rw [pow_succ]; ring
    by_cases hj : j < 2 * 2 ^ l
    · rw [List.getElem?_map, List.getElem?_map, hH.levelNodes_get hr (l + 1) j (by omega), List.getElem?_range hj]
      have hex : 2 ^ (l + 1) - 1 + j < tree.length := by
        rw [hH.len]
        have : 2 ^ (l + 2) ≤ 2 ^ (splits.length + 1) := Nat.pow_le_pow_right (by omega) (by omega)
        have e : 2 ^ (l + 2) = 4 * 2 ^ l := by rw [pow_succ, pow_succ]; ring
        omega
      obtain ⟨i, hi⟩ : ∃ i, 2 ^ (l + 1) - 1 + j = i + 1 := ⟨2 ^ (l + 1) - 2 + j, by omega⟩
      obtain ⟨nd, hnd⟩ : ∃ nd, tree[i + 1]? = some nd := ⟨tree[i + 1]'(by omega), List.getElem?_eq_getElem _⟩
      obtain ⟨par, sp, l', h1, h3, h4, h5, h6, rfl⟩ := hH.node i nd hnd
      have hll : l' + 1 = l + 1 := by
        have e : 2 ^ (l + 1 + 1) = 4 * 2 ^ l := by rw [pow_succ, pow_succ]; ring
        exact pow_interval_unique h4 h5 (by omega) (by omega)
      have hll : l' = l := by omega
      subst hll
      rw [hi, hnd]
      have hsp : sp = splits[l'] := by rw [List.getElem?_eq_getElem hlt] at h3; exact (Option.some.inj h3).symm
      have hpar : (List.map (·.rows) (getLevelNodes tree l')).getD (j / 2) [] = par.rows := by
        rw [List.getD, List.getElem?_map, hH.levelNodes_get hr l' (j / 2) (by omega)]
        have : 2 ^ l' - 1 + j / 2 = i / 2 := by omega
        rw [this, h1]
        rfl
      have hm : i % 2 = j % 2 := by omega
      simp only [Option.map_some, heapNode, hpar, hm, hsp]
    · rw [List.getElem?_eq_none, List.getElem?_eq_none]
      · simpa using hj
      · rw [List.length_map, hH.levelNodes_length hr (l + 1) hl]; omega

/-- Node number `i + 1` of level `l + 1` sits at position `i + 2 - 2 ^ (l + 1)` of its level. -/
theorem Heap.pos (hH : Heap tc hasEff nInit root splits tree) (hr : root.level = 0) {i : ℕ} {nd : Node K D} (h : tree[i]? = some nd) :
    (getLevelNodes tree nd.level)[i + 1 - 2 ^ nd.level]? = some nd := by
  obtain ⟨h1, h2⟩ := hH.level hr i nd h
  rw [hH.levelNodes_get hr _ _ (by rw [pow_succ] at h2; omega)]
  rw [show 2 ^ nd.level - 1 + (i + 1 - 2 ^ nd.level) = i by omega, h]

theorem Heap.level_le (hH : Heap tc hasEff nInit root splits tree) (hr : root.level = 0) {i : ℕ} {nd : Node K D} (h : tree[i]? = some nd) :
    nd.level ≤ splits.length := by
  obtain ⟨h1, h2⟩ := hH.level hr i nd h
  have hlt := (List.getElem?_eq_some_iff.mp h).1
  rw [hH.len] at hlt
  have : 2 ^ nd.level < 2 ^ (splits.length + 1) := by omega
  have := (Nat.pow_lt_pow_iff_right (a := 2) (by omega)).mp this
  omega

end HeapFacts

/-! ### The trees of `fit` -/

/-- `tree` is the full (`imp = false`) or pruned (`imp = true`) tree that a search gives. -/
structure TreeOf (cfg : RegCfg K D) (posText : Fin D → K → String) (imp : Bool) (s : Splits K D) (tree : List (Node K D)) : Prop where
  search : searchAllSplits cfg = .ok (some s)
  tree : splitsToTree cfg posText (some s) imp = .ok (some tree)

/-- The splits used in the tree. -/
def usedSplits (cfg : RegCfg K D) (imp : Bool) (s : Splits K D) : List (Split K D) :=
  if imp then chooseImportantSplits cfg (some s) else s.levels

theorem choose_prefix (cfg : RegCfg K D) (s : Splits K D) : ∃ n ≤ s.levels.length, chooseImportantSplits cfg (some s) = s.levels.take n := by
  by_cases h1 : s.heterInit = BIG_M
  · exact ⟨0, by simp, by simp [chooseImportantSplits, h1]⟩
  by_cases h2 : s.heterInit < cfg.smallEnough
  · exact ⟨0, by simp, by simp [chooseImportantSplits, h1, h2]⟩
  refine ⟨_, ?_, choose_eq cfg s h1 (not_lt.mp h2)⟩
  have := (firstFalse_spec (splitValid cfg.dropThres (s.heterInit :: s.levels.map (·.wHeter)))).1
  rw [splitValid_length] at this
  simpa using this

theorem usedSplits_prefix (cfg : RegCfg K D) (imp : Bool) (s : Splits K D) : ∃ n ≤ s.levels.length, usedSplits cfg imp s = s.levels.take n := by
  cases imp with
  | false => exact ⟨_, le_rfl, by simp [usedSplits]⟩
  | true => exact choose_prefix cfg s

theorem TreeOf.heap {cfg : RegCfg K D} {posText : Fin D → K → String} {imp : Bool} {s : Splits K D} {tree : List (Node K D)}
    (h : TreeOf cfg posText imp s tree) (heff : EffAligned cfg) : (tree.map (·.name)).Nodup ∧
      Heap { names := cfg.names, posText := posText } cfg.dataEffect.isSome s.nofInit (rootNode cfg s) (usedSplits cfg imp s) tree := by
  have hS := searchAllSplits_ok cfg heff s h.search
  obtain ⟨n, -, hn⟩ := usedSplits_prefix cfg imp s
  obtain ⟨t, h1, h2, h3⟩ := splitsToTree_heap cfg posText s imp (usedSplits cfg imp s) rfl (by rw [hn]; exact levelsShape_take (hS.shape heff) n)
  have := h.tree
  rw [h1] at this
  simp only [Except.ok.injEq, Option.some.injEq] at this
  subst this
  exact ⟨h2, h3⟩

/-- Whenever the search finds a split, both trees are built without an exception. -/
theorem C43_trees_exist (cfg : RegCfg K D) (heff : EffAligned cfg) (posText : Fin D → K → String) (imp : Bool) (s : Splits K D)
    (h : searchAllSplits cfg = .ok (some s)) : ∃ tree, TreeOf cfg posText imp s tree := by
  have hS := searchAllSplits_ok cfg heff s h
  obtain ⟨n, -, hn⟩ := usedSplits_prefix cfg imp s
  obtain ⟨t, h1, -, -⟩ := splitsToTree_heap cfg posText s imp (usedSplits cfg imp s) rfl (by rw [hn]; exact levelsShape_take (hS.shape heff) n)
  exact ⟨t, h, h1⟩

/-- **C43.** The tree is a complete binary tree of depth `m`, the number of splits used: `2 ^ l` nodes at every level `l ≤ m` and no others; the ids are
`0, 1, 2, ...` in the order of creation, `0` being the root; the parent of a node of level `l + 1` is a node of level `l`; every node above the last
level has exactly two children (as `get_children` finds them); all names are different, and the look-up of a name finds its node. -/
theorem C43_complete_binary_tree (cfg : RegCfg K D) (heff : EffAligned cfg) (posText : Fin D → K → String) (imp : Bool) (s : Splits K D)
    (tree : List (Node K D)) (h : TreeOf cfg posText imp s tree) :
    (∀ l ≤ (usedSplits cfg imp s).length, (getLevelNodes tree l).length = 2 ^ l) ∧
    (∀ nd ∈ tree, nd.level ≤ (usedSplits cfg imp s).length) ∧
    (∀ (i : ℕ) nd, tree[i]? = some nd → nd.idx = i) ∧
    (∀ nd ∈ tree, (nd.level = 0 ↔ nd.idx = 0) ∧ (nd.level = 0 → nd.parent = none ∧ nd.name = cfg.names cfg.feature)) ∧
    (∀ nd ∈ tree, 0 < nd.level → ∃ par ∈ tree, nd.parent = some par.idx ∧ par.level + 1 = nd.level) ∧
    (∀ nd ∈ tree, nd.level < (usedSplits cfg imp s).length → (getChildren tree nd.name).length = 2 ∧ ∀ c ∈ getChildren tree nd.name, c.parent = some nd.idx) ∧
    (tree.map (·.name)).Nodup ∧ (∀ nd ∈ tree, getNode tree nd.name = some nd) := by
  obtain ⟨hnd, hH⟩ := h.heap heff
  have hr : (rootNode cfg s).level = 0 := rfl
  have hidx : ∀ (i : ℕ) nd, tree[i]? = some nd → nd.idx = i := by
    intro i nd hi
    cases i with
    | zero => rw [hH.root] at hi; cases hi; rfl
    | succ i =>
      obtain ⟨par, sp, l, -, -, -, -, -, rfl⟩ := hH.node i nd hi
      rfl
  have hpar : ∀ (i : ℕ) nd, tree[i + 1]? = some nd → nd.parent = some (i / 2) := by
    intro i nd hi
    obtain ⟨par, sp, l, -, -, -, -, -, rfl⟩ := hH.node i nd hi
    rfl
  have hroot : ∀ nd, tree[0]? = some nd → nd.parent = none := by
    intro nd hi
    rw [hH.root] at hi; cases hi; rfl
  refine ⟨fun l hl => hH.levelNodes_length hr l hl, ?_, hidx, ?_, ?_, ?_, hnd, ?_⟩
  · intro nd hm
    obtain ⟨i, hi⟩ := List.getElem?_of_mem hm
    exact hH.level_le hr hi
  · intro nd hm
    obtain ⟨i, hi⟩ := List.getElem?_of_mem hm
    have h1 := hidx i nd hi
    cases i with
    | zero =>
      rw [hH.root] at hi; cases hi
      exact ⟨⟨fun _ => rfl, fun _ => rfl⟩, fun _ => ⟨rfl, rfl⟩⟩
    | succ i =>
      obtain ⟨par, sp, l, -, -, -, -, -, rfl⟩ := hH.node i nd hi
      exact ⟨⟨fun hh => by simp [heapNode] at hh, fun hh => by simp [heapNode] at hh⟩, fun hh => by simp [heapNode] at hh⟩
  · intro nd hm hlev
    obtain ⟨i, hi⟩ := List.getElem?_of_mem hm
    cases i with
    | zero => rw [hH.root] at hi; cases hi; simp [rootNode] at hlev
    | succ i =>
      obtain ⟨par, sp, l, h1, -, -, -, h6, rfl⟩ := hH.node i nd hi
      refine ⟨par, List.mem_of_getElem? h1, ?_, ?_⟩
      · rw [hidx _ _ h1]; rfl
      · rw [h6]; rfl
  · intro nd hm hlev
    obtain ⟨i, hi⟩ := List.getElem?_of_mem hm
    have h1 := hidx i nd hi
    obtain ⟨hl1, hl2⟩ := hH.level hr i nd hi
    -- a node is a child of `nd` iff its number is `2 i + 1` or `2 i + 2`
    have hch : ∀ (k : ℕ) c, tree[k]? = some c → ((match c.parent with
        | none => false
        | some p => match tree[p]? with
          | some q => q.name == nd.name
          | none => false) = true ↔ 2 * i + 1 ≤ k ∧ k < 2 * i + 3) := by
      intro k c hk
      cases k with
      | zero => rw [hroot c hk]; simp
      | succ k =>
        rw [hpar k c hk]
        obtain ⟨par, sp, l, h2, -⟩ := hH.node k c hk
        simp only [h2, beq_iff_eq]
        constructor
        · intro hname
          have : k / 2 = i := by
            have hk2 := (List.getElem?_eq_some_iff.mp h2)
            have hi2 := (List.getElem?_eq_some_iff.mp hi)
            refine (List.Nodup.getElem_inj_iff hnd (i := k / 2) (j := i) (hi := by simpa using hk2.1) (hj := by simpa using hi2.1)).mp ?_
            simp only [List.getElem_map]
            rw [hk2.2, hi2.2, hname]
          omega
        · intro hk3
          have : k / 2 = i := by omega
          rw [this, hi] at h2
          cases h2
          rfl
    have hfil : getChildren tree nd.name = (tree.take (2 * i + 3)).drop (2 * i + 1) := filter_interval _ tree _ _ hch
    constructor
    · rw [hfil, List.length_drop, List.length_take, hH.len]
      have : 2 ^ (nd.level + 2) ≤ 2 ^ ((usedSplits cfg imp s).length + 1) := Nat.pow_le_pow_right (by omega) (by omega)
      have e : 2 ^ (nd.level + 2) = 2 * 2 ^ (nd.level + 1) := by rw [pow_succ]; ring
      omega
    · intro c hc
      have hc' := hc
      rw [hfil] at hc
      obtain ⟨k, hk⟩ := List.getElem?_of_mem hc
      rw [List.getElem?_drop, List.getElem?_take] at hk
      split_ifs at hk with hlt
      rw [show 2 * i + 1 + k = 2 * i + k + 1 by ring] at hk
      rw [hpar _ _ hk, h1]
      congr 1
      omega
  · intro nd hm
    obtain ⟨i, hi⟩ := List.getElem?_of_mem hm
    exact find_unique hnd hi

/-! ### C40 -/

theorem regions_perm (data : List (Row K D)) (sps : List (Split K D)) : (Spec.regions data sps).flatten.Perm data := by
  induction sps using List.reverseRecOn with
  | nil => rw [regions_nil]; simp
  | append_singleton sps sp ih =>
    rw [regions_snoc]
    refine List.Perm.trans ?_ ih
    unfold splitAll
    generalize Spec.regions data sps = xs
    induction xs with
    | nil => simp
    | cons x t ih2 =>
      rw [List.flatMap_cons, List.flatten_append, List.flatten_cons]
      apply List.Perm.append _ ih2
      have := (C39_split_partitions x sp.feature sp.position sp.typ).2.2.2.1
      simpa using this

theorem sum_map_cast_mul {α : Type} (l : List α) (f : α → ℕ) (c : K) : (l.map fun a => (f a : K) * c).sum = ((l.map f).sum : K) * c := by
  induction l with
  | nil => simp
  | cons a t ih => simp only [List.map_cons, List.sum_cons, ih]; push_cast; ring

theorem sum_map_length {α : Type} (l : List (List α)) : (l.map List.length).sum = l.flatten.length := by
  rw [List.length_flatten]

/-- The number of instances and the weight of every node are those of its rows. -/
theorem node_counts (cfg : RegCfg K D) (heff : EffAligned cfg) (posText : Fin D → K → String) (imp : Bool) (s : Splits K D)
    (tree : List (Node K D)) (h : TreeOf cfg posText imp s tree) (hne : cfg.data ≠ []) (nd : Node K D) (hm : nd ∈ tree) :
    nd.nofInstances = nd.rows.length ∧ nd.weight = (nd.rows.length : K) / (cfg.data.length : K) := by
  obtain ⟨hnd, hH⟩ := h.heap heff
  have hr : (rootNode cfg s).level = 0 := rfl
  have hS := searchAllSplits_ok cfg heff s h.search
  obtain ⟨n, hn1, hn⟩ := usedSplits_prefix cfg imp s
  obtain ⟨i, hi⟩ := List.getElem?_of_mem hm
  have hpos : (cfg.data.length : K) ≠ 0 := by
    have := List.length_pos_of_ne_nil hne
    exact_mod_cast this.ne'
  cases i with
  | zero =>
    rw [hH.root] at hi; cases hi
    exact ⟨hS.nofInit, by simp [rootNode, div_self hpos]⟩
  | succ i =>
    have hp := hH.pos hr hi
    have hle := hH.level_le hr hi
    obtain ⟨par, sp, l, h1, h2, h3, h4, h6, hndd⟩ := hH.node i nd hi
    have hlev : nd.level = l + 1 := by rw [hndd]; rfl
    have hrow := hH.levelRows hr nd.level hle
    constructor
    · have hnof : nd.nofInstances = sp.nofInstances.getD (i + 2 - 2 ^ (l + 1)) 0 := by rw [hndd]; rfl
      have hlt := (List.getElem?_eq_some_iff.mp h2).1
      have hsp : s.levels[l]? = some sp := by
        rw [hn, List.getElem?_take] at h2
        split_ifs at h2 with hln
        exact h2
      obtain ⟨-, hf2, -⟩ := hS.fields heff hsp
      have htk : (usedSplits cfg imp s).take (l + 1) = s.levels.take (l + 1) := by
        rw [hn, List.take_take]
        congr 1
        rw [hn, List.length_take] at hlt
        omega
      rw [hnof, hf2, ← htk, ← hlev]
      have : (rootNode cfg s).rows = cfg.data := rfl
      rw [this] at hrow
      rw [← hrow, List.map_map, List.getD, List.getElem?_map]
      rw [show i + 2 - 2 ^ nd.level = i + 1 + 1 - 2 ^ nd.level by omega, hp]
      rfl
    · rw [hndd]
      simp only [heapNode, hS.nofInit]

/-- **C40.** In the full and in the pruned tree, at every level the rows of the nodes together are the data set, every instance exactly once; every node's
`nof_instances` is the number of its rows; the counts sum to `N` and the weights to 1. -/
theorem C40_levels_partition_the_data (cfg : RegCfg K D) (heff : EffAligned cfg) (posText : Fin D → K → String) (imp : Bool) (s : Splits K D)
    (tree : List (Node K D)) (h : TreeOf cfg posText imp s tree) (hne : cfg.data ≠ []) (l : ℕ) (hl : l ≤ (usedSplits cfg imp s).length) :
    (((getLevelNodes tree l).map (·.rows)).flatten).Perm cfg.data ∧
    (∀ nd ∈ getLevelNodes tree l, nd.nofInstances = nd.rows.length ∧ nd.rows.Sublist cfg.data) ∧
    ((getLevelNodes tree l).map (·.nofInstances)).sum = cfg.data.length ∧
    ((getLevelNodes tree l).map (·.weight)).sum = 1 := by
  obtain ⟨hnd, hH⟩ := h.heap heff
  have hr : (rootNode cfg s).level = 0 := rfl
  have hrow := hH.levelRows hr l hl
  have hperm : (((getLevelNodes tree l).map (·.rows)).flatten).Perm cfg.data := by
    rw [hrow]
    exact regions_perm cfg.data _
  have hmem : ∀ nd ∈ getLevelNodes tree l, nd ∈ tree := fun nd hn => List.mem_of_mem_filter hn
  have hc := fun nd hn => node_counts cfg heff posText imp s tree h hne nd (hmem nd hn)
  have hlen : ((getLevelNodes tree l).map fun nd => nd.rows.length).sum = cfg.data.length := by
    rw [← hperm.length_eq, ← sum_map_length, List.map_map]
    rfl
  refine ⟨hperm, ?_, ?_, ?_⟩
  · intro nd hn
    refine ⟨(hc nd hn).1, ?_⟩
    have : nd.rows ∈ Spec.regions cfg.data ((usedSplits cfg imp s).take l) := by
      have e : (rootNode cfg s).rows = cfg.data := rfl
      rw [e] at hrow
      rw [← hrow]
      exact List.mem_map_of_mem hn
    unfold Spec.regions at this
    obtain ⟨path, -, hp⟩ := List.mem_map.1 this
    rw [← hp]
    exact List.filter_sublist
  · rw [← hlen]
    congr 1
    exact List.map_congr_left fun nd hn => (hc nd hn).1
  · have e : (getLevelNodes tree l).map (·.weight) = (getLevelNodes tree l).map fun nd => ((nd.rows.length : ℕ) : K) * (1 / (cfg.data.length : K)) := by
      apply List.map_congr_left
      intro nd hn
      rw [(hc nd hn).2, mul_one_div]
    rw [e, sum_map_cast_mul (getLevelNodes tree l) fun nd => nd.rows.length, hlen]
    have := List.length_pos_of_ne_nil hne
    rw [mul_one_div, div_self]
    exact_mod_cast this.ne'

end Effector
