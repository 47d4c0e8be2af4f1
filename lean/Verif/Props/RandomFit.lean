import Verif.Props.RandomSearch

/-!
# C117: `fit` of the regional classes with random draws and with a model that need not answer the same twice
-/

set_option linter.unusedSectionVars false

namespace Effector

variable {K : Type} [Field K] [LinearOrder K] [IsStrictOrderedRing K] {D : ℕ} {σ S α β : Type}

open Spec

namespace Spec

/-- A sound tree over the instances `data`, with conditions on the features `foc`: complete and of depth `depth`; at every level the nodes partition the instances; a node has exactly
the instances that satisfy the conditions of the node and of its ancestors (numerical conditions read as in C44), says how many they are and what share of the data they are;
its condition is at a candidate position; and only nodes of at least `minPoints` instances are split. -/
structure SoundTree (data : List (Row K D)) (types : Fin D → FeatType) (foc : List (Fin D)) (candidates minPoints maxDepth : ℕ) (tree : List (Node K D)) (depth : ℕ) : Prop where
  depth_le : depth ≤ maxDepth
  complete : ∀ l ≤ depth, (tree.filter fun n => n.level == l).length = 2 ^ l
  nothing_below : ∀ n ∈ tree, n.level ≤ depth
  partition : ∀ l ≤ depth, (((tree.filter fun n => n.level == l).map (·.rows)).flatten).Perm data
  instances : ∀ n ∈ tree, ∀ r, r ∈ n.rows ↔ r ∈ data ∧ ∀ a, Ancestor tree n a → MeetsStrict a r
  order : ∀ n ∈ tree, n.rows.Sublist data
  counts : ∀ n ∈ tree, n.nofInstances = n.rows.length ∧ (data ≠ [] → n.weight = (n.rows.length : K) / (data.length : K))
  condition : ∀ n ∈ tree, 0 < n.level → ∃ f pos, n.foc = some f ∧ n.position = some pos ∧ n.typ = some (types f) ∧ f ∈ foc ∧ Candidate data types candidates f pos
  big_enough : ∀ n ∈ tree, n.level < depth → minPoints ≤ n.rows.length
  names : (tree.map (·.name)).Nodup

end Spec

open Classical in
/-- The rows of a node of a heap. -/
theorem heap_rows {tc : TreeCfg K D} {hasEff : Bool} {nInit : ℕ} {root : Node K D} {splits : List (Split K D)} {tree : List (Node K D)} (hH : Heap tc hasEff nInit root splits tree)
    (hp0 : root.parent = none) (hc0 : root.foc = none) (nd : Node K D) (hm : nd ∈ tree) :
    nd.rows = root.rows.filter fun r => ∀ a, Ancestor tree nd a → MeetsStrict a r := by
  obtain ⟨i, hi⟩ := List.getElem?_of_mem hm
  clear hm
  induction i using Nat.strong_induction_on generalizing nd with
  | _ i ih =>
    cases i with
    | zero =>
      rw [hH.root] at hi; cases hi
      symm
      apply List.filter_eq_self.mpr
      intro r _
      rw [decide_eq_true_eq]
      intro a ha
      rw [ancestor_root hp0] at ha
      subst ha
      intro f pos c hf
      rw [hc0] at hf
      cases hf
    | succ i =>
      obtain ⟨par, sp, l, h1, h2, h3, h4, h5, hndd⟩ := hH.node i nd hi
      have ihp := ih (i / 2) (by omega) par h1
      have hp : nd.parent = some (i / 2) := by rw [hndd]; rfl
      have hrows : nd.rows = par.rows.filter fun r => decide (OnSide sp.typ sp.position (decide (i % 2 = 1)) (r sp.feature)) := by
        rw [hndd]
        unfold heapNode
        rcases Nat.mod_two_eq_zero_or_one i with he | he
        · simp only [he, splitRows, goesFirst_iff]; simp
        · simp only [he, splitRows, goesSecond_iff]; simp
      rw [hrows, ihp, List.filter_filter]
      apply List.filter_congr
      intro r _
      rw [← Bool.decide_and, decide_eq_decide]
      constructor
      · rintro ⟨a1, a2⟩ a ha
        rcases (ancestor_child hp h1).mp ha with rfl | ha
        · rw [hndd]; exact (meetsStrict_heapNode ..).mpr a1
        · exact a2 a ha
      · intro hall
        refine ⟨?_, fun a ha => hall a ((ancestor_child hp h1).mpr (.inr ha))⟩
        have := hall nd (.self _)
        rw [hndd] at this
        exact (meetsStrict_heapNode ..).mp this

theorem Spec.SoundSplits.shape {cfg : RegCfg K D} {s : Splits K D} (hS : SoundSplits cfg s) : LevelsShape 1 s.levels := by
  apply levelsShape_of_get
  intro i sp hi
  obtain ⟨-, -, -, h4, h5, -⟩ := hS.level i sp hi
  have hlt := (List.getElem?_eq_some_iff.mp hi).1
  refine ⟨?_, by rw [h5, one_mul]⟩
  rw [h4, List.length_map, length_regions, List.length_take, Nat.min_eq_left (by omega), one_mul]

/-- The trees of sound splits are built without an exception, and are sound. -/
theorem soundTree_of {cfg : RegCfg K D} {s : Splits K D} (hS : SoundSplits cfg s) (posText : Fin D → K → String) (imp : Bool) :
    ∃ tree, splitsToTree cfg posText (some s) imp = .ok (some tree) ∧
      Heap { names := cfg.names, posText := posText } cfg.dataEffect.isSome s.nofInit (rootNode cfg s) (usedSplits cfg imp s) tree ∧
      SoundTree cfg.data cfg.types cfg.foc cfg.nofSplits cfg.minPoints cfg.maxLevels tree (usedSplits cfg imp s).length := by
  obtain ⟨n, hn1, hn⟩ := usedSplits_prefix cfg imp s
  obtain ⟨t, h1, h2, hH⟩ := splitsToTree_heap cfg posText s imp (usedSplits cfg imp s) rfl (by rw [hn]; exact levelsShape_take hS.shape n)
  have hr : (rootNode cfg s).level = 0 := rfl
  have hlen : (usedSplits cfg imp s).length = n := by rw [hn, List.length_take]; omega
  have hget : ∀ (l : ℕ) sp, (usedSplits cfg imp s)[l]? = some sp → s.levels[l]? = some sp := by
    intro l sp h
    rw [hn, List.getElem?_take] at h
    split_ifs at h with hln
    exact h
  have htk : ∀ l ≤ n, (usedSplits cfg imp s).take l = s.levels.take l := by
    intro l hl
    rw [hn, List.take_take, Nat.min_eq_left hl]
  have hrows : ∀ l ≤ n, (getLevelNodes t l).map (·.rows) = regions cfg.data (s.levels.take l) := by
    intro l hl
    rw [← htk l hl]
    exact hH.levelRows hr l (by omega)
  have hmem : ∀ nd ∈ t, nd.rows ∈ regions cfg.data (s.levels.take nd.level) := by
    intro nd hm
    obtain ⟨i, hi⟩ := List.getElem?_of_mem hm
    have hle := hH.level_le hr hi
    rw [← hrows nd.level (by omega)]
    exact List.mem_map_of_mem (List.mem_of_getElem? (hH.pos hr hi))
  refine ⟨t, h1, hH, ?_, ?_, ?_, ?_, ?_, ?_, ?_, ?_, ?_, h2⟩
  · rw [hlen]
    exact hn1.trans hS.depth
  · exact fun l hl => hH.levelNodes_length hr l hl
  · intro nd hm
    obtain ⟨i, hi⟩ := List.getElem?_of_mem hm
    exact hH.level_le hr hi
  · intro l hl
    have := hrows l (by omega)
    unfold getLevelNodes at this
    rw [this]
    exact regions_perm cfg.data _
  · intro nd hm r
    have := heap_rows hH rfl rfl nd hm
    rw [this]
    simp only [List.mem_filter, decide_eq_true_eq]
    rfl
  · intro nd hm
    obtain ⟨path, -, hp⟩ := List.mem_map.1 (hmem nd hm)
    rw [← hp]
    exact List.filter_sublist
  · intro nd hm
    obtain ⟨i, hi⟩ := List.getElem?_of_mem hm
    cases i with
    | zero =>
      rw [hH.root] at hi; cases hi
      refine ⟨hS.nofInit, fun hne => ?_⟩
      have : (cfg.data.length : K) ≠ 0 := by
        have := List.length_pos_of_ne_nil hne
        exact_mod_cast this.ne'
      simp [rootNode, div_self this]
    | succ i =>
      have hp := hH.pos hr hi
      have hle := hH.level_le hr hi
      obtain ⟨par, sp, l, g1, g2, g3, g4, g6, hndd⟩ := hH.node i nd hi
      have hlev : nd.level = l + 1 := by rw [hndd]; rfl
      refine ⟨?_, fun _ => ?_⟩
      · have hnof : nd.nofInstances = sp.nofInstances.getD (i + 2 - 2 ^ (l + 1)) 0 := by rw [hndd]; rfl
        obtain ⟨-, -, -, hf2, -⟩ := hS.level l sp (hget l sp g2)
        rw [hnof, hf2, ← hlev, ← hrows nd.level (by omega), List.map_map, List.getD, List.getElem?_map]
        rw [show i + 2 - 2 ^ nd.level = i + 1 + 1 - 2 ^ nd.level by omega, hp]
        rfl
      · rw [hndd]
        simp only [heapNode, hS.nofInit]
  · intro nd hm hl
    obtain ⟨i, hi⟩ := List.getElem?_of_mem hm
    cases i with
    | zero =>
      rw [hH.root] at hi; cases hi
      simp [rootNode] at hl
    | succ i =>
      obtain ⟨par, sp, l, g1, g2, g3, g4, g6, hndd⟩ := hH.node i nd hi
      obtain ⟨k1, k2, k3, -⟩ := hS.level l sp (hget l sp g2)
      refine ⟨sp.feature, sp.position, by rw [hndd]; rfl, by rw [hndd]; rfl, ?_, k1, k3⟩
      rw [hndd, ← k2]
      rfl
  · intro nd hm hl
    rw [hlen] at hl
    obtain ⟨sp, hsp⟩ : ∃ sp, s.levels[nd.level]? = some sp := ⟨s.levels[nd.level]'(by omega), List.getElem?_eq_getElem _⟩
    exact (hS.level _ sp hsp).2.2.2.2.2 _ (hmem nd hm)

/-! ### fit -/

namespace Spec

/-- What `fit` has stored for feature `f`, however it came to the heterogeneities. -/
structure SoundFit (o : RegionalObj K D) (kw : FitKw K D) (st : RegionalState K D) (f : Fin D) : Prop where
  fitted : st.fitted f = true
  trees : (st.treeFull f = some none ∧ st.treePruned f = some none) ∨ ∃ full pruned d p, st.treeFull f = some (some full) ∧ st.treePruned f = some (some pruned) ∧
    SoundTree o.cfg.data o.cfg.types (kw.foc.getD (focAll f)) kw.nofCandidates kw.minPoints kw.maxDepth full d ∧
    SoundTree o.cfg.data o.cfg.types (kw.foc.getD (focAll f)) kw.nofCandidates kw.minPoints kw.maxDepth pruned p ∧
    0 < d ∧ p ≤ d ∧ pruned = full.filter fun n => n.level ≤ p

/-- The object is unchanged, for one feature. -/
def SameFor (st st' : RegionalState K D) (f : Fin D) : Prop :=
  st'.fitted f = st.fitted f ∧ st'.treeFull f = st.treeFull f ∧ st'.treePruned f = st.treePruned f ∧ st'.treeFullScaled f = st.treeFullScaled f ∧
    st'.treePrunedScaled f = st.treePrunedScaled f ∧ st'.splits f = st.splits f ∧ st'.methodBin f = st.methodBin f

end Spec

/-- The program does not touch the object. -/
def KeepsObj (p : RunM σ K D S α) : Prop := ∀ y : Sys σ K D S, (p y).1.obj = y.obj

theorem keepsObj_pure (a : α) : KeepsObj (pure a : RunM σ K D S α) := fun _ => rfl

theorem keepsObj_inert (x : Py α) : KeepsObj (inert x : RunM σ K D S α) := fun _ => rfl

theorem keepsObj_model (w : World σ K D) (X : List (Row K D)) : KeepsObj (callModel w X : RunM σ K D S (List K)) := fun _ => rfl

theorem keepsObj_onNew {S' : Type} (o : S') (p : RunM σ K D S' α) : KeepsObj (onNew o p : RunM σ K D S α) := fun _ => rfl

theorem keepsObj_bind {p : RunM σ K D S α} {f : α → RunM σ K D S β} (h1 : KeepsObj p) (h2 : ∀ a, KeepsObj (f a)) : KeepsObj (p >>= f) := fun y => by
  rw [run_bind]
  have := h1 y
  generalize p y = q at this
  obtain ⟨y1, r⟩ := q
  cases r with
  | error e => exact this
  | ok a => exact (h2 a y1).trans this

theorem keepsObj_each {f : β → RunM σ K D S α} (h : ∀ b, KeepsObj (f b)) : ∀ l : List β, KeepsObj (runEach f l)
  | [] => keepsObj_pure _
  | b :: t => keepsObj_bind (h b) fun _ => keepsObj_bind (keepsObj_each h t) fun _ => keepsObj_pure _

section

variable {h : HeterR σ K D S} (hk : ∀ x e, KeepsObj (h x e))
include hk

theorem keepsObj_heters (xs : List (List (Row K D))) (js : Option (List (List (Row K D)))) : KeepsObj (runHeters h xs js) := by
  cases js with
  | none => exact keepsObj_each (fun _ => hk _ _) _
  | some js => exact keepsObj_each (fun _ => hk _ _) _

theorem keepsObj_rowFrom (w : ℕ) (xs : List (List (Row K D))) (js : Option (List (List (Row K D)))) (before : List K) (f : Fin D) (typ : FeatType) :
    ∀ (i : ℕ) (l : List K), KeepsObj (runRowFrom h w xs js before f typ i l)
  | _, [] => keepsObj_pure _
  | i, _ :: t => keepsObj_bind (keepsObj_bind (keepsObj_heters hk _ _) fun _ => keepsObj_pure _) fun _ => keepsObj_bind (keepsObj_inert _) fun _ =>
      keepsObj_bind (keepsObj_rowFrom w xs js before f typ (i + 1) t) fun _ => keepsObj_pure _

theorem keepsObj_singleLevel (cfg : RegCfg K D) (xs : List (List (Row K D))) (js : Option (List (List (Row K D)))) (before : List K) : KeepsObj (runSingleLevel cfg h xs js before) := by
  unfold runSingleLevel
  refine keepsObj_bind (keepsObj_inert _) fun _ => keepsObj_bind (keepsObj_each (fun _ => keepsObj_rowFrom hk _ _ _ _ _ _ _ _) _) fun _ => ?_
  refine keepsObj_bind (keepsObj_inert _) fun _ => keepsObj_bind (keepsObj_inert _) fun _ => keepsObj_bind (keepsObj_inert _) fun _ => keepsObj_bind (keepsObj_inert _) fun _ => ?_
  refine keepsObj_bind (keepsObj_heters hk _ _) fun _ => ?_
  exact keepsObj_bind (keepsObj_inert _) fun _ => keepsObj_bind (keepsObj_inert _) fun _ => keepsObj_bind (keepsObj_inert _) fun _ => keepsObj_bind (keepsObj_inert _) fun _ =>
    keepsObj_pure _

theorem keepsObj_levels (cfg : RegCfg K D) : ∀ (n : ℕ) (xs : List (List (Row K D))) (js : Option (List (List (Row K D)))) (before : List K), KeepsObj (runLevels cfg h n xs js before)
  | 0, _, _, _ => keepsObj_pure _
  | n + 1, xs, js, before => by
    unfold runLevels
    split_ifs
    · exact keepsObj_pure _
    · exact keepsObj_bind (keepsObj_singleLevel hk cfg xs js before) fun _ => keepsObj_bind (keepsObj_levels cfg n _ _ _) fun _ => keepsObj_pure _

theorem keepsObj_search (cfg : RegCfg K D) : KeepsObj (runSearch cfg h) := by
  unfold runSearch
  split_ifs
  · exact keepsObj_pure _
  · exact keepsObj_bind (keepsObj_inert _) fun _ => keepsObj_bind (hk _ _) fun _ => keepsObj_bind (keepsObj_levels hk _ _ _ _ _) fun _ => keepsObj_pure _
  · exact keepsObj_bind (keepsObj_inert _) fun _ => keepsObj_bind (hk _ _) fun _ => keepsObj_bind (keepsObj_levels hk _ _ _ _ _) fun _ => keepsObj_pure _

end

theorem sameFor_refl (st : RegionalState K D) (f : Fin D) : SameFor st st f := ⟨rfl, rfl, rfl, rfl, rfl, rfl, rfl⟩

theorem pruned_top {cfg : RegCfg K D} {s : Splits K D} {full pruned : List (Node K D)} {posText : Fin D → K → String}
    (hF : Heap { names := cfg.names, posText := posText } cfg.dataEffect.isSome s.nofInit (rootNode cfg s) (usedSplits cfg false s) full)
    (hP : Heap { names := cfg.names, posText := posText } cfg.dataEffect.isSome s.nofInit (rootNode cfg s) (usedSplits cfg true s) pruned) :
    pruned = full.filter fun n => n.level ≤ (usedSplits cfg true s).length := by
  obtain ⟨n, hn1, hn⟩ := usedSplits_prefix cfg true s
  have hu : usedSplits cfg false s = s.levels := rfl
  rw [hu] at hF
  have hlen : (usedSplits cfg true s).length = n := by rw [hn, List.length_take]; omega
  rw [hlen]
  rw [hn] at hP
  rw [heap_prefix hn1 hF hP]
  have hr : (rootNode cfg s).level = 0 := rfl
  symm
  rw [filter_interval (fun nd : Node K D => decide (nd.level ≤ n)) full 0 (2 ^ (n + 1) - 1), List.drop_zero]
  intro i nd hi
  obtain ⟨g1, g2⟩ := hF.level hr i nd hi
  rw [decide_eq_true_eq]
  constructor
  · intro hl
    have : 2 ^ (nd.level + 1) ≤ 2 ^ (n + 1) := Nat.pow_le_pow_right (by omega) (by omega)
    omega
  · rintro ⟨-, hl⟩
    by_contra hgt
    have : 2 ^ (n + 1) ≤ 2 ^ nd.level := Nat.pow_le_pow_right (by omega) (by omega)
    omega

/-- `_fit_feature` and what follows it, for any program as heterogeneity function. -/
theorem runFitFeature_ok [PySqrt K] (o : RegionalObj K D) (heff : ∀ e, o.cfg.instanceEffects = some e → o.cfg.data.length = e.length) (kw : FitKw K D) (f : Fin D)
    (h : HeterR σ K D (RegionalState K D)) (hk : ∀ x e, KeepsObj (h x e)) (y : Sys σ K D (RegionalState K D)) :
    (∀ g, g ≠ f → SameFor y.obj (runFitFeature o kw f h y).1.obj g) ∧
    (SameFor y.obj (runFitFeature o kw f h y).1.obj f ∨ SoundFit o kw (runFitFeature o kw f h y).1.obj f) ∧
    ((runFitFeature o kw f h y).2 = .ok () → SoundFit o kw (runFitFeature o kw f h y).1.obj f) := by
  have heff' : EffAligned (regionsOf o.cfg (kw.toArgs o) f) := heff
  unfold runFitFeature
  rw [run_bind]
  have hobj := keepsObj_search hk (regionsOf o.cfg (kw.toArgs o) f) y
  rcases e : runSearch (regionsOf o.cfg (kw.toArgs o) f) h y with ⟨y1, r⟩
  rw [e] at hobj
  dsimp only at hobj
  cases r with
  | error err =>
    simp only [runThen, hobj]
    exact ⟨fun g _ => sameFor_refl _ g, .inl (sameFor_refl _ f), fun hn => by cases hn⟩
  | ok sp =>
    simp only [runThen]
    have key : ∃ full pruned, splitsToTree (regionsOf o.cfg (kw.toArgs o) f) (posTextOf o.cfg.fmt none) sp false = .ok full ∧
        splitsToTree (regionsOf o.cfg (kw.toArgs o) f) (posTextOf o.cfg.fmt none) sp true = .ok pruned ∧
        ((full = none ∧ pruned = none) ∨ ∃ full' pruned' d p, full = some full' ∧ pruned = some pruned' ∧
          SoundTree o.cfg.data o.cfg.types (kw.foc.getD (focAll f)) kw.nofCandidates kw.minPoints kw.maxDepth full' d ∧
          SoundTree o.cfg.data o.cfg.types (kw.foc.getD (focAll f)) kw.nofCandidates kw.minPoints kw.maxDepth pruned' p ∧
          0 < d ∧ p ≤ d ∧ pruned' = full'.filter fun n => n.level ≤ p) := by
      cases sp with
      | none => exact ⟨none, none, rfl, rfl, .inl ⟨rfl, rfl⟩⟩
      | some s =>
        obtain ⟨hS, -⟩ := C117_search _ heff' h y y1 s e
        obtain ⟨full, f1, f2, f3⟩ := soundTree_of hS (posTextOf o.cfg.fmt none) false
        obtain ⟨pruned, p1, p2, p3⟩ := soundTree_of hS (posTextOf o.cfg.fmt none) true
        obtain ⟨n, hn1, hn⟩ := usedSplits_prefix (regionsOf o.cfg (kw.toArgs o) f) true s
        refine ⟨some full, some pruned, f1, p1, .inr ⟨full, pruned, _, _, rfl, rfl, f3, p3, ?_, ?_, pruned_top f2 p2⟩⟩
        · exact List.length_pos_of_ne_nil hS.nonempty
        · rw [hn, List.length_take]
          exact min_le_right _ _
    obtain ⟨full, pruned, k1, k2, k3⟩ := key
    rw [k1, k2]
    show _ ∧ _ ∧ _
    have hsound : SoundFit o kw { y1.obj with
        treeFull := Function.update y1.obj.treeFull f (some full)
        treePruned := Function.update y1.obj.treePruned f (some pruned)
        splits := Function.update y1.obj.splits f (some (regionsOf o.cfg (kw.toArgs o) f, sp))
        fitted := Function.update y1.obj.fitted f true
        methodBin := Function.update y1.obj.methodBin f (some kw.bin) } f := by
      refine ⟨by simp, ?_⟩
      rcases k3 with ⟨rfl, rfl⟩ | ⟨full', pruned', d, p, rfl, rfl, k4⟩
      · exact .inl ⟨by simp, by simp⟩
      · exact .inr ⟨full', pruned', d, p, by simp, by simp, k4⟩
    refine ⟨fun g hg => ?_, .inr hsound, fun _ => hsound⟩
    rw [← hobj]
    refine ⟨?_, ?_, ?_, rfl, rfl, ?_, ?_⟩ <;> exact Function.update_of_ne hg _ _

/-! ### The five classes -/

theorem keepsObj_base (w : World σ K D) (choice : ℕ → ℕ → List ℕ) (data : List (Row K D)) (nof : PyVal) (axisLimits : Option ((Fin D → K) × (Fin D → K))) (avg : Option K) :
    KeepsObj (runBase w choice data nof axisLimits avg : RunM σ K D S _) := by
  unfold runBase
  cases avg
  all_goals repeat (first | exact keepsObj_model _ _ | exact keepsObj_pure _ | exact keepsObj_inert _ | refine keepsObj_bind ?_ fun _ => ?_)

theorem keepsObj_aleHeter [PySqrt K] {new : List (Row K D) → Option (List (Row K D)) → RunM σ K D S (RunAleCfg σ K D × AleObj K D)} (hn : ∀ x e, KeepsObj (new x e)) (foi : Fin D)
    (bm : BinMethod K) (minPoints : ℕ) (centering : PyVal) (x : List (Row K D)) (e : Option (List (Row K D))) : KeepsObj (runAleHeter new foi bm minPoints centering x e) := by
  unfold runAleHeter
  split_ifs
  · exact keepsObj_pure _
  · exact keepsObj_bind (hn _ _) fun _ => keepsObj_onNew _ _

theorem keepsObj_runHeter [PySqrt K] (w : World σ K D) (o : RegionalObj K D) (kw : FitKw K D) (f : Fin D) (h : HeterR σ K D S) (hh : runHeter w o kw f = .ok h) (x : List (Row K D))
    (e : Option (List (Row K D))) : KeepsObj (h x e) := by
  unfold runHeter at hh
  dsimp only at hh
  simp only [bind, Except.bind, pure, Except.pure] at hh
  split_ifs at hh
  · cases eb : prepBinningMethod kw.bin with
    | error e => rw [eb] at hh; cases hh
    | ok bm =>
      rw [eb] at hh
      obtain rfl := Except.ok.inj hh
      refine keepsObj_aleHeter (fun x e => ?_) _ _ _ _ _ _
      unfold runRhaleNew
      refine keepsObj_bind (keepsObj_inert _) fun _ => keepsObj_bind (keepsObj_inert _) fun _ => keepsObj_bind (keepsObj_inert _) fun _ => ?_
      exact keepsObj_bind (keepsObj_base _ _ _ _ _ _) fun _ => keepsObj_pure _
  · cases eb : prepBinningMethod kw.bin with
    | error e => rw [eb] at hh; cases hh
    | ok bm =>
      rw [eb] at hh
      obtain rfl := Except.ok.inj hh
      refine keepsObj_aleHeter (fun x e => ?_) _ _ _ _ _ _
      unfold runAleNew
      exact keepsObj_bind (keepsObj_base _ _ _ _ _ _) fun _ => keepsObj_pure _
  · obtain rfl := Except.ok.inj hh
    show KeepsObj (runShapHeter _ _ _ _ _ _ _ _ _)
    unfold runShapHeter
    split_ifs
    · exact keepsObj_pure _
    · refine keepsObj_bind (keepsObj_inert _) fun _ => keepsObj_bind (keepsObj_inert _) fun _ => keepsObj_bind ?_ fun _ => keepsObj_onNew _ _
      unfold runShapNew
      refine keepsObj_bind (keepsObj_inert _) fun _ => keepsObj_bind (keepsObj_inert _) fun _ => ?_
      exact keepsObj_bind (keepsObj_base _ _ _ _ _ _) fun _ => keepsObj_pure _
  all_goals
    obtain rfl := Except.ok.inj hh
    show KeepsObj (runPdpHeter _ _ _ _ _ _ _ _ _ _ _ _ _)
    unfold runPdpHeter
    split_ifs
    · exact keepsObj_pure _
    · refine keepsObj_bind ?_ fun _ => keepsObj_onNew _ _
      unfold runPdpNew
      exact keepsObj_bind (keepsObj_base _ _ _ _ _ _) fun _ => keepsObj_pure _

theorem keepsObj_randomHeter [PySqrt K] (w : World σ K D) (draw : σ → σ × (ℕ → ℕ → List ℕ)) (o : RegionalObj K D) (kw : FitKw K D) (f : Fin D) (h : HeterR σ K D S)
    (hh : randomHeter w draw o kw f = .ok h) (x : List (Row K D)) (e : Option (List (Row K D))) : KeepsObj (h x e) := by
  unfold randomHeter at hh
  cases e0 : runHeter (S := S) w o kw f with
  | error e => rw [e0] at hh; cases hh
  | ok h0 =>
    rw [e0] at hh
    obtain rfl := Except.ok.inj hh
    intro y
    unfold redraw
    dsimp only
    cases e1 : runHeter (S := S) w (drawn o (draw y.world).2) kw f with
    | error e => rfl
    | ok h1 => exact keepsObj_runHeter w _ kw f h1 e1 x e _

theorem randomFitLoop_ok [PySqrt K] (w : World σ K D) (draw : σ → σ × (ℕ → ℕ → List ℕ)) (o : RegionalObj K D)
    (heff : ∀ e, o.cfg.instanceEffects = some e → o.cfg.data.length = e.length) (kw : FitKw K D) (l : List (Fin D)) (y : Sys σ K D (RegionalState K D)) :
    (∀ f, SameFor y.obj (randomFitLoop w draw o kw l y).1.obj f ∨ (f ∈ l ∧ SoundFit o kw (randomFitLoop w draw o kw l y).1.obj f)) ∧
    ((randomFitLoop w draw o kw l y).2 = .ok () → ∀ f ∈ l, SoundFit o kw (randomFitLoop w draw o kw l y).1.obj f) := by
  induction l generalizing y with
  | nil => exact ⟨fun f => .inl (sameFor_refl _ f), fun _ f hf => by simp at hf⟩
  | cons g t ih =>
    unfold randomFitLoop
    cases e0 : randomHeter (S := RegionalState K D) w draw o kw g with
    | error e => exact ⟨fun f => .inl (sameFor_refl _ f), fun hn => by cases hn⟩
    | ok h =>
      rw [inert_ok, run_bind]
      obtain ⟨h1, h2, h3⟩ := runFitFeature_ok o heff kw g h (keepsObj_randomHeter w draw o kw g h e0) y
      generalize runFitFeature o kw g h y = q at h1 h2 h3 ⊢
      obtain ⟨y1, r⟩ := q
      dsimp only at h1 h2 h3
      have both : ∀ f, SameFor y.obj y1.obj f ∨ (f ∈ g :: t ∧ SoundFit o kw y1.obj f) := by
        intro f
        by_cases hf : f = g
        · subst hf
          rcases h2 with h2 | h2
          · exact .inl h2
          · exact .inr ⟨by simp, h2⟩
        · exact .inl (h1 f hf)
      cases r with
      | error e => exact ⟨both, fun hn => by cases hn⟩
      | ok u =>
        obtain ⟨i1, i2⟩ := ih y1
        simp only [runThen]
        have carry : ∀ f, SameFor y1.obj (randomFitLoop w draw o kw t y1).1.obj f → SoundFit o kw y1.obj f → SoundFit o kw (randomFitLoop w draw o kw t y1).1.obj f := by
          rintro f ⟨s1, s2, s3, -⟩ hS
          refine ⟨s1.trans hS.fitted, ?_⟩
          rw [s2, s3]
          exact hS.trees
        refine ⟨fun f => ?_, fun hok f hf => ?_⟩
        · rcases i1 f with i1 | ⟨i1, i3⟩
          · rcases both f with hb | ⟨hb, hc⟩
            · obtain ⟨a1, a2, a3, a4, a5, a6, a7⟩ := i1
              obtain ⟨b1, b2, b3, b4, b5, b6, b7⟩ := hb
              exact .inl ⟨a1.trans b1, a2.trans b2, a3.trans b3, a4.trans b4, a5.trans b5, a6.trans b6, a7.trans b7⟩
            · exact .inr ⟨hb, carry f i1 hc⟩
          · exact .inr ⟨by simp [i1], i3⟩
        · rcases List.mem_cons.mp hf with rfl | hf
          · rcases i1 f with i1 | ⟨-, i3⟩
            · exact carry f i1 (h3 rfl)
            · exact i3
          · exact i2 hok f hf

/-- **C117, fit.**  `fit` of the five regional classes, with a new random draw for every region that is measured and a model (derivative, explainer) with a state: whatever is drawn, answered
or raised, for every feature the object holds what it held before, or sound trees; and sound trees for every feature asked for if `fit` returns. -/
theorem C117_fit [PySqrt K] (w : World σ K D) (draw : σ → σ × (ℕ → ℕ → List ℕ)) (o : RegionalObj K D)
    (heff : ∀ e, o.cfg.instanceEffects = some e → o.cfg.data.length = e.length) (features : PyVal) (kw : FitKw K D) (y : Sys σ K D (RegionalState K D)) :
    (∀ f, SameFor y.obj (randomFit w draw o features kw y).1.obj f ∨ SoundFit o kw (randomFit w draw o features kw y).1.obj f) ∧
    ((randomFit w draw o features kw y).2 = .ok () → ∀ fs l, prepFeatures features D = .ok fs → resolveFeatures D fs = .ok l → ∀ f ∈ l,
      SoundFit o kw (randomFit w draw o features kw y).1.obj f) := by
  unfold randomFit
  by_cases hm : kw.minPoints < 2
  · rw [if_pos hm]
    exact ⟨fun f => .inl (sameFor_refl _ f), fun hn => by cases hn⟩
  rw [if_neg hm, inert_ok]
  cases e1 : prepFeatures features D with
  | error e => exact ⟨fun f => .inl (sameFor_refl _ f), fun hn => by cases hn⟩
  | ok fs =>
    rw [inert_ok]
    cases e2 : resolveFeatures D fs with
    | error e => exact ⟨fun f => .inl (sameFor_refl _ f), fun hn => by cases hn⟩
    | ok l =>
      rw [inert_ok]
      obtain ⟨h1, h2⟩ := randomFitLoop_ok w draw o heff kw l y
      refine ⟨fun f => ?_, fun hok fs' l' g1 g2 f hf => ?_⟩
      · rcases h1 f with h1 | ⟨-, h1⟩
        · exact .inl h1
        · exact .inr h1
      · obtain rfl := Except.ok.inj g1
        rw [e2] at g2
        obtain rfl := Except.ok.inj g2
        exact h2 hok f hf

end Effector
