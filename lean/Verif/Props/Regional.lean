import Verif.Props.RegionalHistory
import Verif.Props.AleInvariance

/-!
# C50: regional effects evaluate the global method on the data of a node
-/

set_option linter.unusedSectionVars false

namespace Effector

variable {K : Type} [Field K] [LinearOrder K] [IsStrictOrderedRing K] {D : ℕ}

theorem treeFor_some {cfg : RegionalCfg K D} {a : FitArgs K D} {f : Fin D} {sc : Option (Fin D → Scale K)} {imp : Bool} {tree : List (Node K D)}
    (h : Spec.TreeFor cfg a f sc imp (some tree)) : ∃ s, TreeOf (regionsOf cfg a f) (posTextOf cfg.fmt sc) imp s tree := by
  obtain ⟨sp, h1, h2⟩ := h
  cases sp with
  | none => cases h2
  | some s => exact ⟨s, h1, h2⟩

theorem treeFor_unique {cfg : RegionalCfg K D} {a : FitArgs K D} {f : Fin D} {sc : Option (Fin D → Scale K)} {imp : Bool} {t t' : Option (List (Node K D))}
    (h : Spec.TreeFor cfg a f sc imp t) (h' : Spec.TreeFor cfg a f sc imp t') : t = t' := by
  obtain ⟨sp, h1, h2⟩ := h
  obtain ⟨sp', h1', h2'⟩ := h'
  rw [h1] at h1'; cases h1'
  rw [h2] at h2'; cases h2'
  rfl

theorem find_idx {cfg : RegCfg K D} (heff : EffAligned cfg) {posText : Fin D → K → String} {imp : Bool} {s : Splits K D} {tree : List (Node K D)}
    (h : TreeOf cfg posText imp s tree) {nd : Node K D} (hm : nd ∈ tree) : tree.find? (fun n => n.idx == nd.idx) = some nd := by
  have hidx := (C43_complete_binary_tree cfg heff posText imp s tree h).2.2.1
  obtain ⟨i, hi⟩ := List.getElem?_of_mem hm
  have hi' := hidx i nd hi
  rw [hi']
  cases hfd : tree.find? (fun n => n.idx == i) with
  | none =>
    rw [List.find?_eq_none] at hfd
    exact absurd hi' (by simpa using hfd nd hm)
  | some n =>
    have h1 := List.mem_of_find?_eq_some hfd
    have h2 := List.find?_some hfd
    obtain ⟨j, hj⟩ := List.getElem?_of_mem h1
    have := hidx j n hj
    simp only [beq_iff_eq] at h2
    rw [← this, h2, hi] at hj
    exact hj.symm

theorem prepCentering_toVal {c : PyVal} {m : Centering} (_h : prepCentering c = .ok m) : prepCentering m.toVal = .ok m := by
  cases m <;> decide

/-- The global methods do not distinguish `True` from `"zero_integral"`. -/
theorem createAndEval_centering [PySqrt K] (bb : BlackBoxes K D) (meth : String) (rows : List (Row K D)) (eff : Option (List (Row K D))) (f : Fin D)
    (xs : List K) (het : Bool) {c : PyVal} {m : Centering} (h : prepCentering c = .ok m) :
    createAndEval bb meth rows eff f xs het m.toVal = createAndEval bb meth rows eff f xs het c := by
  have h' := prepCentering_toVal h
  unfold createAndEval rhaleOnce aleOnce shapOnce pdpOnce
  split_ifs <;> simp only [aleEval, pdpEval, shapEval, h, h']

/-- What `eval` does once the feature is fitted and the tree in use is known. -/
theorem regionalEval_of [PySqrt K] {cfg : RegionalCfg K D} (hal : Spec.Aligned cfg) {ops : List (RegionalOp K D)} {f : Fin D} {a : FitArgs K D}
    (ha : Spec.afterRefit cfg f (Spec.lastRegFit cfg f ops) = some a) (n : ℕ) (xs : List K) (het : Bool) (c : PyVal) :
    ∃ st', RegStored cfg f st' (some a) (ops.foldl (scaledStep cfg f) (none, none)).2 ∧
      (regionalEval cfg (regionalRun cfg ops) f n xs het c).2 = (do
        let c ← prepCentering c
        let n ← getNodeInfo st' f n
        createAndEval cfg.bb cfg.methodName n.rows n.effects f xs het c.toVal) := by
  obtain ⟨h1, h2⟩ := refit_same hal (regionalRun_stored hal f ops)
  rw [ha] at h1 h2
  have h2 := h2.mp rfl
  refine ⟨_, h1, ?_⟩
  unfold regionalEval
  rcases hr : regionalRefit cfg (regionalRun cfg ops) f with ⟨st', e | ⟨⟩⟩
  · rw [hr] at h2; cases h2
  · rfl

/-- **C50, one node.** After any history of calls in which the feature was never plotted with `scale_x_list`, `eval` at a node of the (pruned) tree of the last
fit is the global method, constructed with default arguments on the rows (and effects) of the node and evaluated with the same arguments. -/
theorem C50_eval_is_global_on_node [PySqrt K] (cfg : RegionalCfg K D) (hal : Spec.Aligned cfg) (ops : List (RegionalOp K D)) (f : Fin D)
    (hns : ∀ sc, RegionalOp.plot f (some sc) ∉ ops) (a : FitArgs K D) (ha : Spec.afterRefit cfg f (Spec.lastRegFit cfg f ops) = some a)
    (tree : List (Node K D)) (ht : Spec.TreeFor cfg a f none true (some tree)) (nd : Node K D) (hm : nd ∈ tree) (xs : List K) (het : Bool) (c : PyVal)
    (m : Centering) (hc : prepCentering c = .ok m) :
    (regionalEval cfg (regionalRun cfg ops) f nd.idx xs het c).2 = createAndEval cfg.bb cfg.methodName nd.rows nd.effects f xs het c := by
  obtain ⟨st', h1, h2⟩ := regionalEval_of hal ha nd.idx xs het c
  rw [scaledFold_noplot cfg f ops hns] at h1
  rw [h2]
  obtain ⟨s, hT⟩ := treeFor_some ht
  obtain ⟨sp, full, pruned, e1, e2, e3, e4, e5, e6, e7⟩ := h1.trees a rfl
  have hp : pruned = some tree := treeFor_unique ⟨sp, e1, e7⟩ ht
  have hnode : getNodeInfo st' f nd.idx = .ok nd := by
    unfold getNodeInfo
    rw [h1.fitted]
    simp only [Option.isSome_some, pyAssert, if_true, bind, Except.bind, e4, hp, (h1.notScaled rfl).2, find_idx (cfg := regionsOf cfg a f) hal hT hm]
  simp only [hc, hnode, bind, Except.bind]
  exact createAndEval_centering _ _ _ _ _ _ _ hc

theorem root_mem {cfg : RegionalCfg K D} (hal : Spec.Aligned cfg) {a : FitArgs K D} {f : Fin D} {sc : Option (Fin D → Scale K)} {imp : Bool} {tree : List (Node K D)}
    (h : Spec.TreeFor cfg a f sc imp (some tree)) : ∃ nd ∈ tree, nd.idx = 0 ∧ nd.rows = cfg.data ∧ nd.effects = cfg.instanceEffects := by
  obtain ⟨s, hT⟩ := treeFor_some h
  obtain ⟨-, hH⟩ := hT.heap hal
  exact ⟨_, List.mem_of_getElem? hH.root, rfl, rfl, rfl⟩

/-- **C50, the root.** After any history of calls (scaled plots included), `eval` at node 0 is the global method on the whole data set of the object,
provided that splits were found by the last fit and by the fit that a scaled tree, if there is one, comes from. -/
theorem C50_root_is_global [PySqrt K] (cfg : RegionalCfg K D) (hal : Spec.Aligned cfg) (ops : List (RegionalOp K D)) (f : Fin D) (a : FitArgs K D)
    (ha : Spec.afterRefit cfg f (Spec.lastRegFit cfg f ops) = some a) (hsplits : searchAllSplits (regionsOf cfg a f) ≠ .ok none)
    (hstale : ∀ b, RegionalOp.fit b f ∈ ops ∨ b = cfg.defaultArgs → (∃ sc, RegionalOp.plot f (some sc) ∈ ops) →
      searchAllSplits (regionsOf cfg b f) ≠ .ok none)
    (xs : List K) (het : Bool) (c : PyVal) (m : Centering) (hc : prepCentering c = .ok m) :
    (regionalEval cfg (regionalRun cfg ops) f 0 xs het c).2 = createAndEval cfg.bb cfg.methodName cfg.data cfg.instanceEffects f xs het c := by
  obtain ⟨st', h1, h2⟩ := regionalEval_of hal ha 0 xs het c
  rw [h2]
  have hcomes : ∀ (ops' : List (RegionalOp K D)) p b sc, (∀ op ∈ ops', op ∈ ops) →
      (∀ b, p.1 = some b → RegionalOp.fit b f ∈ ops ∨ b = cfg.defaultArgs) →
      (∀ b sc, p.2 = some (b, sc) → (RegionalOp.fit b f ∈ ops ∨ b = cfg.defaultArgs) ∧ ∃ sc, RegionalOp.plot f (some sc) ∈ ops) →
      (ops'.foldl (scaledStep cfg f) p).2 = some (b, sc) → (RegionalOp.fit b f ∈ ops ∨ b = cfg.defaultArgs) ∧ ∃ sc, RegionalOp.plot f (some sc) ∈ ops := by
    intro ops'
    induction ops' with
    | nil => intro p b sc _ _ h2 h; exact h2 b sc h
    | cons op t ih =>
      intro p b sc hsub hp1 hp2 h
      have har : ∀ b, Spec.afterRefit cfg f p.1 = some b → RegionalOp.fit b f ∈ ops ∨ b = cfg.defaultArgs := by
        intro b hb
        cases hp : p.1 with
        | some q => rw [hp] at hb; cases hb; exact hp1 _ hp
        | none =>
          rw [hp] at hb
          simp only [Spec.afterRefit] at hb
          split_ifs at hb
          cases hb; exact .inr rfl
      rw [List.foldl_cons] at h
      refine ih (scaledStep cfg f p op) b sc (fun o ho => hsub o (List.mem_cons_of_mem _ ho)) ?_ ?_ h
      · intro b hb
        cases op with
        | fit b' g =>
          simp only [scaledStep, Spec.regFitStep] at hb
          split_ifs at hb with hcond
          · cases hb; left; rw [← hcond.1]; exact hsub _ (by simp)
          · exact hp1 b hb
        | eval g n xs het c =>
          simp only [scaledStep, Spec.regFitStep] at hb
          split_ifs at hb with hcond
          · exact har b hb
          · exact hp1 b hb
        | plot g sc =>
          simp only [scaledStep, Spec.regFitStep] at hb
          split_ifs at hb with hcond
          · exact har b hb
          · exact hp1 b hb
      · intro b sc hb
        cases op with
        | fit b' g => exact hp2 b sc hb
        | eval g n xs het c => exact hp2 b sc hb
        | plot g sc' =>
          cases sc' with
          | none => exact hp2 b sc hb
          | some sc' =>
            simp only [scaledStep] at hb
            by_cases hg : g = f
            · rw [if_pos hg] at hb
              cases hl : Spec.afterRefit cfg f p.1 with
              | none => rw [hl] at hb; exact hp2 b sc hb
              | some q =>
                rw [hl] at hb
                cases hb
                exact ⟨har _ hl, sc, by rw [← hg]; exact hsub _ (by simp)⟩
            · rw [if_neg hg] at hb; exact hp2 b sc hb
  obtain ⟨sp, full, pruned, e1, e2, e3, e4, e5, e6, e7⟩ := h1.trees a rfl
  obtain ⟨tree, rfl⟩ : ∃ tree, pruned = some tree := by
    cases sp with
    | none => exact absurd e1 hsplits
    | some s =>
      obtain ⟨t, ht⟩ := C43_trees_exist (regionsOf cfg a f) hal (posTextOf cfg.fmt none) true s e1
      exact ⟨t, by have := ht.tree; rw [e7] at this; exact Except.ok.inj this⟩
  have hnode : ∃ nd, getNodeInfo st' f 0 = .ok nd ∧ nd.rows = cfg.data ∧ nd.effects = cfg.instanceEffects := by
    unfold getNodeInfo
    rw [h1.fitted]
    simp only [Option.isSome_some, pyAssert, if_true, bind, Except.bind, e4]
    cases hsc : (ops.foldl (scaledStep cfg f) (none, none)).2 with
    | none =>
      rw [(h1.notScaled hsc).2]
      obtain ⟨nd, hm, hi, hr, he⟩ := root_mem hal ⟨sp, e1, e7⟩
      obtain ⟨s, hT⟩ := treeFor_some (K := K) (D := D) ⟨sp, e1, e7⟩
      have := find_idx (cfg := regionsOf cfg a f) hal hT hm
      rw [hi] at this
      simp only [this]
      exact ⟨nd, rfl, hr, he⟩
    | some q =>
      obtain ⟨b, sc⟩ := q
      obtain ⟨sfull, spruned, g1, g2, g3, g4⟩ := h1.scaled b sc hsc
      obtain ⟨hb1, hb2⟩ := hcomes ops (none, none) b sc (fun _ h => h) (by rintro b hb; cases hb) (by rintro b sc hb; cases hb) hsc
      obtain ⟨sp', f1, f2⟩ := g4
      cases sp' with
      | none => exact absurd f1 (hstale b hb1 hb2)
      | some s =>
        obtain ⟨t, ht⟩ := C43_trees_exist (regionsOf cfg b f) hal (posTextOf cfg.fmt (some sc)) true s f1
        have ht' := ht.tree
        rw [f2] at ht'
        obtain rfl : spruned = some t := Except.ok.inj ht'
        rw [g2]
        obtain ⟨nd, hm, hi, hr, he⟩ := root_mem hal (sc := some sc) (imp := true) ⟨some s, f1, f2⟩
        have := find_idx (cfg := regionsOf cfg b f) hal ht hm
        rw [hi] at this
        simp only [this]
        exact ⟨nd, rfl, hr, he⟩
  obtain ⟨nd, hn, hr, he⟩ := hnode
  simp only [hc, hn, bind, Except.bind, hr, he]
  exact createAndEval_centering _ _ _ _ _ _ _ hc

/-- **C50 does not hold without splits**: if no split is found (too few instances, `max_depth = 0`, or a categorical feature), `eval` at the root (and anywhere)
raises `AssertionError`, although the global effect may well exist. -/
theorem C50_false_without_splits [PySqrt K] (cfg : RegionalCfg K D) (hal : Spec.Aligned cfg) (ops : List (RegionalOp K D)) (f : Fin D) (a : FitArgs K D)
    (ha : Spec.afterRefit cfg f (Spec.lastRegFit cfg f ops) = some a) (hsplits : searchAllSplits (regionsOf cfg a f) = .ok none)
    (n : ℕ) (xs : List K) (het : Bool) (c : PyVal) : (regionalEval cfg (regionalRun cfg ops) f n xs het c).2 = .error .assertionError := by
  obtain ⟨st', h1, h2⟩ := regionalEval_of hal ha n xs het c
  rw [h2]
  obtain ⟨sp, full, pruned, e1, e2, e3, e4, e5, e6, e7⟩ := h1.trees a rfl
  rw [hsplits] at e1
  cases e1
  cases e7
  have hn : getNodeInfo st' f n = .error .assertionError := by
    unfold getNodeInfo
    rw [h1.fitted]
    simp only [Option.isSome_some, pyAssert, if_true, bind, Except.bind, e4]
  cases hc : prepCentering c with
  | error e =>
    simp only [bind, Except.bind]
    unfold prepCentering at hc
    split at hc
    · cases hc
    · cases hc
    · split_ifs at hc; cases hc; rfl
    · cases hc; rfl
  | ok m => simp only [hn, bind, Except.bind]

/-! ### The effects of the node -/

theorem createAndEval_ignores_effects [PySqrt K] (bb : BlackBoxes K D) (meth : String) (h : meth ≠ "rhale") (rows : List (Row K D))
    (e e' : Option (List (Row K D))) (f : Fin D) (xs : List K) (het : Bool) (c : PyVal) :
    createAndEval bb meth rows e f xs het c = createAndEval bb meth rows e' f xs het c := by
  unfold createAndEval
  rw [if_neg h]
  split_ifs <;> rfl

/-- For a row-wise Jacobian, RHALE with the right effects is RHALE without given effects. -/
theorem createAndEval_right_effects [PySqrt K] (bb : BlackBoxes K D) (φ : Row K D → Row K D)
    (hφ : ∀ l, rhaleEffects bb.model bb.jac none l = l.map φ) (meth : String) (rows : List (Row K D)) (f : Fin D) (xs : List K) (het : Bool) (c : PyVal) :
    createAndEval bb meth rows (some (rows.map φ)) f xs het c = createAndEval bb meth rows none f xs het c := by
  by_cases h : meth = "rhale"
  · subst h
    unfold createAndEval
    rw [if_pos rfl]
    unfold rhaleOnce
    rw [rhaleInit_all _ _ _ _ _ (by rintro e he; cases he; simp), rhaleInit_all _ _ _ _ _ (by rintro e he; cases he)]
    have : rhaleEffects bb.model bb.jac (some (rows.map φ)) rows = rhaleEffects bb.model bb.jac none rows := by rw [hφ]; rfl
    rw [this]
  · exact createAndEval_ignores_effects bb meth h rows _ _ f xs het c

theorem zip_map_sublist {α β : Type} (φ : α → β) (l r : List α) (e : List β) (hlen : e.length = r.length) (h : (r.zip e).Sublist (l.zip (l.map φ))) :
    e = r.map φ := by
  have hall : ∀ p ∈ r.zip e, p.2 = φ p.1 := by
    intro p hp
    have := h.subset hp
    rw [List.zip_map_right, List.mem_map] at this
    obtain ⟨q, hq, rfl⟩ := this
    have := (List.mem_iff_getElem.mp hq)
    obtain ⟨i, hi, rfl⟩ := this
    simp
  clear h
  induction r generalizing e with
  | nil => cases e with
    | nil => rfl
    | cons a t => simp at hlen
  | cons x r ih =>
    cases e with
    | nil => simp at hlen
    | cons y e =>
      have h1 := hall (x, y) (by simp)
      simp only at h1
      rw [List.map_cons, ih e (by simpa using hlen) (fun p hp => hall p (by rw [List.zip_cons_cons]; exact List.mem_cons_of_mem _ hp)), h1]

/-- **C50 (partial).** For ALE, PDP, derivative PDP and SHAP at every node, and for RHALE with a row-wise model and Jacobian at the nodes of level 0 and 1,
`eval` at a node equals the global method, without given effects, on the rows of the node; these are exactly the instances that satisfy the conditions of the
node.  Missing: RHALE nodes of level 2 and deeper (`C50_false_rhale_level_two`), histories with scaled plots (C59) and fits that find no split
(`C50_false_without_splits`). -/
theorem C50_node_equals_global_partial [PySqrt K] (cfg : RegionalCfg K D) (ops : List (RegionalOp K D)) (f : Fin D)
    (φ : Row K D → Row K D) (hφ : ∀ l, rhaleEffects cfg.bb.model cfg.bb.jac none l = l.map φ)
    (heff : if cfg.methodName = "rhale" then cfg.instanceEffects = some (cfg.data.map φ) else cfg.instanceEffects = none)
    (hns : ∀ sc, RegionalOp.plot f (some sc) ∉ ops) (a : FitArgs K D) (ha : Spec.afterRefit cfg f (Spec.lastRegFit cfg f ops) = some a)
    (tree : List (Node K D)) (ht : Spec.TreeFor cfg a f none true (some tree)) (nd : Node K D) (hm : nd ∈ tree)
    (hlev : cfg.methodName = "rhale" → nd.level ≤ 1) (xs : List K) (het : Bool) (c : PyVal) (m : Centering) (hc : prepCentering c = .ok m) :
    (regionalEval cfg (regionalRun cfg ops) f nd.idx xs het c).2 = createAndEval cfg.bb cfg.methodName nd.rows none f xs het c := by
  have hal : Spec.Aligned cfg := by
    intro e he
    split_ifs at heff <;> rw [he] at heff <;> cases heff
    simp
  rw [C50_eval_is_global_on_node cfg hal ops f hns a ha tree ht nd hm xs het c m hc]
  by_cases h : cfg.methodName = "rhale"
  · rw [if_pos h] at heff
    obtain ⟨s, hT⟩ := treeFor_some ht
    obtain ⟨e, h1, h2, h3⟩ := C45_effects_of_rows_partial (regionsOf cfg a f) hal _ heff _ _ s tree hT nd hm (hlev h)
    rw [h1, zip_map_sublist φ _ _ _ h2 h3]
    exact createAndEval_right_effects cfg.bb φ hφ _ _ _ _ _ _
  · exact createAndEval_ignores_effects cfg.bb _ h _ _ _ _ _ _ _

end Effector
