import Verif.Props.OtherTerms

/-!
# C98 for regional effects: terms of the model without the feature

Two regional objects on the same instances whose heterogeneity functions agree for feature `s`; effects may differ in the columns of other features.
-/

set_option linter.unusedSectionVars false

namespace Effector

open Spec

variable {K : Type} [Field K] [LinearOrder K] [IsStrictOrderedRing K] {D : ℕ} {s : Fin D}

/-! ### Regions -/

/-- Effects with the same column for feature `s`. -/
abbrev ColEq (s : Fin D) : List (Row K D) → List (Row K D) → Prop := List.Forall₂ fun a b => a s = b s

theorem colEq_self (x : List (Row K D)) : ColEq s x x := by
  induction x with
  | nil => exact .nil
  | cons a t ih => exact .cons rfl ih

/-- Masking both. -/
theorem colEq_mask (x : List (Row K D)) {e e' : List (Row K D)} (h : ColEq s e e') (P : Row K D → Bool) :
    ColEq s (((x.zip e).filter fun p => P p.1).map (·.2)) (((x.zip e').filter fun p => P p.1).map (·.2)) := by
  induction h generalizing x with
  | nil => cases x <;> exact .nil
  | cons hab _ ih =>
    cases x with
    | nil => exact .nil
    | cons r x =>
      simp only [List.zip_cons_cons, List.filter_cons]
      split_ifs
      · exact .cons hab (ih x)
      · exact ih x

/-- Effects of a list of regions on both sides. -/
def ColRegs (s : Fin D) : Option (List (List (Row K D))) → Option (List (List (Row K D))) → Prop
  | none, none => True
  | some js, some js' => List.Forall₂ (ColEq s) js js'
  | _, _ => False

theorem colRegs_split {js js' : Option (List (List (Row K D)))} (h : ColRegs s js js') (xs : List (List (Row K D))) (f : Fin D) (pos : K) (typ : FeatType) :
    ColRegs s (js.map fun js => splitAllEff xs js f pos typ) (js'.map fun js => splitAllEff xs js f pos typ) := by
  rcases js with _ | js <;> rcases js' with _ | js'
  · exact trivial
  · exact h.elim
  · exact h.elim
  · replace h : List.Forall₂ (ColEq s) js js' := h
    show List.Forall₂ (ColEq s) (splitAllEff xs js f pos typ) (splitAllEff xs js' f pos typ)
    unfold splitAllEff splitEff
    induction h generalizing xs with
    | nil => cases xs <;> exact .nil
    | cons hab _ ih =>
      cases xs with
      | nil => exact .nil
      | cons x xs =>
        simp only [List.zip_cons_cons, List.flatMap_cons]
        refine List.rel_append ?_ (ih xs)
        exact .cons (colEq_mask x hab fun r => goesFirst typ pos (r f)) (.cons (colEq_mask x hab fun r => goesSecond typ pos (r f)) .nil)

/-- Two heterogeneity functions that agree when the effects of feature `s` are the same. -/
def HeterCol (s : Fin D) (h h' : HeterM K D) : Prop := ∀ x e e', SameColumn s e e' → h x e = h' x e'

theorem heters_col {h h' : HeterM K D} (hh : HeterCol s h h') (xs : List (List (Row K D))) {js js' : Option (List (List (Row K D)))} (hr : ColRegs s js js') :
    hetersM h xs js = hetersM h' xs js' := by
  rcases js with _ | js <;> rcases js' with _ | js'
  · simp only [hetersM]
    exact mapM_congr' fun x _ => hh x none none trivial
  · exact hr.elim
  · exact hr.elim
  · replace hr : List.Forall₂ (ColEq s) js js' := hr
    simp only [hetersM]
    induction hr generalizing xs with
    | nil => cases xs <;> rfl
    | @cons a b _ _ hab _ ih =>
      cases xs with
      | nil => rfl
      | cons x xs =>
        have h0 := hh x (some a) (some b) hab
        have h1 := ih xs
        simp only [List.zip_cons_cons, List.mapM_cons, h0, h1]

theorem candidate_col {h h' : HeterM K D} (hh : HeterCol s h h') (xs : List (List (Row K D))) {js js' : Option (List (List (Row K D)))} (hr : ColRegs s js js')
    (before : List K) (f : Fin D) (pos : K) (typ : FeatType) :
    evalCandidateM h xs js before f pos typ = evalCandidateM h' xs js' before f pos typ := by
  unfold evalCandidateM
  simp only [heters_col hh _ (colRegs_split hr xs f pos typ)]

/-! ### The search -/

/-- Two searches with the same arguments on the same instances. -/
structure RegCol (s : Fin D) (r r' : RegCfg K D) : Prop where
  feature : r.feature = r'.feature
  data : r.data = r'.data
  effects : SameColumn s r.dataEffect r'.dataEffect
  types : r.types = r'.types
  names : r.names = r'.names
  catLimit : r.catLimit = r'.catLimit
  foc : r.foc = r'.foc
  minPoints : r.minPoints = r'.minPoints
  nofSplits : r.nofSplits = r'.nofSplits
  maxLevels : r.maxLevels = r'.maxLevels
  dropThres : r.dropThres = r'.dropThres
  smallEnough : r.smallEnough = r'.smallEnough
  splitCat : r.splitCat = r'.splitCat

theorem RegCol.level {r r' : RegCfg K D} (h : RegCol s r r') {H H' : HeterM K D} (hh : HeterCol s H H') (xs : List (List (Row K D)))
    {js js' : Option (List (List (Row K D)))} (hr : ColRegs s js js') (before : List K) :
    singleLevelSplitsM r H xs js before = singleLevelSplitsM r' H' xs js' before := by
  have hpos : candidatePositions r = candidatePositions r' := by
    unfold candidatePositions
    rw [h.foc, h.types, h.nofSplits, h.data]
  have hrow : ∀ w f typ ps, matrixRowM H w xs js before f typ ps = matrixRowM H' w xs js' before f typ ps := by
    intro w f typ ps
    unfold matrixRowM
    simp only [candidate_col hh xs hr]
  have hsub : ∀ f pos typ, hetersM H (splitAll xs f pos typ) (js.map fun js => splitAllEff xs js f pos typ) =
      hetersM H' (splitAll xs f pos typ) (js'.map fun js => splitAllEff xs js f pos typ) := fun f pos typ => heters_col hh _ (colRegs_split hr xs f pos typ)
  unfold singleLevelSplitsM
  simp only [hpos, h.foc, h.nofSplits, h.catLimit, h.types, hrow, hsub, h.data, candidate_col hh xs hr]

theorem RegCol.loop {r r' : RegCfg K D} (h : RegCol s r r') {H H' : HeterM K D} (hh : HeterCol s H H') (k : ℕ) (xs : List (List (Row K D)))
    {js js' : Option (List (List (Row K D)))} (hr : ColRegs s js js') (before : List K) :
    searchLoopM r H k xs js before = searchLoopM r' H' k xs js' before := by
  induction k generalizing xs js js' before with
  | zero => rfl
  | succ k ih =>
    unfold searchLoopM
    rw [h.level hh xs hr, h.minPoints]
    congr 1
    simp only [bind, Except.bind]
    cases singleLevelSplitsM r' H' xs js' before with
    | error e => rfl
    | ok sp => simp only [ih _ (colRegs_split hr xs sp.feature sp.position sp.typ)]

theorem RegCol.search {r r' : RegCfg K D} (h : RegCol s r r') {H H' : HeterM K D} (hh : HeterCol s H H') :
    searchAllSplitsM r H = searchAllSplitsM r' H' := by
  have hr : ColRegs s (r.dataEffect.map fun e => [e]) (r'.dataEffect.map fun e => [e]) := by
    have hs := h.effects
    cases he : r.dataEffect with
    | none =>
      cases he' : r'.dataEffect with
      | some e => rw [he, he'] at hs; exact hs.elim
      | none => exact trivial
    | some e =>
      cases he' : r'.dataEffect with
      | none => rw [he, he'] at hs; exact hs.elim
      | some e' =>
        rw [he, he'] at hs
        exact .cons hs .nil
  unfold searchAllSplitsM
  rw [h.data, hh _ _ _ h.effects, h.feature, h.types, h.splitCat, h.foc, h.maxLevels]
  simp only [h.loop hh _ _ hr]

/-! ### The trees -/

namespace Spec

/-- Two nodes that differ at most in the effects of other features. -/
structure SameNodeFor (s : Fin D) (nd nd' : Node K D) : Prop where
  idx : nd.idx = nd'.idx
  name : nd.name = nd'.name
  parent : nd.parent = nd'.parent
  level : nd.level = nd'.level
  heterogeneity : nd.heterogeneity = nd'.heterogeneity
  weight : nd.weight = nd'.weight
  nofInstances : nd.nofInstances = nd'.nofInstances
  foc : nd.foc = nd'.foc
  typ : nd.typ = nd'.typ
  position : nd.position = nd'.position
  comparison : nd.comparison = nd'.comparison
  rows : nd.rows = nd'.rows
  effects : SameColumn s nd.effects nd'.effects

/-- Two (absent, empty or present) trees with such nodes. -/
def SameTreeFor (s : Fin D) : Option (Option (List (Node K D))) → Option (Option (List (Node K D))) → Prop
  | none, none => True
  | some none, some none => True
  | some (some t), some (some t') => List.Forall₂ (SameNodeFor s) t t'
  | _, _ => False

end Spec

/-- Same parent information; the effects matter only if there are some. -/
structure ParCol (s : Fin D) (hasEff : Bool) (p p' : ParentInfo K D) : Prop where
  name : p.name = p'.name
  rows : p.rows = p'.rows
  effects : hasEff = true → SameColumn s p.effects p'.effects

/-- Trees and parents on both sides. -/
def GrowCol (s : Fin D) (hasEff : Bool) (st st' : List (Node K D) × List (ParentInfo K D)) : Prop :=
  List.Forall₂ (SameNodeFor s) st.1 st'.1 ∧ List.Forall₂ (ParCol s hasEff) st.2 st'.2

theorem child_col {hasEff : Bool} {p p' : ParentInfo K D} (h : ParCol s hasEff p p') (sp : Split K D) (j : ℕ) :
    SameColumn s (childEff hasEff p.rows p.effects sp j) (childEff hasEff p'.rows p'.effects sp j) := by
  cases hasEff with
  | false => exact trivial
  | true =>
    have he := h.effects rfl
    rw [← h.rows]
    cases h1 : p.effects with
    | none =>
      cases h2 : p'.effects with
      | none => exact trivial
      | some e' => rw [h1, h2] at he; exact he.elim
    | some e =>
      cases h2 : p'.effects with
      | none => rw [h1, h2] at he; exact he.elim
      | some e' =>
        rw [h1, h2] at he
        unfold childEff splitEff
        simp only [if_true, Option.map_some]
        split_ifs
        · exact colEq_mask p.rows he fun r => goesFirst sp.typ sp.position (r sp.feature)
        · exact colEq_mask p.rows he fun r => goesSecond sp.typ sp.position (r sp.feature)

theorem addChild_col {hasEff : Bool} (tc : TreeCfg K D) (nInit : ℕ) {ps ps' : List (ParentInfo K D)} (hps : List.Forall₂ (ParCol s hasEff) ps ps')
    (sp : Split K D) (level : ℕ) {st st' : List (Node K D) × List (ParentInfo K D)} (hst : GrowCol s hasEff st st') (j : ℕ) :
    PyRel (GrowCol s hasEff) (addChild tc hasEff nInit ps sp level st j) (addChild tc hasEff nInit ps' sp level st' j) := by
  unfold addChild
  simp only [bind, Except.bind, pure, Except.pure]
  have hi := forall2_pyIndex hps (j / 2)
  cases e1 : pyIndex ps (j / 2) with
  | error e =>
    cases e2 : pyIndex ps' (j / 2) with
    | error e' => rw [e1, e2] at hi; exact hi
    | ok p' => rw [e1, e2] at hi; exact hi.elim
  | ok p =>
    cases e2 : pyIndex ps' (j / 2) with
    | error e' => rw [e1, e2] at hi; exact hi.elim
    | ok p' =>
      rw [e1, e2] at hi
      have hp : ParCol s hasEff p p' := hi
      simp only []
      cases pyIndex sp.heterogeneity j with
      | error e => exact rfl
      | ok het =>
        simp only []
        cases pyIndex sp.nofInstances j with
        | error e => exact rfl
        | ok nof =>
          simp only []
          have hc := child_col hp sp j
          have hrows : childRows p.rows sp j = childRows p'.rows sp j := by rw [hp.rows]
          unfold addNode getNode
          rcases forall2_find hst.1 (p := fun nd => nd.name == p.name) (q := fun nd => nd.name == p'.name)
            (fun a b hab => by rw [hab.name, hp.name]) with ⟨h1, h2⟩ | ⟨a, b, h1, h2, h3⟩
          · rw [h1, h2]; exact rfl
          · rw [h1, h2]
            refine ⟨?_, ?_⟩
            · refine List.rel_append hst.1 (.cons ⟨?_, ?_, ?_, rfl, rfl, ?_, rfl, rfl, rfl, rfl, rfl, hrows, hc⟩ .nil)
              · exact hst.1.length_eq
              · simp only [hp.name]
              · simp only [h3.idx]
              · show ((childRows p.rows sp j).length : K) / _ = ((childRows p'.rows sp j).length : K) / _
                rw [hrows]
            · refine List.rel_append hst.2 (.cons ⟨?_, hrows, fun _ => hc⟩ .nil)
              simp only [hp.name]

theorem foldlM_col {hasEff : Bool} (tc : TreeCfg K D) (nInit : ℕ) {ps ps' : List (ParentInfo K D)} (hps : List.Forall₂ (ParCol s hasEff) ps ps')
    (sp : Split K D) (level : ℕ) (l : List ℕ) {st st' : List (Node K D) × List (ParentInfo K D)} (hst : GrowCol s hasEff st st') :
    PyRel (GrowCol s hasEff) (l.foldlM (addChild tc hasEff nInit ps sp level) st) (l.foldlM (addChild tc hasEff nInit ps' sp level) st') := by
  induction l generalizing st st' with
  | nil => exact hst
  | cons j t ih =>
    have h := addChild_col tc nInit hps sp level hst j
    simp only [List.foldlM_cons, bind, Except.bind]
    cases e1 : addChild tc hasEff nInit ps sp level st j with
    | error e =>
      cases e2 : addChild tc hasEff nInit ps' sp level st' j with
      | error e' => rw [e1, e2] at h; exact h
      | ok q => rw [e1, e2] at h; exact h.elim
    | ok q =>
      cases e2 : addChild tc hasEff nInit ps' sp level st' j with
      | error e' => rw [e1, e2] at h; exact h.elim
      | ok q' =>
        rw [e1, e2] at h
        exact ih h

theorem addLevels_col {hasEff : Bool} (tc : TreeCfg K D) (nInit : ℕ) (sps : List (Split K D)) (level : ℕ) {tree tree' : List (Node K D)}
    (ht : List.Forall₂ (SameNodeFor s) tree tree') {ps ps' : List (ParentInfo K D)} (hps : List.Forall₂ (ParCol s hasEff) ps ps') :
    PyRel (List.Forall₂ (SameNodeFor s)) (addLevels tc hasEff nInit level tree ps sps) (addLevels tc hasEff nInit level tree' ps' sps) := by
  induction sps generalizing level tree tree' ps ps' with
  | nil => exact ht
  | cons sp t ih =>
    have h := foldlM_col tc nInit hps sp level (List.range sp.nofInstances.length) (st := (tree, [])) (st' := (tree', [])) ⟨ht, .nil⟩
    unfold addLevels
    simp only [bind, Except.bind]
    cases e1 : (List.range sp.nofInstances.length).foldlM (addChild tc hasEff nInit ps sp level) (tree, []) with
    | error e =>
      cases e2 : (List.range sp.nofInstances.length).foldlM (addChild tc hasEff nInit ps' sp level) (tree', []) with
      | error e' => rw [e1, e2] at h; exact h
      | ok q => rw [e1, e2] at h; exact h.elim
    | ok q =>
      cases e2 : (List.range sp.nofInstances.length).foldlM (addChild tc hasEff nInit ps' sp level) (tree', []) with
      | error e' => rw [e1, e2] at h; exact h.elim
      | ok q' =>
        rw [e1, e2] at h
        refine ih (level + 1) h.1 ?_
        refine forall2_map h.2 fun a b hab => ⟨hab.name, hab.rows, fun _ => ?_⟩
        simp only [hab.rows]
        exact colEq_self _

/-- A tree on each side, or none on both. -/
def TreeCol (s : Fin D) : Option (List (Node K D)) → Option (List (Node K D)) → Prop
  | none, none => True
  | some t, some t' => List.Forall₂ (SameNodeFor s) t t'
  | _, _ => False

theorem tree_col {r r' : RegCfg K D} (h : RegCol s r r') (txt : Fin D → K → String) (sp : Option (Splits K D)) (b : Bool) :
    PyRel (TreeCol s) (splitsToTree r txt sp b) (splitsToTree r' txt sp b) := by
  cases sp with
  | none => exact trivial
  | some s' =>
    have hsome : r.dataEffect.isSome = r'.dataEffect.isSome := by
      have hs := h.effects
      cases he : r.dataEffect <;> cases he' : r'.dataEffect <;> rw [he, he'] at hs <;> first | rfl | exact hs.elim
    have himp : chooseImportantSplits r (some s') = chooseImportantSplits r' (some s') := by
      unfold chooseImportantSplits
      rw [h.smallEnough, h.dropThres]
    have hroot : SameNodeFor s (rootNode r s') (rootNode r' s') :=
      ⟨rfl, by unfold rootNode; simp only [h.names, h.feature], rfl, rfl, rfl, rfl, rfl, rfl, rfl, rfl, rfl, h.data, h.effects⟩
    have hpar : ParCol s r'.dataEffect.isSome { name := r.names r.feature, rows := r.data, effects := r.dataEffect }
        { name := r'.names r'.feature, rows := r'.data, effects := r'.dataEffect } :=
      ⟨by simp only [h.names, h.feature], h.data, fun _ => h.effects⟩
    have := addLevels_col { names := r'.names, posText := txt } s'.nofInit (if b then chooseImportantSplits r' (some s') else s'.levels) 1
      (.cons hroot .nil) (.cons hpar .nil)
    unfold splitsToTree
    simp only [bind, Except.bind, pure, Except.pure]
    rw [himp, hsome, show ({ names := r.names, posText := txt } : TreeCfg K D) = { names := r'.names, posText := txt } by rw [h.names]]
    revert this
    generalize addLevels _ r'.dataEffect.isSome s'.nofInit 1 [rootNode r s'] _ _ = A
    generalize addLevels _ r'.dataEffect.isSome s'.nofInit 1 [rootNode r' s'] _ _ = B
    intro this
    cases A <;> cases B
    · exact this
    · exact this.elim
    · exact this.elim
    · exact this

/-! ### Regional objects -/

section

variable [PySqrt K]

/-- Two objects on the same instances that treat feature `s` alike; `R m` relates the results of evaluations with centring `m`. -/
structure ObjCol (s : Fin D) (R : Centering → Py (EvalOut K) → Py (EvalOut K) → Prop) (o o' : RegionalObj K D) : Prop where
  meth : o.cfg.methodName = o'.cfg.methodName
  data : o.cfg.data = o'.cfg.data
  effects : SameColumn s o.cfg.instanceEffects o'.cfg.instanceEffects
  types : o.cfg.types = o'.cfg.types
  names : o.cfg.names = o'.cfg.names
  catLimit : o.cfg.catLimit = o'.cfg.catLimit
  fmt : o.cfg.fmt = o'.cfg.fmt
  heter : ∀ kw, PyRel (HeterCol s) (regionalHeter o kw s) (regionalHeter o' kw s)
  errs : ∀ m e, R m (.error e) (.error e)
  evals : ∀ x e e', SameColumn s e e' → ∀ xs het m,
    R m (createAndEval o.cfg.bb o.cfg.methodName x e s xs het m.toVal) (createAndEval o'.cfg.bb o'.cfg.methodName x e' s xs het m.toVal)

/-- Optional trees on both sides. -/
def OptTreeCol (s : Fin D) : Option (Option (List (Node K D))) → Option (Option (List (Node K D))) → Prop
  | none, none => True
  | some t, some t' => TreeCol s t t'
  | _, _ => False

/-- Stored searches on both sides. -/
def OptSplitsCol (s : Fin D) : Option (RegCfg K D × Option (Splits K D)) → Option (RegCfg K D × Option (Splits K D)) → Prop
  | none, none => True
  | some a, some b => RegCol s a.1 b.1 ∧ a.2 = b.2
  | _, _ => False

/-- The states of two objects, as far as feature `s` is concerned. -/
structure RegStCol (s : Fin D) (st st' : RegionalState K D) : Prop where
  fitted : st.fitted s = st'.fitted s
  splits : OptSplitsCol s (st.splits s) (st'.splits s)
  full : OptTreeCol s (st.treeFull s) (st'.treeFull s)
  pruned : OptTreeCol s (st.treePruned s) (st'.treePruned s)
  fullS : OptTreeCol s (st.treeFullScaled s) (st'.treeFullScaled s)
  prunedS : OptTreeCol s (st.treePrunedScaled s) (st'.treePrunedScaled s)

variable {R : Centering → Py (EvalOut K) → Py (EvalOut K) → Prop}

theorem ObjCol.regions {o o' : RegionalObj K D} (h : ObjCol s R o o') (kw : FitKw K D) :
    RegCol s (regionsOf o.cfg (kw.toArgs o) s) (regionsOf o'.cfg (kw.toArgs o') s) :=
  ⟨by simp only [regionsOf], h.data, h.effects, h.types, h.names, h.catLimit, by simp only [regionsOf, FitKw.toArgs], by simp only [regionsOf, FitKw.toArgs],
    by simp only [regionsOf, FitKw.toArgs], by simp only [regionsOf, FitKw.toArgs], by simp only [regionsOf, FitKw.toArgs],
    by simp only [regionsOf, FitKw.toArgs], by simp only [regionsOf, FitKw.toArgs]⟩

theorem ObjCol.fitOne {o o' : RegionalObj K D} (h : ObjCol s R o o') (kw : FitKw K D) {st st' : RegionalState K D} (hst : RegStCol s st st') :
    RegStCol s (regionalFitOne o kw st s).1 (regionalFitOne o' kw st' s).1 ∧
      (regionalFitOne o kw st s).2 = (regionalFitOne o' kw st' s).2 ∧
      ((regionalFitOne o kw st s).2 = .ok () → (regionalFitOne o kw st s).1.fitted s = true) := by
  have hreg := h.regions kw
  have hh := h.heter kw
  unfold regionalFitOne
  simp only [bind, Except.bind, pure, Except.pure]
  cases e1 : regionalHeter o kw s with
  | error e =>
    cases e2 : regionalHeter o' kw s with
    | error e' => rw [e1, e2] at hh; obtain rfl : e = e' := hh; exact ⟨hst, rfl, fun hc => by cases hc⟩
    | ok q => rw [e1, e2] at hh; exact hh.elim
  | ok H =>
    cases e2 : regionalHeter o' kw s with
    | error e' => rw [e1, e2] at hh; exact hh.elim
    | ok H' =>
      rw [e1, e2] at hh
      have hs := hreg.search hh
      simp only [hs, h.fmt]
      cases searchAllSplitsM (regionsOf o'.cfg (kw.toArgs o') s) H' with
      | error e => exact ⟨hst, rfl, fun hc => by cases hc⟩
      | ok sp =>
        simp only []
        have t1 := tree_col hreg (posTextOf o'.cfg.fmt none) sp false
        have t2 := tree_col hreg (posTextOf o'.cfg.fmt none) sp true
        revert t1 t2
        generalize splitsToTree (regionsOf o.cfg (kw.toArgs o) s) (posTextOf o'.cfg.fmt none) sp false = A
        generalize splitsToTree (regionsOf o'.cfg (kw.toArgs o') s) (posTextOf o'.cfg.fmt none) sp false = A'
        generalize splitsToTree (regionsOf o.cfg (kw.toArgs o) s) (posTextOf o'.cfg.fmt none) sp true = B
        generalize splitsToTree (regionsOf o'.cfg (kw.toArgs o') s) (posTextOf o'.cfg.fmt none) sp true = B'
        intro t1 t2
        cases A with
        | error e =>
          cases A' with
          | ok _ => exact t1.elim
          | error e' => obtain rfl : e = e' := t1; exact ⟨hst, rfl, fun hc => by cases hc⟩
        | ok t =>
          cases A' with
          | error e' => exact t1.elim
          | ok t' =>
            cases B with
            | error e =>
              cases B' with
              | ok _ => exact t2.elim
              | error e' => obtain rfl : e = e' := t2; exact ⟨hst, rfl, fun hc => by cases hc⟩
            | ok u =>
              cases B' with
              | error e' => exact t2.elim
              | ok u' =>
                refine ⟨⟨by simp, ?_, ?_, ?_, hst.fullS, hst.prunedS⟩, rfl, fun _ => by simp⟩
                · simp only [Function.update_self]; exact ⟨hreg, rfl⟩
                · simp only [Function.update_self]; exact t1
                · simp only [Function.update_self]; exact t2

theorem ObjCol.fitLoop {o o' : RegionalObj K D} (h : ObjCol s R o o') (kw : FitKw K D) (l : List (Fin D)) (hl : ∀ f ∈ l, f = s) {st st' : RegionalState K D}
    (hst : RegStCol s st st') :
    RegStCol s (regionalFitLoop o kw st l).1 (regionalFitLoop o' kw st' l).1 ∧ (regionalFitLoop o kw st l).2 = (regionalFitLoop o' kw st' l).2 := by
  induction l generalizing st st' with
  | nil => exact ⟨hst, rfl⟩
  | cons f t ih =>
    obtain rfl : f = s := hl f (by simp)
    obtain ⟨i1, i2, -⟩ := h.fitOne kw hst
    unfold regionalFitLoop
    revert i1 i2
    generalize regionalFitOne o kw st f = A
    generalize regionalFitOne o' kw st' f = B
    rcases A with ⟨q, r⟩
    rcases B with ⟨q', r'⟩
    intro i1 i2
    obtain rfl : r = r' := i2
    cases r with
    | error e => exact ⟨i1, rfl⟩
    | ok u => exact ih (fun g hg => hl g (by simp [hg])) i1

namespace Spec

/-- A `features` argument that names no feature other than `s`. -/
def NamesOnly (s : Fin D) (features : PyVal) : Prop := ∀ l, prepFeatures features D >>= resolveFeatures D = Except.ok l → ∀ f ∈ l, f = s

/-- A call about feature `s` only. -/
def CallOn (s : Fin D) : RegCall K D → Prop
  | .fit features _ => NamesOnly s features
  | .eval f _ _ _ _ => f = s
  | .plot f _ => f = s

end Spec

theorem ObjCol.fit {o o' : RegionalObj K D} (h : ObjCol s R o o') (features : PyVal) (hf : NamesOnly s features) (kw : FitKw K D)
    {st st' : RegionalState K D} (hst : RegStCol s st st') :
    RegStCol s (regionalFit o st features kw).1 (regionalFit o' st' features kw).1 ∧
      (regionalFit o st features kw).2 = (regionalFit o' st' features kw).2 := by
  unfold regionalFit
  unfold NamesOnly at hf
  split_ifs
  · exact ⟨hst, rfl⟩
  · revert hf
    generalize (prepFeatures features D >>= resolveFeatures D) = q
    intro hf
    cases q with
    | error e => exact ⟨hst, rfl⟩
    | ok l => exact h.fitLoop kw l (hf l rfl) hst

theorem ObjCol.refit {o o' : RegionalObj K D} (h : ObjCol s R o o') {st st' : RegionalState K D} (hst : RegStCol s st st') :
    RegStCol s (regionalRefitM o st s).1 (regionalRefitM o' st' s).1 ∧ (regionalRefitM o st s).2 = (regionalRefitM o' st' s).2 ∧
      ((regionalRefitM o st s).2 = .ok () → (regionalRefitM o st s).1.fitted s = true) := by
  unfold regionalRefitM
  rw [← hst.fitted]
  cases hf : st.fitted s with
  | true => exact ⟨hst, rfl, fun _ => hf⟩
  | false =>
    simp only [Bool.false_eq_true, if_false]
    rw [h.meth, regionalFit_int _ _ _ _ (by unfold FitKw.default; norm_num), regionalFit_int _ _ _ _ (by unfold FitKw.default; norm_num)]
    exact h.fitOne _ hst

theorem getNodeInfo_col {st st' : RegionalState K D} (hst : RegStCol s st st') (i : ℕ) :
    PyRel (SameNodeFor s) (getNodeInfo st s i) (getNodeInfo st' s i) := by
  unfold getNodeInfo
  rw [← hst.fitted]
  have hp := hst.pruned
  have hps := hst.prunedS
  simp only [bind, Except.bind]
  cases pyAssert (st.fitted s) with
  | error e => exact rfl
  | ok u =>
    simp only []
    have hfind : ∀ {t t' : List (Node K D)}, List.Forall₂ (SameNodeFor s) t t' →
        PyRel (SameNodeFor s) (match t.find? (fun n => n.idx == i) with
          | some n => .ok n
          | none => .error .assertionError : Py (Node K D)) (match t'.find? (fun n => n.idx == i) with
          | some n => .ok n
          | none => .error .assertionError : Py (Node K D)) := by
      intro t t' ht
      rcases forall2_find ht (p := fun nd => nd.idx == i) (q := fun nd => nd.idx == i) (fun a b hab => by rw [hab.idx]) with
        ⟨h1, h2⟩ | ⟨a, b, h1, h2, h3⟩
      · rw [h1, h2]; exact rfl
      · rw [h1, h2]; exact h3
    generalize st.treePruned s = a at hp ⊢
    generalize st'.treePruned s = a' at hp ⊢
    generalize st.treePrunedScaled s = b at hps ⊢
    generalize st'.treePrunedScaled s = b' at hps ⊢
    rcases a with _ | _ | t <;> rcases a' with _ | _ | t'
    all_goals first | exact hp.elim | exact rfl | skip
    rcases b with _ | _ | u <;> rcases b' with _ | _ | u'
    all_goals first | exact hps.elim | exact rfl | skip
    · exact hfind hp
    · exact hfind hps

/-- Related results for a centring argument (which may itself be rejected). -/
def RelFor (R : Centering → Py (EvalOut K) → Py (EvalOut K) → Prop) (c : PyVal) (a b : Py (EvalOut K)) : Prop :=
  match prepCentering c with
  | .error _ => a = b
  | .ok m => R m a b ∨ ∃ e, a = .error e ∧ b = .error e

theorem ObjCol.eval {o o' : RegionalObj K D} (h : ObjCol s R o o') {st st' : RegionalState K D} (hst : RegStCol s st st') (i : ℕ) (xs : List K) (het : Bool)
    (c : PyVal) :
    RegStCol s (regionalEvalM o st s i xs het c).1 (regionalEvalM o' st' s i xs het c).1 ∧
      RelFor R c (regionalEvalM o st s i xs het c).2 (regionalEvalM o' st' s i xs het c).2 := by
  obtain ⟨i1, i2, i3⟩ := h.refit hst
  unfold regionalEvalM
  revert i1 i2 i3
  generalize regionalRefitM o st s = A
  generalize regionalRefitM o' st' s = B
  rcases A with ⟨q, r⟩
  rcases B with ⟨q', r'⟩
  intro i1 i2 i3
  obtain rfl : r = r' := i2
  unfold RelFor
  cases r with
  | error e =>
    refine ⟨i1, ?_⟩
    cases prepCentering c with
    | error _ => rfl
    | ok m => exact Or.inr ⟨e, rfl, rfl⟩
  | ok u =>
    have hf : q.fitted s = true := i3 rfl
    have hf' : q'.fitted s = true := by rw [← i1.fitted]; exact hf
    simp only []
    unfold regionalEval
    rw [refit_idle _ _ _ hf, refit_idle _ _ _ hf']
    refine ⟨i1, ?_⟩
    simp only [bind, Except.bind]
    cases prepCentering c with
    | error e => rfl
    | ok m =>
      simp only []
      have hn := getNodeInfo_col i1 i
      revert hn
      generalize getNodeInfo q s i = A
      generalize getNodeInfo q' s i = B
      intro hn
      cases A with
      | error e =>
        cases B with
        | error e' => obtain rfl : e = e' := hn; exact Or.inr ⟨e, rfl, rfl⟩
        | ok _ => exact hn.elim
      | ok nd =>
        cases B with
        | error e' => exact hn.elim
        | ok nd' =>
          simp only []
          rw [hn.rows]
          exact Or.inl (h.evals _ _ _ hn.effects xs het m)

theorem ObjCol.plot {o o' : RegionalObj K D} (h : ObjCol s R o o') {st st' : RegionalState K D} (hst : RegStCol s st st') (sc : Option (Fin D → Scale K)) :
    RegStCol s (regionalPlotM o st s sc).1 (regionalPlotM o' st' s sc).1 ∧ (regionalPlotM o st s sc).2 = (regionalPlotM o' st' s sc).2 := by
  obtain ⟨i1, i2, i3⟩ := h.refit hst
  unfold regionalPlotM
  revert i1 i2 i3
  generalize regionalRefitM o st s = A
  generalize regionalRefitM o' st' s = B
  rcases A with ⟨q, r⟩
  rcases B with ⟨q', r'⟩
  intro i1 i2 i3
  obtain rfl : r = r' := i2
  cases r with
  | error e => exact ⟨i1, rfl⟩
  | ok u =>
    have hf : q.fitted s = true := i3 rfl
    have hf' : q'.fitted s = true := by rw [← i1.fitted]; exact hf
    simp only []
    unfold regionalPlotPrep
    rw [refit_idle _ _ _ hf, refit_idle _ _ _ hf']
    cases sc with
    | none => exact ⟨i1, rfl⟩
    | some sc =>
      simp only []
      have hs := i1.splits
      cases e1 : q.splits s with
      | none =>
        cases e2 : q'.splits s with
        | none => exact ⟨i1, rfl⟩
        | some b => rw [e1, e2] at hs; exact hs.elim
      | some a =>
        cases e2 : q'.splits s with
        | none => rw [e1, e2] at hs; exact hs.elim
        | some b =>
          rw [e1, e2] at hs
          obtain ⟨r1, sp⟩ := a
          obtain ⟨r2, sp'⟩ := b
          obtain ⟨hreg, hsp⟩ := hs
          obtain rfl : sp = sp' := hsp
          simp only [h.fmt]
          have t1 := tree_col hreg (posTextOf o'.cfg.fmt (some sc)) sp false
          have t2 := tree_col hreg (posTextOf o'.cfg.fmt (some sc)) sp true
          simp only [] at t1 t2
          revert t1 t2
          generalize splitsToTree r1 (posTextOf o'.cfg.fmt (some sc)) sp false = A
          generalize splitsToTree r2 (posTextOf o'.cfg.fmt (some sc)) sp false = A'
          generalize splitsToTree r1 (posTextOf o'.cfg.fmt (some sc)) sp true = B
          generalize splitsToTree r2 (posTextOf o'.cfg.fmt (some sc)) sp true = B'
          intro t1 t2
          cases A with
          | error e =>
            cases A' with
            | ok _ => exact t1.elim
            | error e' => obtain rfl : e = e' := t1; exact ⟨i1, rfl⟩
          | ok t =>
            cases A' with
            | error e' => exact t1.elim
            | ok t' =>
              cases B with
              | error e =>
                cases B' with
                | ok _ => exact t2.elim
                | error e' => obtain rfl : e = e' := t2; exact ⟨i1, rfl⟩
              | ok u =>
                cases B' with
                | error e' => exact t2.elim
                | ok u' =>
                  refine ⟨⟨i1.fitted, ?_, i1.full, i1.pruned, ?_, ?_⟩, rfl⟩
                  · exact i1.splits
                  · simp only [Function.update_self]; exact t1
                  · simp only [Function.update_self]; exact t2

theorem ObjCol.run {o o' : RegionalObj K D} (h : ObjCol s R o o') (calls : List (RegCall K D)) (hcalls : ∀ q ∈ calls, CallOn s q) :
    RegStCol s (regRunM o calls) (regRunM o' calls) := by
  unfold regRunM
  suffices ∀ st st' : RegionalState K D, RegStCol s st st' → RegStCol s (calls.foldl (regStepM o) st) (calls.foldl (regStepM o') st') from
    this _ _ ⟨rfl, trivial, trivial, trivial, trivial, trivial⟩
  induction calls with
  | nil => exact fun _ _ h => h
  | cons q t ih =>
    intro st st' hst
    refine ih (fun q hq => hcalls q (by simp [hq])) _ _ ?_
    have hq := hcalls q (by simp)
    cases q with
    | fit features kw => exact (h.fit features hq kw hst).1
    | eval f i xs het c =>
      obtain rfl : f = s := hq
      exact (h.eval hst i xs het c).1
    | plot f sc =>
      obtain rfl : f = s := hq
      exact (h.plot hst sc).1

/-! ### The heterogeneity functions and the effects of a node -/

theorem mkAle_other (choice : ℕ → ℕ → List ℕ) (cast : K → K) {f f' : Row K D → K} (h : PlusOther s f f') (x : List (Row K D)) (e e' : Option (List (Row K D))) :
    PyRel (CfgSame s) (mkAle choice cast (List.map f') x e) (mkAle choice cast (List.map f) x e') := by
  unfold mkAle
  simp only [bind, Except.bind, pure, Except.pure]
  cases Base.init choice x (.str "all") none with
  | error e => exact rfl
  | ok b => exact aleCfg_other h cast b

theorem mkRhale_other (choice : ℕ → ℕ → List ℕ) {f f' : Row K D → K} (h : PlusOther s f f') {jac jac' : Option (Row K D → Row K D)} (hj : SameSlope s jac jac')
    (x : List (Row K D)) {e e' : Option (List (Row K D))} (he : SameColumn s e' e) :
    PyRel (CfgSame s) (mkRhale choice (List.map f') (jac'.map List.map) x e') (mkRhale choice (List.map f) (jac.map List.map) x e) := by
  have hi := rhaleInit_other choice h hj x he (.str "all") none
  unfold mkRhale
  simp only [bind, Except.bind, pure, Except.pure]
  revert hi
  generalize rhaleInit choice (List.map f') (jac'.map List.map) x e' (.str "all") none = A
  generalize rhaleInit choice (List.map f) (jac.map List.map) x e (.str "all") none = B
  intro hi
  cases A <;> cases B
  · exact hi
  · exact hi.elim
  · exact hi.elim
  · exact hi

theorem aleHeter_col {mk mk' : List (Row K D) → Option (List (Row K D)) → Py (AleCfg K D)} (bm : BinMethod K) (minPoints : ℕ) (centering : PyVal)
    (x : List (Row K D)) {e e' : Option (List (Row K D))} (hmk : PyRel (CfgSame s) (mk x e) (mk' x e')) :
    aleHeter mk s bm minPoints centering x e = aleHeter mk' s bm minPoints centering x e' := by
  unfold aleHeter
  split_ifs
  · rfl
  · simp only [bind, Except.bind, pure, Except.pure]
    revert hmk
    generalize mk x e = A
    generalize mk' x e' = B
    intro hmk
    cases A with
    | error e1 =>
      cases B with
      | error e2 => obtain rfl : e1 = e2 := hmk; rfl
      | ok _ => exact hmk.elim
    | ok cfg =>
      cases B with
      | error e2 => exact hmk.elim
      | ok cfg' =>
        have hc : CfgSame s cfg cfg' := hmk
        simp only []
        obtain ⟨i1, i2⟩ := aleFit_same hc (st := AleState.init) (st' := AleState.init) ⟨rfl, rfl, rfl⟩ (.int (s : ℕ)) (Or.inl rfl) bm centering
        revert i1 i2
        generalize aleFit cfg AleState.init (.int (s : ℕ)) bm centering = A
        generalize aleFit cfg' AleState.init (.int (s : ℕ)) bm centering = B
        rcases A with ⟨q, r⟩
        rcases B with ⟨q', r'⟩
        intro i1 i2
        obtain rfl : r = r' := i2
        cases r with
        | error e => rfl
        | ok u =>
          simp only []
          cases listMax (col x s) with
          | error e => rfl
          | ok mx =>
            simp only []
            rw [(aleEval_same hc i1 [mx] true (.bool false)).2]

theorem once_col {A B : Py (AleCfg K D)} (h : PyRel (CfgSame s) A B) (xs : List K) (het : Bool) (c : PyVal) :
    (A.bind fun cfg => (aleEval cfg AleState.init s xs het c).2) = B.bind fun cfg => (aleEval cfg AleState.init s xs het c).2 := by
  cases A with
  | error e1 =>
    cases B with
    | error e2 => obtain rfl : e1 = e2 := h; rfl
    | ok _ => exact h.elim
  | ok cfg =>
    cases B with
    | error e2 => exact h.elim
    | ok cfg' =>
      simp only [Except.bind]
      exact (aleEval_same (s := s) (cfg := cfg) (cfg' := cfg') h (st := AleState.init) (st' := AleState.init) ⟨rfl, rfl, rfl⟩ xs het c).2

/-- d-PDP objects with the same predictions. -/
theorem pdpHeter_predict (choice : ℕ → ℕ → List ℕ) (cast : K → K) {k k' : PdpKind K D}
    (hp : ∀ d xx vec, pdpPredict cast k' d xx s vec = pdpPredict cast k d xx s vec) (lo hi : Fin D → K) (minPoints : ℕ) (centering nof : PyVal) (points : ℕ) (vec : Bool)
    (x : List (Row K D)) :
    pdpHeter choice cast k' lo hi s minPoints centering nof points vec x = pdpHeter choice cast k lo hi s minPoints centering nof points vec x := by
  unfold pdpHeter
  split_ifs
  · rfl
  · simp only [bind, Except.bind]
    cases Base.init choice x nof (some (lo, hi)) with
    | error e => rfl
    | ok b =>
      simp only []
      rw [pdpFit_predict (cfg := { cast := cast, kind := k, axisLo := b.axisLo, axisHi := b.axisHi })
        (cfg' := { cast := cast, kind := k', axisLo := b.axisLo, axisHi := b.axisHi }) rfl rfl hp]
      have he := pdpEval_predict (cfg := { cast := cast, kind := k, axisLo := b.axisLo, axisHi := b.axisHi })
        (cfg' := { cast := cast, kind := k', axisLo := b.axisLo, axisHi := b.axisHi }) rfl rfl hp
      simp only [he]

theorem pdpOnce_predict (choice : ℕ → ℕ → List ℕ) (cast : K → K) {k k' : PdpKind K D}
    (hp : ∀ d xx vec, pdpPredict cast k' d xx s vec = pdpPredict cast k d xx s vec) (x : List (Row K D)) (e e' : Option (List (Row K D))) (xs : List K) (het : Bool)
    (c : PyVal) : pdpOnce choice cast k' x e' s xs het c = pdpOnce choice cast k x e s xs het c := by
  unfold pdpOnce
  simp only [bind, Except.bind]
  cases Base.init choice x (.int 300) none with
  | error e => rfl
  | ok b =>
    have he := pdpEval_predict (cfg := { cast := cast, kind := k, axisLo := b.axisLo, axisHi := b.axisHi })
      (cfg' := { cast := cast, kind := k', axisLo := b.axisLo, axisHi := b.axisHi }) rfl rfl hp
    simp only [he]

/-- The d-PDP predictions of two models with gradient functions (or without). -/
theorem derKind_other (cast : K → K) {f f' : Row K D → K} (h : PlusOther s f f') {jac jac' : Option (Row K D → Row K D)} (hj : SameSlope s jac jac')
    (d : List (Row K D)) (xx : List K) (vec : Bool) :
    pdpPredict cast (match jac'.map List.map with
      | some j => .derJac j
      | none => .derNum (List.map f')) d xx s vec = pdpPredict cast (match jac.map List.map with
      | some j => .derJac j
      | none => .derNum (List.map f)) d xx s vec := by
  cases jac with
  | none =>
    cases jac' with
    | none => exact predict_der_other (M := .derNum f) (M' := .derNum f') h cast d xx vec
    | some j' => exact hj.elim
  | some j =>
    cases jac' with
    | none => exact hj.elim
    | some j' => exact predict_der_other (M := .derJac j) (M' := .derJac j') hj cast d xx vec

/-! ### A constant added to the model of a PDP -/

theorem atCast_const (cast : K → K) (f : Row K D → K) (k : K) (v : K) (r : Row K D) :
    atCast cast (.pdp fun r => f r + k) s v r = atCast cast (.pdp f) s v r + k := rfl

theorem mean_add_const (l : List K) (hl : l ≠ []) (k : K) : mean (l.map fun x => x + k) = mean l + k := avg_add_const l hl k

theorem npStd_add_const (l : List K) (k : K) : npStd (l.map fun x => x + k) = npStd l := by
  by_cases hl : l = []
  · subst hl; rfl
  · unfold npStd variance
    rw [mean_add_const l hl, List.map_map]
    congr 3
    funext y
    simp only [Function.comp_def]
    ring

/-- Fitting changes the state alike, except for the stored constant. -/
theorem pdpFit_const (cast : K → K) (f : Row K D → K) (k : K) (lo hi : Fin D → K) (m : Centering) (points : ℕ) (vec : Bool) (st : PdpState K D) :
    (pdpFitLoop { cast := cast, kind := .pdp (List.map fun r => f r + k), axisLo := lo, axisHi := hi } m points vec st [s]).2 =
        (pdpFitLoop { cast := cast, kind := .pdp (List.map f), axisLo := lo, axisHi := hi } m points vec st [s]).2 ∧
      (pdpFitLoop { cast := cast, kind := .pdp (List.map fun r => f r + k), axisLo := lo, axisHi := hi } m points vec st [s]).1.data =
        (pdpFitLoop { cast := cast, kind := .pdp (List.map f), axisLo := lo, axisHi := hi } m points vec st [s]).1.data ∧
      (pdpFitLoop { cast := cast, kind := .pdp (List.map fun r => f r + k), axisLo := lo, axisHi := hi } m points vec st [s]).1.fitted s =
        (pdpFitLoop { cast := cast, kind := .pdp (List.map f), axisLo := lo, axisHi := hi } m points vec st [s]).1.fitted s ∧
      ((pdpFitLoop { cast := cast, kind := .pdp (List.map f), axisLo := lo, axisHi := hi } m points vec st [s]).2 = .ok () →
        (pdpFitLoop { cast := cast, kind := .pdp (List.map f), axisLo := lo, axisHi := hi } m points vec st [s]).1.fitted s = true) := by
  have e1 := fun d xx => predict_values cast (.pdp fun r => f r + k) d xx s vec
  have e2 := fun d xx => predict_values cast (.pdp f) d xx s vec
  simp only [PdpModel.kind] at e1 e2
  unfold pdpFitLoop pdpFitFeature
  simp only [e1, e2]
  cases m with
  | off => exact ⟨rfl, rfl, rfl, fun _ => by simp [pdpFitLoop]⟩
  | zeroStart => exact ⟨rfl, rfl, rfl, fun _ => by simp [pdpFitLoop, bind, Except.bind, pyIndex, pure, Except.pure]⟩
  | zeroIntegral =>
    by_cases hb : linspace (lo s) (hi s) points = [] ∧ vec = false
    · simp only [if_pos hb]
      exact ⟨rfl, rfl, rfl, fun hc => by cases hc⟩
    · simp only [if_neg hb, bind, Except.bind, pure, Except.pure]
      exact ⟨rfl, rfl, rfl, fun _ => by simp [pdpFitLoop]⟩

/-- What an uncentred evaluation returns. -/
theorem pdpEvalFitted_off (cast : K → K) (M : PdpModel K D) (lo hi : Fin D → K) (st : PdpState K D) (xs : List K) (het vec : Bool) :
    pdpEvalFitted { cast := cast, kind := M.kind, axisLo := lo, axisHi := hi } st s xs het .off false vec =
      if ¬ lo s < hi s then .error .assertionError
      else if xs = [] ∧ vec = false then .error .valueError
      else .ok (if het then .meanStd (xs.map fun v => mean (st.data.map (atCast cast M s v))) (xs.map fun v => npStd (st.data.map (atCast cast M s v)))
        else .meanOnly (xs.map fun v => mean (st.data.map (atCast cast M s v)))) := by
  unfold pdpEvalFitted pyAssert
  simp only [predict_values, bind, Except.bind, pure, Except.pure, Bool.false_eq_true, if_false, if_true]
  by_cases hl : lo s < hi s
  · simp only [hl, decide_true, if_true, not_true_eq_false, if_false]
    by_cases hb : xs = [] ∧ vec = false
    · simp only [if_pos hb]
    · simp only [if_neg hb]
      split_ifs
      · simp only [List.map_map, Function.comp_def]
      · simp only [List.map_map, Function.comp_def]
  · simp only [hl, decide_false, Bool.false_eq_true, not_false_eq_true, if_true, if_false]

/-- What a centred evaluation returns when a constant per instance is stored. -/
theorem pdpEvalFitted_on (cast : K → K) (M : PdpModel K D) (lo hi : Fin D → K) (st : PdpState K D) (xs : List K) (het vec : Bool) {m : Centering} (hm : m ≠ .off)
    {φ : Row K D → K} (hfe : st.fe s = some (.vec (st.data.map φ))) :
    pdpEvalFitted { cast := cast, kind := M.kind, axisLo := lo, axisHi := hi } st s xs het m false vec =
      if ¬ lo s < hi s then .error .assertionError
      else if xs = [] ∧ vec = false then .error .valueError
      else .ok (if het then .meanStd (xs.map fun v => mean (st.data.map fun r => atCast cast M s v r - φ r)) (xs.map fun v => npStd (st.data.map fun r => atCast cast M s v r - φ r))
        else .meanOnly (xs.map fun v => mean (st.data.map fun r => atCast cast M s v r - φ r))) := by
  have hsub : ((xs.map fun v => st.data.map (atCast cast M s v)).mapM (subNorm (.vec (st.data.map φ)))) =
      .ok (xs.map fun v => st.data.map fun r => atCast cast M s v r - φ r) := by
    rw [mapM_map_py]
    have : ∀ v, subNorm (.vec (st.data.map φ)) (st.data.map (atCast cast M s v)) = .ok (st.data.map fun r => atCast cast M s v r - φ r) := by
      intro v
      unfold subNorm
      simp only [List.length_map, if_true]
      simp only [List.zipWith_map, List.zipWith_self]
    simp only [this]
    induction xs with
    | nil => rfl
    | cons a t ih => rw [List.mapM_cons, ih]; rfl
  unfold pdpEvalFitted pyAssert
  simp only [predict_values, bind, Except.bind, pure, Except.pure, Bool.false_eq_true, if_false, if_neg hm, hfe]
  by_cases hl : lo s < hi s
  · simp only [hl, decide_true, if_true, not_true_eq_false, if_false]
    by_cases hb : xs = [] ∧ vec = false
    · simp only [if_pos hb]
    · simp only [if_neg hb, hsub]
      split_ifs
      · simp only [List.map_map, Function.comp_def]
      · simp only [List.map_map, Function.comp_def]
  · simp only [hl, decide_false, Bool.false_eq_true, not_false_eq_true, if_true, if_false]

theorem pdpHeter_const (choice : ℕ → ℕ → List ℕ) (cast : K → K) (f : Row K D → K) (k : K) (lo hi : Fin D → K) (minPoints : ℕ) (centering nof : PyVal)
    (points : ℕ) (vec : Bool) (x : List (Row K D)) :
    pdpHeter choice cast (.pdp (List.map fun r => f r + k)) lo hi s minPoints centering nof points vec x =
      pdpHeter choice cast (.pdp (List.map f)) lo hi s minPoints centering nof points vec x := by
  unfold pdpHeter
  split_ifs
  · rfl
  · simp only [bind, Except.bind]
    cases Base.init choice x nof (some (lo, hi)) with
    | error e => rfl
    | ok b =>
      simp only []
      unfold pdpFit
      have hres := resolve_int s
      simp only [bind, Except.bind] at hres ⊢
      cases prepCentering centering with
      | error e => rfl
      | ok m =>
        simp only []
        cases hp : prepFeatures (.int (s : ℕ)) D with
        | error e => simp [hp] at hres
        | ok fl =>
          rw [hp] at hres
          simp only [] at hres ⊢
          rw [hres]
          simp only [pure, Except.pure]
          obtain ⟨i1, i2, i3, i4⟩ := pdpFit_const (s := s) cast f k b.axisLo b.axisHi m points vec (PdpState.init b.data)
          revert i1 i2 i3 i4
          generalize pdpFitLoop { cast := cast, kind := .pdp (List.map fun r => f r + k), axisLo := b.axisLo, axisHi := b.axisHi } m points vec (PdpState.init b.data) [s] = A
          generalize pdpFitLoop { cast := cast, kind := .pdp (List.map f), axisLo := b.axisLo, axisHi := b.axisHi } m points vec (PdpState.init b.data) [s] = B
          rcases A with ⟨q, r⟩
          rcases B with ⟨q', r'⟩
          intro i1 i2 i3 i4
          obtain rfl : r = r' := i1
          cases r with
          | error e => rfl
          | ok u =>
            have h4 : q'.fitted s = true := i4 rfl
            have h3 : q.fitted s = true := i3.trans h4
            simp only []
            cases listMin (col x s) with
            | error e => rfl
            | ok mn =>
              simp only []
              cases listMax (col x s) with
              | error e => rfl
              | ok mx =>
                simp only []
                unfold pdpEval
                have hoff : prepCentering (.bool false) = .ok .off := rfl
                simp only [hoff, needsRefit, h3, h4, Bool.not_true, Bool.false_eq_true, if_false, if_true]
                have e1 := pdpEvalFitted_off (s := s) cast (.pdp fun r => f r + k) b.axisLo b.axisHi q (linspace mn mx 10) true vec
                have e2 := pdpEvalFitted_off (s := s) cast (.pdp f) b.axisLo b.axisHi q' (linspace mn mx 10) true vec
                simp only [PdpModel.kind] at e1 e2
                rw [e1, e2]
                have hd : q.data = q'.data := i2
                have hstd : ∀ v, npStd (q.data.map (atCast cast (.pdp fun r => f r + k) s v)) = npStd (q'.data.map (atCast cast (.pdp f) s v)) := by
                  intro v
                  have := npStd_add_const (q'.data.map (atCast cast (.pdp f) s v)) k
                  rw [List.map_map] at this
                  rw [hd]
                  exact this
                simp only [hstd, if_true]
                split_ifs <;> rfl

namespace Spec

/-- A result whose mean effect is raised by `k`; the heterogeneity is the same. -/
def raiseBy (k : K) (r : Py (EvalOut K)) : Py (EvalOut K) := r.map fun q => (q.1.map fun y => y + k, q.2)

end Spec

theorem pdpOnce_const (choice : ℕ → ℕ → List ℕ) (cast : K → K) (f : Row K D → K) (k : K) (x : List (Row K D)) (e e' : Option (List (Row K D))) (xs : List K) (het : Bool)
    (m : Centering) :
    pdpOnce choice cast (.pdp (List.map fun r => f r + k)) x e s xs het m.toVal =
      if m = .off then raiseBy k (pdpOnce choice cast (.pdp (List.map f)) x e' s xs het m.toVal)
      else pdpOnce choice cast (.pdp (List.map f)) x e' s xs het m.toVal := by
  have hm' : prepCentering m.toVal = .ok m := by cases m <;> rfl
  unfold pdpOnce
  simp only [bind, Except.bind]
  cases hb : Base.init choice x (.int 300) none with
  | error e => split_ifs <;> rfl
  | ok b =>
    have hlim : axisLimitsAll b.data = .ok (b.axisLo, b.axisHi) := by
      unfold Base.init at hb
      simp only [bind, Except.bind, pure, Except.pure] at hb
      cases h1 : prepNofInstances choice (.int 300) x.length with
      | error e => rw [h1] at hb; cases hb
      | ok p =>
        rw [h1] at hb
        simp only [] at hb
        cases h2 : takeRows x p.2 with
        | error e => rw [h2] at hb; cases hb
        | ok d =>
          rw [h2] at hb
          simp only [] at hb
          cases h3 : axisLimitsAll d with
          | error e => rw [h3] at hb; cases hb
          | ok l =>
            rw [h3] at hb
            simp only [] at hb
            cases hb
            exact h3
    have hne : b.data ≠ [] := by
      intro h0
      rw [h0] at hlim
      unfold axisLimitsAll at hlim
      have hD : D ≠ 0 := fun h => by subst h; exact s.elim0
      simp only [if_neg hD] at hlim
      cases hlim
    have hdrop : dropOutside b.data (b.axisLo s) (b.axisHi s) s = b.data := dropOutside_within (axisLimits_within hlim) s
    simp only []
    unfold pdpEval
    simp only [hm', needsRefit, PdpState.init, Bool.not_false, if_true]
    have e1 := fun d xx => predict_values cast (.pdp fun r => f r + k) d xx s true
    have e2 := fun d xx => predict_values cast (.pdp f) d xx s true
    simp only [PdpModel.kind, Bool.true_eq_false, and_false, if_false] at e1 e2
    unfold pdpFitLoop pdpFitFeature
    simp only [e1, e2, hdrop]
    cases m with
    | off =>
      simp only [pdpFitLoop, if_true]
      have g1 := fun st => pdpEvalFitted_off (s := s) cast (.pdp fun r => f r + k) b.axisLo b.axisHi st xs het true
      have g2 := fun st => pdpEvalFitted_off (s := s) cast (.pdp f) b.axisLo b.axisHi st xs het true
      simp only [PdpModel.kind] at g1 g2
      simp only [g1, g2]
      have hmean : ∀ v, mean (b.data.map (atCast cast (.pdp fun r => f r + k) s v)) = mean (b.data.map (atCast cast (.pdp f) s v)) + k := by
        intro v
        rw [← mean_add_const _ (by simpa using hne), List.map_map]
        rfl
      have hstd : ∀ v, npStd (b.data.map (atCast cast (.pdp fun r => f r + k) s v)) = npStd (b.data.map (atCast cast (.pdp f) s v)) := by
        intro v
        have := npStd_add_const (b.data.map (atCast cast (.pdp f) s v)) k
        rw [List.map_map] at this
        exact this
      simp only [hmean, hstd]
      split_ifs <;> simp [raiseBy, PdpOut.toPair, Except.map, Function.comp_def]
    | zeroStart =>
      simp only [pdpFitLoop, bind, Except.bind, pyIndex, pure, Except.pure, List.map_cons, List.map_nil, List.getElem?_cons_zero, reduceCtorEq, if_false]
      have g1 := fun st hst => pdpEvalFitted_on (s := s) cast (.pdp fun r => f r + k) b.axisLo b.axisHi st xs het true (m := .zeroStart) (by simp)
        (φ := atCast cast (.pdp fun r => f r + k) s (b.axisLo s)) hst
      have g2 := fun st hst => pdpEvalFitted_on (s := s) cast (.pdp f) b.axisLo b.axisHi st xs het true (m := .zeroStart) (by simp)
        (φ := atCast cast (.pdp f) s (b.axisLo s)) hst
      simp only [PdpModel.kind] at g1 g2
      rw [g1 _ (by simp), g2 _ (by simp)]
      simp only [atCast_const, add_sub_add_right_eq_sub]
    | zeroIntegral =>
      simp only [pdpFitLoop, bind, Except.bind, pure, Except.pure, colMeans_values, reduceCtorEq, if_false]
      have g1 := fun st hst => pdpEvalFitted_on (s := s) cast (.pdp fun r => f r + k) b.axisLo b.axisHi st xs het true (m := .zeroIntegral) (by simp)
        (φ := fun r => mean ((linspace (b.axisLo s) (b.axisHi s) 100).map fun v => atCast cast (.pdp fun r => f r + k) s v r)) hst
      have g2 := fun st hst => pdpEvalFitted_on (s := s) cast (.pdp f) b.axisLo b.axisHi st xs het true (m := .zeroIntegral) (by simp)
        (φ := fun r => mean ((linspace (b.axisLo s) (b.axisHi s) 100).map fun v => atCast cast (.pdp f) s v r)) hst
      simp only [PdpModel.kind] at g1 g2
      rw [g1 _ (by simp), g2 _ (by simp)]
      have hmean : ∀ r, mean ((linspace (b.axisLo s) (b.axisHi s) 100).map fun v => atCast cast (.pdp fun r => f r + k) s v r) =
          mean ((linspace (b.axisLo s) (b.axisHi s) 100).map fun v => atCast cast (.pdp f) s v r) + k := by
        intro r
        rw [← mean_add_const _ (by simp [linspace]), List.map_map]
        rfl
      simp only [hmean]
      simp only [atCast_const, add_sub_add_right_eq_sub]

/-! ### Constructors -/

/-- The two constructors: same instances, effects with the same column. -/
theorem regionalNew_col (choice : ℕ → ℕ → List ℕ) (cast : K → K) {f f' : Row K D → K} {jac jac' : Option (Row K D → Row K D)} (ext : ShapExt K D)
    (meth : String) (data : List (Row K D)) {given given' : Option (List (Row K D))}
    (hg : meth = "rhale" → ColEq s (rhaleEffects (List.map f') (jac'.map List.map) given' data) (rhaleEffects (List.map f) (jac.map List.map) given data))
    (nof : PyVal) (axisLimits : Option ((Fin D → K) × (Fin D → K))) (types : Option (Fin D → FeatType)) (catLimit : ℕ) (names : Option (Fin D → String)) (fmt : K → String) :
    PyRel (fun o o' => o.cfg.bb = rowBoxes choice cast f' jac' ext ∧ o'.cfg.bb = rowBoxes choice cast f jac ext ∧ o.cfg.methodName = meth ∧ o'.cfg.methodName = meth ∧
        o.cfg.data = o'.cfg.data ∧ SameColumn s o.cfg.instanceEffects o'.cfg.instanceEffects ∧ o.cfg.types = o'.cfg.types ∧ o.cfg.names = o'.cfg.names ∧
        o.cfg.catLimit = o'.cfg.catLimit ∧ o.cfg.fmt = o'.cfg.fmt ∧ o.axisLo = o'.axisLo ∧ o.axisHi = o'.axisHi)
      (regionalNew (rowBoxes choice cast f' jac' ext) meth data given' nof axisLimits types catLimit names fmt)
      (regionalNew (rowBoxes choice cast f jac ext) meth data given nof axisLimits types catLimit names fmt) := by
  have hchoice : ∀ (g : Row K D → K) j, (rowBoxes choice cast g j ext).choice = choice := fun _ _ => rfl
  unfold regionalNew regionalInit
  simp only [bind, Except.bind, pure, Except.pure, hchoice]
  cases prepNofInstances choice nof data.length with
  | error e => exact rfl
  | ok p =>
    simp only []
    cases takeRows data p.2 with
    | error e => exact rfl
    | ok d =>
      simp only []
      by_cases hm : meth = "rhale"
      · simp only [if_pos hm, regionalRhaleEffects]
        have ht := takeRows_column (hg hm) p.2
        have e1 : ∀ (g : Row K D → K) j, (rowBoxes choice cast g j ext).model = List.map g := fun _ _ => rfl
        have e2 : ∀ (g : Row K D → K) j, (rowBoxes choice cast g j ext).jac = j.map List.map := fun _ _ => rfl
        simp only [e1, e2]
        revert ht
        generalize takeRows (rhaleEffects (List.map f') (jac'.map List.map) given' data) p.2 = A
        generalize takeRows (rhaleEffects (List.map f) (jac.map List.map) given data) p.2 = B
        intro ht
        cases A <;> cases B
        · exact ht
        · exact ht.elim
        · exact ht.elim
        · simp only [Except.map]
          cases axisLimits with
          | some l => exact ⟨rfl, rfl, rfl, rfl, rfl, ht, rfl, rfl, rfl, rfl, rfl, rfl⟩
          | none =>
            simp only []
            cases axisLimitsAll data with
            | error e => exact rfl
            | ok l => exact ⟨rfl, rfl, rfl, rfl, rfl, ht, rfl, rfl, rfl, rfl, rfl, rfl⟩
      · simp only [if_neg hm]
        cases axisLimits with
        | some l => exact ⟨rfl, rfl, rfl, rfl, rfl, trivial, rfl, rfl, rfl, rfl, rfl, rfl⟩
        | none =>
          simp only []
          cases axisLimitsAll data with
          | error e => exact rfl
          | ok l => exact ⟨rfl, rfl, rfl, rfl, rfl, trivial, rfl, rfl, rfl, rfl, rfl, rfl⟩

/-- RegionalALE, RegionalRHALE and RegionalDerPDP objects treat feature `s` alike. -/
theorem objCol_other (choice : ℕ → ℕ → List ℕ) (cast : K → K) {f f' : Row K D → K} (h : PlusOther s f f') {jac jac' : Option (Row K D → Row K D)}
    (hj : SameSlope s jac jac') (ext : ShapExt K D) (meth : String) (hmeth : meth ∈ ["rhale", "ale", "d-pdp"]) (data : List (Row K D))
    {given given' : Option (List (Row K D))} (hg : SameColumn s given' given) (nof : PyVal) (axisLimits : Option ((Fin D → K) × (Fin D → K)))
    (types : Option (Fin D → FeatType)) (catLimit : ℕ) (names : Option (Fin D → String)) (fmt : K → String) :
    PyRel (ObjCol s fun _ a b => a = b)
      (regionalNew (rowBoxes choice cast f' jac' ext) meth data given' nof axisLimits types catLimit names fmt)
      (regionalNew (rowBoxes choice cast f jac ext) meth data given nof axisLimits types catLimit names fmt) := by
  have hn := regionalNew_col (s := s) choice cast (f := f) (f' := f') (jac := jac) (jac' := jac') ext meth data (given := given) (given' := given')
    (fun _ => rhaleEffects_other h hj hg data) nof axisLimits types catLimit names fmt
  revert hn
  generalize regionalNew (rowBoxes choice cast f' jac' ext) meth data given' nof axisLimits types catLimit names fmt = A
  generalize regionalNew (rowBoxes choice cast f jac ext) meth data given nof axisLimits types catLimit names fmt = B
  intro hn
  cases A with
  | error e1 =>
    cases B with
    | error e2 => exact hn
    | ok _ => exact hn.elim
  | ok o =>
    cases B with
    | error e2 => exact hn.elim
    | ok o' =>
      obtain ⟨b1, b2, m1, m2, h1, h2, h3, h4, h5, h6, h7, h8⟩ := hn
      refine ⟨m1.trans m2.symm, h1, h2, h3, h4, h5, h6, ?_, fun _ _ => rfl, ?_⟩
      · intro kw
        unfold regionalHeter
        simp only [b1, b2, m1, m2, h7, h8, rowBoxes]
        simp only [List.mem_cons, List.not_mem_nil, or_false] at hmeth
        rcases hmeth with rfl | rfl | rfl
        · simp only [if_true, bind, Except.bind, pure, Except.pure]
          cases prepBinningMethod kw.bin with
          | error e => exact rfl
          | ok bm => exact fun x e e' he => aleHeter_col bm _ _ x (mkRhale_other choice h hj x he)
        · simp only [reduceIte, String.reduceEq, bind, Except.bind, pure, Except.pure]
          cases prepBinningMethod kw.bin with
          | error e => exact rfl
          | ok bm => exact fun x e e' he => aleHeter_col bm _ _ x (mkAle_other choice cast h x e e')
        · simp only [reduceIte, String.reduceEq, pure, Except.pure]
          exact fun x e e' he => pdpHeter_predict choice cast (fun d xx vec => derKind_other cast h hj d xx vec) _ _ _ _ _ _ _ x
      · intro x e e' he xs het m
        unfold createAndEval
        simp only [b1, b2, m1, m2, rowBoxes]
        simp only [List.mem_cons, List.not_mem_nil, or_false] at hmeth
        rcases hmeth with rfl | rfl | rfl
        · simp only [if_true]
          rw [rhaleOnce_mk, rhaleOnce_mk]
          exact once_col (mkRhale_other choice h hj x he) xs het m.toVal
        · simp only [reduceIte, String.reduceEq]
          rw [aleOnce_mk, aleOnce_mk]
          exact once_col (mkAle_other choice cast h x e e') xs het m.toVal
        · simp only [reduceIte, String.reduceEq]
          exact pdpOnce_predict choice cast (fun d xx vec => derKind_other cast h hj d xx vec) x e' e xs het m.toVal

/-- RegionalPDP objects of a model and the model plus a constant. -/
theorem objCol_const (choice : ℕ → ℕ → List ℕ) (cast : K → K) (f : Row K D → K) (k : K) (jac : Option (Row K D → Row K D)) (ext : ShapExt K D)
    (data : List (Row K D)) (given : Option (List (Row K D))) (nof : PyVal) (axisLimits : Option ((Fin D → K) × (Fin D → K)))
    (types : Option (Fin D → FeatType)) (catLimit : ℕ) (names : Option (Fin D → String)) (fmt : K → String) :
    PyRel (ObjCol s fun m a b => a = if m = .off then raiseBy k b else b)
      (regionalNew (rowBoxes choice cast (fun r => f r + k) jac ext) "pdp" data given nof axisLimits types catLimit names fmt)
      (regionalNew (rowBoxes choice cast f jac ext) "pdp" data given nof axisLimits types catLimit names fmt) := by
  have hn := regionalNew_col (s := s) choice cast (f := f) (f' := fun r => f r + k) (jac := jac) (jac' := jac) ext "pdp" data (given := given) (given' := given)
    (fun h => by simp at h) nof axisLimits types catLimit names fmt
  revert hn
  generalize regionalNew (rowBoxes choice cast (fun r => f r + k) jac ext) "pdp" data given nof axisLimits types catLimit names fmt = A
  generalize regionalNew (rowBoxes choice cast f jac ext) "pdp" data given nof axisLimits types catLimit names fmt = B
  intro hn
  cases A with
  | error e1 =>
    cases B with
    | error e2 => exact hn
    | ok _ => exact hn.elim
  | ok o =>
    cases B with
    | error e2 => exact hn.elim
    | ok o' =>
      obtain ⟨b1, b2, m1, m2, h1, h2, h3, h4, h5, h6, h7, h8⟩ := hn
      refine ⟨m1.trans m2.symm, h1, h2, h3, h4, h5, h6, ?_, ?_, ?_⟩
      · intro kw
        unfold regionalHeter
        simp only [b1, b2, m1, m2, h7, h8, rowBoxes, reduceIte, String.reduceEq, pure, Except.pure]
        exact fun x e e' he => pdpHeter_const choice cast f k _ _ _ _ _ _ _ x
      · intro m e
        split_ifs <;> rfl
      · intro x e e' he xs het m
        unfold createAndEval
        simp only [b1, b2, m1, m2, rowBoxes, reduceIte, String.reduceEq]
        exact pdpOnce_const choice cast f k x e e' xs het m

/-! ### The claim -/

theorem sameTreeFor_of {a b : Option (Option (List (Node K D)))} (h : OptTreeCol s a b) : SameTreeFor s a b := by
  rcases a with _ | _ | t <;> rcases b with _ | _ | t'
  all_goals first | exact h.elim | exact trivial | exact h

/-- **C98, RegionalALE, RegionalRHALE and RegionalDerPDP, `eval`.**  Adding a term without feature `s` to the model (RHALE: gradient functions or given effects with
the same column for `s`) changes nothing in any session about feature `s`: every node evaluates to the same, or the same exception is raised.  Sub-sampling may be active. -/
theorem C98_regional_eval (choice : ℕ → ℕ → List ℕ) (cast : K → K) (f f' : Row K D → K) (h : PlusOther s f f') (jac jac' : Option (Row K D → Row K D))
    (hj : SameSlope s jac jac') (ext : ShapExt K D) (meth : String) (hmeth : meth ∈ ["rhale", "ale", "d-pdp"]) (data : List (Row K D))
    (given given' : Option (List (Row K D))) (hg : SameColumn s given' given) (nof : PyVal) (axisLimits : Option ((Fin D → K) × (Fin D → K)))
    (types : Option (Fin D → FeatType)) (catLimit : ℕ) (names : Option (Fin D → String)) (fmt : K → String) (calls : List (RegCall K D))
    (hcalls : ∀ q ∈ calls, CallOn s q) (node : ℕ) (xs : List K) (het : Bool) (c : PyVal) :
    regionalSession (rowBoxes choice cast f' jac' ext) meth data given' nof axisLimits types catLimit names fmt calls s node xs het c =
      regionalSession (rowBoxes choice cast f jac ext) meth data given nof axisLimits types catLimit names fmt calls s node xs het c := by
  have hn := objCol_other choice cast h hj ext meth hmeth data hg nof axisLimits types catLimit names fmt
  unfold regionalSession
  revert hn
  generalize regionalNew (rowBoxes choice cast f' jac' ext) meth data given' nof axisLimits types catLimit names fmt = A
  generalize regionalNew (rowBoxes choice cast f jac ext) meth data given nof axisLimits types catLimit names fmt = B
  intro hn
  cases A with
  | error e1 =>
    cases B with
    | error e2 => obtain rfl : e1 = e2 := hn; rfl
    | ok _ => exact hn.elim
  | ok o =>
    cases B with
    | error e2 => exact hn.elim
    | ok o' =>
      have ho : ObjCol s (fun _ a b => a = b) o o' := hn
      simp only [Except.bind]
      have := (ho.eval (ho.run calls hcalls) node xs het c).2
      unfold RelFor at this
      cases hc : prepCentering c with
      | error e => rw [hc] at this; exact this
      | ok m =>
        rw [hc] at this
        rcases this with this | ⟨e, h1, h2⟩
        · exact this
        · rw [h1, h2]

/-- **C98, RegionalALE, RegionalRHALE and RegionalDerPDP, the partition.**  After every such session the trees of feature `s` agree node by node. -/
theorem C98_regional_trees (choice : ℕ → ℕ → List ℕ) (cast : K → K) (f f' : Row K D → K) (h : PlusOther s f f') (jac jac' : Option (Row K D → Row K D))
    (hj : SameSlope s jac jac') (ext : ShapExt K D) (meth : String) (hmeth : meth ∈ ["rhale", "ale", "d-pdp"]) (data : List (Row K D))
    (given given' : Option (List (Row K D))) (hg : SameColumn s given' given) (nof : PyVal) (axisLimits : Option ((Fin D → K) × (Fin D → K)))
    (types : Option (Fin D → FeatType)) (catLimit : ℕ) (names : Option (Fin D → String)) (fmt : K → String) (o o' : RegionalObj K D)
    (ho : regionalNew (rowBoxes choice cast f jac ext) meth data given nof axisLimits types catLimit names fmt = .ok o)
    (ho' : regionalNew (rowBoxes choice cast f' jac' ext) meth data given' nof axisLimits types catLimit names fmt = .ok o')
    (calls : List (RegCall K D)) (hcalls : ∀ q ∈ calls, CallOn s q) :
    SameTreeFor s ((regRunM o' calls).treeFull s) ((regRunM o calls).treeFull s) ∧
      SameTreeFor s ((regRunM o' calls).treePruned s) ((regRunM o calls).treePruned s) ∧
      SameTreeFor s ((regRunM o' calls).treeFullScaled s) ((regRunM o calls).treeFullScaled s) ∧
      SameTreeFor s ((regRunM o' calls).treePrunedScaled s) ((regRunM o calls).treePrunedScaled s) ∧
      ∀ kw, (regionalFit o' (regRunM o' calls) (.int (s : ℕ)) kw).2 = (regionalFit o (regRunM o calls) (.int (s : ℕ)) kw).2 := by
  have hn := objCol_other choice cast h hj ext meth hmeth data hg nof axisLimits types catLimit names fmt
  rw [ho, ho'] at hn
  have hn : ObjCol s (fun _ a b => a = b) o' o := hn
  have hr := hn.run calls hcalls
  refine ⟨sameTreeFor_of hr.full, sameTreeFor_of hr.pruned, sameTreeFor_of hr.fullS, sameTreeFor_of hr.prunedS, fun kw => (hn.fit _ ?_ kw hr).2⟩
  intro l hl g hgm
  have := resolve_int s
  simp only [bind] at this hl
  rw [this] at hl
  cases hl
  simpa using hgm

/-- **C98, RegionalPDP**: adding a constant to the model changes no tree; centred evaluations of every node are the same, uncentred mean effects are raised by the constant,
the heterogeneity is the same.  (A term that varies with other features changes the partition: `C79_false_pdp`.) -/
theorem C98_regional_pdp (choice : ℕ → ℕ → List ℕ) (cast : K → K) (f : Row K D → K) (k : K) (jac : Option (Row K D → Row K D)) (ext : ShapExt K D)
    (data : List (Row K D)) (given : Option (List (Row K D))) (nof : PyVal) (axisLimits : Option ((Fin D → K) × (Fin D → K)))
    (types : Option (Fin D → FeatType)) (catLimit : ℕ) (names : Option (Fin D → String)) (fmt : K → String) (calls : List (RegCall K D))
    (hcalls : ∀ q ∈ calls, CallOn s q) :
    (∀ node xs het c,
      regionalSession (rowBoxes choice cast (fun r => f r + k) jac ext) "pdp" data given nof axisLimits types catLimit names fmt calls s node xs het c =
        (if prepCentering c = .ok .off then raiseBy k else id)
          (regionalSession (rowBoxes choice cast f jac ext) "pdp" data given nof axisLimits types catLimit names fmt calls s node xs het c)) ∧
    ∀ o o', regionalNew (rowBoxes choice cast f jac ext) "pdp" data given nof axisLimits types catLimit names fmt = .ok o →
      regionalNew (rowBoxes choice cast (fun r => f r + k) jac ext) "pdp" data given nof axisLimits types catLimit names fmt = .ok o' →
      SameTreeFor s ((regRunM o' calls).treeFull s) ((regRunM o calls).treeFull s) ∧ SameTreeFor s ((regRunM o' calls).treePruned s) ((regRunM o calls).treePruned s) := by
  have hn := objCol_const (s := s) choice cast f k jac ext data given nof axisLimits types catLimit names fmt
  unfold regionalSession
  revert hn
  generalize regionalNew (rowBoxes choice cast (fun r => f r + k) jac ext) "pdp" data given nof axisLimits types catLimit names fmt = A
  generalize regionalNew (rowBoxes choice cast f jac ext) "pdp" data given nof axisLimits types catLimit names fmt = B
  intro hn
  cases A with
  | error e1 =>
    cases B with
    | error e2 =>
      obtain rfl : e1 = e2 := hn
      refine ⟨fun node xs het c => ?_, fun o o' h => by cases h⟩
      split_ifs <;> rfl
    | ok _ => exact hn.elim
  | ok o =>
    cases B with
    | error e2 => exact hn.elim
    | ok o' =>
      have ho : ObjCol s (fun m a b => a = if m = .off then raiseBy k b else b) o o' := hn
      have hr := ho.run calls hcalls
      constructor
      · intro node xs het c
        simp only [Except.bind]
        have := (ho.eval hr node xs het c).2
        unfold RelFor at this
        cases hc : prepCentering c with
        | error e =>
          rw [hc] at this
          simpa using this
        | ok m =>
          rw [hc] at this
          rcases this with this | ⟨e, h1, h2⟩
          · rw [this]
            by_cases hm : m = .off
            · subst hm; simp
            · simp [hm]
          · rw [h1, h2]
            split_ifs <;> rfl
      · intro q q' hq hq'
        cases hq
        cases hq'
        exact ⟨sameTreeFor_of hr.full, sameTreeFor_of hr.pruned⟩

end

/-! ### A concrete case -/

/-- The model of the examples plus `3 x_1²`. -/
def withSquare (r : Row ℚ 2) : ℚ := r 0 + 2 * r 0 * r 1 + 3 * r 1 ^ 2

theorem withSquare_other : PlusOther 0 (fun r : Row ℚ 2 => r 0 + 2 * r 0 * r 1) withSquare :=
  ⟨fun r => 3 * r 1 ^ 2, fun r v => by simp, fun r => rfl⟩

theorem namesOnly_int (s : Fin D) : NamesOnly s (.int (s : ℕ)) := by
  intro l hl g hg
  have := resolve_int s
  simp only [bind] at this hl
  rw [this] at hl
  cases hl
  simpa using hg

/-- The hypotheses are met by `x_0 + 2 x_0 x_1` and the same plus `3 x_1²`, with their gradients; ALE and RHALE (one bin) of feature 0 are the same line, of slope 2. -/
example : SameSlope (K := ℚ) (D := 2) 0 (some fun r => ![1 + 2 * r 1, 2 * r 0]) (some fun r => ![1 + 2 * r 1, 2 * r 0 + 6 * r 1]) ∧
    aleSession (fun _ n => List.range n) id withSquare interactionData none [.fit (.int 0) (.fixed 1 (some 2) 1) (.bool false)] 0 [0, 1, 2] false (.bool false) =
      aleSession (fun _ n => List.range n) id (fun r : Row ℚ 2 => r 0 + 2 * r 0 * r 1) interactionData none [.fit (.int 0) (.fixed 1 (some 2) 1) (.bool false)] 0 [0, 1, 2]
        false (.bool false) ∧
    rhaleSession (fun _ n => List.range n) withSquare (some fun r => ![1 + 2 * r 1, 2 * r 0 + 6 * r 1]) interactionData none none
      [.fit (.int 0) (.fixed 1 (some 2) 1) (.bool false)] 0 [0, 1, 2] true (.bool false) = .ok ([0, 2, 4], some [0, 1, 2]) ∧
    rhaleSession (fun _ n => List.range n) (fun r : Row ℚ 2 => r 0 + 2 * r 0 * r 1) (some fun r => ![1 + 2 * r 1, 2 * r 0]) interactionData none none
      [.fit (.int 0) (.fixed 1 (some 2) 1) (.bool false)] 0 [0, 1, 2] true (.bool false) = .ok ([0, 2, 4], some [0, 1, 2]) := by
  refine ⟨fun r => by simp, C98_ale _ _ _ _ withSquare_other _ _ _ (fun op hop => ?_) _ _ _, ?_, ?_⟩
  · simp only [List.mem_cons, List.not_mem_nil, or_false] at hop
    subst hop
    exact Or.inl rfl
  · decide +kernel
  · decide +kernel

/-- RegionalDerPDP of the two models: feature 0 is split on feature 1, and the second subregion evaluates to the constant 3 from both. -/
example : (∀ q ∈ [RegCall.fit (.int 0) (interactionKw (.str "greedy"))], CallOn (K := ℚ) (D := 2) 0 q) ∧
    regionalSession (rowBoxes (fun _ n => List.range n) id withSquare (some fun r => ![1 + 2 * r 1, 2 * r 0 + 6 * r 1]) interactionBB.ext) "d-pdp" interactionData none
      (.str "all") none none 3 none (fun q => toString q) [RegCall.fit (.int 0) (interactionKw (.str "greedy"))] 0 2 [0, 1, 2] false (.bool false) = .ok ([3, 3, 3], none) ∧
    regionalSession interactionBB "d-pdp" interactionData none
      (.str "all") none none 3 none (fun q => toString q) [RegCall.fit (.int 0) (interactionKw (.str "greedy"))] 0 2 [0, 1, 2] false (.bool false) = .ok ([3, 3, 3], none) := by
  refine ⟨?_, by decide +kernel, by decide +kernel⟩
  intro q hq
  simp only [List.mem_cons, List.not_mem_nil, or_false] at hq
  subst hq
  exact namesOnly_int (D := 2) 0

/-- RegionalPDP with 5 added: the second subregion is raised by 5. -/
example :
    regionalSession (rowBoxes (fun _ n => List.range n) id (fun r : Row ℚ 2 => r 0 + 2 * r 0 * r 1 + 5) none interactionBB.ext) "pdp" interactionData none
      (.str "all") none none 3 none (fun q => toString q) [RegCall.fit (.int 0) (interactionKw (.str "greedy"))] 0 2 [0, 1, 2] false (.bool false) = .ok ([5, 8, 11], none) := by
  decide +kernel

end Effector
