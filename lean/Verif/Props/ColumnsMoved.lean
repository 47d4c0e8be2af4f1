import Verif.Props.ConditioningScaleApi

/-!
# C128: the order of the columns, and columns that are not asked about, do not matter to the subregions

The search on a table, and on a table with only some of its columns, in any order.
-/

namespace Effector

set_option linter.unusedSectionVars false

open Spec

variable {K : Type} [Field K] [LinearOrder K] [IsStrictOrderedRing K] {D D' : ℕ}

namespace Spec

/-- The instance with only the columns `ι 0, ι 1, ...`, in this order. -/
def onlyColumns (ι : Fin D → Fin D') (r : Row K D') : Row K D := fun j => r (ι j)

/-- The same split, with the number the column has in the larger table. -/
def splitMoved (ι : Fin D → Fin D') (sp : Split K D) : Split K D' :=
  { feature := ι sp.feature, position := sp.position, range := sp.range, candidates := sp.candidates, nofInstances := sp.nofInstances, typ := sp.typ, heterogeneity := sp.heterogeneity,
    splitI := sp.splitI, splitJ := sp.splitJ, wHeterDrop := sp.wHeterDrop, wHeter := sp.wHeter }

/-- The same levels. -/
def splitsMoved (ι : Fin D → Fin D') (s : Splits K D) : Splits K D' := { heterInit := s.heterInit, nofInit := s.nofInit, levels := s.levels.map (splitMoved ι) }

/-- The same node `nd'` in the larger table. -/
structure NodeMoved (ι : Fin D → Fin D') (nd : Node K D) (nd' : Node K D') : Prop where
  idx : nd'.idx = nd.idx
  name : nd'.name = nd.name
  parent : nd'.parent = nd.parent
  level : nd'.level = nd.level
  heterogeneity : nd'.heterogeneity = nd.heterogeneity
  weight : nd'.weight = nd.weight
  nofInstances : nd'.nofInstances = nd.nofInstances
  foc : nd'.foc = nd.foc.map ι
  typ : nd'.typ = nd.typ
  comparison : nd'.comparison = nd.comparison
  position : nd'.position = nd.position
  rows : nd.rows = nd'.rows.map (onlyColumns ι)
  effects : nd.effects = nd'.effects.map (List.map (onlyColumns ι))
  aligned : ∀ e, nd'.effects = some e → e.length = nd'.rows.length

/-- Two trees (or no tree in both cases), node by node. -/
def TreesMoved (ι : Fin D → Fin D') : Option (List (Node K D)) → Option (List (Node K D')) → Prop
  | none, none => True
  | some t, some t' => List.Forall₂ (NodeMoved ι) t t'
  | _, _ => False

/-- The heterogeneity does not notice that there are other columns. -/
def HeterMoved (ι : Fin D → Fin D') (H : HeterM K D) (H' : HeterM K D') : Prop :=
  ∀ x e, (∀ l, e = some l → l.length = x.length) → H (x.map (onlyColumns ι)) (e.map (List.map (onlyColumns ι))) = H' x e

/-- Two searches with the same arguments, the first on the table with only these columns. -/
structure SearchMoved (ι : Fin D → Fin D') (cfg : RegCfg K D) (cfg' : RegCfg K D') : Prop where
  feature : cfg'.feature = ι cfg.feature
  data : cfg.data = cfg'.data.map (onlyColumns ι)
  dataEffect : cfg.dataEffect = cfg'.dataEffect.map (List.map (onlyColumns ι))
  aligned : ∀ l, cfg'.dataEffect = some l → l.length = cfg'.data.length
  types : ∀ j, cfg'.types (ι j) = cfg.types j
  names : ∀ j, cfg'.names (ι j) = cfg.names j
  catLimit : cfg'.catLimit = cfg.catLimit
  foc : cfg'.foc = cfg.foc.map ι
  minPoints : cfg'.minPoints = cfg.minPoints
  nofSplits : cfg'.nofSplits = cfg.nofSplits
  maxLevels : cfg'.maxLevels = cfg.maxLevels
  dropThres : cfg'.dropThres = cfg.dropThres
  smallEnough : cfg'.smallEnough = cfg.smallEnough
  splitCat : cfg'.splitCat = cfg.splitCat

end Spec

section

variable {ι : Fin D → Fin D'}

theorem splitRows_mv (x : List (Row K D')) (f : Fin D) (p : K) (t : FeatType) :
    splitRows (x.map (onlyColumns ι)) f p t = ((splitRows x (ι f) p t).1.map (onlyColumns ι), (splitRows x (ι f) p t).2.map (onlyColumns ι)) := by
  unfold splitRows
  rw [List.filter_map, List.filter_map]
  rfl

theorem splitEff_mv (x e : List (Row K D')) (f : Fin D) (p : K) (t : FeatType) :
    splitEff (x.map (onlyColumns ι)) (e.map (onlyColumns ι)) f p t = ((splitEff x e (ι f) p t).1.map (onlyColumns ι), (splitEff x e (ι f) p t).2.map (onlyColumns ι)) := by
  unfold splitEff
  rw [List.zip_map, List.filter_map, List.filter_map]
  simp only [List.map_map, Function.comp_def, Prod.map, onlyColumns]

theorem splitAll_mv (xs : List (List (Row K D'))) (f : Fin D) (p : K) (t : FeatType) :
    splitAll (xs.map (List.map (onlyColumns ι))) f p t = (splitAll xs (ι f) p t).map (List.map (onlyColumns ι)) := by
  unfold splitAll
  rw [List.flatMap_map, List.map_flatMap]
  simp only [splitRows_mv, List.map_cons, List.map_nil]

theorem splitAllEff_mv (xs js : List (List (Row K D'))) (f : Fin D) (p : K) (t : FeatType) :
    splitAllEff (xs.map (List.map (onlyColumns ι))) (js.map (List.map (onlyColumns ι))) f p t = (splitAllEff xs js (ι f) p t).map (List.map (onlyColumns ι)) := by
  unfold splitAllEff
  rw [List.zip_map, List.flatMap_map, List.map_flatMap]
  simp only [Prod.map, splitEff_mv, List.map_cons, List.map_nil]

theorem splitAll_lengths_mv (xs : List (List (Row K D'))) (f : Fin D) (p : K) (t : FeatType) :
    (splitAll (xs.map (List.map (onlyColumns ι))) f p t).map List.length = (splitAll xs (ι f) p t).map List.length := by
  rw [splitAll_mv, List.map_map]
  apply List.map_congr_left
  intro l _
  simp

theorem mapM_zip_mv {H : HeterM K D} {H' : HeterM K D'} (hH : HeterMoved ι H H') {xs js : List (List (Row K D'))} (h : List.Forall₂ (fun (x j : List (Row K D')) => j.length = x.length) xs js) :
    (((xs.map (List.map (onlyColumns ι))).zip (js.map (List.map (onlyColumns ι)))).mapM fun p => H p.1 (some p.2)) = (xs.zip js).mapM fun p => H' p.1 (some p.2) := by
  induction h with
  | nil => rfl
  | @cons x j xs js hx _ ih =>
    simp only [List.map_cons, List.zip_cons_cons, List.mapM_cons, ih]
    rw [show H (x.map (onlyColumns ι)) (some (j.map (onlyColumns ι))) = H' x (some j) from hH x (some j) fun l hl => by cases hl; exact hx]

theorem hetersM_mv {H : HeterM K D} {H' : HeterM K D'} (hH : HeterMoved ι H H') (xs : List (List (Row K D'))) (js : Option (List (List (Row K D')))) (hal : RegionsAligned xs js) :
    hetersM H (xs.map (List.map (onlyColumns ι))) (js.map (List.map (List.map (onlyColumns ι)))) = hetersM H' xs js := by
  cases js with
  | none =>
    show ((xs.map (List.map (onlyColumns ι))).mapM fun x => H x none) = xs.mapM fun x => H' x none
    rw [List.mapM_map]
    congr 1
    funext x
    exact hH x none fun l hl => by cases hl
  | some js => exact mapM_zip_mv hH (hal js rfl)

theorem splitWeights_mv (xs : List (List (Row K D'))) : splitWeights (K := K) (xs.map (List.map (onlyColumns ι))) = splitWeights xs := by
  unfold splitWeights
  simp only [List.map_map, Function.comp_def, List.length_map]

theorem optSplit_mv (xs : List (List (Row K D'))) (js : Option (List (List (Row K D')))) (f : Fin D) (p : K) (t : FeatType) :
    ((js.map (List.map (List.map (onlyColumns ι)))).map fun js => splitAllEff (xs.map (List.map (onlyColumns ι))) js f p t) =
      (js.map fun js => splitAllEff xs js (ι f) p t).map (List.map (List.map (onlyColumns ι))) := by
  cases js with
  | none => rfl
  | some js => simp only [Option.map_some, splitAllEff_mv]

theorem evalCandidateM_mv {H : HeterM K D} {H' : HeterM K D'} (hH : HeterMoved ι H H') (xs : List (List (Row K D'))) (js : Option (List (List (Row K D')))) (hal : RegionsAligned xs js)
    (before : List K) (f : Fin D) (p : K) (t : FeatType) :
    evalCandidateM H (xs.map (List.map (onlyColumns ι))) (js.map (List.map (List.map (onlyColumns ι)))) before f p t = evalCandidateM H' xs js before (ι f) p t := by
  unfold evalCandidateM
  simp only [splitAll_mv, optSplit_mv, hetersM_mv hH _ _ (hal.split (ι f) p t), splitWeights_mv]

theorem matrixRowM_mv {H : HeterM K D} {H' : HeterM K D'} (hH : HeterMoved ι H H') (w : ℕ) (xs : List (List (Row K D'))) (js : Option (List (List (Row K D')))) (hal : RegionsAligned xs js)
    (before : List K) (f : Fin D) (t : FeatType) (ps : List K) :
    matrixRowM H w (xs.map (List.map (onlyColumns ι))) (js.map (List.map (List.map (onlyColumns ι)))) before f t ps = matrixRowM H' w xs js before (ι f) t ps := by
  unfold matrixRowM
  simp only [evalCandidateM_mv hH xs js hal]

theorem col_mv (x : List (Row K D')) (f : Fin D) : col (x.map (onlyColumns ι)) f = col x (ι f) := by
  unfold col
  rw [List.map_map]
  rfl

theorem candidates_mv {cfg : RegCfg K D} {cfg' : RegCfg K D'} (h : SearchMoved ι cfg cfg') : candidatePositions cfg' = candidatePositions cfg := by
  unfold candidatePositions
  rw [h.foc, h.data, h.nofSplits, List.mapM_map]
  congr 1
  funext f
  simp only [Function.comp, h.types, findPositionsCat, findPositionsCont, col_mv]

theorem pyIndex_moved (l : List (Fin D)) (i : ℕ) : pyIndex (l.map ι) i = (pyIndex l i).map ι := by
  unfold pyIndex
  rw [List.getElem?_map]
  cases l[i]? <;> rfl

theorem singleLevel_mv {cfg : RegCfg K D} {cfg' : RegCfg K D'} {H : HeterM K D} {H' : HeterM K D'} (hH : HeterMoved ι H H') (h : SearchMoved ι cfg cfg') (xs : List (List (Row K D')))
    (js : Option (List (List (Row K D')))) (hal : RegionsAligned xs js) (before : List K) :
    singleLevelSplitsM cfg' H' xs js before =
      (singleLevelSplitsM cfg H (xs.map (List.map (onlyColumns ι))) (js.map (List.map (List.map (onlyColumns ι)))) before).map (splitMoved ι) := by
  unfold singleLevelSplitsM
  rw [candidates_mv h, h.foc, h.nofSplits, h.catLimit, h.data]
  simp only [bind, Except.bind, pure, Except.pure]
  cases candidatePositions cfg with
  | error e => rfl
  | ok cs =>
    simp only [List.zip_map_left, List.mapM_map, Function.comp_def, Prod.map, id, h.types, matrixRowM_mv hH _ xs js hal]
    cases (cfg.foc.zip cs).mapM fun p => matrixRowM H' (max cfg.nofSplits cfg.catLimit) xs js before (ι p.1) (cfg.types p.1) p.2 with
    | error e => rfl
    | ok rows =>
      simp only []
      by_cases hr : rows.flatten = []
      · rw [if_pos hr, if_pos hr]; rfl
      rw [if_neg hr, if_neg hr]
      generalize npArgmax rows.flatten / max cfg.nofSplits cfg.catLimit = i
      generalize npArgmax rows.flatten % max cfg.nofSplits cfg.catLimit = j
      rw [pyIndex_moved]
      cases hf : pyIndex cfg.foc i with
      | error e => rfl
      | ok f =>
        simp only [Except.map]
        cases pyIndex cs i with
        | error e => rfl
        | ok ps =>
          simp only []
          cases pyIndex ps j with
          | error e => rfl
          | ok p =>
            simp only [h.types]
            rw [splitAll_lengths_mv, splitAll_mv, optSplit_mv, hetersM_mv hH _ _ (hal.split (ι f) p _), evalCandidateM_mv hH xs js hal, col_mv]
            cases hetersM H' (splitAll xs (ι f) p (cfg.types f)) (js.map fun js => splitAllEff xs js (ι f) p (cfg.types f)) with
            | error e => rfl
            | ok sub =>
              cases listMin (col cfg'.data (ι f)) with
              | error e => rfl
              | ok mn =>
                cases listMax (col cfg'.data (ι f)) with
                | error e => rfl
                | ok mx =>
                  simp only []
                  cases evalCandidateM H' xs js before (ι f) p (cfg.types f) with
                  | error e => rfl
                  | ok e => rfl

theorem searchLoop_mv {cfg : RegCfg K D} {cfg' : RegCfg K D'} {H : HeterM K D} {H' : HeterM K D'} (hH : HeterMoved ι H H') (h : SearchMoved ι cfg cfg') (n : ℕ)
    (xs : List (List (Row K D'))) (js : Option (List (List (Row K D')))) (hal : RegionsAligned xs js) (before : List K) :
    searchLoopM cfg' H' n xs js before =
      (searchLoopM cfg H n (xs.map (List.map (onlyColumns ι))) (js.map (List.map (List.map (onlyColumns ι)))) before).map (List.map (splitMoved ι)) := by
  induction n generalizing xs js before with
  | zero => rfl
  | succ n ih =>
    unfold searchLoopM
    have hany : ((xs.map (List.map (onlyColumns ι))).any fun x => decide (x.length < cfg.minPoints)) = xs.any fun x => decide (x.length < cfg'.minPoints) := by
      rw [List.any_map, h.minPoints]
      simp only [Function.comp_def, List.length_map]
    rw [hany]
    by_cases hs : (xs.any fun x => decide (x.length < cfg'.minPoints)) = true
    · rw [if_pos hs, if_pos hs]; rfl
    · rw [if_neg hs, if_neg hs]
      simp only [bind, Except.bind, pure, Except.pure]
      rw [singleLevel_mv hH h xs js hal before]
      cases singleLevelSplitsM cfg H (xs.map (List.map (onlyColumns ι))) (js.map (List.map (List.map (onlyColumns ι)))) before with
      | error e => rfl
      | ok sp =>
        simp only [Except.map]
        rw [optSplit_mv, splitAll_mv]
        have := ih (splitAll xs (ι sp.feature) sp.position sp.typ) (js.map fun js => splitAllEff xs js (ι sp.feature) sp.position sp.typ) (hal.split _ _ _) sp.heterogeneity
        rw [show (splitMoved ι sp).heterogeneity = sp.heterogeneity from rfl, show (splitMoved ι sp).feature = ι sp.feature from rfl, show (splitMoved ι sp).position = sp.position from rfl,
          show (splitMoved ι sp).typ = sp.typ from rfl, this]
        cases searchLoopM cfg H n _ _ sp.heterogeneity with
        | error e => rfl
        | ok rest => rfl

/-- **C128, the search.**  On the larger table: the same splits with the same heterogeneities and sizes as on the table with only the columns `ι 0, ι 1, ...`, or the same exception. -/
theorem C128_search {cfg : RegCfg K D} {cfg' : RegCfg K D'} {H : HeterM K D} {H' : HeterM K D'} (hH : HeterMoved ι H H') (h : SearchMoved ι cfg cfg') :
    searchAllSplitsM cfg' H' = (searchAllSplitsM cfg H).map (Option.map (splitsMoved ι)) := by
  unfold searchAllSplitsM
  rw [h.feature, h.types, h.splitCat, h.foc, h.maxLevels, List.length_map]
  by_cases h1 : cfg.types cfg.feature = .cat ∧ cfg.splitCat = false
  · rw [if_pos h1, if_pos h1]; rfl
  rw [if_neg h1, if_neg h1]
  by_cases h2 : cfg.foc.length < cfg.maxLevels
  · rw [if_pos h2, if_pos h2]; rfl
  rw [if_neg h2, if_neg h2]
  simp only [bind, Except.bind, pure, Except.pure]
  rw [h.data, h.dataEffect, hH cfg'.data cfg'.dataEffect h.aligned]
  cases H' cfg'.data cfg'.dataEffect with
  | error e => rfl
  | ok h0 =>
    simp only []
    have hal : RegionsAligned [cfg'.data] (cfg'.dataEffect.map fun e => [e]) := by
      rintro l hl
      cases hd : cfg'.dataEffect with
      | none => rw [hd] at hl; cases hl
      | some e =>
        rw [hd] at hl
        cases hl
        exact .cons (h.aligned e hd) .nil
    have e1 : ((cfg'.dataEffect.map (List.map (onlyColumns ι))).map fun e => [e]) = (cfg'.dataEffect.map fun e => [e]).map (List.map (List.map (onlyColumns ι))) := by cases cfg'.dataEffect <;> rfl
    have := searchLoop_mv hH h cfg.maxLevels [cfg'.data] (cfg'.dataEffect.map fun e => [e]) hal [h0]
    rw [e1, show [cfg'.data.map (onlyColumns ι)] = [cfg'.data].map (List.map (onlyColumns ι)) from rfl, this, List.length_map]
    cases searchLoopM cfg H cfg.maxLevels ([cfg'.data].map (List.map (onlyColumns ι))) ((cfg'.dataEffect.map fun e => [e]).map (List.map (List.map (onlyColumns ι)))) [h0] with
    | error e => rfl
    | ok levels =>
      simp only [Except.map, List.map_eq_nil_iff]
      by_cases hl : levels = []
      · rw [if_pos hl, if_pos hl]; rfl
      · rw [if_neg hl, if_neg hl]
        simp [splitsMoved]

/-- **C128, the important splits.** -/
theorem C128_important {cfg : RegCfg K D} {cfg' : RegCfg K D'} (h : SearchMoved ι cfg cfg') (s : Splits K D) :
    chooseImportantSplits cfg' (some (splitsMoved ι s)) = (chooseImportantSplits cfg (some s)).map (splitMoved ι) := by
  unfold chooseImportantSplits
  rw [h.smallEnough, h.dropThres]
  have e : (splitsMoved ι s).levels.map (·.wHeter) = s.levels.map (·.wHeter) := by
    unfold splitsMoved
    rw [List.map_map]
    rfl
  dsimp only
  rw [e, show (splitsMoved ι s).heterInit = s.heterInit from rfl, show (splitsMoved ι s).levels = s.levels.map (splitMoved ι) from rfl, ← List.map_take]
  split_ifs <;> rfl

theorem used_mv {cfg : RegCfg K D} {cfg' : RegCfg K D'} (h : SearchMoved ι cfg cfg') (imp : Bool) (s : Splits K D) :
    usedSplits cfg' imp (splitsMoved ι s) = (usedSplits cfg imp s).map (splitMoved ι) := by
  cases imp with
  | false => rfl
  | true => exact C128_important h s

theorem heapNode_mv {tc : TreeCfg K D} {tc' : TreeCfg K D'} (htn : ∀ j, tc'.names (ι j) = tc.names j) (htp : ∀ j, tc'.posText (ι j) = tc.posText j) (e : Bool) (n : ℕ)
    {par : Node K D} {par' : Node K D'} (hp : NodeMoved ι par par') (sp : Split K D) (l i : ℕ) (hl : par.level = l) :
    NodeMoved ι (heapNode tc e n par sp l i) (heapNode tc' e n par' (splitMoved ι sp) l i) := by
  have hrows : (heapNode tc e n par sp l i).rows = (heapNode tc' e n par' (splitMoved ι sp) l i).rows.map (onlyColumns ι) := by
    simp only [heapNode, splitMoved, hp.rows, splitRows_mv]
    split_ifs <;> rfl
  refine ⟨rfl, ?_, rfl, rfl, rfl, ?_, rfl, rfl, rfl, rfl, rfl, hrows, ?_, ?_⟩
  · simp only [heapNode, splitMoved, hp.name, htn, htp]
  · show (((heapNode tc' e n par' (splitMoved ι sp) l i).rows.length : ℕ) : K) / n = (((heapNode tc e n par sp l i).rows.length : ℕ) : K) / n
    rw [hrows, List.length_map]
  · cases e with
    | false => rfl
    | true =>
      simp only [heapNode, if_true, splitMoved, effOf, hp.rows, hp.level, hp.effects, hl]
      by_cases h0 : l = 0
      · subst h0
        simp only [if_true]
        cases par'.effects with
        | none => rfl
        | some ef =>
          simp only [Option.map_some, splitEff_mv]
          split_ifs <;> rfl
      · rw [if_neg h0, if_neg h0]
        simp only [Option.map_some, splitEff_mv]
        split_ifs <;> rfl
  · intro ef hef
    cases e with
    | false => exact absurd hef (by simp [heapNode])
    | true =>
      have hal : ∀ q, effOf par' = some q → par'.rows.length = q.length := by
        intro q hq
        unfold effOf at hq
        split at hq
        · exact (hp.aligned q hq).symm
        · cases hq; rfl
      cases hq : effOf par' with
      | none => exact absurd hef (by simp [heapNode, hq])
      | some q =>
        obtain ⟨q', h1, h2, -⟩ := heapNode_effects tc' n par' (splitMoved ι sp) l i q hq (hal q hq)
        rw [h1] at hef
        cases hef
        exact h2

theorem heap_mv {tc : TreeCfg K D} {tc' : TreeCfg K D'} (htn : ∀ j, tc'.names (ι j) = tc.names j) (htp : ∀ j, tc'.posText (ι j) = tc.posText j) {e : Bool} {n : ℕ}
    {root : Node K D} {root' : Node K D'} (hr : NodeMoved ι root root') {splits : List (Split K D)} {t : List (Node K D)} {t' : List (Node K D')}
    (h : Heap tc e n root splits t) (h' : Heap tc' e n root' (splits.map (splitMoved ι)) t') : List.Forall₂ (NodeMoved ι) t t' := by
  have hlen : t.length = t'.length := by rw [h.len, h'.len, List.length_map]
  have key : ∀ (i : ℕ) (nd : Node K D) (nd' : Node K D'), t[i]? = some nd → t'[i]? = some nd' → NodeMoved ι nd nd' := by
    intro i
    induction i using Nat.strong_induction_on with
    | _ i ih =>
      intro nd nd' h1 h2
      cases i with
      | zero =>
        rw [h.root] at h1
        rw [h'.root] at h2
        cases h1
        cases h2
        exact hr
      | succ i =>
        obtain ⟨par, sp, l, a1, a2, -, -, a5, rfl⟩ := h.node i nd h1
        obtain ⟨par', sp', l', b1, b2, -, -, b5, rfl⟩ := h'.node i nd' h2
        have hp := ih (i / 2) (by omega) par par' a1 b1
        have hl : l' = l := by rw [← b5, ← a5, hp.level]
        subst hl
        rw [List.getElem?_map, a2] at b2
        cases b2
        exact heapNode_mv htn htp e n hp sp l' i a5
  rw [List.forall₂_iff_get]
  refine ⟨hlen, fun i h1 h2 => key i _ _ ?_ ?_⟩
  · rw [List.getElem?_eq_getElem h1]; rfl
  · rw [List.getElem?_eq_getElem h2]; rfl

/-- **C128, the trees.**  Whenever the search succeeds it succeeds on the other table too, and the full and the pruned tree are the same trees, names included. -/
theorem C128_trees {cfg : RegCfg K D} {cfg' : RegCfg K D'} {H : HeterM K D} {H' : HeterM K D'} (hH : HeterMoved ι H H') (h : SearchMoved ι cfg cfg') {sp : Option (Splits K D)}
    (hs : searchAllSplitsM cfg H = .ok sp) {posText : Fin D → K → String} {posText' : Fin D' → K → String} (htp : ∀ j, posText' (ι j) = posText j) (imp : Bool) :
    searchAllSplitsM cfg' H' = .ok (sp.map (splitsMoved ι)) ∧ ∃ t t', splitsToTree cfg posText sp imp = .ok t ∧ splitsToTree cfg' posText' (sp.map (splitsMoved ι)) imp = .ok t' ∧
      TreesMoved ι t t' := by
  have hs' : searchAllSplitsM cfg' H' = .ok (sp.map (splitsMoved ι)) := by
    rw [C128_search hH h, hs]
    rfl
  refine ⟨hs', ?_⟩
  cases sp with
  | none => exact ⟨none, none, rfl, rfl, trivial⟩
  | some s =>
    have shape : ∀ {d : ℕ} {c : RegCfg K d} {G : HeterM K d} {s : Splits K d}, (∀ l, c.dataEffect = some l → l.length = c.data.length) → searchAllSplitsM c G = .ok (some s) → LevelsShape 1 s.levels := by
      intro d c G s ha hg
      rw [← searchAllSplitsM_heter c G (heterValues G)] at hg
      have := searchAllSplitsM_ok (cfg := { c with heter := heterValues G }) rfl hg
      exact (searchAllSplits_ok { c with heter := heterValues G } (fun l hl => (ha l hl).symm) s this).shape fun l hl => (ha l hl).symm
    have hal : ∀ l, cfg.dataEffect = some l → l.length = cfg.data.length := by
      intro l hl
      rw [h.dataEffect] at hl
      cases he : cfg'.dataEffect with
      | none => rw [he] at hl; cases hl
      | some e =>
        rw [he] at hl
        cases hl
        rw [h.data, List.length_map, List.length_map, h.aligned e he]
    obtain ⟨n, -, hn⟩ := usedSplits_prefix cfg imp s
    obtain ⟨n', -, hn'⟩ := usedSplits_prefix cfg' imp (splitsMoved ι s)
    obtain ⟨t, e1, -, e2⟩ := splitsToTree_heap cfg posText s imp (usedSplits cfg imp s) rfl (by rw [hn]; exact levelsShape_take (shape hal hs) n)
    obtain ⟨t', f1, -, f2⟩ := splitsToTree_heap cfg' posText' (splitsMoved ι s) imp (usedSplits cfg' imp (splitsMoved ι s)) rfl
      (by rw [hn']; exact levelsShape_take (shape h.aligned hs') n')
    refine ⟨some t, some t', e1, f1, ?_⟩
    rw [used_mv h] at f2
    have hsome : cfg'.dataEffect.isSome = cfg.dataEffect.isSome := by rw [h.dataEffect, Option.isSome_map]
    rw [hsome] at f2
    refine heap_mv h.names htp ?_ e2 f2
    refine ⟨rfl, ?_, rfl, rfl, rfl, rfl, rfl, rfl, rfl, rfl, rfl, h.data, h.dataEffect, h.aligned⟩
    · show cfg'.names cfg'.feature = cfg.names cfg.feature
      rw [h.feature, h.names]

end

end Effector
