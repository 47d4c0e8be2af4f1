import Verif.Props.Rescaled
import Verif.Props.RegionUnitsTree
import Verif.Props.PerfectRegional
import Verif.Props.Tree

/-!
# C127: the units of the conditioning features do not matter to the subregions

The search for subregions, with the numerical columns in other units and the categorical columns in other codes of the same order: the same splits at the converted positions, the same trees.
-/

namespace Effector

set_option linter.unusedSectionVars false

open Spec

variable {K : Type} [Field K] [LinearOrder K] [IsStrictOrderedRing K] {D : ℕ}

namespace Spec

/-- `φ` converts every column: a numerical feature to another unit (`a x + b`, `a > 0`), a categorical one to other codes in the same order. -/
def Converts (types : Fin D → FeatType) (φ : Fin D → K → K) : Prop := ∀ j, match types j with
  | .cat => StrictMono (φ j)
  | .cont => ∃ a b, 0 < a ∧ φ j = fun x => a * x + b

/-- An instance with all columns converted. -/
def converted (φ : Fin D → K → K) (r : Row K D) : Row K D := fun j => φ j (r j)

/-- The same split, at the converted position. -/
def splitConverted (φ : Fin D → K → K) (sp : Split K D) : Split K D :=
  { sp with position := φ sp.feature sp.position, range := (φ sp.feature sp.range.1, φ sp.feature sp.range.2), candidates := sp.candidates.map (φ sp.feature) }

/-- The same levels, with converted positions. -/
def splitsConverted (φ : Fin D → K → K) (s : Splits K D) : Splits K D := { s with levels := s.levels.map (splitConverted φ) }

/-- The same node, with the rows (and effects, by `V`) and the position converted; the name, which shows positions, may differ.
(Below level 1 the node stores rows under the name of effects.) -/
structure NodeConverted (φ : Fin D → K → K) (V : Row K D → Row K D) (nd nd' : Node K D) : Prop where
  idx : nd'.idx = nd.idx
  parent : nd'.parent = nd.parent
  level : nd'.level = nd.level
  heterogeneity : nd'.heterogeneity = nd.heterogeneity
  weight : nd'.weight = nd.weight
  nofInstances : nd'.nofInstances = nd.nofInstances
  foc : nd'.foc = nd.foc
  typ : nd'.typ = nd.typ
  comparison : nd'.comparison = nd.comparison
  position : nd'.position = nd.position.bind fun p => nd.foc.map fun f => φ f p
  rows : nd'.rows = nd.rows.map (converted φ)
  effects : nd'.effects = nd.effects.map (List.map (if nd.level ≤ 1 then V else converted φ))

/-- Two trees (or no tree in both cases), node by node. -/
def TreesConverted (φ : Fin D → K → K) (V : Row K D → Row K D) : Option (List (Node K D)) → Option (List (Node K D)) → Prop
  | none, none => True
  | some t, some t' => List.Forall₂ (NodeConverted φ V) t t'
  | _, _ => False

/-- The heterogeneity of converted instances (and effects) is that of the instances, or the same exception is raised. -/
def HeterConverted (φ : Fin D → K → K) (V : Row K D → Row K D) (H H' : HeterM K D) : Prop :=
  ∀ x e, (∀ l, e = some l → l.length = x.length) → H' (x.map (converted φ)) (e.map (List.map V)) = H x e

/-- Two searches with the same arguments, the second on the converted data. -/
structure SearchConverted (φ : Fin D → K → K) (V : Row K D → Row K D) (cfg cfg' : RegCfg K D) : Prop where
  feature : cfg'.feature = cfg.feature
  data : cfg'.data = cfg.data.map (converted φ)
  dataEffect : cfg'.dataEffect = cfg.dataEffect.map (List.map V)
  aligned : ∀ l, cfg.dataEffect = some l → l.length = cfg.data.length
  types : cfg'.types = cfg.types
  catLimit : cfg'.catLimit = cfg.catLimit
  foc : cfg'.foc = cfg.foc
  minPoints : cfg'.minPoints = cfg.minPoints
  nofSplits : cfg'.nofSplits = cfg.nofSplits
  maxLevels : cfg'.maxLevels = cfg.maxLevels
  dropThres : cfg'.dropThres = cfg.dropThres
  smallEnough : cfg'.smallEnough = cfg.smallEnough
  splitCat : cfg'.splitCat = cfg.splitCat

end Spec

section

variable {types : Fin D → FeatType} {φ : Fin D → K → K} {V : Row K D → Row K D}

theorem Spec.Converts.strict (h : Converts types φ) (j : Fin D) : StrictMono (φ j) := by
  have := h j
  cases ht : types j with
  | cat => rw [ht] at this; exact this
  | cont =>
    rw [ht] at this
    obtain ⟨a, b, ha, e⟩ := this
    rw [e]
    exact fun x y hxy => by simpa using mul_lt_mul_of_pos_left hxy ha

theorem goesFirst_conv {g : K → K} (h : StrictMono g) (t : FeatType) (p v : K) : goesFirst t (g p) (g v) = goesFirst t p v := by
  cases t <;> simp [goesFirst, h.lt_iff_lt, h.injective.eq_iff]

theorem goesSecond_conv {g : K → K} (h : StrictMono g) (t : FeatType) (p v : K) : goesSecond t (g p) (g v) = goesSecond t p v := by
  cases t <;> simp [goesSecond, h.le_iff_le, h.injective.eq_iff]

theorem splitRows_conv (h : Converts types φ) (x : List (Row K D)) (f : Fin D) (p : K) (t : FeatType) :
    splitRows (x.map (converted φ)) f (φ f p) t = ((splitRows x f p t).1.map (converted φ), (splitRows x f p t).2.map (converted φ)) := by
  unfold splitRows
  rw [List.filter_map, List.filter_map]
  simp only [Function.comp_def, converted, goesFirst_conv (h.strict f), goesSecond_conv (h.strict f)]

theorem splitEff_conv (h : Converts types φ) (x : List (Row K D)) (e : List (Row K D)) (f : Fin D) (p : K) (t : FeatType) :
    splitEff (x.map (converted φ)) (e.map V) f (φ f p) t = ((splitEff x e f p t).1.map V, (splitEff x e f p t).2.map V) := by
  unfold splitEff
  rw [List.zip_map, List.filter_map, List.filter_map]
  simp only [List.map_map, Function.comp_def, Prod.map, converted, goesFirst_conv (h.strict f), goesSecond_conv (h.strict f)]

theorem splitAll_conv (h : Converts types φ) (xs : List (List (Row K D))) (f : Fin D) (p : K) (t : FeatType) :
    splitAll (xs.map (List.map (converted φ))) f (φ f p) t = (splitAll xs f p t).map (List.map (converted φ)) := by
  unfold splitAll
  rw [List.flatMap_map, List.map_flatMap]
  simp only [splitRows_conv h, List.map_cons, List.map_nil]

theorem splitAllEff_conv (h : Converts types φ) (xs js : List (List (Row K D))) (f : Fin D) (p : K) (t : FeatType) :
    splitAllEff (xs.map (List.map (converted φ))) (js.map (List.map V)) f (φ f p) t = (splitAllEff xs js f p t).map (List.map V) := by
  unfold splitAllEff
  rw [List.zip_map, List.flatMap_map, List.map_flatMap]
  simp only [Prod.map, splitEff_conv h, List.map_cons, List.map_nil]

theorem splitAll_lengths (h : Converts types φ) (xs : List (List (Row K D))) (f : Fin D) (p : K) (t : FeatType) :
    (splitAll (xs.map (List.map (converted φ))) f (φ f p) t).map List.length = (splitAll xs f p t).map List.length := by
  rw [splitAll_conv h, List.map_map]
  apply List.map_congr_left
  intro l _
  simp

/-- Rows and effects of the regions belong together. -/
def RegionsAligned (xs : List (List (Row K D))) (js : Option (List (List (Row K D)))) : Prop := ∀ l, js = some l → List.Forall₂ (fun x j => j.length = x.length) xs l

theorem splitEff_rows_length (x e : List (Row K D)) (hl : e.length = x.length) (f : Fin D) (p : K) (t : FeatType) :
    (splitEff x e f p t).1.length = (splitRows x f p t).1.length ∧ (splitEff x e f p t).2.length = (splitRows x f p t).2.length := by
  unfold splitEff splitRows
  have key : ∀ (q : Row K D → Bool), (((x.zip e).filter fun z => q z.1).map (·.2)).length = (x.filter q).length := by
    intro q
    rw [List.length_map, ← filter_zip_fst' x e hl.symm q, List.length_map]
  exact ⟨key fun r => goesFirst t p (r f), key fun r => goesSecond t p (r f)⟩

theorem RegionsAligned.split {xs : List (List (Row K D))} {js : Option (List (List (Row K D)))} (h : RegionsAligned xs js) (f : Fin D) (p : K) (t : FeatType) :
    RegionsAligned (splitAll xs f p t) (js.map fun js => splitAllEff xs js f p t) := by
  rintro l hl
  cases js with
  | none => cases hl
  | some js =>
    cases hl
    have := h js rfl
    unfold splitAll splitAllEff
    induction this with
    | nil => exact .nil
    | @cons x j xs js hx _ ih =>
      obtain ⟨e1, e2⟩ := splitEff_rows_length x j hx f p t
      simp only [List.zip_cons_cons, List.flatMap_cons, List.cons_append, List.nil_append]
      exact .cons e1 (.cons e2 (ih (fun l hl => by cases hl; assumption)))

theorem mapM_zip_eq {H H' : HeterM K D} (hH : HeterConverted φ V H H') {xs js : List (List (Row K D))} (h : List.Forall₂ (fun (x j : List (Row K D)) => j.length = x.length) xs js) :
    (((xs.map (List.map (converted φ))).zip (js.map (List.map V))).mapM fun p => H' p.1 (some p.2)) = (xs.zip js).mapM fun p => H p.1 (some p.2) := by
  induction h with
  | nil => rfl
  | @cons x j xs js hx _ ih =>
    simp only [List.map_cons, List.zip_cons_cons, List.mapM_cons, ih]
    rw [show H' (x.map (converted φ)) (some (j.map V)) = H x (some j) from hH x (some j) fun l hl => by cases hl; exact hx]

theorem hetersM_conv {H H' : HeterM K D} (hH : HeterConverted φ V H H') (xs : List (List (Row K D))) (js : Option (List (List (Row K D)))) (hal : RegionsAligned xs js) :
    hetersM H' (xs.map (List.map (converted φ))) (js.map (List.map (List.map V))) = hetersM H xs js := by
  cases js with
  | none =>
    show ((xs.map (List.map (converted φ))).mapM fun x => H' x none) = xs.mapM fun x => H x none
    rw [List.mapM_map]
    congr 1
    funext x
    exact hH x none fun l hl => by cases hl
  | some js => exact mapM_zip_eq hH (hal js rfl)

theorem splitWeights_conv (xs : List (List (Row K D))) : splitWeights (xs.map (List.map (converted φ))) = splitWeights xs := by
  unfold splitWeights
  simp only [List.map_map, Function.comp_def, List.length_map]

theorem evalCandidateM_conv {H H' : HeterM K D} (hc : Converts types φ) (hH : HeterConverted φ V H H') (xs : List (List (Row K D))) (js : Option (List (List (Row K D)))) (hal : RegionsAligned xs js)
    (before : List K) (f : Fin D) (p : K) (t : FeatType) :
    evalCandidateM H' (xs.map (List.map (converted φ))) (js.map (List.map (List.map V))) before f (φ f p) t = evalCandidateM H xs js before f p t := by
  unfold evalCandidateM
  have e : ((js.map (List.map (List.map V))).map fun js => splitAllEff (xs.map (List.map (converted φ))) js f (φ f p) t) =
      (js.map fun js => splitAllEff xs js f p t).map (List.map (List.map V)) := by
    cases js with
    | none => rfl
    | some js => simp only [Option.map_some, splitAllEff_conv hc]
  simp only [splitAll_conv hc, e, hetersM_conv hH _ _ (hal.split f p t), splitWeights_conv]

theorem matrixRowM_conv {H H' : HeterM K D} (hc : Converts types φ) (hH : HeterConverted φ V H H') (w : ℕ) (xs : List (List (Row K D))) (js : Option (List (List (Row K D)))) (hal : RegionsAligned xs js)
    (before : List K) (f : Fin D) (t : FeatType) (ps : List K) :
    matrixRowM H' w (xs.map (List.map (converted φ))) (js.map (List.map (List.map V))) before f t (ps.map (φ f)) = matrixRowM H w xs js before f t ps := by
  unfold matrixRowM
  rw [List.mapM_map]
  simp only [Function.comp_def, evalCandidateM_conv hc hH xs js hal]

theorem npUnique_conv {g : K → K} (h : StrictMono g) (l : List K) : npUnique (l.map g) = (npUnique l).map g := by
  refine increasing_ext (npUnique_sorted _) ?_ fun x => ?_
  · exact List.Pairwise.map g (fun a b hab => h hab) (npUnique_sorted l)
  · simp only [mem_npUnique, List.mem_map]

theorem listMin_conv {g : K → K} (h : StrictMono g) (l : List K) : listMin (l.map g) = (listMin l).map g := by
  cases l with
  | nil => rfl
  | cons x t => simp only [List.map_cons, listMin, foldl_min_mono h]; rfl

theorem listMax_conv {g : K → K} (h : StrictMono g) (l : List K) : listMax (l.map g) = (listMax l).map g := by
  cases l with
  | nil => rfl
  | cons x t => simp only [List.map_cons, listMax, foldl_max_mono h]; rfl

theorem col_conv (x : List (Row K D)) (f : Fin D) : col (x.map (converted φ)) f = (col x f).map (φ f) := by
  unfold col
  rw [List.map_map, List.map_map]
  rfl

theorem positions_conv (hc : Converts types φ) (x : List (Row K D)) (f : Fin D) (n : ℕ) :
    (match types f with
      | .cat => .ok (findPositionsCat (x.map (converted φ)) f)
      | .cont => findPositionsCont (x.map (converted φ)) f n : Py (List K)) =
    (match types f with
      | .cat => .ok (findPositionsCat x f)
      | .cont => findPositionsCont x f n : Py (List K)).map (List.map (φ f)) := by
  have hs := hc.strict f
  have h := hc f
  cases ht : types f with
  | cat =>
    simp only [findPositionsCat, col_conv, npUnique_conv hs]
    rfl
  | cont =>
    rw [ht] at h
    obtain ⟨a, b, -, e⟩ := h
    simp only [findPositionsCont, col_conv, listMin_conv hs, listMax_conv hs, bind, Except.bind, pure, Except.pure]
    cases listMax (col x f) with
    | error err => rfl
    | ok mx =>
      cases listMin (col x f) with
      | error err => rfl
      | ok mn =>
        simp only [Except.map, List.map_map, e]
        congr 1
        apply List.map_congr_left
        intro i _
        simp only [Function.comp]
        ring

/-- The candidates, converted feature by feature. -/
def candsConv (φ : Fin D → K → K) (foc : List (Fin D)) (cs : List (List K)) : List (List K) := List.zipWith (fun f ps => ps.map (φ f)) foc cs

theorem mapM_candsConv {g g' : Fin D → Py (List K)} (h : ∀ f, g' f = (g f).map (List.map (φ f))) (foc : List (Fin D)) : foc.mapM g' = (foc.mapM g).map (candsConv φ foc) := by
  induction foc with
  | nil => rfl
  | cons f t ih =>
    rw [List.mapM_cons, List.mapM_cons, h, ih]
    cases g f with
    | error e => rfl
    | ok v =>
      cases t.mapM g with
      | error e => rfl
      | ok w => rfl

theorem candidates_conv {cfg cfg' : RegCfg K D} (hc : Converts cfg.types φ) (h : SearchConverted φ V cfg cfg') : candidatePositions cfg' = (candidatePositions cfg).map (candsConv φ cfg.foc) := by
  unfold candidatePositions
  rw [h.foc, h.types, h.data, h.nofSplits]
  exact mapM_candsConv (fun f => positions_conv hc cfg.data f cfg.nofSplits) cfg.foc

theorem zip_candsConv (foc : List (Fin D)) (cs : List (List K)) : foc.zip (candsConv φ foc cs) = (foc.zip cs).map fun p => (p.1, p.2.map (φ p.1)) := by
  induction foc generalizing cs with
  | nil => rfl
  | cons f t ih =>
    cases cs with
    | nil => rfl
    | cons c cs => simp only [candsConv, List.zipWith_cons_cons, List.zip_cons_cons, List.map_cons]; exact congrArg _ (ih cs)

theorem pyIndex_candsConv (foc : List (Fin D)) (cs : List (List K)) (i : ℕ) (f : Fin D) (hf : pyIndex foc i = .ok f) : pyIndex (candsConv φ foc cs) i = (pyIndex cs i).map (List.map (φ f)) := by
  unfold pyIndex candsConv at *
  rw [List.getElem?_zipWith]
  cases h1 : foc[i]? with
  | none => rw [h1] at hf; cases hf
  | some g =>
    rw [h1] at hf
    cases hf
    cases cs[i]? <;> rfl

theorem singleLevel_conv {cfg cfg' : RegCfg K D} {H H' : HeterM K D} (hc : Converts cfg.types φ) (hH : HeterConverted φ V H H') (h : SearchConverted φ V cfg cfg') (xs : List (List (Row K D)))
    (js : Option (List (List (Row K D)))) (hal : RegionsAligned xs js) (before : List K) :
    singleLevelSplitsM cfg' H' (xs.map (List.map (converted φ))) (js.map (List.map (List.map V))) before = (singleLevelSplitsM cfg H xs js before).map (splitConverted φ) := by
  unfold singleLevelSplitsM
  rw [candidates_conv hc h, h.foc, h.types, h.nofSplits, h.catLimit, h.data]
  simp only [bind, Except.bind, pure, Except.pure]
  cases candidatePositions cfg with
  | error e => rfl
  | ok cs =>
    simp only [Except.map, zip_candsConv, List.mapM_map, Function.comp_def, matrixRowM_conv hc hH _ xs js hal]
    cases (cfg.foc.zip cs).mapM fun p => matrixRowM H (max cfg.nofSplits cfg.catLimit) xs js before p.1 (cfg.types p.1) p.2 with
    | error e => rfl
    | ok rows =>
      simp only []
      by_cases hr : rows.flatten = []
      · rw [if_pos hr, if_pos hr]
      rw [if_neg hr, if_neg hr]
      generalize npArgmax rows.flatten / max cfg.nofSplits cfg.catLimit = i
      generalize npArgmax rows.flatten % max cfg.nofSplits cfg.catLimit = j
      cases hf : pyIndex cfg.foc i with
      | error e => rfl
      | ok f =>
        simp only []
        rw [pyIndex_candsConv cfg.foc cs i f hf]
        cases pyIndex cs i with
        | error e => rfl
        | ok ps =>
          simp only [Except.map]
          have hp : pyIndex (ps.map (φ f)) j = (pyIndex ps j).map (φ f) := by
            unfold pyIndex
            rw [List.getElem?_map]
            cases ps[j]? <;> rfl
          rw [hp]
          cases pyIndex ps j with
          | error e => rfl
          | ok p =>
            simp only [Except.map]
            have e : ((js.map (List.map (List.map V))).map fun js => splitAllEff (xs.map (List.map (converted φ))) js f (φ f p) (cfg.types f)) =
                (js.map fun js => splitAllEff xs js f p (cfg.types f)).map (List.map (List.map V)) := by
              cases js with
              | none => rfl
              | some js => simp only [Option.map_some, splitAllEff_conv hc]
            rw [splitAll_lengths hc, splitAll_conv hc, e, hetersM_conv hH _ _ (hal.split f p _), evalCandidateM_conv hc hH xs js hal, col_conv, listMin_conv (hc.strict f), listMax_conv (hc.strict f)]
            cases hetersM H (splitAll xs f p (cfg.types f)) (js.map fun js => splitAllEff xs js f p (cfg.types f)) with
            | error e => rfl
            | ok sub =>
              cases listMin (col cfg.data f) with
              | error e => rfl
              | ok mn =>
                cases listMax (col cfg.data f) with
                | error e => rfl
                | ok mx =>
                  simp only [Except.map]
                  cases evalCandidateM H xs js before f p (cfg.types f) with
                  | error e => rfl
                  | ok e => rfl

theorem searchLoop_conv {cfg cfg' : RegCfg K D} {H H' : HeterM K D} (hc : Converts cfg.types φ) (hH : HeterConverted φ V H H') (h : SearchConverted φ V cfg cfg') (n : ℕ) (xs : List (List (Row K D)))
    (js : Option (List (List (Row K D)))) (hal : RegionsAligned xs js) (before : List K) :
    searchLoopM cfg' H' n (xs.map (List.map (converted φ))) (js.map (List.map (List.map V))) before = (searchLoopM cfg H n xs js before).map (List.map (splitConverted φ)) := by
  induction n generalizing xs js before with
  | zero => rfl
  | succ n ih =>
    unfold searchLoopM
    have hany : ((xs.map (List.map (converted φ))).any fun x => decide (x.length < cfg'.minPoints)) = xs.any fun x => decide (x.length < cfg.minPoints) := by
      rw [List.any_map, h.minPoints]
      simp only [Function.comp_def, List.length_map]
    rw [hany]
    by_cases hs : (xs.any fun x => decide (x.length < cfg.minPoints)) = true
    · rw [if_pos hs, if_pos hs]; rfl
    · rw [if_neg hs, if_neg hs]
      simp only [bind, Except.bind, pure, Except.pure]
      rw [singleLevel_conv hc hH h xs js hal before]
      cases singleLevelSplitsM cfg H xs js before with
      | error e => rfl
      | ok sp =>
        simp only [Except.map]
        have e : ((js.map (List.map (List.map V))).map fun js => splitAllEff (xs.map (List.map (converted φ))) js (splitConverted φ sp).feature (splitConverted φ sp).position (splitConverted φ sp).typ) =
            (js.map fun js => splitAllEff xs js sp.feature sp.position sp.typ).map (List.map (List.map V)) := by
          cases js with
          | none => rfl
          | some js => simp only [Option.map_some, splitConverted, splitAllEff_conv hc]
        have e2 : splitAll (xs.map (List.map (converted φ))) (splitConverted φ sp).feature (splitConverted φ sp).position (splitConverted φ sp).typ =
            (splitAll xs sp.feature sp.position sp.typ).map (List.map (converted φ)) := splitAll_conv hc xs _ _ _
        rw [e, e2, show (splitConverted φ sp).heterogeneity = sp.heterogeneity from rfl, ih _ _ (hal.split _ _ _)]
        cases searchLoopM cfg H n (splitAll xs sp.feature sp.position sp.typ) (js.map fun js => splitAllEff xs js sp.feature sp.position sp.typ) sp.heterogeneity with
        | error e => rfl
        | ok rest => rfl

/-- **C127, the search.**  With the numerical columns in other units, the categorical columns in other codes of the same order, and a heterogeneity that does not notice: the same splits at the converted positions, with the same
heterogeneities and sizes, or the same exception. -/
theorem C127_search {cfg cfg' : RegCfg K D} {H H' : HeterM K D} (hc : Converts cfg.types φ) (hH : HeterConverted φ V H H') (h : SearchConverted φ V cfg cfg') :
    searchAllSplitsM cfg' H' = (searchAllSplitsM cfg H).map (Option.map (splitsConverted φ)) := by
  unfold searchAllSplitsM
  rw [h.types, h.feature, h.splitCat, h.foc, h.maxLevels]
  by_cases h1 : cfg.types cfg.feature = .cat ∧ cfg.splitCat = false
  · rw [if_pos h1, if_pos h1]; rfl
  rw [if_neg h1, if_neg h1]
  by_cases h2 : cfg.foc.length < cfg.maxLevels
  · rw [if_pos h2, if_pos h2]; rfl
  rw [if_neg h2, if_neg h2]
  simp only [bind, Except.bind, pure, Except.pure]
  rw [h.data, h.dataEffect, hH cfg.data cfg.dataEffect h.aligned]
  cases H cfg.data cfg.dataEffect with
  | error e => rfl
  | ok h0 =>
    simp only []
    have hal : RegionsAligned [cfg.data] (cfg.dataEffect.map fun e => [e]) := by
      rintro l hl
      cases hd : cfg.dataEffect with
      | none => rw [hd] at hl; cases hl
      | some e =>
        rw [hd] at hl
        cases hl
        exact .cons (h.aligned e hd) .nil
    have e1 : ((cfg.dataEffect.map (List.map V)).map fun e => [e]) = (cfg.dataEffect.map fun e => [e]).map (List.map (List.map V)) := by cases cfg.dataEffect <;> rfl
    have := searchLoop_conv hc hH h cfg.maxLevels [cfg.data] (cfg.dataEffect.map fun e => [e]) hal [h0]
    rw [e1, show [cfg.data.map (converted φ)] = [cfg.data].map (List.map (converted φ)) from rfl, this]
    cases searchLoopM cfg H cfg.maxLevels [cfg.data] (cfg.dataEffect.map fun e => [e]) [h0] with
    | error e => rfl
    | ok levels =>
      simp only [Except.map, List.map_eq_nil_iff]
      by_cases hl : levels = []
      · rw [if_pos hl, if_pos hl]; rfl
      · rw [if_neg hl, if_neg hl]
        simp [splitsConverted]

theorem choose_conv {cfg cfg' : RegCfg K D} (h : SearchConverted φ V cfg cfg') (s : Splits K D) :
    chooseImportantSplits cfg' (some (splitsConverted φ s)) = (chooseImportantSplits cfg (some s)).map (splitConverted φ) := by
  unfold chooseImportantSplits
  rw [h.smallEnough, h.dropThres]
  have e : (splitsConverted φ s).levels.map (·.wHeter) = s.levels.map (·.wHeter) := by
    unfold splitsConverted
    rw [List.map_map]
    rfl
  dsimp only
  rw [e, show (splitsConverted φ s).heterInit = s.heterInit from rfl, show (splitsConverted φ s).levels = s.levels.map (splitConverted φ) from rfl, ← List.map_take]
  split_ifs <;> rfl

/-- **C127, the important splits.** -/
theorem C127_important {cfg cfg' : RegCfg K D} (h : SearchConverted φ V cfg cfg') (s : Splits K D) :
    chooseImportantSplits cfg' (some (splitsConverted φ s)) = (chooseImportantSplits cfg (some s)).map (splitConverted φ) := choose_conv h s

theorem used_conv {cfg cfg' : RegCfg K D} (h : SearchConverted φ V cfg cfg') (imp : Bool) (s : Splits K D) :
    usedSplits cfg' imp (splitsConverted φ s) = (usedSplits cfg imp s).map (splitConverted φ) := by
  cases imp with
  | false => rfl
  | true => exact choose_conv h s

theorem heapNode_conv {tc tc' : TreeCfg K D} (hc : Converts types φ) (e : Bool) (n : ℕ) {par par' : Node K D} (hp : NodeConverted φ V par par') (sp : Split K D) (l i : ℕ) (hl : par.level = l) :
    NodeConverted φ V (heapNode tc e n par sp l i) (heapNode tc' e n par' (splitConverted φ sp) l i) := by
  have hrows : (heapNode tc' e n par' (splitConverted φ sp) l i).rows = (heapNode tc e n par sp l i).rows.map (converted φ) := by
    simp only [heapNode, splitConverted, hp.rows, splitRows_conv hc]
    split_ifs <;> rfl
  refine ⟨rfl, rfl, rfl, rfl, ?_, rfl, rfl, rfl, rfl, rfl, hrows, ?_⟩
  · show (((heapNode tc' e n par' (splitConverted φ sp) l i).rows.length : ℕ) : K) / n = (((heapNode tc e n par sp l i).rows.length : ℕ) : K) / n
    rw [hrows, List.length_map]
  · cases e with
    | false => rfl
    | true =>
      simp only [heapNode, if_true, splitConverted, effOf, hp.rows, hp.level, hp.effects, hl]
      by_cases h0 : l = 0
      · subst h0
        simp only [if_true, Nat.zero_le, Nat.zero_add, le_refl]
        cases par.effects with
        | none => rfl
        | some ef =>
          simp only [Option.map_some, splitEff_conv hc]
          split_ifs <;> rfl
      · rw [if_neg h0, if_neg h0, if_neg (by omega)]
        simp only [Option.map_some, splitEff_conv hc]
        split_ifs <;> rfl

theorem heap_conv {tc tc' : TreeCfg K D} (hc : Converts types φ) {e : Bool} {n : ℕ} {root root' : Node K D} (hr : NodeConverted φ V root root') {splits : List (Split K D)} {t t' : List (Node K D)}
    (h : Heap tc e n root splits t) (h' : Heap tc' e n root' (splits.map (splitConverted φ)) t') : List.Forall₂ (NodeConverted φ V) t t' := by
  have hlen : t.length = t'.length := by rw [h.len, h'.len, List.length_map]
  have key : ∀ (i : ℕ) (nd nd' : Node K D), t[i]? = some nd → t'[i]? = some nd' → NodeConverted φ V nd nd' := by
    intro i
    induction i using Nat.strong_induction_on with
    | _ i ih =>
      intro nd nd' h1 h2
      cases i with
      | zero =>
        rw [h.root] at h1
        rw [h'.root] at h2
        cases h1
        cases h2
        exact hr
      | succ i =>
        obtain ⟨par, sp, l, a1, a2, -, -, a5, rfl⟩ := h.node i nd h1
        obtain ⟨par', sp', l', b1, b2, -, -, b5, rfl⟩ := h'.node i nd' h2
        have hp := ih (i / 2) (by omega) par par' a1 b1
        have hl : l' = l := by rw [← b5, ← a5, hp.level]
        subst hl
        rw [List.getElem?_map, a2] at b2
        cases b2
        exact heapNode_conv hc e n hp sp l' i a5
  rw [List.forall₂_iff_get]
  refine ⟨hlen, fun i h1 h2 => key i _ _ ?_ ?_⟩
  · rw [List.getElem?_eq_getElem h1]; rfl
  · rw [List.getElem?_eq_getElem h2]; rfl

/-- **C127, the trees.**  Whenever the search succeeds it succeeds on the converted data too, and the full and the pruned tree are the same trees with the positions, the rows and the effects converted: the same nodes with the same
conditioning features, comparisons, heterogeneities, weights and numbers of instances; if the search finds nothing, it finds nothing in either. -/
theorem C127_trees {cfg cfg' : RegCfg K D} {H H' : HeterM K D} (hc : Converts cfg.types φ) (hH : HeterConverted φ V H H') (h : SearchConverted φ V cfg cfg') {sp : Option (Splits K D)}
    (hs : searchAllSplitsM cfg H = .ok sp) (posText posText' : Fin D → K → String) (imp : Bool) :
    searchAllSplitsM cfg' H' = .ok (sp.map (splitsConverted φ)) ∧ ∃ t t', splitsToTree cfg posText sp imp = .ok t ∧ splitsToTree cfg' posText' (sp.map (splitsConverted φ)) imp = .ok t' ∧
      TreesConverted φ V t t' := by
  have hs' : searchAllSplitsM cfg' H' = .ok (sp.map (splitsConverted φ)) := by
    rw [C127_search hc hH h, hs]
    rfl
  refine ⟨hs', ?_⟩
  cases sp with
  | none => exact ⟨none, none, rfl, rfl, trivial⟩
  | some s =>
    have shape : ∀ {c : RegCfg K D} {G : HeterM K D} {s : Splits K D}, (∀ l, c.dataEffect = some l → l.length = c.data.length) → searchAllSplitsM c G = .ok (some s) → LevelsShape 1 s.levels := by
      intro c G s ha hg
      rw [← searchAllSplitsM_heter c G (heterValues G)] at hg
      have := searchAllSplitsM_ok (cfg := { c with heter := heterValues G }) rfl hg
      exact (searchAllSplits_ok { c with heter := heterValues G } (fun l hl => (ha l hl).symm) s this).shape fun l hl => (ha l hl).symm
    have hal' : ∀ l, cfg'.dataEffect = some l → l.length = cfg'.data.length := by
      intro l hl
      rw [h.dataEffect] at hl
      cases he : cfg.dataEffect with
      | none => rw [he] at hl; cases hl
      | some e =>
        rw [he] at hl
        cases hl
        rw [h.data, List.length_map, List.length_map, h.aligned e he]
    obtain ⟨n, -, hn⟩ := usedSplits_prefix cfg imp s
    obtain ⟨n', -, hn'⟩ := usedSplits_prefix cfg' imp (splitsConverted φ s)
    obtain ⟨t, e1, -, e2⟩ := splitsToTree_heap cfg posText s imp (usedSplits cfg imp s) rfl (by rw [hn]; exact levelsShape_take (shape h.aligned hs) n)
    obtain ⟨t', f1, -, f2⟩ := splitsToTree_heap cfg' posText' (splitsConverted φ s) imp (usedSplits cfg' imp (splitsConverted φ s)) rfl
      (by rw [hn']; exact levelsShape_take (shape hal' hs') n')
    refine ⟨some t, some t', e1, f1, ?_⟩
    rw [used_conv h] at f2
    have hsome : cfg'.dataEffect.isSome = cfg.dataEffect.isSome := by
      rw [h.dataEffect]
      cases cfg.dataEffect <;> rfl
    rw [hsome] at f2
    refine heap_conv (types := cfg.types) hc ?_ e2 f2
    refine ⟨rfl, rfl, rfl, rfl, rfl, rfl, rfl, rfl, rfl, rfl, h.data, ?_⟩
    show cfg'.dataEffect = _
    rw [h.dataEffect]
    rfl

end

end Effector
