import Verif.Model.Helpers

/-!
# Model of effector/partitioning.py (Regions, Tree, DataTransformer)
-/

namespace Effector

variable {K : Type} [Field K] [LinearOrder K] {D : ℕ}

/-! ## Splitting a data set -/

/-- partitioning.py:311-316, the mask `ind_1` at one value. -/
def goesFirst (typ : FeatType) (pos v : K) : Bool :=
  match typ with
  | .cat => decide (v = pos)
  | .cont => decide (v < pos)

/-- partitioning.py:311-316, the mask `ind_2` at one value. -/
def goesSecond (typ : FeatType) (pos v : K) : Bool :=
  match typ with
  | .cat => decide (v ≠ pos)
  | .cont => decide (v ≥ pos)

/-- partitioning.py:310-325 `split_dataset` with `x_jac = None`. -/
def splitRows (x : List (Row K D)) (f : Fin D) (pos : K) (typ : FeatType) : List (Row K D) × List (Row K D) :=
  (x.filter fun r => goesFirst typ pos (r f), x.filter fun r => goesSecond typ pos (r f))

/-- partitioning.py:310-325 `split_dataset` with `x_jac` given: the rows of `x_jac` under the mask of `x`.
(numpy raises if the lengths differ; they are equal in every call, see `Props`.) -/
def splitEff {α : Type} (x : List (Row K D)) (jac : List α) (f : Fin D) (pos : K) (typ : FeatType) :
    List α × List α :=
  (((x.zip jac).filter fun p => goesFirst typ pos (p.1 f)).map (·.2),
   ((x.zip jac).filter fun p => goesSecond typ pos (p.1 f)).map (·.2))

/-- `self.flatten_list([self.split_dataset(x, None, ...) for x in x_list])` (partitioning.py:131-133, 334-335). -/
def splitAll (xs : List (List (Row K D))) (f : Fin D) (pos : K) (typ : FeatType) : List (List (Row K D)) :=
  xs.flatMap fun x => [(splitRows x f pos typ).1, (splitRows x f pos typ).2]

/-- `self.flatten_list([self.split_dataset(x, x_jac, ...) for x, x_jac in zip(x_list, x_jac_list)])`. -/
def splitAllEff (xs : List (List (Row K D))) (js : List (List (Row K D))) (f : Fin D) (pos : K) (typ : FeatType) :
    List (List (Row K D)) :=
  (xs.zip js).flatMap fun p => [(splitEff p.1 p.2 f pos typ).1, (splitEff p.1 p.2 f pos typ).2]

/-- partitioning.py:327-328 `find_positions_cat`. -/
def findPositionsCat (x : List (Row K D)) (f : Fin D) : List K := npUnique (col x f)

/-- partitioning.py:330-332 `find_positions_cont`; `np.min` of an empty array raises `ValueError`. -/
def findPositionsCont (x : List (Row K D)) (f : Fin D) (n : ℕ) : Py (List K) := do
  let mx ← listMax (col x f)
  let mn ← listMin (col x f)
  let step := (mx - mn) / (n : K)
  return (List.range n).map fun (i : ℕ) => mn + ((i : K) + 1 / 2) * step

/-! ## Regions -/

/-- The constructor arguments of `Regions` used by the search (partitioning.py:12-73).  `heter` is `heter_func`: a
function of the rows and, if there is a data_effect, of its rows (NaN results are not modelled). -/
structure RegCfg (K : Type) (D : ℕ) where
  feature : Fin D
  heter : List (Row K D) → Option (List (Row K D)) → K
  data : List (Row K D)
  dataEffect : Option (List (Row K D))
  types : Fin D → FeatType
  names : Fin D → String
  catLimit : ℕ
  /-- the conditioning features, `self.foc` -/
  foc : List (Fin D)
  minPoints : ℕ
  nofSplits : ℕ
  maxLevels : ℕ
  dropThres : K
  smallEnough : K
  splitCat : Bool

/-- One entry of `self.splits[1:]` (partitioning.py:253-266). -/
structure Split (K : Type) (D : ℕ) where
  feature : Fin D
  position : K
  range : K × K
  candidates : List K
  nofInstances : List ℕ
  typ : FeatType
  heterogeneity : List K
  splitI : ℕ
  splitJ : ℕ
  wHeterDrop : K
  wHeter : K

/-- `self.splits`: the root entry and the levels found. -/
structure Splits (K : Type) (D : ℕ) where
  heterInit : K
  nofInit : ℕ
  levels : List (Split K D)

/-- The heterogeneities of the regions, `heter_func(x)` or `heter_func(x, x_jac)` (partitioning.py:193-199). -/
def heters (cfg : RegCfg K D) (xs : List (List (Row K D))) (js : Option (List (List (Row K D)))) : List K :=
  match js with
  | none => xs.map fun x => cfg.heter x none
  | some js => (xs.zip js).map fun p => cfg.heter p.1 (some p.2)

/-- `weights = (populations + 1) / np.sum(populations + 1)` (partitioning.py:213-216). -/
def splitWeights (xs : List (List (Row K D))) : List K :=
  xs.map fun x => ((x.length : K) + 1) / (xs.map fun x => (x.length : K) + 1).sum

/-- `heter_drop` (partitioning.py:201-212): every parent heterogeneity appears twice. -/
def heterDrops (before sub : List K) : List K :=
  List.zipWith (· - ·) (before.flatMap fun h => [h, h]) sub

/-- partitioning.py:177-220: (weighted_heter_drop, weighted_heter) of one candidate. -/
def evalCandidate (cfg : RegCfg K D) (xs : List (List (Row K D))) (js : Option (List (List (Row K D))))
    (before : List K) (f : Fin D) (pos : K) (typ : FeatType) : K × K :=
  let xs2 := splitAll xs f pos typ
  let sub := heters cfg xs2 (js.map fun js => splitAllEff xs js f pos typ)
  let w := splitWeights xs2
  ((List.zipWith (· * ·) (heterDrops before sub) w).sum, (List.zipWith (· * ·) w sub).sum)

/-- partitioning.py:166-173: the candidate positions of every conditioning feature (from the whole data set). -/
def candidatePositions (cfg : RegCfg K D) : Py (List (List K)) :=
  cfg.foc.mapM fun f => match cfg.types f with
    | .cat => .ok (findPositionsCat cfg.data f)
    | .cont => findPositionsCont cfg.data f cfg.nofSplits

/-- A matrix row: the values of the candidates, padded with `-BIG_M` to width `w` (partitioning.py:158-164);
writing past the width raises `IndexError`. -/
def padRow (w : ℕ) (vals : List K) : Py (List K) :=
  if vals.length ≤ w then .ok (vals ++ List.replicate (w - vals.length) (-BIG_M)) else .error .indexError

/-- partitioning.py:141-267 `single_level_splits`. -/
def singleLevelSplits (cfg : RegCfg K D) (xs : List (List (Row K D))) (js : Option (List (List (Row K D))))
    (before : List K) : Py (Split K D) := do
  let cands ← candidatePositions cfg
  let w := max cfg.nofSplits cfg.catLimit
  let rows ← (cfg.foc.zip cands).mapM fun p =>
    padRow w (p.2.map fun pos => (evalCandidate cfg xs js before p.1 pos (cfg.types p.1)).1)
  let flat := rows.flatten
  if flat = [] then .error .valueError                    -- np.argmax of an empty array
  else do
    let a := npArgmax flat
    let i := a / w
    let j := a % w
    let f ← pyIndex cfg.foc i
    let ps ← pyIndex cands i
    let pos ← pyIndex ps j
    let xs2 := splitAll xs f pos (cfg.types f)
    let sub := heters cfg xs2 (js.map fun js => splitAllEff xs js f pos (cfg.types f))
    let mn ← listMin (col cfg.data f)
    let mx ← listMax (col cfg.data f)
    let e := evalCandidate cfg xs js before f pos (cfg.types f)
    return { feature := f, position := pos, range := (mn, mx), candidates := ps,
             nofInstances := xs2.map List.length, typ := cfg.types f, heterogeneity := sub,
             splitI := i, splitJ := j, wHeterDrop := e.1, wHeter := e.2 }

/-- partitioning.py:109-135: the loop over the levels, `n` levels to go. -/
def searchLoop (cfg : RegCfg K D) : ℕ → List (List (Row K D)) → Option (List (List (Row K D))) → List K →
    Py (List (Split K D))
  | 0, _, _, _ => .ok []
  | n + 1, xs, js, before =>
    if xs.any (fun x => decide (x.length < cfg.minPoints)) then .ok []       -- break
    else do
      let sp ← singleLevelSplits cfg xs js before
      let js' := js.map fun js => splitAllEff xs js sp.feature sp.position sp.typ
      let xs' := splitAll xs sp.feature sp.position sp.typ
      let rest ← searchLoop cfg n xs' js' sp.heterogeneity
      return sp :: rest

/-- partitioning.py:75-139 `search_all_splits`: `none` when `self.splits` stays empty (categorical feature, or the loop
body is never completed). -/
def searchAllSplits (cfg : RegCfg K D) : Py (Option (Splits K D)) :=
  if cfg.types cfg.feature = .cat ∧ cfg.splitCat = false then .ok none
  else if cfg.foc.length < cfg.maxLevels then .error .assertionError
  else do
    let h0 := cfg.heter cfg.data cfg.dataEffect
    let levels ← searchLoop cfg cfg.maxLevels [cfg.data] (cfg.dataEffect.map fun e => [e]) [h0]
    return if levels = [] then none
      else some { heterInit := h0, nofInit := cfg.data.length, levels := levels }

/-- `(a - b) / a > thres` in floating point: for `a = 0` the quotient is `-inf`, NaN or `+inf` for `b > 0`, `b = 0`,
`b < 0` (partitioning.py:286-287). -/
def dropExceeds (thres a b : K) : Bool :=
  if a = 0 then decide (b < 0) else decide (thres < (a - b) / a)

/-- `split_valid` (partitioning.py:284-287). -/
def splitValid (thres : K) : List K → List Bool
  | a :: b :: t => dropExceeds thres a b :: splitValid thres (b :: t)
  | _ => []

/-- partitioning.py:269-308 `choose_important_splits`. -/
def chooseImportantSplits (cfg : RegCfg K D) (splits : Option (Splits K D)) : List (Split K D) :=
  match splits with
  | none => []
  | some s =>
    if s.heterInit = BIG_M then []
    else if s.heterInit < cfg.smallEnough then []
    else
      let valid := splitValid cfg.dropThres (s.heterInit :: s.levels.map (·.wHeter))
      if valid.count true = 0 then []
      else if valid.count true = valid.length then s.levels
      else
        let firstNeg := valid.idxOf false
        if firstNeg = 0 then [] else s.levels.take firstNeg

/-! ## Trees -/

/-- partitioning.py:442-459 `Node` (with the entries of its `data` dictionary that are used elsewhere). -/
structure Node (K : Type) (D : ℕ) where
  idx : ℕ
  name : String
  /-- `parent_node.idx` -/
  parent : Option ℕ
  level : ℕ
  heterogeneity : K
  weight : K
  nofInstances : ℕ
  rows : List (Row K D)
  effects : Option (List (Row K D))
  foc : Option (Fin D)
  typ : Option FeatType
  position : Option K
  comparison : Option String

/-- partitioning.py:516-522 `Tree.get_node`: the first node with that name. -/
def getNode (tree : List (Node K D)) (name : String) : Option (Node K D) :=
  tree.find? fun n => n.name == name

/-- partitioning.py:504-514 `Tree.add_node`: the parent is looked up by name, the id is the next counter value.
The counter `self.idx` always equals the number of nodes. -/
def addNode (tree : List (Node K D)) (parentName : String) (mk : ℕ → ℕ → Node K D) : Py (List (Node K D)) :=
  match getNode tree parentName with
  | none => .error .assertionError
  | some p => .ok (tree ++ [mk tree.length p.idx])

/-- partitioning.py:524-529 `Tree.get_level_nodes`. -/
def getLevelNodes (tree : List (Node K D)) (l : ℕ) : List (Node K D) := tree.filter fun n => n.level == l

/-- partitioning.py:540-546 `Tree.get_children`: the nodes whose parent has that name. -/
def getChildren (tree : List (Node K D)) (name : String) : List (Node K D) :=
  tree.filter fun n => match n.parent with
    | none => false
    | some p => match tree[p]? with
      | some q => q.name == name
      | none => false

/-- partitioning.py:548-556 `Tree.get_level_stats`. -/
def getLevelStats (tree : List (Node K D)) (l : ℕ) : K :=
  ((getLevelNodes tree l).map fun n => n.heterogeneity * n.weight).sum

/-- What `splits_to_tree` keeps about the previous level: name, rows, effects (partitioning.py:355-357). -/
structure ParentInfo (K : Type) (D : ℕ) where
  name : String
  rows : List (Row K D)
  effects : Option (List (Row K D))

/-- partitioning.py:397-410: the comparison sign shown for child `j`. -/
def comparisonSign (typ : FeatType) (j : ℕ) : String :=
  if j % 2 = 0 then (match typ with | .cat => "==" | .cont => "<=")
  else (match typ with | .cat => "!=" | .cont => ">")

/-- partitioning.py:397-410: the condition text of child `j`; `fmt` is `"{}".format(pos.round(2))`. -/
def conditionText (focName : String) (posText : String) (typ : FeatType) (j : ℕ) : String :=
  if j % 2 = 0 then (match typ with
    | .cat => focName ++ " == " ++ posText
    | .cont => focName ++ " <= " ++ posText)
  else (match typ with
    | .cat => focName ++ " != " ++ posText
    | .cont => focName ++ "  > " ++ posText)

/-- partitioning.py:412. -/
def childName (parentName cond : String) (nodesToAdd : ℕ) : String :=
  if nodesToAdd = 2 then parentName ++ " | " ++ cond else parentName ++ " and " ++ cond

/-- What `splits_to_tree` needs besides the splits. `posText f pos` is the formatted (and possibly scaled) position. -/
structure TreeCfg (K : Type) (D : ℕ) where
  names : Fin D → String
  posText : Fin D → K → String

/-- partitioning.py:380-387: the text of a position with `scale_x_list`; `fmt` is `"{}".format(x.round(2))`. -/
def posTextOf (fmt : K → String) (scales : Option (Fin D → Scale K)) (f : Fin D) (pos : K) : String :=
  match scales with
  | none => fmt pos
  | some sc => fmt ((sc f).std * pos + (sc f).mean)

/-- partitioning.py:370-432: add child `j` of one level. -/
def addChild (tc : TreeCfg K D) (hasEff : Bool) (nInit : ℕ) (parents : List (ParentInfo K D)) (sp : Split K D)
    (level : ℕ) (st : List (Node K D) × List (ParentInfo K D)) (j : ℕ) :
    Py (List (Node K D) × List (ParentInfo K D)) := do
  let par ← pyIndex parents (j / 2)
  let parts := splitRows par.rows sp.feature sp.position sp.typ
  let effParts : Option (List (Row K D) × List (Row K D)) :=
    if hasEff then par.effects.map fun e => splitEff par.rows e sp.feature sp.position sp.typ else none
  let rows := if j % 2 = 0 then parts.1 else parts.2
  let eff := effParts.map fun p => if j % 2 = 0 then p.1 else p.2
  let name := childName par.name
    (conditionText (tc.names sp.feature) (tc.posText sp.feature sp.position) sp.typ j) sp.nofInstances.length
  let het ← pyIndex sp.heterogeneity j
  let nof ← pyIndex sp.nofInstances j
  let tree ← addNode st.1 par.name fun idx p =>
    { idx := idx, name := name, parent := some p, level := level, heterogeneity := het,
      weight := (rows.length : K) / (nInit : K), nofInstances := nof, rows := rows, effects := eff,
      foc := some sp.feature, typ := some sp.typ, position := some sp.position,
      comparison := some (comparisonSign sp.typ j) }
  return (tree, st.2 ++ [{ name := name, rows := rows, effects := eff }])

/-- partitioning.py:434-437: the parents of the next level.  Line 437 assigns `new_parent_level_data` (the rows, not the
effects) to `parent_level_data_effect`. -/
def nextParents (ps : List (ParentInfo K D)) : List (ParentInfo K D) :=
  ps.map fun p => { p with effects := some p.rows }

/-- partitioning.py:360-437: the loop over the splits. -/
def addLevels (tc : TreeCfg K D) (hasEff : Bool) (nInit : ℕ) : ℕ → List (Node K D) → List (ParentInfo K D) →
    List (Split K D) → Py (List (Node K D))
  | _, tree, _, [] => .ok tree
  | level, tree, parents, sp :: t => do
    let (tree', ps) ← (List.range sp.nofInstances.length).foldlM
      (addChild tc hasEff nInit parents sp level) (tree, [])
    addLevels tc hasEff nInit (level + 1) tree' (nextParents ps) t

/-- partitioning.py:341-354: the root node. -/
def rootNode (cfg : RegCfg K D) (s : Splits K D) : Node K D :=
  { idx := 0, name := cfg.names cfg.feature, parent := none, level := 0, heterogeneity := s.heterInit, weight := 1,
    nofInstances := s.nofInit, rows := cfg.data, effects := cfg.dataEffect, foc := none, typ := none,
    position := none, comparison := none }

/-- partitioning.py:337-439 `splits_to_tree(only_important)`; `none` when `self.splits` is empty. -/
def splitsToTree (cfg : RegCfg K D) (posText : Fin D → K → String) (splits : Option (Splits K D))
    (onlyImportant : Bool) : Py (Option (List (Node K D))) :=
  match splits with
  | none => .ok none
  | some s => do
    let t ← addLevels { names := cfg.names, posText := posText } cfg.dataEffect.isSome s.nofInit 1
      [rootNode cfg s] [{ name := cfg.names cfg.feature, rows := cfg.data, effects := cfg.dataEffect }]
      (if onlyImportant then chooseImportantSplits cfg splits else s.levels)
    return some t

/-- partitioning.py:47-51: the conditioning features for `candidate_conditioning_features="all"`. -/
def focAll (feature : Fin D) : List (Fin D) := (List.finRange D).filter (· ≠ feature)

/-! ## DataTransformer (partitioning.py:580-667) -/

/-- The part of a split that DataTransformer uses. -/
structure Cond (K : Type) (D : ℕ) where
  feature : Fin D
  position : K
  typ : FeatType

/-- `itertools.product([0, 1], repeat=n)`; `false` is 0. -/
def bitStrings : ℕ → List (List Bool)
  | 0 => [[]]
  | n + 1 => (bitStrings n).map (false :: ·) ++ (bitStrings n).map (true :: ·)

/-- partitioning.py:618-656: one condition of the column mask. -/
def condHolds (c : Cond K D) (bit : Bool) (r : Row K D) : Bool :=
  match bit, c.typ with
  | false, .cat => decide (r c.feature = c.position)
  | false, .cont => decide (r c.feature ≤ c.position)
  | true, .cat => decide (r c.feature ≠ c.position)
  | true, .cont => decide (c.position < r c.feature)

/-- partitioning.py:614-662: the mask of the column with bits `bits`. -/
def columnMask (cs : List (Cond K D)) (bits : List Bool) (r : Row K D) : Bool :=
  (cs.zip bits).all fun p => condHolds p.1 p.2 r

/-- partitioning.py:602-663: the columns that feature `f` with splits `cs` is mapped to, for one row.
A feature without splits gives one unmasked column; otherwise one column per bit string, value times mask. -/
def transformFeature (cs : List (Cond K D)) (f : Fin D) (r : Row K D) : List K :=
  if cs = [] then [r f]
  else (bitStrings cs.length).map fun bits => if columnMask cs bits r then r f * 1 else r f * 0

/-- partitioning.py:584-667 `DataTransformer.transform`, row by row; `splits f` is `self.splits["feat_f"]`, the
dictionary being in feature order. -/
def transform (splits : Fin D → List (Cond K D)) (X : List (Row K D)) : List (List K) :=
  X.map fun r => (List.finRange D).flatMap fun f => transformFeature (splits f) f r

end Effector
