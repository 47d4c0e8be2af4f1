import Verif.Model.Regional

/-!
# Model of the reports: `show_partitioning`, `describe_subregions` (effector/regional_effect.py:234-319) and the printing
methods of `Tree` (effector/partitioning.py:531-577); and of the heterogeneity function of RegionalShapDP.

What is modelled is the sequence of figures handed to `print`, not the text around them.
-/

namespace Effector

variable {K : Type} [Field K] [LinearOrder K] {D : ℕ}

/-- partitioning.py:531-538 `Tree.get_root`: the first node without a parent; `AssertionError` if there is none. -/
def getRoot (tree : List (Node K D)) : Py (Node K D) :=
  match tree.find? (fun n => n.parent.isNone) with
  | some n => .ok n
  | none => .error .assertionError

/-- partitioning.py:558-566 `Tree.show_full_tree`: the nodes in the order in which they are printed.  The recursion of the
code has no bound; `fuel` bounds the depth here, and `C67_show_full_tree` proves that every bound that is at least the depth
of the tree gives the same list. -/
def showFrom (tree : List (Node K D)) : ℕ → Node K D → List (Node K D)
  | 0, nd => [nd]
  | fuel + 1, nd => nd :: (getChildren tree nd.name).flatMap (showFrom tree fuel)

/-- partitioning.py:558-560: started at the root. -/
def showFullTree (tree : List (Node K D)) (fuel : ℕ) : Py (List (Node K D)) := do
  let r ← getRoot tree
  return showFrom tree fuel r

/-- `max([node.level for node in tree.nodes])`. -/
def maxLevel (tree : List (Node K D)) : ℕ := (tree.map (·.level)).foldr max 0

/-- One printed line of `show_level_stats`: level, heterogeneity, and from level 1 on the drop and its percentage
(`none`: inf or NaN is printed). -/
structure LevelLine (K : Type) where
  level : ℕ
  heter : K
  drop : Option (K × Option K)
deriving DecidableEq

/-- `100 * d / prev`: a `ZeroDivisionError` for python floats (`np = false`), inf or NaN for numpy scalars. -/
def percentOf (np : Bool) (d prev : K) : Py (Option K) :=
  if prev = 0 then (if np then .ok none else .error .zeroDivisionError) else .ok (some (100 * d / prev))

/-- partitioning.py:574-577: the drop and its percentage, from level 1 on. -/
def levelDrop (np : Bool) (lev : ℕ) (prev h : K) : Py (Option (K × Option K)) :=
  if lev = 0 then .ok none else (percentOf np (prev - h) prev).map fun pc => some (prev - h, pc)

/-- partitioning.py:568-577 `Tree.show_level_stats`, the lines for the levels `lev, lev + 1, ...` (`n` of them), `prev` being the
heterogeneity of the previous level.  `np` says whether the heterogeneities are numpy scalars (PDP, SHAP: `np.mean`) or python
floats (ALE, RHALE: `z.item()`). -/
def levelLines (np : Bool) (tree : List (Node K D)) : ℕ → ℕ → K → Py (List (LevelLine K))
  | _, 0, _ => .ok []
  | lev, n + 1, prev => do
    let h := getLevelStats tree lev
    let d ← levelDrop np lev prev h
    let rest ← levelLines np tree (lev + 1) n h
    return { level := lev, heter := h, drop := d } :: rest

/-- partitioning.py:568-577 `Tree.show_level_stats` (lines printed before an exception are not recorded). -/
def showLevelStats (np : Bool) (tree : List (Node K D)) : Py (List (LevelLine K)) :=
  levelLines np tree 0 (maxLevel tree + 1) 0

/-- What `describe_subregions` prints about one level. -/
structure LevelReport (K : Type) (D : ℕ) where
  level : ℕ
  splitFeature : Fin D
  splitType : FeatType
  position : K
  before : K
  after : K
  drop : K
  percent : Option K
  nofBefore : List ℕ
  nofAfter : List ℕ
deriving DecidableEq

/-- regional_effect.py:291-319: the report of one level.  `np.sum` gives numpy scalars, so that the percentage never raises.
`level_nodes[0]` raises `IndexError` if the level is empty; the root has no "feature" entry (`KeyError`), but `level ≥ 1`. -/
def levelReport (scales : Option (Fin D → Scale K)) (tree : List (Node K D)) (l : ℕ) : Py (LevelReport K D) := do
  let n0 ← pyIndex (getLevelNodes tree l) 0
  match n0.foc, n0.typ, n0.position with
  | some f, some t, some pos =>
    let shown := match scales with
      | none => pos
      | some sc => pos * (sc f).std + (sc f).mean
    let before := ((getLevelNodes tree (l - 1)).map fun n => n.weight * n.heterogeneity).sum
    let after := ((getLevelNodes tree l).map fun n => n.weight * n.heterogeneity).sum
    return { level := l, splitFeature := f, splitType := t, position := shown, before := before, after := after,
             drop := before - after,
             percent := if before = 0 then none else some ((before - after) / before * 100),
             nofBefore := (getLevelNodes tree (l - 1)).map (·.nofInstances),
             nofAfter := (getLevelNodes tree l).map (·.nofInstances) }
  | _, _, _ => .error .keyError

/-- regional_effect.py:262-319 `describe_subregions` for one feature: nothing for a feature without a tree, a single line
("No important splits") for a pruned tree that consists of the root. -/
def describeSubregions (cfg : RegionalCfg K D) (st : RegionalState K D) (f : Fin D) (onlyImportant : Bool)
    (scales : Option (Fin D → Scale K)) : RegionalState K D × Py (List (LevelReport K D)) :=
  match regionalRefit cfg st f with
  | (st', .error e) => (st', .error e)
  | (st', .ok ()) => (st',
      match st'.treeFull f with
      | none => .error .keyError
      | some none => .ok []
      | some (some full) =>
        if onlyImportant then
          match st'.treePruned f with
          | some (some pruned) =>
            if pruned.length = 1 then .ok []
            else (List.range (maxLevel pruned)).mapM fun l => levelReport scales pruned (l + 1)
          | _ => .error .attributeError
        else (List.range (maxLevel full)).mapM fun l => levelReport scales full (l + 1))

/-- What `show_partitioning` prints for one feature: the nodes in order and the level statistics; `none` for "No splits found". -/
structure PartitionReport (K : Type) (D : ℕ) where
  nodes : List (Node K D)
  levels : List (LevelLine K)

/-- regional_effect.py:239-251: the tree that is shown. -/
def partitionTree (cfg : RegionalCfg K D) (st : RegionalState K D) (f : Fin D) (onlyImportant : Bool)
    (scales : Option (Fin D → Scale K)) : Py (Option (List (Node K D))) :=
  match scales with
  | some sc =>
    match st.splits f with
    | none => .error .keyError
    | some (r, sp) => do
      let t1 ← splitsToTree r (posTextOf cfg.fmt (some sc)) sp true
      let t2 ← splitsToTree r (posTextOf cfg.fmt (some sc)) sp false
      return if onlyImportant then t1 else t2
  | none =>
    match (if onlyImportant then st.treePruned f else st.treeFull f) with
    | none => .error .keyError
    | some t => .ok t

/-- regional_effect.py:234-260 `show_partitioning` for one feature.  With scales the two trees are built anew (the names of the
two local variables are exchanged in the code, `splits_to_tree(True, ...)` being the pruned tree, and so is the choice between
them). -/
def showPartitioning (np : Bool) (cfg : RegionalCfg K D) (st : RegionalState K D) (f : Fin D) (onlyImportant : Bool)
    (scales : Option (Fin D → Scale K)) : RegionalState K D × Py (Option (PartitionReport K D)) :=
  match regionalRefit cfg st f with
  | (st', .error e) => (st', .error e)
  | (st', .ok ()) => (st', do
      let tree ← partitionTree cfg st' f onlyImportant scales
      match tree with
      | none => return none
      | some t => do
        let nodes ← showFullTree t (maxLevel t)
        let levels ← showLevelStats np t
        return some { nodes := nodes, levels := levels })

/-! ## Heterogeneity of a region for RegionalShapDP -/

/-- regional_effect_shap.py:78-92: heterogeneity of a region for SHAP: the mean over ten points of the fitted spread.  Nothing is
caught: an exception of the explainer, of the spline or of `eval` ends the search. -/
def shapHeter (choice : ℕ → ℕ → List ℕ) (ext : ShapExt K D) (foi : Fin D) (minPoints : ℕ) (centering : PyVal) (nof : PyVal)
    (points : ℕ) (data : List (Row K D)) : Py K :=
  if data.length < minPoints then .ok BIG_M
  else do
    let mn ← listMin (col data foi)
    let mx ← listMax (col data foi)
    let b ← shapInit choice data nof none
    let cfg : ShapCfg K D := { ext := ext, axisLo := b.axisLo, axisHi := b.axisHi }
    let (st, r) := shapFit cfg (ShapState.init b.data) (.int (foi : ℕ)) centering points
    r
    match (shapEval cfg st foi (linspace mn mx 10) true (.bool false)).2 with
    | .ok (_, some z) => return mean z
    | .ok (_, none) => .error .typeError
    | .error e => .error e

end Effector
