import Verif.Model.Shap
import Verif.Model.Partitioning

/-!
# Model of effector/regional_effect.py, regional_effect_ale.py, regional_effect_pdp.py, regional_effect_shap.py
-/

namespace Effector

variable {K : Type} [Field K] [LinearOrder K] {D : ℕ}

/-- The result of a global effect's `eval`: mean effect and, if asked for, heterogeneity. -/
abbrev EvalOut (K : Type) := List K × Option (List K)

/-- `PdpOut` as the pair returned by `eval` (`return_all=False`). -/
def PdpOut.toPair : PdpOut K → Py (EvalOut K)
  | .meanOnly m => .ok (m, none)
  | .meanStd m s => .ok (m, some s)
  | _ => .error .typeError

/-- A one-shot use of a global method: construct the object with the given keyword arguments, call `eval` once. -/
abbrev OneShot (K : Type) (D : ℕ) :=
  List (Row K D) → Option (List (Row K D)) → Fin D → List K → Bool → PyVal → Py (EvalOut K)

/-- `ALE(data, model).eval(feature, xs, heterogeneity, centering)`. -/
def aleOnce [PySqrt K] (choice : ℕ → ℕ → List ℕ) (cast : K → K) (model : List (Row K D) → List K) : OneShot K D :=
  fun data _ s xs het c => do
    let b ← Base.init choice data (.str "all") none
    (aleEval (aleCfg cast model b) AleState.init s xs het c).2

/-- `RHALE(data, model, model_jac, data_effect=data_effect).eval(...)`. -/
def rhaleOnce [PySqrt K] (choice : ℕ → ℕ → List ℕ) (model : List (Row K D) → List K)
    (jac : Option (List (Row K D) → List (Row K D))) : OneShot K D :=
  fun data eff s xs het c => do
    let (cfg, _) ← rhaleInit choice model jac data eff (.str "all") none
    (aleEval cfg AleState.init s xs het c).2

/-- `PDP(data, model).eval(...)` / `DerPDP(data, model, model_jac).eval(...)`: default `nof_instances=300`. -/
def pdpOnce [PySqrt K] (choice : ℕ → ℕ → List ℕ) (cast : K → K) (kind : PdpKind K D) : OneShot K D :=
  fun data _ s xs het c => do
    let b ← Base.init choice data (.int 300) none
    let out ← (pdpEval { cast := cast, kind := kind, axisLo := b.axisLo, axisHi := b.axisHi }
      (PdpState.init b.data) s xs het c false true).2
    out.toPair

/-- `ShapDP(data, model).eval(...)`: default `nof_instances=100`. -/
def shapOnce (choice : ℕ → ℕ → List ℕ) (ext : ShapExt K D) : OneShot K D :=
  fun data _ s xs het c => do
    let b ← shapInit choice data (.int 100) none
    (shapEval { ext := ext, axisLo := b.axisLo, axisHi := b.axisHi } (ShapState.init b.data) s xs het c).2

/-- What the black-box side of a regional object consists of. -/
structure BlackBoxes (K : Type) (D : ℕ) where
  cast : K → K
  model : List (Row K D) → List K
  jac : Option (List (Row K D) → List (Row K D))
  ext : ShapExt K D
  choice : ℕ → ℕ → List ℕ

/-- effector/regional_effect.py:159-171 `_create_fe_object` followed by `.eval`; the method names are the lower-case
names passed by the subclasses. -/
def createAndEval [PySqrt K] (bb : BlackBoxes K D) (methodName : String) : OneShot K D :=
  if methodName = "rhale" then rhaleOnce bb.choice bb.model bb.jac
  else if methodName = "ale" then aleOnce bb.choice bb.cast bb.model
  else if methodName = "shap" then shapOnce bb.choice bb.ext
  else if methodName = "pdp" then pdpOnce bb.choice bb.cast (.pdp bb.model)
  else if methodName = "d-pdp" then pdpOnce bb.choice bb.cast (match bb.jac with
    | some j => .derJac j
    | none => .derNum bb.model)
  else fun _ _ _ _ _ _ => .error .notImplementedError

/-! ## The state of a regional object -/

/-- Arguments of `fit` that matter for the partition (regional_effect.py:88-99), and the binning method that
`RegionalRHALE.fit` / `RegionalALE.fit` store in `method_args` (regional_effect_ale.py:136-145, 283-293). -/
structure FitArgs (K : Type) (D : ℕ) where
  heter : Fin D → List (Row K D) → Option (List (Row K D)) → K
  dropThres : K
  smallEnough : K
  maxDepth : ℕ
  nofCandidates : ℕ
  minPoints : ℕ
  /-- `candidate_conditioning_features`: `none` for "all" -/
  foc : Option (List (Fin D))
  splitCat : Bool
  bin : BinMethod K

/-- What never changes in a regional object (regional_effect.py:20-73). -/
structure RegionalCfg (K : Type) (D : ℕ) where
  bb : BlackBoxes K D
  methodName : String
  data : List (Row K D)
  instanceEffects : Option (List (Row K D))
  types : Fin D → FeatType
  names : Fin D → String
  catLimit : ℕ
  /-- the defaults used by `refit` -/
  defaultArgs : FitArgs K D
  /-- `"{}".format(x.round(2))` -/
  fmt : K → String

/-- The mutable state (regional_effect.py:75-86): trees are `none` before fitting, `some none` when no splits. -/
structure RegionalState (K : Type) (D : ℕ) where
  fitted : Fin D → Bool
  splits : Fin D → Option (RegCfg K D × Option (Splits K D))
  treeFull : Fin D → Option (Option (List (Node K D)))
  treePruned : Fin D → Option (Option (List (Node K D)))
  treeFullScaled : Fin D → Option (Option (List (Node K D)))
  treePrunedScaled : Fin D → Option (Option (List (Node K D)))
  /-- `method_args["feature_f"]["binning_method"]` -/
  methodBin : Fin D → Option (BinMethod K)

/-- A fresh object. -/
def RegionalState.init : RegionalState K D :=
  { fitted := fun _ => false, splits := fun _ => none, treeFull := fun _ => none, treePruned := fun _ => none,
    treeFullScaled := fun _ => none, treePrunedScaled := fun _ => none, methodBin := fun _ => none }

/-- regional_effect.py:20-73 `RegionalEffectBase.__init__`: sub-sampling of the data and, with the same indices, of
the effects; the feature types are those of the whole data set. -/
def regionalInit (bb : BlackBoxes K D) (methodName : String) (data : List (Row K D)) (dataEffect : Option (List (Row K D)))
    (nof : PyVal) (axisLimits : Option ((Fin D → K) × (Fin D → K))) (types : Option (Fin D → FeatType)) (catLimit : ℕ)
    (names : Option (Fin D → String)) (defaultArgs : FitArgs K D) (fmt : K → String) : Py (RegionalCfg K D) := do
  let (_, idx) ← prepNofInstances bb.choice nof data.length
  let data' ← takeRows data idx
  let eff' ← match dataEffect with
    | some e => (takeRows e idx).map some
    | none => .ok none
  let _ ← match axisLimits with
    | some l => .ok l
    | none => axisLimitsAll data
  return { bb := bb, methodName := methodName, data := data', instanceEffects := eff',
           types := types.getD (getFeatureTypes data catLimit),
           names := names.getD (fun f => "x_" ++ toString (f : ℕ)), catLimit := catLimit,
           defaultArgs := defaultArgs, fmt := fmt }

/-- regional_effect_ale.py:43-47: the effects `RegionalRHALE.__init__` hands to the base constructor. -/
def regionalRhaleEffects (bb : BlackBoxes K D) (given : Option (List (Row K D))) (data : List (Row K D)) : List (Row K D) :=
  rhaleEffects bb.model bb.jac given data

/-- regional_effect.py:104-120: the `Regions` object for a feature. -/
def regionsOf (cfg : RegionalCfg K D) (a : FitArgs K D) (f : Fin D) : RegCfg K D :=
  { feature := f, heter := a.heter f, data := cfg.data, dataEffect := cfg.instanceEffects, types := cfg.types,
    names := cfg.names, catLimit := cfg.catLimit, foc := a.foc.getD (focAll f), minPoints := a.minPoints,
    nofSplits := a.nofCandidates, maxLevels := a.maxDepth, dropThres := a.dropThres, smallEnough := a.smallEnough,
    splitCat := a.splitCat }

/-- regional_effect.py:88-132 `_fit_feature`, and the `method_args` entry written after it by the ALE classes.  An
exception in the search leaves the object unchanged.  (An exception in the second `splits_to_tree` would leave
`tree_full` changed; none is possible there, `C43_trees_exist`.) -/
def regionalFitFeature (cfg : RegionalCfg K D) (st : RegionalState K D) (a : FitArgs K D) (f : Fin D) :
    RegionalState K D × Py Unit :=
  match (do let r := regionsOf cfg a f
            let sp ← searchAllSplits r
            let full ← splitsToTree r (posTextOf cfg.fmt none) sp false
            let pruned ← splitsToTree r (posTextOf cfg.fmt none) sp true
            return (r, sp, full, pruned)) with
  | .error e => (st, .error e)
  | .ok (r, sp, full, pruned) =>
    ({ st with
        treeFull := Function.update st.treeFull f (some full)
        treePruned := Function.update st.treePruned f (some pruned)
        splits := Function.update st.splits f (some (r, sp))
        fitted := Function.update st.fitted f true
        methodBin := Function.update st.methodBin f (some a.bin) }, .ok ())

/-- regional_effect.py:134-136 `refit`. -/
def regionalRefit (cfg : RegionalCfg K D) (st : RegionalState K D) (f : Fin D) : RegionalState K D × Py Unit :=
  if st.fitted f then (st, .ok ()) else regionalFitFeature cfg st cfg.defaultArgs f

/-- regional_effect.py:138-157 `get_node_info`: the scaled tree, once present, is preferred. -/
def getNodeInfo (st : RegionalState K D) (f : Fin D) (nodeIdx : ℕ) : Py (Node K D) := do
  pyAssert (st.fitted f)
  match st.treePruned f with
  | some (some pruned) =>
    let tree ← match st.treePrunedScaled f with
      | some (some t) => .ok t
      | some none => .error .attributeError
      | none => .ok pruned
    match tree.find? (fun n => n.idx == nodeIdx) with
    | some n => .ok n
    | none => .error .assertionError
  | _ => .error .assertionError

/-- regional_effect.py:173-200 `eval`. -/
def regionalEval [PySqrt K] (cfg : RegionalCfg K D) (st : RegionalState K D) (f : Fin D) (nodeIdx : ℕ) (xs : List K)
    (het : Bool) (centering : PyVal) : RegionalState K D × Py (EvalOut K) :=
  match regionalRefit cfg st f with
  | (st', .error e) => (st', .error e)
  | (st', .ok ()) => (st', do
      let c ← prepCentering centering
      let n ← getNodeInfo st' f nodeIdx
      createAndEval cfg.bb cfg.methodName n.rows n.effects f xs het c.toVal)

/-- regional_effect.py:214-218, regional_effect_ale.py:158-162, 306-310: the part of `plot` that changes the state
(scaled trees). -/
def regionalPlotPrep (cfg : RegionalCfg K D) (st : RegionalState K D) (f : Fin D)
    (scales : Option (Fin D → Scale K)) : RegionalState K D × Py Unit :=
  match regionalRefit cfg st f with
  | (st', .error e) => (st', .error e)
  | (st', .ok ()) =>
    match scales with
    | none => (st', .ok ())
    | some sc =>
      match st'.splits f with
      | none => (st', .error .keyError)
      | some (r, sp) =>
        match splitsToTree r (posTextOf cfg.fmt (some sc)) sp false, splitsToTree r (posTextOf cfg.fmt (some sc)) sp true with
        | .ok full, .ok pruned =>
          ({ st' with
              treeFullScaled := Function.update st'.treeFullScaled f (some full)
              treePrunedScaled := Function.update st'.treePrunedScaled f (some pruned) }, .ok ())
        | .error e, _ => (st', .error e)
        | _, .error e => (st', .error e)

/-- Public operations of a regional object that touch its state. -/
inductive RegionalOp (K : Type) (D : ℕ)
  | fit (a : FitArgs K D) (f : Fin D)
  | eval (f : Fin D) (nodeIdx : ℕ) (xs : List K) (het : Bool) (centering : PyVal)
  | plot (f : Fin D) (scales : Option (Fin D → Scale K))

/-- One public call, result forgotten.  `fit` on several features is a sequence of single-feature fits; the assertion
`min_points_per_subregion >= 2` comes first (regional_effect_ale.py:117, 264, regional_effect_pdp.py:94, regional_effect_shap.py:124). -/
def regionalStep [PySqrt K] (cfg : RegionalCfg K D) (st : RegionalState K D) : RegionalOp K D → RegionalState K D
  | .fit a f => if a.minPoints < 2 then st else (regionalFitFeature cfg st a f).1
  | .eval f n xs het c => (regionalEval cfg st f n xs het c).1
  | .plot f sc => (regionalPlotPrep cfg st f sc).1

/-- A history of calls on a fresh object. -/
def regionalRun [PySqrt K] (cfg : RegionalCfg K D) (ops : List (RegionalOp K D)) : RegionalState K D :=
  ops.foldl (regionalStep cfg) RegionalState.init

/-! ## Heterogeneity functions -/

/-- regional_effect_ale.py:325-335 `prep_binning_method`. -/
def prepBinningMethod : BinMethod K → Py (BinMethod K)
  | .str s =>
    if s = "greedy" then .ok (.greedy 100 (some 10) (3 / 10) 15)
    else if s = "dp" then .ok (.dp 20 (some 10) (3 / 10) 15)
    else if s = "fixed" then .ok (.fixed 100 (some 10) 15)
    else .error .assertionError
  | b => .ok b

/-- regional_effect_ale.py:67-81, 219-233: heterogeneity of a region for ALE/RHALE: the accumulated std at the largest
value; `BIG_M` when there are too few points or `fit` raises.  `mk` constructs the object on the region's rows. -/
def aleHeter [PySqrt K] (mk : List (Row K D) → Option (List (Row K D)) → Py (AleCfg K D)) (foi : Fin D)
    (bm : BinMethod K) (minPoints : ℕ) (centering : PyVal) (data : List (Row K D))
    (eff : Option (List (Row K D))) : Py K :=
  if data.length < minPoints then .ok BIG_M
  else do
    let cfg ← mk data eff
    match aleFit cfg AleState.init (.int (foi : ℕ)) bm centering with
    | (_, .error _) => return BIG_M
    | (st, .ok ()) => do
      let stop ← listMax (col data foi)
      let (_, z) ← (aleEval cfg st foi [stop] true (.bool false)).2
      match z with
      | some z => pyIndex z 0
      | none => .error .typeError

/-- regional_effect_ale.py:71 `RHALE(data, self.model, self.model_jac, "all", None, instance_effects)`. -/
def mkRhale (choice : ℕ → ℕ → List ℕ) (model : List (Row K D) → List K)
    (jac : Option (List (Row K D) → List (Row K D))) (data : List (Row K D)) (eff : Option (List (Row K D))) :
    Py (AleCfg K D) := do
  let (cfg, _) ← rhaleInit choice model jac data eff (.str "all") none
  return cfg

/-- regional_effect_ale.py:223 `ALE(data, self.model, "all", None, instance_effects)`. -/
def mkAle (choice : ℕ → ℕ → List ℕ) (cast : K → K) (model : List (Row K D) → List K) (data : List (Row K D))
    (_eff : Option (List (Row K D))) : Py (AleCfg K D) := do
  let b ← Base.init choice data (.str "all") none
  return aleCfg cast model b

/-- regional_effect_ale.py:147-174 `RegionalRHALE.plot` and 295-322 `RegionalALE.plot`, up to the drawing: the object that
is fitted and plotted is an `RHALE` in both classes.  `self.nof_instances` is the number of rows kept. -/
def regionalAlePlot [PySqrt K] (cfg : RegionalCfg K D) (st : RegionalState K D) (f : Fin D) (nodeIdx : ℕ)
    (centering : PyVal) (scales : Option (Fin D → Scale K)) : RegionalState K D × Py (List K × List K × Option (List K)) :=
  match regionalPlotPrep cfg st f scales with
  | (st', .error e) => (st', .error e)
  | (st', .ok ()) => (st', do
      let n ← getNodeInfo st' f nodeIdx
      let bin ← match st'.methodBin f with
        | some b => .ok b
        | none => .error .keyError
      let (c, _) ← rhaleInit cfg.bb.choice cfg.bb.model cfg.bb.jac n.rows n.effects (.int cfg.data.length) none
      let bm ← prepBinningMethod bin
      match aleFit c AleState.init (.int (f : ℕ)) bm centering with
      | (_, .error e) => .error e
      | (s1, .ok ()) => (alePlot c s1 f centering).2)

/-- regional_effect_pdp.py:38-63: heterogeneity of a region for PDP/d-PDP: the mean over ten points of the std of the
(uncentred, `eval` is called without centring) ICE curves. -/
def pdpHeter [PySqrt K] (choice : ℕ → ℕ → List ℕ) (cast : K → K) (kind : PdpKind K D) (lo hi : Fin D → K)
    (foi : Fin D) (minPoints : ℕ) (centering : PyVal) (nof : PyVal) (points : ℕ) (vec : Bool)
    (data : List (Row K D)) : Py K :=
  if data.length < minPoints then .ok BIG_M
  else do
    let b ← Base.init choice data nof (some (lo, hi))
    let cfg : PdpCfg K D := { cast := cast, kind := kind, axisLo := b.axisLo, axisHi := b.axisHi }
    match pdpFit cfg (PdpState.init b.data) (.int (foi : ℕ)) centering points vec with
    | (_, .error _) => return BIG_M
    | (st, .ok ()) => do
      let mn ← listMin (col data foi)
      let mx ← listMax (col data foi)
      match (pdpEval cfg st foi (linspace mn mx 10) true (.bool false) false vec).2 with
      | .ok (.meanStd _ z) => return mean z
      | _ => return BIG_M

end Effector
