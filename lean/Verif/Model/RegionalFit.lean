import Verif.Model.Regional
import Verif.Model.SearchM

/-!
# The five regional classes: `fit` with its own heterogeneity function

`Model/Regional.lean` takes the heterogeneity function of a fit as an argument (`FitArgs.heter`, a total function).  Here are the `fit` methods of
`RegionalRHALE`, `RegionalALE`, `RegionalPDP`, `RegionalDerPDP` and `RegionalShapDP`, which build that function from their keyword arguments, run the search with
it (it may raise), and loop over the features.
-/

namespace Effector

variable {K : Type} [Field K] [LinearOrder K] {D : ℕ}

/-- The keyword arguments of the five `fit` methods except `features` (regional_effect_ale.py:85-102, 235-247, regional_effect_pdp.py:65-79,
regional_effect_shap.py:94-106); a method ignores those it does not have. -/
structure FitKw (K : Type) (D : ℕ) where
  dropThres : K
  smallEnough : K
  maxDepth : ℕ
  nofCandidates : ℕ
  minPoints : ℕ
  /-- `candidate_conditioning_features`: `none` for "all" -/
  foc : Option (List (Fin D))
  splitCat : Bool
  /-- `binning_method` of RegionalRHALE and RegionalALE -/
  bin : BinMethod K
  centering : PyVal
  /-- `nof_instances` of `RegionalPDP.fit` and `RegionalDerPDP.fit` -/
  nof : PyVal
  /-- `points_for_centering` -/
  points : ℕ
  /-- `use_vectorized` -/
  vec : Bool

/-- The default arguments: regional_effect_ale.py:88-101 (RHALE), 238-246 (ALE), regional_effect_pdp.py:68-78, regional_effect_shap.py:97-105. -/
def FitKw.default (methodName : String) : FitKw K D :=
  { dropThres := 1 / 10, smallEnough := 1 / 10, maxDepth := 1, nofCandidates := 20, minPoints := 10, foc := none, splitCat := false,
    bin := if methodName = "ale" then .fixed 20 (some 0) 15 else .str "greedy", centering := .bool false, nof := .str "all", points := 100, vec := true }

/-- A regional object: what `RegionalCfg` records, and `self.axis_limits` (regional_effect.py:49-53). -/
structure RegionalObj (K : Type) (D : ℕ) where
  cfg : RegionalCfg K D
  axisLo : Fin D → K
  axisHi : Fin D → K

/-- `_create_heterogeneity_function` of the five classes (regional_effect_ale.py:64-83, 215-233, regional_effect_pdp.py:38-63, regional_effect_shap.py:78-92);
`prep_binning_method` runs when the function is created.  `self.nof_instances` is the number of rows kept. -/
def regionalHeter [PySqrt K] (o : RegionalObj K D) (kw : FitKw K D) (f : Fin D) : Py (HeterM K D) :=
  let bb := o.cfg.bb
  if o.cfg.methodName = "rhale" then do
    let bm ← prepBinningMethod kw.bin
    return aleHeter (mkRhale bb.choice bb.model bb.jac) f bm kw.minPoints kw.centering
  else if o.cfg.methodName = "ale" then do
    let bm ← prepBinningMethod kw.bin
    return aleHeter (mkAle bb.choice bb.cast bb.model) f bm kw.minPoints kw.centering
  else if o.cfg.methodName = "shap" then
    return fun x _ => shapHeter bb.choice bb.ext f kw.minPoints kw.centering (.int o.cfg.data.length) kw.points x
  else if o.cfg.methodName = "pdp" then
    return fun x _ => pdpHeter bb.choice bb.cast (.pdp bb.model) o.axisLo o.axisHi f kw.minPoints kw.centering kw.nof kw.points kw.vec x
  else
    return fun x _ => pdpHeter bb.choice bb.cast (match bb.jac with
      | some j => .derJac j
      | none => .derNum bb.model) o.axisLo o.axisHi f kw.minPoints kw.centering kw.nof kw.points kw.vec x

/-- The values of a heterogeneity function, 0 where it raises (the search never uses that 0: `searchAllSplitsM_ok`). -/
def heterValues (h : HeterM K D) : List (Row K D) → Option (List (Row K D)) → K := fun x e =>
  match h x e with
  | .ok v => v
  | .error _ => 0

/-- The arguments of a fit, as `Model/Regional.lean` has them. -/
def FitKw.toArgs [PySqrt K] (o : RegionalObj K D) (kw : FitKw K D) : FitArgs K D :=
  { heter := fun f => match regionalHeter o kw f with
      | .ok h => heterValues h
      | .error _ => fun _ _ => 0
    dropThres := kw.dropThres, smallEnough := kw.smallEnough, maxDepth := kw.maxDepth, nofCandidates := kw.nofCandidates, minPoints := kw.minPoints,
    foc := kw.foc, splitCat := kw.splitCat, bin := kw.bin }

/-- The body of the loop over the features (regional_effect_ale.py:119-145, 266-293, regional_effect_pdp.py:96-109, regional_effect_shap.py:126-153) with
`_fit_feature` (regional_effect.py:88-132). -/
def regionalFitOne [PySqrt K] (o : RegionalObj K D) (kw : FitKw K D) (st : RegionalState K D) (f : Fin D) : RegionalState K D × Py Unit :=
  match (do let h ← regionalHeter o kw f
            let r := regionsOf o.cfg (kw.toArgs o) f
            let sp ← searchAllSplitsM r h
            let full ← splitsToTree r (posTextOf o.cfg.fmt none) sp false
            let pruned ← splitsToTree r (posTextOf o.cfg.fmt none) sp true
            return (r, sp, full, pruned)) with
  | .error e => (st, .error e)
  | .ok (r, sp, full, pruned) =>
    ({ st with
        treeFull := Function.update st.treeFull f (some full)
        treePruned := Function.update st.treePruned f (some pruned)
        splits := Function.update st.splits f (some (r, sp))
        fitted := Function.update st.fitted f true
        methodBin := Function.update st.methodBin f (some kw.bin) }, .ok ())

/-- The loop over the features; the first exception ends it. -/
def regionalFitLoop [PySqrt K] (o : RegionalObj K D) (kw : FitKw K D) : RegionalState K D → List (Fin D) → RegionalState K D × Py Unit
  | st, [] => (st, .ok ())
  | st, f :: t =>
    match regionalFitOne o kw st f with
    | (st', .ok ()) => regionalFitLoop o kw st' t
    | (st', .error e) => (st', .error e)

/-- `fit` of the five classes (regional_effect_ale.py:117-145, 264-293, regional_effect_pdp.py:94-109, regional_effect_shap.py:124-153).  (An out-of-range index
in the middle of the list is reported before the loop starts instead of when it is reached; see `resolveFeatures`.) -/
def regionalFit [PySqrt K] (o : RegionalObj K D) (st : RegionalState K D) (features : PyVal) (kw : FitKw K D) : RegionalState K D × Py Unit :=
  if kw.minPoints < 2 then (st, .error .assertionError)
  else
    match (do let l ← prepFeatures features D
              resolveFeatures D l) with
    | .error e => (st, .error e)
    | .ok l => regionalFitLoop o kw st l

/-- regional_effect.py:134-136 `refit`: `self.fit(feature)`, all other arguments at their defaults. -/
def regionalRefitM [PySqrt K] (o : RegionalObj K D) (st : RegionalState K D) (f : Fin D) : RegionalState K D × Py Unit :=
  if st.fitted f then (st, .ok ()) else regionalFit o st (.int (f : ℕ)) (FitKw.default o.cfg.methodName)

/-- regional_effect.py:173-200 `eval`: `refit`, then as in `regionalEval` (whose own `refit` finds the feature fitted). -/
def regionalEvalM [PySqrt K] (o : RegionalObj K D) (st : RegionalState K D) (f : Fin D) (nodeIdx : ℕ) (xs : List K) (het : Bool) (centering : PyVal) :
    RegionalState K D × Py (EvalOut K) :=
  match regionalRefitM o st f with
  | (st', .error e) => (st', .error e)
  | (st', .ok ()) => regionalEval o.cfg st' f nodeIdx xs het centering

/-- regional_effect.py:214-218 (and the ALE classes): the part of `plot` that changes the state, after `refit`. -/
def regionalPlotM [PySqrt K] (o : RegionalObj K D) (st : RegionalState K D) (f : Fin D) (scales : Option (Fin D → Scale K)) : RegionalState K D × Py Unit :=
  match regionalRefitM o st f with
  | (st', .error e) => (st', .error e)
  | (st', .ok ()) => regionalPlotPrep o.cfg st' f scales

/-- Arguments that are not used (they stand in `RegionalCfg.defaultArgs` until the object exists). -/
def FitArgs.blank : FitArgs K D :=
  { heter := fun _ _ _ => 0, dropThres := 0, smallEnough := 0, maxDepth := 0, nofCandidates := 0, minPoints := 0, foc := none, splitCat := false, bin := .str "" }

/-- The constructors (regional_effect.py:20-86 with the subclasses' arguments; RegionalRHALE computes the effects of the whole data set if they are not given,
regional_effect_ale.py:43-47; the other classes have none). -/
def regionalNew [PySqrt K] (bb : BlackBoxes K D) (methodName : String) (data : List (Row K D)) (given : Option (List (Row K D))) (nof : PyVal)
    (axisLimits : Option ((Fin D → K) × (Fin D → K))) (types : Option (Fin D → FeatType)) (catLimit : ℕ) (names : Option (Fin D → String))
    (fmt : K → String) : Py (RegionalObj K D) := do
  let eff := if methodName = "rhale" then some (regionalRhaleEffects bb given data) else none
  let cfg ← regionalInit bb methodName data eff nof axisLimits types catLimit names FitArgs.blank fmt
  let (lo, hi) ← match axisLimits with
    | some l => .ok l
    | none => axisLimitsAll data
  let o : RegionalObj K D := { cfg := cfg, axisLo := lo, axisHi := hi }
  return { o with cfg := { cfg with defaultArgs := (FitKw.default methodName).toArgs o } }

/-- Public calls on a regional object that touch its state. -/
inductive RegCall (K : Type) (D : ℕ)
  | fit (features : PyVal) (kw : FitKw K D)
  | eval (f : Fin D) (nodeIdx : ℕ) (xs : List K) (het : Bool) (centering : PyVal)
  | plot (f : Fin D) (scales : Option (Fin D → Scale K))

/-- One public call, result forgotten. -/
def regStepM [PySqrt K] (o : RegionalObj K D) (st : RegionalState K D) : RegCall K D → RegionalState K D
  | .fit features kw => (regionalFit o st features kw).1
  | .eval f n xs het c => (regionalEvalM o st f n xs het c).1
  | .plot f sc => (regionalPlotM o st f sc).1

/-- A history of calls on a fresh object. -/
def regRunM [PySqrt K] (o : RegionalObj K D) (calls : List (RegCall K D)) : RegionalState K D := calls.foldl (regStepM o) RegionalState.init

end Effector
