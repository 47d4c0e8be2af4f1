import Verif.Model.Missing
import Verif.Model.SearchM
import Verif.Model.NanOutput

/-!
# The search of effector/partitioning.py on data with missing values

An entry of the data may be NaN (`none`).  The heterogeneity of a region is a number, or the call raises; the instance effects are numbers.
-/

namespace Effector

variable {K : Type} [Field K] [LinearOrder K] {D : ℕ}

/-- `heter_func` on data with missing values. -/
abbrev HeterMiss (K : Type) (D : ℕ) := List (MRow K D) → Option (List (Row K D)) → Py K

/-- The arguments of `Regions` (partitioning.py:12-73); the feature names are left out. -/
structure MRegCfg (K : Type) (D : ℕ) where
  feature : Fin D
  data : List (MRow K D)
  dataEffect : Option (List (Row K D))
  types : Fin D → FeatType
  catLimit : ℕ
  /-- the conditioning features, `self.foc` -/
  foc : List (Fin D)
  minPoints : ℕ
  nofSplits : ℕ
  maxLevels : ℕ
  dropThres : K
  smallEnough : K
  splitCat : Bool

/-- One entry of `self.splits[1:]` (partitioning.py:253-266). -/
structure MSplit (K : Type) (D : ℕ) where
  feature : Fin D
  position : Option K
  range : Option K × Option K
  candidates : List (Option K)
  nofInstances : List ℕ
  typ : FeatType
  heterogeneity : List K
  splitI : ℕ
  splitJ : ℕ
  wHeterDrop : K
  wHeter : K

/-- `self.splits`: the root entry and the levels found. -/
structure MSplits (K : Type) (D : ℕ) where
  heterInit : K
  nofInit : ℕ
  levels : List (MSplit K D)

/-- `np.unique` (partitioning.py:327-328 `find_positions_cat`): the distinct numbers in increasing order, then one NaN if there is any (numpy 1.21 and later). -/
def mUnique (l : List (Option K)) : List (Option K) := (npUnique (known l)).map some ++ if none ∈ l then [none] else []

/-- partitioning.py:310-325 `split_dataset` with `x_jac` given. -/
def mSplitEff {α : Type} (x : List (MRow K D)) (jac : List α) (f : Fin D) (pos : Option K) (typ : FeatType) : List α × List α :=
  (((x.zip jac).filter fun p => mGoesFirst typ pos (p.1 f)).map (·.2), ((x.zip jac).filter fun p => mGoesSecond typ pos (p.1 f)).map (·.2))

/-- `self.flatten_list([self.split_dataset(x, None, ...) for x in x_list])` (partitioning.py:131-133, 334-335). -/
def mSplitAll (xs : List (List (MRow K D))) (f : Fin D) (pos : Option K) (typ : FeatType) : List (List (MRow K D)) :=
  xs.flatMap fun x => [(mSplitRows x f pos typ).1, (mSplitRows x f pos typ).2]

/-- `self.flatten_list([self.split_dataset(x, x_jac, ...) for x, x_jac in zip(x_list, x_jac_list)])`. -/
def mSplitAllEff (xs : List (List (MRow K D))) (js : List (List (Row K D))) (f : Fin D) (pos : Option K) (typ : FeatType) : List (List (Row K D)) :=
  (xs.zip js).flatMap fun p => [(mSplitEff p.1 p.2 f pos typ).1, (mSplitEff p.1 p.2 f pos typ).2]

/-- `weights` (partitioning.py:213-216). -/
def mSplitWeights (xs : List (List (MRow K D))) : List K :=
  xs.map fun x => ((x.length : K) + 1) / (xs.map fun x => (x.length : K) + 1).sum

/-- partitioning.py:166-173: the candidates of each conditioning feature. -/
def mCandidatePositions (cfg : MRegCfg K D) : Py (List (List (Option K))) :=
  cfg.foc.mapM fun f => match cfg.types f with
    | .cat => .ok (mUnique (mcol cfg.data f))
    | .cont => mFindPositionsCont cfg.data f cfg.nofSplits

/-- partitioning.py:193-199, 239-251. -/
def mHeters (h : HeterMiss K D) (xs : List (List (MRow K D))) (js : Option (List (List (Row K D)))) : Py (List K) :=
  match js with
  | none => xs.mapM fun x => h x none
  | some js => (xs.zip js).mapM fun p => h p.1 (some p.2)

/-- partitioning.py:177-220: (weighted_heter_drop, weighted_heter) of one candidate. -/
def mEvalCandidate (h : HeterMiss K D) (xs : List (List (MRow K D))) (js : Option (List (List (Row K D))))
    (before : List K) (f : Fin D) (pos : Option K) (typ : FeatType) : Py (K × K) := do
  let xs2 := mSplitAll xs f pos typ
  let sub ← mHeters h xs2 (js.map fun js => mSplitAllEff xs js f pos typ)
  let w := mSplitWeights xs2
  return ((List.zipWith (· * ·) (heterDrops before sub) w).sum, (List.zipWith (· * ·) w sub).sum)

/-- partitioning.py:175-220: the matrix row of one conditioning feature. -/
def mMatrixRow (h : HeterMiss K D) (w : ℕ) (xs : List (List (MRow K D))) (js : Option (List (List (Row K D)))) (before : List K) (f : Fin D) (typ : FeatType)
    (positions : List (Option K)) : Py (List K) := do
  let vals ← positions.mapM fun pos => mEvalCandidate h xs js before f pos typ
  padRow w (vals.map (·.1))

/-- partitioning.py:141-267 `single_level_splits`.  `np.min` / `np.max` of an empty data set raise before (`find_positions`). -/
def mSingleLevelSplits (cfg : MRegCfg K D) (h : HeterMiss K D) (xs : List (List (MRow K D))) (js : Option (List (List (Row K D))))
    (before : List K) : Py (MSplit K D) := do
  let cands ← mCandidatePositions cfg
  let w := max cfg.nofSplits cfg.catLimit
  let rows ← (cfg.foc.zip cands).mapM fun p => mMatrixRow h w xs js before p.1 (cfg.types p.1) p.2
  let flat := rows.flatten
  if flat = [] then .error .valueError
  else do
    let a := npArgmax flat
    let i := a / w
    let j := a % w
    let f ← pyIndex cfg.foc i
    let ps ← pyIndex cands i
    let pos ← pyIndex ps j
    let xs2 := mSplitAll xs f pos (cfg.types f)
    let sub ← mHeters h xs2 (js.map fun js => mSplitAllEff xs js f pos (cfg.types f))
    let e ← mEvalCandidate h xs js before f pos (cfg.types f)
    return { feature := f, position := pos, range := (npMin (mcol cfg.data f), npMax (mcol cfg.data f)), candidates := ps,
             nofInstances := xs2.map List.length, typ := cfg.types f, heterogeneity := sub,
             splitI := i, splitJ := j, wHeterDrop := e.1, wHeter := e.2 }

/-- partitioning.py:109-135: the loop over the levels, `n` levels to go. -/
def mSearchLoop (cfg : MRegCfg K D) (h : HeterMiss K D) : ℕ → List (List (MRow K D)) → Option (List (List (Row K D))) → List K →
    Py (List (MSplit K D))
  | 0, _, _, _ => .ok []
  | n + 1, xs, js, before =>
    if xs.any (fun x => decide (x.length < cfg.minPoints)) then .ok []
    else do
      let sp ← mSingleLevelSplits cfg h xs js before
      let js' := js.map fun js => mSplitAllEff xs js sp.feature sp.position sp.typ
      let xs' := mSplitAll xs sp.feature sp.position sp.typ
      let rest ← mSearchLoop cfg h n xs' js' sp.heterogeneity
      return sp :: rest

/-- partitioning.py:75-139 `search_all_splits`. -/
def mSearchAllSplits (cfg : MRegCfg K D) (h : HeterMiss K D) : Py (Option (MSplits K D)) :=
  if cfg.types cfg.feature = .cat ∧ cfg.splitCat = false then .ok none
  else if cfg.foc.length < cfg.maxLevels then .error .assertionError
  else do
    let h0 ← h cfg.data cfg.dataEffect
    let levels ← mSearchLoop cfg h cfg.maxLevels [cfg.data] (cfg.dataEffect.map fun e => [e]) [h0]
    return if levels = [] then none
      else some { heterInit := h0, nofInit := cfg.data.length, levels := levels }

/-- partitioning.py:269-308 `choose_important_splits`. -/
def mChooseImportantSplits (cfg : MRegCfg K D) (splits : Option (MSplits K D)) : List (MSplit K D) :=
  match splits with
  | none => []
  | some s =>
    if s.heterInit = BIG_M then []
    else if s.heterInit < cfg.smallEnough then []
    else
      let valid := splitValid cfg.dropThres (s.heterInit :: s.levels.map (·.wHeter))
      if valid.count true = 0 then []
      else if valid.count true = valid.length then s.levels
      else
        let firstNeg := valid.idxOf false
        if firstNeg = 0 then [] else s.levels.take firstNeg

/-- regional_effect_pdp.py:38-63 `_create_heterogeneity_function`, on a region with missing values; `lo`, `hi` are `self.axis_limits`.  The call of `pdp.eval` (line 59) is without centring and after `fit`,
so it does not refit: global_effect_pdp.py:168-189 reduces to the assertion, the predictions and the standard deviations. -/
def mPdpHeter [PySqrt K] (choice : ℕ → ℕ → List ℕ) (cast : K → K) (kind : MPdpKind K D) (lo hi : Fin D → Option K) (foi : Fin D) (minPoints : ℕ) (centering : PyVal) (nof : PyVal)
    (points : ℕ) (vec : Bool) (data : List (MRow K D)) : Py (Option K) :=
  if data.length < minPoints then .ok (some BIG_M)
  else do
    let (_, idx) ← prepNofInstances choice nof data.length
    let data' ← takeRows data idx
    let cfg : MPdpCfg K D := { cast := cast, kind := kind, axisLo := lo, axisHi := hi }
    match mPdpFit cfg (MPdpState.init data') (.int (foi : ℕ)) centering points vec with
    | (_, .error _) => return some BIG_M
    | (st, .ok ()) => do
      let (mn, mx) ← mAxisLimits data
      match (pyAssert (nanLt (lo foi) (hi foi))).bind fun _ => mPdpPredict cast kind st.data (mLinspace (mn foi) (mx foi) 10) foi vec with
      | .ok yy => return nMean (yy.map nanStd)
      | .error _ => return some BIG_M

/-- The heterogeneity as a function for the search.  A NaN heterogeneity is not followed here (`Model/NanSearch.lean` does): the search then has no result. -/
def mPdpHeterFun [PySqrt K] (choice : ℕ → ℕ → List ℕ) (cast : K → K) (kind : MPdpKind K D) (lo hi : Fin D → Option K) (foi : Fin D) (minPoints : ℕ) (centering : PyVal) (nof : PyVal)
    (points : ℕ) (vec : Bool) : HeterMiss K D := fun x _ => do
  match ← mPdpHeter choice cast kind lo hi foi minPoints centering nof points vec x with
  | some v => .ok v
  | none => .error .valueError

end Effector
