import Verif.Model.Calls
import Verif.Model.Missing

/-!
# Predictions that are NaN: the same code when the user's model returns NaN for some rows

The data are numbers, the output of the model may be NaN (`none`).  Arithmetic with NaN gives NaN; `np.bincount` and `np.mean` sum with NaN propagation.
-/

namespace Effector

variable {K : Type} [Field K] [LinearOrder K] {D : ℕ}

/-- `a - b` with NaN propagation. -/
def nanSub (a b : Option K) : Option K := a.bind fun a => b.map fun b => a - b

/-- `np.mean` with NaN propagation, NaN for an empty array. -/
def nMean (l : List (Option K)) : Option K := if l = [] then none else (nanSum l).map (· / (l.length : K))

/-- effector/utils.py:10-64 `compute_local_effects`, lines 45-62 (`localEffectsHead` of Model/Calls.lean: nothing there reads a prediction), then lines 63-64. -/
def nLocalEffects (cast : K → K) (data : List (Row K D)) (model : List (Row K D) → List (Option K)) (limits : List K) (s : Fin D) :
    Py (List (Option K) × List K) := do
  let p ← localEffectsHead data limits s
  return ((List.zipWith nanSub (model (setCol cast data s p.2.1)) (model (setCol cast data s p.2.2.1))).map (Option.map (· / p.2.2.2)), p.1)

/-- effector/utils.py:107-160 `compute_bin_effect`. -/
def nBinEffect (xs : List K) (eff : List (Option K)) (limits : List K) : Py (List (Option K) × List ℕ) := do
  let ind ← digitize xs (bumpLast EPS limits)             -- lines 143-145
  let idx ← binIndices ind
  let nb := limits.length - 1                             -- line 149
  let agg ← bincountNan idx eff nb                        -- line 150
  let ppb := bincount idx nb                              -- line 151
  return (List.zipWith (fun (a : Option K) (n : ℕ) => if n ≠ 0 then a.map (· / (n : K)) else none) agg ppb, ppb)

/-- `(df - m) ** 2` with NaN propagation. -/
def nSqDev (d m : Option K) : Option K := (nanSub d m).map (· ^ 2)

/-- effector/utils.py:163-244 `compute_bin_variance`. -/
def nBinVariance (xs : List K) (eff : List (Option K)) (limits : List K) (means : List (Option K)) :
    Py (List (Option K) × List (Option K)) := do
  let ind ← digitize xs (bumpLast EPS limits)             -- lines 216-218
  let idx ← binIndices ind
  let ms ← idx.mapM (fun i => pyIndex means i)            -- line 222
  let vpp := List.zipWith nSqDev eff ms
  let nb := limits.length - 1
  let agg ← bincountNan idx vpp nb                        -- line 224
  let ppb := bincount idx nb                              -- line 227
  let var := List.zipWith (fun (a : Option K) (n : ℕ) => if 1 < n then a.map (· / (n : K)) else none) agg ppb
  let est := List.zipWith (fun (a : Option K) (n : ℕ) => if 1 < n then a.map (· / (n : K)) else none) var ppb
  return (var, est)

/-- effector/utils.py:367-419 `compute_ale_params`: `fill_nans` cannot tell the NaN of an empty bin from the NaN of a prediction. -/
def nAleParams (xs : List K) (eff : List (Option K)) (limits : List K) : Py (AleParams K) := do
  let dx := diffs limits                                        -- line 396
  let (be, ppb) ← nBinEffect xs eff limits                      -- line 399
  let (bv, bev) ← nBinVariance xs eff limits be                 -- line 402
  let be' ← fillNans be                                         -- line 407
  let bv' ← fillNans bv
  let bev' ← fillNans bev
  return { limits := limits, dx := dx, pointsPerBin := ppb, binEffect := be',
           binVariance := bv', binEstimatorVariance := bev' }

/-- effector/global_effect_ale.py:309-348 `ALE._fit_feature`; the bins (`aleBins` of Model/Calls.lean) do not depend on the predictions. -/
def nAleFitFeature (cast : K → K) (model : List (Row K D) → List (Option K)) (data : List (Row K D)) (lo hi : Fin D → K) (s : Fin D) (bm : BinMethod K) :
    Py (AleParams K) := do
  let limits ← aleBins data lo hi s bm
  let r ← nLocalEffects cast (data.filter (inAxis (lo s) (hi s) s)) model limits s
  nAleParams (col (data.filter (inAxis (lo s) (hi s) s)) s) r.1 r.2

/-- effector/global_effect_ale.py:238-380: an `ALE` object.  Calls on it are `aleFit`, `aleEval`, ... of Model/Ale.lean. -/
def nAleCfg (cast : K → K) (model : List (Row K D) → List (Option K)) (b : Base K D) : AleCfg K D where
  axisLo := b.axisLo
  axisHi := b.axisHi
  fitF := nAleFitFeature cast model b.data b.axisLo b.axisHi
  defaultBin := .str "fixed"
  allowed := isFixedMethod

/-! ## PDP and DerPDP -/

/-- The three sources of ICE values (global_effect_pdp.py:36-47). -/
inductive NPdpKind (K : Type) (D : ℕ)
  | pdp (m : List (Row K D) → List (Option K))
  | derJac (j : List (Row K D) → List (MRow K D))
  | derNum (m : List (Row K D) → List (Option K))

/-- `np.reshape(y, (T, N))`. -/
def nReshape {α : Type} (T N : ℕ) (y : List α) : Py (List (List α)) :=
  if y.length = T * N then .ok ((List.range T).map fun t => (y.drop (t * N)).take N) else .error .valueError

/-- `(y_1 - y_2) / (2 * 1e-6)`. -/
def nCentralDiff (y1 y2 : List (Option K)) : List (Option K) :=
  List.zipWith (fun a b => (nanSub a b).map (· / (2 * FD_STEP))) y1 y2

/-- effector/global_effect_pdp.py:36-47 `_predict`: lines 462-481 (`vec = false`) and 540-566 (`vec = true`). -/
def nPdpPredict (cast : K → K) (kind : NPdpKind K D) (data : List (Row K D)) (xx : List K) (s : Fin D) (vec : Bool) :
    Py (List (List (Option K))) :=
  let go (out : List (Row K D) → List (Option K)) : Py (List (List (Option K))) :=
    if vec then nReshape xx.length data.length (out (pdpBatch cast data xx s))
    else if xx = [] then .error .valueError
    else .ok (xx.map fun v => out (setAll cast data s v))
  match kind with
  | .pdp m => go m
  | .derJac j => go fun X => mcol (j X) s
  | .derNum m =>
    if vec then nReshape xx.length data.length
      (nCentralDiff (m (pdpBatch cast data (xx.map (· + FD_STEP)) s)) (m (pdpBatch cast data (xx.map (· - FD_STEP)) s)))
    else if xx = [] then .error .valueError
    else .ok (xx.map fun v => nCentralDiff (m (setAll cast data s (v + FD_STEP))) (m (setAll cast data s (v - FD_STEP))))

/-- What never changes in a PDP/DerPDP object. -/
structure NPdpCfg (K : Type) (D : ℕ) where
  cast : K → K
  kind : NPdpKind K D
  axisLo : Fin D → K
  axisHi : Fin D → K

/-- `np.mean(y, axis=0)` of a matrix with rows of length `n`. -/
def nColMeans (n : ℕ) (y : List (List (Option K))) : List (Option K) :=
  (List.range n).map fun i => nMean (y.map fun row => row.getD i none)

/-- The mutable state of a PDP/DerPDP object. -/
structure NPdpState (K : Type) (D : ℕ) where
  data : List (Row K D)
  fe : Fin D → Option (NormConst (Option K))
  fitted : Fin D → Bool
  args : Fin D → Option Centering

/-- effector/global_effect.py:63-89 for PDP. -/
def NPdpState.init (data : List (Row K D)) : NPdpState K D :=
  { data := data, fe := fun _ => none, fitted := fun _ => false, args := fun _ => none }

/-- effector/global_effect_pdp.py:49-77 `_fit_feature`: the new `self.data` and the norm constant. -/
def nPdpFitFeature (cfg : NPdpCfg K D) (data : List (Row K D)) (s : Fin D) (c : Centering) (points : ℕ) (vec : Bool) :
    List (Row K D) × Py (NormConst (Option K)) :=
  let d := dropOutside data (cfg.axisLo s) (cfg.axisHi s) s
  (d, match c with
    | .zeroIntegral => do
      let y ← nPdpPredict cfg.cast cfg.kind d (linspace (cfg.axisLo s) (cfg.axisHi s) points) s vec
      return .vec (nColMeans d.length y)
    | .zeroStart => do
      let y ← nPdpPredict cfg.cast cfg.kind d [cfg.axisLo s] s vec
      return .vec (← pyIndex y 0)
    | .off => .ok (.scalar (some EMPTY_SYMBOL)))

/-- effector/global_effect_pdp.py:114-122: the loop in `fit`. -/
def nPdpFitLoop (cfg : NPdpCfg K D) (c : Centering) (points : ℕ) (vec : Bool) :
    NPdpState K D → List (Fin D) → NPdpState K D × Py Unit
  | st, [] => (st, .ok ())
  | st, s :: t =>
    match nPdpFitFeature cfg st.data s c points vec with
    | (d, .error e) => ({ st with data := d }, .error e)
    | (d, .ok nc) =>
      nPdpFitLoop cfg c points vec
        { data := d
          fe := Function.update st.fe s (some nc)
          fitted := Function.update st.fitted s true
          args := Function.update st.args s (some c) } t

/-- effector/global_effect_pdp.py:79-122 `fit`. -/
def nPdpFit (cfg : NPdpCfg K D) (st : NPdpState K D) (features : PyVal) (centering : PyVal) (points : ℕ) (vec : Bool) :
    NPdpState K D × Py Unit :=
  match (do let c ← prepCentering centering
            let f ← prepFeatures features D
            let l ← resolveFeatures D f
            return (l, c)) with
  | .error e => (st, .error e)
  | .ok (l, c) => nPdpFitLoop cfg c points vec st l

/-- `row - norm_consts` with numpy's broadcasting of `(T, n)` against `(1, n')` or `(1,)`. -/
def nSubNorm (nc : NormConst (Option K)) (row : List (Option K)) : Py (List (Option K)) :=
  match nc with
  | .scalar c => .ok (row.map (nanSub · c))
  | .vec cs =>
    if cs.length = row.length then .ok (List.zipWith nanSub row cs)
    else match cs, row with
      | [c], row => .ok (row.map (nanSub · c))
      | cs, [y] => .ok (cs.map (nanSub y ·))
      | _, _ => .error .valueError

/-- `np.std` with NaN propagation, NaN for an empty array. -/
def nStd [PySqrt K] (l : List (Option K)) : Option K := if none ∈ l then none else nanStd (known l)

/-- effector/global_effect_pdp.py:168-189: the part of `eval` after the possible refit. -/
def nPdpEvalFitted [PySqrt K] (cfg : NPdpCfg K D) (st : NPdpState K D) (s : Fin D) (xs : List K) (het : Bool)
    (c : Centering) (all vec : Bool) : Py (PdpOut (Option K)) := do
  pyAssert (decide (cfg.axisLo s < cfg.axisHi s))
  let yy ← nPdpPredict cfg.cast cfg.kind st.data xs s vec
  let yy ← if c = .off then .ok yy
    else match st.fe s with
      | none => .error .keyError
      | some nc => yy.mapM (nSubNorm nc)
  return if all then .all yy
    else if het then .meanStd (yy.map nMean) (yy.map nStd)
    else .meanOnly (yy.map nMean)

/-- effector/global_effect_pdp.py:124-189 `eval`. -/
def nPdpEval [PySqrt K] (cfg : NPdpCfg K D) (st : NPdpState K D) (s : Fin D) (xs : List K) (het : Bool)
    (centering : PyVal) (all vec : Bool) : NPdpState K D × Py (PdpOut (Option K)) :=
  match prepCentering centering with
  | .error e => (st, .error e)
  | .ok c =>
    match needsRefit (st.fitted s) (st.args s) c with
    | .error e => (st, .error e)
    | .ok false => (st, nPdpEvalFitted cfg st s xs het c all vec)
    | .ok true =>
      match nPdpFitLoop cfg c 100 vec st [s] with
      | (st', .error e) => (st', .error e)
      | (st', .ok ()) => (st', nPdpEvalFitted cfg st' s xs het c all vec)

/-- One public call, result forgotten. -/
def nPdpStep [PySqrt K] (cfg : NPdpCfg K D) (st : NPdpState K D) : PdpOp K D → NPdpState K D
  | .fit f c p v => (nPdpFit cfg st f c p v).1
  | .eval s xs het c all vec => (nPdpEval cfg st s xs het c all vec).1

/-- A history of calls on a fresh object. -/
def nPdpRun [PySqrt K] (cfg : NPdpCfg K D) (data : List (Row K D)) (ops : List (PdpOp K D)) : NPdpState K D :=
  ops.foldl (nPdpStep cfg) (NPdpState.init data)

end Effector
