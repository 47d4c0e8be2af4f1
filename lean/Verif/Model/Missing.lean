import Verif.Model.Pdp
import Verif.Model.Partitioning

/-!
# Missing values: the same code on a data array with NaN entries

The rest of the model takes a data array of numbers.  Here an entry may be NaN (`none`); a comparison with NaN is false, `np.min` / `np.max` of an array with a NaN
is NaN.  The user's model receives the rows with their NaN entries and returns a number for each row.
-/

namespace Effector

variable {K : Type} [Field K] [LinearOrder K] {D : ℕ}

/-- One instance with possibly missing values (NaN = `none`). -/
abbrev MRow (K : Type) (D : ℕ) := Fin D → Option K

/-- `data[:, s]`. -/
def mcol {K : Type} {D : ℕ} (data : List (MRow K D)) (s : Fin D) : List (Option K) := data.map fun r => r s

/-- The entries that are numbers. -/
def known {K : Type} (l : List (Option K)) : List K := l.filterMap id

/-- `np.max`, NaN if any entry is NaN; `m` is the running maximum (`npMinFrom` of Model/Numpy.lean is the same for `np.min`). -/
def npMaxFrom (m : K) : List (Option K) → Option K
  | [] => some m
  | none :: _ => none
  | some y :: t => npMaxFrom (if m < y then y else m) t

/-- `np.max` of a non-empty array with NaN entries. -/
def npMax : List (Option K) → Option K
  | [] => none
  | none :: _ => none
  | some y :: t => npMaxFrom y t

/-- effector/helpers.py:39-46 `axis_limits_from_data`: the two rows of the array; `ValueError` for an empty data set. -/
def mAxisLimits (data : List (MRow K D)) : Py ((Fin D → Option K) × (Fin D → Option K)) :=
  match data with
  | [] => if D = 0 then .ok (fun _ => none, fun _ => none) else .error .valueError
  | _ => .ok (fun s => npMin (mcol data s), fun s => npMax (mcol data s))

/-- What the constructor sets (effector/global_effect.py:55-89): `self.data`, `self.axis_limits`. -/
structure MBase (K : Type) (D : ℕ) where
  data : List (MRow K D)
  axisLo : Fin D → Option K
  axisHi : Fin D → Option K

/-- effector/global_effect.py:55-89: sub-sample the rows, default axis limits.  Limits given by the user are numbers. -/
def MBase.init (choice : ℕ → ℕ → List ℕ) (data : List (MRow K D)) (nof : PyVal)
    (axisLimits : Option ((Fin D → K) × (Fin D → K))) : Py (MBase K D) := do
  let (_, idx) ← prepNofInstances choice nof data.length
  let data' ← takeRows data idx
  let (lo, hi) ← match axisLimits with
    | some l => .ok (fun s => some (l.1 s), fun s => some (l.2 s))
    | none => mAxisLimits data'
  return { data := data', axisLo := lo, axisHi := hi }

/-- The mask `logical_and(data[:, f] >= lo, data[:, f] <= hi)` (global_effect_ale.py:312-315, 490-493): false for a NaN entry, and false everywhere for a NaN limit. -/
def mInAxis (lo hi : Option K) (s : Fin D) (r : MRow K D) : Bool := nanLe lo (r s) && nanLe (r s) hi

/-- `a = deepcopy(data); a[:, s] = vals` (effector/utils.py:58-61). -/
def mSetCol (cast : K → K) (data : List (MRow K D)) (s : Fin D) (vals : List K) : List (MRow K D) :=
  List.zipWith (fun r v => Function.update r s (some (cast v))) data vals

/-- effector/utils.py:10-64 `compute_local_effects`, on rows whose entry `s` is a number: `xs` is the column `data[:, s]`
(`mcol_filtered` in Props/Missing.lean: after the mask, the column has numbers only). -/
def mLocalEffects (cast : K → K) (data : List (MRow K D)) (xs : List K) (model : List (MRow K D) → List K)
    (limits : List K) (s : Fin D) : Py (List K × List K) := do
  let lo ← pyIndex limits 0
  let mn ← listMin xs
  pyAssert (lo ≤ mn)                                      -- line 49
  let hi ← pyIndex limits (limits.length - 1)
  let mx ← listMax xs
  pyAssert (mx ≤ hi)                                      -- line 50
  let limits' := bumpLast EPS limits                      -- line 53
  let ind ← digitize xs limits'                           -- line 54
  pyAssert (ind.all (0 < ·))                              -- line 55
  let right ← ind.mapM (fun i => pyIndex limits' i)       -- line 60
  let left ← ind.mapM (fun i => pyIndex limits' (i - 1))  -- line 61
  let l0 ← pyIndex limits' 0
  let l1 ← pyIndex limits' 1
  let dx := l1 - l0                                       -- line 62
  let eff := List.zipWith (· - ·) (model (mSetCol cast data s right)) (model (mSetCol cast data s left))
  return (eff.map (· / dx), limits')

/-- effector/global_effect_ale.py:309-348 `ALE._fit_feature`.  When a limit is NaN no row passes the mask, and `find_limits` raises before it reads the limits
(`findLimits_nil` in Props/Missing.lean); the model passes 0 for them. -/
def mAleFitFeature (cast : K → K) (model : List (MRow K D) → List K) (data : List (MRow K D))
    (lo hi : Fin D → Option K) (s : Fin D) (bm : BinMethod K) : Py (AleParams K) := do
  let d := data.filter (mInAxis (lo s) (hi s) s)
  pyAssert (isFixedMethod bm)
  let bm' : BinMethod K := match bm with
    | .str _ => .fixed 20 (some 0) 15
    | b => b
  match ← findLimits { xs := known (mcol d s), eff := none, xmin := (lo s).getD 0, xmax := (hi s).getD 0 } bm' with
  | .impossible => .error .assertionError
  | .arr limits => do
    let (eff, limits') ← mLocalEffects cast d (known (mcol d s)) model limits s
    computeAleParams (known (mcol d s)) eff limits'

/-- effector/global_effect_ale.py:481-518 `RHALE._fit_feature`; the effects are numbers. -/
def mRhaleFitFeature (data : List (MRow K D)) (eff : List (Row K D)) (lo hi : Fin D → Option K) (s : Fin D) (bm : BinMethod K) :
    Py (AleParams K) := do
  let d := data.filter (mInAxis (lo s) (hi s) s)
  if eff.length ≠ data.length then .error .indexError
  else do
    let e := ((data.zip eff).filter (fun p => mInAxis (lo s) (hi s) s p.1)).map (·.2)
    match ← findLimits { xs := known (mcol d s), eff := some (col e s), xmin := (lo s).getD 0, xmax := (hi s).getD 0 } bm with
    | .impossible => .error .assertionError
    | .arr limits => computeAleParams (known (mcol d s)) (col e s) limits

/-- effector/utils.py:445-479 `compute_jacobian_numerically`: `NaN + eps` is NaN. -/
def mJacobianCol (model : List (MRow K D) → List K) (data : List (MRow K D)) (eps : K) (f : Fin D) : List K :=
  List.zipWith (fun a b => (a - b) / eps)
    (model (data.map fun r => Function.update r f ((r f).map (· + eps)))) (model data)

/-- effector/utils.py:445-479: the Jacobian as rows. -/
def mJacobian (model : List (MRow K D) → List K) (data : List (MRow K D)) (eps : K) : List (Row K D) :=
  (List.range data.length).map fun i => fun f => (mJacobianCol model data eps f).getD i 0

/-- effector/global_effect_ale.py:473-479 `RHALE.compile`, without a given `data_effect`. -/
def mRhaleEffects (model : List (MRow K D) → List K) (jac : Option (List (MRow K D) → List (Row K D))) (data : List (MRow K D)) :
    List (Row K D) :=
  match jac with
  | some j => j data
  | none => mJacobian model data EPS

/-- effector/global_effect_ale.py:238-380: an `ALE` object.  Calls on it are `aleFit`, `aleEval`, ... of Model/Ale.lean. -/
def mAleCfg (cast : K → K) (model : List (MRow K D) → List K) (b : MBase K D) : AleCfg K D where
  axisLo := fun s => (b.axisLo s).getD 0
  axisHi := fun s => (b.axisHi s).getD 0
  fitF := mAleFitFeature cast model b.data b.axisLo b.axisHi
  defaultBin := .str "fixed"
  allowed := isFixedMethod

/-- effector/global_effect_ale.py:383-560: an `RHALE` object. -/
def mRhaleCfg (eff : List (Row K D)) (b : MBase K D) : AleCfg K D where
  axisLo := fun s => (b.axisLo s).getD 0
  axisHi := fun s => (b.axisHi s).getD 0
  fitF := mRhaleFitFeature b.data eff b.axisLo b.axisHi
  defaultBin := .str "greedy"
  allowed := rhaleAllowed

/-! ## PDP and DerPDP -/

/-- The three sources of ICE values (global_effect_pdp.py:36-47), on rows with NaN. -/
inductive MPdpKind (K : Type) (D : ℕ)
  | pdp (m : List (MRow K D) → List K)
  | derJac (j : List (MRow K D) → List (Row K D))
  | derNum (m : List (MRow K D) → List K)

/-- What never changes in a PDP/DerPDP object. -/
structure MPdpCfg (K : Type) (D : ℕ) where
  cast : K → K
  kind : MPdpKind K D
  axisLo : Fin D → Option K
  axisHi : Fin D → Option K

/-- `x_new[:, feature] = v` (global_effect_pdp.py:467-478). -/
def mSetAll (cast : K → K) (data : List (MRow K D)) (s : Fin D) (v : Option K) : List (MRow K D) :=
  data.map fun r => Function.update r s (v.map cast)

/-- global_effect_pdp.py:541-564. -/
def mPdpBatch (cast : K → K) (data : List (MRow K D)) (x : List (Option K)) (s : Fin D) : List (MRow K D) :=
  x.flatMap fun v => mSetAll cast data s v

/-- effector/global_effect_pdp.py:36-47 `_predict`: lines 462-481 (`vec = false`) and 540-566 (`vec = true`). -/
def mPdpPredict (cast : K → K) (kind : MPdpKind K D) (data : List (MRow K D)) (xx : List (Option K)) (s : Fin D)
    (vec : Bool) : Py (List (List K)) :=
  let go (out : List (MRow K D) → List K) : Py (List (List K)) :=
    if vec then reshape2 xx.length data.length (out (mPdpBatch cast data xx s))
    else if xx = [] then .error .valueError
    else .ok (xx.map fun v => out (mSetAll cast data s v))
  match kind with
  | .pdp m => go m
  | .derJac j => go fun X => col (j X) s
  | .derNum m =>
    if vec then reshape2 xx.length data.length
      (centralDiff (m (mPdpBatch cast data (xx.map (Option.map (· + FD_STEP))) s)) (m (mPdpBatch cast data (xx.map (Option.map (· - FD_STEP))) s)))
    else if xx = [] then .error .valueError
    else .ok (xx.map fun v => centralDiff (m (mSetAll cast data s (v.map (· + FD_STEP)))) (m (mSetAll cast data s (v.map (· - FD_STEP)))))

/-- The mutable state of a PDP/DerPDP object. -/
structure MPdpState (K : Type) (D : ℕ) where
  data : List (MRow K D)
  fe : Fin D → Option (NormConst K)
  fitted : Fin D → Bool
  args : Fin D → Option Centering

/-- effector/global_effect.py:63-89 for PDP. -/
def MPdpState.init (data : List (MRow K D)) : MPdpState K D :=
  { data := data, fe := fun _ => none, fitted := fun _ => false, args := fun _ => none }

/-- global_effect_pdp.py:58-59: the two successive selections. -/
def mDropOutside (data : List (MRow K D)) (lo hi : Option K) (s : Fin D) : List (MRow K D) :=
  (data.filter fun r => nanLe lo (r s)).filter fun r => nanLe (r s) hi

/-- `np.linspace(a, b, n)`: NaN everywhere if a limit is NaN. -/
def mLinspace (a b : Option K) (n : ℕ) : List (Option K) :=
  match a, b with
  | some a, some b => (linspace a b n).map some
  | _, _ => List.replicate n none

/-- effector/global_effect_pdp.py:49-77 `_fit_feature`: the new `self.data` and the norm constant. -/
def mPdpFitFeature (cfg : MPdpCfg K D) (data : List (MRow K D)) (s : Fin D) (c : Centering) (points : ℕ) (vec : Bool) :
    List (MRow K D) × Py (NormConst K) :=
  let d := mDropOutside data (cfg.axisLo s) (cfg.axisHi s) s
  (d, match c with
    | .zeroIntegral => do
      let y ← mPdpPredict cfg.cast cfg.kind d (mLinspace (cfg.axisLo s) (cfg.axisHi s) points) s vec
      return .vec (colMeans d.length y)
    | .zeroStart => do
      let y ← mPdpPredict cfg.cast cfg.kind d [cfg.axisLo s] s vec
      return .vec (← pyIndex y 0)
    | .off => .ok (.scalar EMPTY_SYMBOL))

/-- effector/global_effect_pdp.py:114-122: the loop in `fit`. -/
def mPdpFitLoop (cfg : MPdpCfg K D) (c : Centering) (points : ℕ) (vec : Bool) :
    MPdpState K D → List (Fin D) → MPdpState K D × Py Unit
  | st, [] => (st, .ok ())
  | st, s :: t =>
    match mPdpFitFeature cfg st.data s c points vec with
    | (d, .error e) => ({ st with data := d }, .error e)
    | (d, .ok nc) =>
      mPdpFitLoop cfg c points vec
        { data := d
          fe := Function.update st.fe s (some nc)
          fitted := Function.update st.fitted s true
          args := Function.update st.args s (some c) } t

/-- effector/global_effect_pdp.py:79-122 `fit`. -/
def mPdpFit (cfg : MPdpCfg K D) (st : MPdpState K D) (features : PyVal) (centering : PyVal) (points : ℕ) (vec : Bool) :
    MPdpState K D × Py Unit :=
  match (do let c ← prepCentering centering
            let f ← prepFeatures features D
            let l ← resolveFeatures D f
            return (l, c)) with
  | .error e => (st, .error e)
  | .ok (l, c) => mPdpFitLoop cfg c points vec st l

/-- `np.mean`, NaN for an empty array. -/
def nanMean (l : List K) : Option K := if l = [] then none else some (mean l)

/-- `np.std`, NaN for an empty array. -/
def nanStd [PySqrt K] (l : List K) : Option K := if l = [] then none else some (npStd l)

/-- `a < b`, false when one of them is NaN. -/
def nanLt (a b : Option K) : Bool := match a, b with
  | some x, some y => decide (x < y)
  | _, _ => false

/-- effector/global_effect_pdp.py:168-189: the part of `eval` after the possible refit. -/
def mPdpEvalFitted [PySqrt K] (cfg : MPdpCfg K D) (st : MPdpState K D) (s : Fin D) (xs : List K) (het : Bool)
    (c : Centering) (all vec : Bool) : Py (PdpOut (Option K)) := do
  pyAssert (nanLt (cfg.axisLo s) (cfg.axisHi s))
  let yy ← mPdpPredict cfg.cast cfg.kind st.data (xs.map some) s vec
  let yy ← if c = .off then .ok yy
    else match st.fe s with
      | none => .error .keyError
      | some nc => yy.mapM (subNorm nc)
  return if all then .all (yy.map (List.map some))
    else if het then .meanStd (yy.map nanMean) (yy.map nanStd)
    else .meanOnly (yy.map nanMean)

/-- effector/global_effect_pdp.py:124-189 `eval`. -/
def mPdpEval [PySqrt K] (cfg : MPdpCfg K D) (st : MPdpState K D) (s : Fin D) (xs : List K) (het : Bool)
    (centering : PyVal) (all vec : Bool) : MPdpState K D × Py (PdpOut (Option K)) :=
  match prepCentering centering with
  | .error e => (st, .error e)
  | .ok c =>
    match needsRefit (st.fitted s) (st.args s) c with
    | .error e => (st, .error e)
    | .ok false => (st, mPdpEvalFitted cfg st s xs het c all vec)
    | .ok true =>
      match mPdpFitLoop cfg c 100 vec st [s] with
      | (st', .error e) => (st', .error e)
      | (st', .ok ()) => (st', mPdpEvalFitted cfg st' s xs het c all vec)

/-- One public call, result forgotten. -/
def mPdpStep [PySqrt K] (cfg : MPdpCfg K D) (st : MPdpState K D) : PdpOp K D → MPdpState K D
  | .fit f c p v => (mPdpFit cfg st f c p v).1
  | .eval s xs het c all vec => (mPdpEval cfg st s xs het c all vec).1

/-- A history of calls on a fresh object. -/
def mPdpRun [PySqrt K] (cfg : MPdpCfg K D) (data : List (MRow K D)) (ops : List (PdpOp K D)) : MPdpState K D :=
  ops.foldl (mPdpStep cfg) (MPdpState.init data)

/-! ## Splitting on a feature with missing values -/

/-- effector/partitioning.py:311-316 `split_dataset`: `==` / `<` with NaN is false, `!=` with NaN is true, `>=` with NaN is false. -/
def mGoesFirst (typ : FeatType) (pos v : Option K) : Bool :=
  match typ, v, pos with
  | .cat, some v, some p => decide (v = p)
  | .cont, some v, some p => decide (v < p)
  | _, _, _ => false

/-- effector/partitioning.py:311-316 `split_dataset`, second side. -/
def mGoesSecond (typ : FeatType) (pos v : Option K) : Bool :=
  match typ, v, pos with
  | .cat, some v, some p => decide (v ≠ p)
  | .cat, _, _ => true
  | .cont, some v, some p => decide (p ≤ v)
  | .cont, _, _ => false

/-- effector/partitioning.py:310-325 `split_dataset`. -/
def mSplitRows (x : List (MRow K D)) (f : Fin D) (pos : Option K) (typ : FeatType) : List (MRow K D) × List (MRow K D) :=
  (x.filter fun r => mGoesFirst typ pos (r f), x.filter fun r => mGoesSecond typ pos (r f))

/-- effector/partitioning.py:330-332 `find_positions_cont`: NaN everywhere when the column has a NaN. -/
def mFindPositionsCont (x : List (MRow K D)) (f : Fin D) (n : ℕ) : Py (List (Option K)) :=
  match x with
  | [] => .error .valueError
  | _ => .ok ((List.range n).map fun (i : ℕ) =>
      match npMin (mcol x f), npMax (mcol x f) with
      | some mn, some mx => some (mn + ((i : K) + 1 / 2) * ((mx - mn) / (n : K)))
      | _, _ => none)

end Effector
