import Verif.Model.Helpers
import Verif.Model.BinSplitting

/-!
# Model of effector/global_effect_ale.py (ALE, RHALE) and of the state handling in effector/global_effect.py
-/

namespace Effector

variable {K : Type} [Field K] [LinearOrder K] {D : ℕ}

/-- The mask `logical_and(data[:, f] >= lo, data[:, f] <= hi)` (global_effect_ale.py:312-315, 490-493). -/
def inAxis (lo hi : K) (s : Fin D) (r : Row K D) : Bool := decide (lo ≤ r s) && decide (r s ≤ hi)

/-- global_effect_ale.py:319-321, 376-378: the binning methods ALE accepts. -/
def isFixedMethod : BinMethod K → Bool
  | .fixed _ _ _ => true
  | .str s => decide (s = "fixed")
  | _ => false

/-- effector/global_effect_ale.py:309-348 `ALE._fit_feature`.  The stored limits are the array that
`compute_local_effects` has modified in place. -/
def aleFitFeature (cast : K → K) (model : List (Row K D) → List K) (data : List (Row K D))
    (lo hi : Fin D → K) (s : Fin D) (bm : BinMethod K) : Py (AleParams K) := do
  let d := data.filter (inAxis (lo s) (hi s) s)
  pyAssert (isFixedMethod bm)
  let bm' : BinMethod K := match bm with
    | .str _ => .fixed 20 (some 0) 15
    | b => b
  match ← findLimits { xs := col d s, eff := none, xmin := lo s, xmax := hi s } bm' with
  | .impossible => .error .assertionError
  | .arr limits => do
    let (eff, limits') ← computeLocalEffects cast d model limits s
    computeAleParams (col d s) eff limits'

/-- effector/global_effect_ale.py:481-518 `RHALE._fit_feature`; `eff` is `self.data_effect` after `compile`.
A boolean mask of the wrong length raises `IndexError`. -/
def rhaleFitFeature (data eff : List (Row K D)) (lo hi : Fin D → K) (s : Fin D) (bm : BinMethod K) :
    Py (AleParams K) := do
  let d := data.filter (inAxis (lo s) (hi s) s)
  if eff.length ≠ data.length then .error .indexError
  else do
    let e := ((data.zip eff).filter (fun p => inAxis (lo s) (hi s) s p.1)).map (·.2)
    match ← findLimits { xs := col d s, eff := some (col e s), xmin := lo s, xmax := hi s } bm with
    | .impossible => .error .assertionError
    | .arr limits => computeAleParams (col d s) (col e s) limits

/-- effector/global_effect_ale.py:473-479 `RHALE.compile`: the effects used for fitting. -/
def rhaleEffects (model : List (Row K D) → List K) (jac : Option (List (Row K D) → List (Row K D)))
    (given : Option (List (Row K D))) (data : List (Row K D)) : List (Row K D) :=
  match given, jac with
  | some e, _ => e
  | none, some j => j data
  | none, none => computeJacobianNumerically model data EPS

/-- Everything about an ALE/RHALE object that never changes after construction. -/
structure AleCfg (K : Type) (D : ℕ) where
  axisLo : Fin D → K
  axisHi : Fin D → K
  /-- `self._fit_feature` -/
  fitF : Fin D → BinMethod K → Py (AleParams K)
  /-- default value of `binning_method` in `fit`, used by the `fit` call inside `eval` -/
  defaultBin : BinMethod K
  /-- the assertion at the start of `fit` -/
  allowed : BinMethod K → Bool

/-- effector/global_effect_ale.py:238-380: an `ALE` object. -/
def aleCfg (cast : K → K) (model : List (Row K D) → List K) (b : Base K D) : AleCfg K D where
  axisLo := b.axisLo
  axisHi := b.axisHi
  fitF := aleFitFeature cast model b.data b.axisLo b.axisHi
  defaultBin := .str "fixed"
  allowed := isFixedMethod

/-- effector/global_effect_ale.py:548-558: the assertion at the start of `RHALE.fit`. -/
def rhaleAllowed : BinMethod K → Bool
  | .str s => decide (s = "greedy") || decide (s = "dynamic") || decide (s = "fixed")
  | _ => true

/-- effector/global_effect_ale.py:383-560: an `RHALE` object (`eff` as given by `rhaleEffects`). -/
def rhaleCfg (eff : List (Row K D)) (b : Base K D) : AleCfg K D where
  axisLo := b.axisLo
  axisHi := b.axisHi
  fitF := rhaleFitFeature b.data eff b.axisLo b.axisHi
  defaultBin := .str "greedy"
  allowed := rhaleAllowed

/-- effector/global_effect_ale.py:461-471 `RHALE.__init__`: sub-samples data and data_effect itself and then calls
the base constructor with `"all"`, which sets `indices` again. -/
def rhaleInit (choice : ℕ → ℕ → List ℕ) (model : List (Row K D) → List K)
    (jac : Option (List (Row K D) → List (Row K D))) (data : List (Row K D)) (given : Option (List (Row K D)))
    (nof : PyVal) (axisLimits : Option ((Fin D → K) × (Fin D → K))) : Py (AleCfg K D × Base K D) := do
  let (_, idx) ← prepNofInstances choice nof data.length
  let data' ← takeRows data idx
  let given' ← match given with
    | some e => (takeRows e idx).map some
    | none => .ok none
  let b ← Base.init choice data' (.str "all") axisLimits
  return (rhaleCfg (rhaleEffects model jac given' b.data) b, b)

/-- The mutable state of an ALE/RHALE object: `feature_effect` (parameters, and `norm_const` if that key is present),
`is_fitted`, and `method_args[...]["centering"]`. -/
structure AleState (K : Type) (D : ℕ) where
  fe : Fin D → Option (AleParams K × Option K)
  fitted : Fin D → Bool
  args : Fin D → Option Centering

/-- effector/global_effect.py:82-89. -/
def AleState.init : AleState K D := { fe := fun _ => none, fitted := fun _ => false, args := fun _ => none }

/-- effector/global_effect_ale.py:90-94 `_eval_unnorm` (mean part). -/
def evalUnnorm (p : AleParams K) (xs : List K) : Py (List K) :=
  computeAccumulatedEffect xs p.limits p.binEffect p.dx

/-- effector/global_effect_ale.py:95-103 `_eval_unnorm` (heterogeneity part). -/
def evalHet [PySqrt K] (p : AleParams K) (xs : List K) : Py (List K) :=
  computeAccumulatedEffect xs p.limits (p.binVariance.map PySqrt.sqrt) p.dx

/-- effector/global_effect_ale.py:51-68 `_compute_norm_const`, and lines 82-83 for `centering=False`. -/
def aleNormConst (cfg : AleCfg K D) (p : AleParams K) (s : Fin D) : Centering → Py K
  | .off => .ok EMPTY_SYMBOL
  | .zeroIntegral => mean1dLinspace (evalUnnorm p) (cfg.axisLo s) (cfg.axisHi s) 100
  | .zeroStart => do
    let y ← evalUnnorm p [cfg.axisLo s]
    pyIndex y 0

/-- effector/global_effect_ale.py:73-88: the body of the loop in `_fit_loop`; on an exception the assignments made
so far stay. -/
def fitOne (cfg : AleCfg K D) (st : AleState K D) (s : Fin D) (bm : BinMethod K) (c : Centering) :
    AleState K D × Py Unit :=
  match cfg.fitF s bm with
  | .error e => (st, .error e)
  | .ok p =>
    match aleNormConst cfg p s c with
    | .error e => ({ st with fe := Function.update st.fe s (some (p, none)) }, .error e)
    | .ok z =>
      ({ fe := Function.update st.fe s (some (p, some z))
         fitted := Function.update st.fitted s true
         args := Function.update st.args s (some c) }, .ok ())

/-- effector/global_effect_ale.py:73-88: the loop over the features; the first exception ends it. -/
def fitLoop (cfg : AleCfg K D) (bm : BinMethod K) (c : Centering) :
    AleState K D → List (Fin D) → AleState K D × Py Unit
  | st, [] => (st, .ok ())
  | st, s :: t =>
    match fitOne cfg st s bm c with
    | (st', .ok ()) => fitLoop cfg bm c st' t
    | (st', .error e) => (st', .error e)

/-- Resolution of the entries of a feature list to columns.  Indices outside `0..D-1` raise `IndexError` here;
python's negative indices, which alias columns, are not modelled. -/
def resolveFeatures (D : ℕ) : PyVal → Py (List (Fin D))
  | .list l => l.mapM fun i => if h : 0 ≤ i ∧ i.toNat < D then .ok ⟨i.toNat, h.2⟩ else .error .indexError
  | .str s => if s = "" then .ok [] else .error .indexError
  | _ => .error .typeError

/-- effector/global_effect_ale.py:350-380 `ALE.fit` / 520-560 `RHALE.fit`, with `_fit_loop` lines 71-72.
(An out-of-range index in the middle of the list is reported before the loop starts instead of when it is reached.) -/
def aleFit (cfg : AleCfg K D) (st : AleState K D) (features : PyVal) (bm : BinMethod K) (centering : PyVal) :
    AleState K D × Py Unit :=
  if cfg.allowed bm then
    match (do let f ← prepFeatures features D
              let c ← prepCentering centering
              let l ← resolveFeatures D f
              return (l, c)) with
    | .error e => (st, .error e)
    | .ok (l, c) => fitLoop cfg bm c st l
  else (st, .error .assertionError)

/-- effector/global_effect.py:111-120 `refit`. -/
def needsRefit (fitted : Bool) (arg : Option Centering) (c : Centering) : Py Bool :=
  if !fitted then .ok true
  else if c = .off then .ok false
  else match arg with
    | none => .error .keyError
    | some a => .ok (decide (a ≠ c))

/-- effector/global_effect_ale.py:143-157, the part of `eval` after the possible refit. -/
def aleEvalFitted [PySqrt K] (cfg : AleCfg K D) (st : AleState K D) (s : Fin D) (xs : List K) (het : Bool)
    (c : Centering) : Py (List K × Option (List K)) := do
  pyAssert (decide (cfg.axisLo s < cfg.axisHi s))                -- line 144
  match st.fe s with
  | none => .error .keyError
  | some (p, nc) => do
    let y ← evalUnnorm p xs
    let std ← if het then (evalHet p xs).map some else .ok none
    if c = .off then return (y, std)
    else match nc with
      | none => .error .keyError
      | some z => return (y.map (· - z), std)

/-- effector/global_effect_ale.py:107-157 `eval` with a normalised `centering`; the `fit` call uses the default binning
method of the class. -/
def aleEval [PySqrt K] (cfg : AleCfg K D) (st : AleState K D) (s : Fin D) (xs : List K) (het : Bool)
    (centering : PyVal) : AleState K D × Py (List K × Option (List K)) :=
  match prepCentering centering with
  | .error e => (st, .error e)
  | .ok c =>
    match needsRefit (st.fitted s) (st.args s) c with
    | .error e => (st, .error e)
    | .ok false => (st, aleEvalFitted cfg st s xs het c)
    | .ok true =>
      match fitLoop cfg cfg.defaultBin c st [s] with
      | (st', .error e) => (st', .error e)
      | (st', .ok ()) => (st', aleEvalFitted cfg st' s xs het c)

/-- The public operations of an ALE/RHALE object that touch its state.  `plot` (lines 159-235) is two `eval` calls. -/
inductive AleOp (K : Type) (D : ℕ)
  | fit (features : PyVal) (bm : BinMethod K) (centering : PyVal)
  | eval (s : Fin D) (xs : List K) (het : Bool) (centering : PyVal)
  | plot (s : Fin D) (centering : PyVal)

/-- effector/visualization.py:58-59 and effector/global_effect_ale.py:211-214: the state changes of `plot`:
`eval` at the left axis limit, then `eval` on 1000 points between the first and the last limit. -/
def alePlot [PySqrt K] (cfg : AleCfg K D) (st : AleState K D) (s : Fin D) (centering : PyVal) :
    AleState K D × Py (List K × List K × Option (List K)) :=
  match aleEval cfg st s [cfg.axisLo s] false centering with
  | (st1, .error e) => (st1, .error e)
  | (st1, .ok _) =>
    match st1.fe s with
    | none => (st1, .error .keyError)
    | some (p, _) =>
      match pyIndex p.limits 0, pyIndex p.limits (p.limits.length - 1) with
      | .ok a, .ok b =>
        match aleEval cfg st1 s (linspace a b 1000) true centering with
        | (st2, .ok (y, std)) => (st2, .ok (linspace a b 1000, y, std))
        | (st2, .error e) => (st2, .error e)
      | _, _ => (st1, .error .indexError)

/-- One public call, its result forgotten (exceptions are caught by the caller). -/
def aleStep [PySqrt K] (cfg : AleCfg K D) (st : AleState K D) : AleOp K D → AleState K D
  | .fit f bm c => (aleFit cfg st f bm c).1
  | .eval s xs het c => (aleEval cfg st s xs het c).1
  | .plot s c => (alePlot cfg st s c).1

/-- A history of calls on a fresh object. -/
def aleRun [PySqrt K] (cfg : AleCfg K D) (ops : List (AleOp K D)) : AleState K D :=
  ops.foldl (aleStep cfg) AleState.init

end Effector
