import Verif.Model.Shap

/-!
# The calls of the black box: when it is called, with what, and what happens when it raises

The other model files take the black box as a function.  A python model is a piece of a program: each call costs something, it can have a state of its own (a remote
service, a random generator, a counter), and it can raise.  Here the code that calls it is written statement by statement with the calls as effects.  The global
effect classes are covered: `PDP`, `DerPDP`, `ALE`, `RHALE`, `ShapDP`.
-/

namespace Effector

variable {K : Type} [Field K] [LinearOrder K] {D : ℕ} {σ S : Type}

/-- What the library asks of the user's code: `model(X)`, `model_jac(X)`, or (ShapDP) `shap.Explainer(model, X)(X)`. -/
inductive Call (K : Type) (D : ℕ)
  | model (X : List (Row K D))
  | jac (X : List (Row K D))
  | explain (X : List (Row K D))

/-- A call that was made, and the exception it raised, if it raised one. -/
structure Event (K : Type) (D : ℕ) where
  call : Call K D
  failed : Option PyErr

/-- The user's code.  `σ` is everything it can depend on besides its argument: each call may change it, and may raise. -/
structure World (σ K : Type) (D : ℕ) where
  model : σ → List (Row K D) → σ × Py (List K)
  jac : σ → List (Row K D) → σ × Py (List (Row K D))
  explain : σ → List (Row K D) → σ × Py (List (Row K D))

/-- The running system: the state of the user's code, the calls made so far (a ghost: no program reads it), and the effector object. -/
structure Sys (σ K : Type) (D : ℕ) (S : Type) where
  world : σ
  trace : List (Event K D)
  obj : S

/-- A python program: it changes the system and returns a value or raises. -/
def RunM (σ K : Type) (D : ℕ) (S α : Type) := Sys σ K D S → Sys σ K D S × Py α

/-- What follows a statement that has ended: the next one, unless it raised. -/
def runThen {α β : Type} (f : α → RunM σ K D S β) : Sys σ K D S × Py α → Sys σ K D S × Py β
  | (y, .ok a) => f a y
  | (y, .error e) => (y, .error e)

instance : Monad (RunM σ K D S) where
  pure x := fun y => (y, .ok x)
  bind m f := fun y => runThen f (m y)

/-- The exception in an outcome. -/
def failure {α : Type} : Py α → Option PyErr
  | .ok _ => none
  | .error e => some e

/-- A computation that makes no call and does not touch the object. -/
def inert {α : Type} (x : Py α) : RunM σ K D S α := fun y => (y, x)

/-- `self`, for reading. -/
def readObj : RunM σ K D S S := fun y => (y, .ok y.obj)

/-- Assignments to attributes of `self`. -/
def writeObj (o : S) : RunM σ K D S Unit := fun y => ({ y with obj := o }, .ok ())

/-- `model(X)`. -/
def callModel (w : World σ K D) (X : List (Row K D)) : RunM σ K D S (List K) := fun y =>
  ({ y with world := (w.model y.world X).1, trace := y.trace ++ [⟨.model X, failure (w.model y.world X).2⟩] }, (w.model y.world X).2)

/-- `model_jac(X)`. -/
def callJac (w : World σ K D) (X : List (Row K D)) : RunM σ K D S (List (Row K D)) := fun y =>
  ({ y with world := (w.jac y.world X).1, trace := y.trace ++ [⟨.jac X, failure (w.jac y.world X).2⟩] }, (w.jac y.world X).2)

/-- `shap.Explainer(model, X)(X).values` (the calls of the model inside the shap library are not resolved). -/
def callExplain (w : World σ K D) (X : List (Row K D)) : RunM σ K D S (List (Row K D)) := fun y =>
  ({ y with world := (w.explain y.world X).1, trace := y.trace ++ [⟨.explain X, failure (w.explain y.world X).2⟩] }, (w.explain y.world X).2)

/-! ## effector/global_effect.py, effector/helpers.py -/

/-- effector/helpers.py:115-118 `prep_avg_output`. -/
def runAvgOutput (w : World σ K D) (data : List (Row K D)) (avg : Option K) (scaleY : Option (Scale K)) : RunM σ K D S K := do
  let a ← match avg with
    | some a => pure a
    | none => do
      let y ← callModel w data
      pure (mean y)
  return match scaleY with
    | some s => a * s.std + s.mean
    | none => a

/-- effector/global_effect.py:55-89 `GlobalEffectBase.__init__`: sub-sample, `self.avg_output` (lines 70-72), axis limits. -/
def runBase (w : World σ K D) (choice : ℕ → ℕ → List ℕ) (data : List (Row K D)) (nof : PyVal) (axisLimits : Option ((Fin D → K) × (Fin D → K)))
    (avg : Option K) : RunM σ K D S (Base K D × K) := do
  let (_, idx) ← inert (prepNofInstances choice nof data.length)
  let data' ← inert (takeRows data idx)
  let a ← match avg with
    | some a => pure a
    | none => do
      let y ← callModel w data'
      pure (mean y)
  let (lo, hi) ← inert (match axisLimits with
    | some l => .ok l
    | none => axisLimitsAll data')
  return ({ data := data', indices := idx, axisLo := lo, axisHi := hi }, a)

/-! ## effector/global_effect_pdp.py -/

/-- `PDP`; `DerPDP` with `model_jac`; `DerPDP` without. -/
inductive PdpWhich
  | pdp | derJac | derNum
deriving DecidableEq

/-- effector/global_effect_pdp.py:467-474, 476-480: the body of the loop of `pdp_1d_non_vectorized`. -/
def runRow (w : World σ K D) (cast : K → K) (which : PdpWhich) (data : List (Row K D)) (s : Fin D) (v : K) : RunM σ K D S (List K) :=
  match which with
  | .pdp => callModel w (setAll cast data s v)
  | .derJac => do
    let j ← callJac w (setAll cast data s v)
    return col j s
  | .derNum => do
    let y1 ← callModel w (setAll cast data s (v + FD_STEP))
    let y2 ← callModel w (setAll cast data s (v - FD_STEP))
    return centralDiff y1 y2

/-- effector/global_effect_pdp.py:465-481: the loops of `pdp_1d_non_vectorized`. -/
def runRows (w : World σ K D) (cast : K → K) (which : PdpWhich) (data : List (Row K D)) (s : Fin D) : List K → RunM σ K D S (List (List K))
  | [] => pure []
  | v :: t => do
    let y ← runRow w cast which data s v
    let ys ← runRows w cast which data s t
    return y :: ys

/-- effector/global_effect_pdp.py:540-566: `pdp_1d_vectorized`. -/
def runBatch (w : World σ K D) (cast : K → K) (which : PdpWhich) (data : List (Row K D)) (s : Fin D) (x : List K) : RunM σ K D S (List (List K)) :=
  match which with
  | .pdp => do
    let y ← callModel w (pdpBatch cast data x s)
    inert (reshape2 x.length data.length y)
  | .derJac => do
    let j ← callJac w (pdpBatch cast data x s)
    inert (reshape2 x.length data.length (col j s))
  | .derNum => do
    let y1 ← callModel w (pdpBatch cast data (x.map (· + FD_STEP)) s)
    let y2 ← callModel w (pdpBatch cast data (x.map (· - FD_STEP)) s)
    inert (reshape2 x.length data.length (centralDiff y1 y2))

/-- effector/global_effect_pdp.py:36-47 `_predict`; without vectorisation `np.mean(y, axis=1)` raises for an empty list of positions (line 483). -/
def runPredict (w : World σ K D) (cast : K → K) (which : PdpWhich) (data : List (Row K D)) (xx : List K) (s : Fin D) (vec : Bool) :
    RunM σ K D S (List (List K)) :=
  if vec then runBatch w cast which data s xx
  else do
    let y ← runRows w cast which data s xx
    inert (if xx = [] then .error .valueError else .ok y)

/-- What never changes in a PDP/DerPDP object after construction (the black box itself is in the `World`). -/
structure RunPdpCfg (K : Type) (D : ℕ) where
  cast : K → K
  which : PdpWhich
  axisLo : Fin D → K
  axisHi : Fin D → K
  /-- `self.avg_output` -/
  avg : K

/-- effector/global_effect_pdp.py:12-34 and effector/global_effect.py:55-89: constructing a `PDP` or `DerPDP`. -/
def runPdpNew (w : World σ K D) (choice : ℕ → ℕ → List ℕ) (cast : K → K) (which : PdpWhich) (data : List (Row K D)) (nof : PyVal)
    (axisLimits : Option ((Fin D → K) × (Fin D → K))) (avg : Option K) : RunM σ K D S (RunPdpCfg K D × PdpState K D) := do
  let (b, a) ← runBase w choice data nof axisLimits avg
  return ({ cast := cast, which := which, axisLo := b.axisLo, axisHi := b.axisHi, avg := a }, PdpState.init b.data)

/-- effector/global_effect_pdp.py:49-77 `_fit_feature`. -/
def runPdpFitFeature (w : World σ K D) (cfg : RunPdpCfg K D) (s : Fin D) (c : Centering) (points : ℕ) (vec : Bool) :
    RunM σ K D (PdpState K D) (NormConst K) := do
  let o ← readObj
  writeObj { o with data := dropOutside o.data (cfg.axisLo s) (cfg.axisHi s) s }
  match c with
  | .zeroIntegral => do
    let y ← runPredict w cfg.cast cfg.which (dropOutside o.data (cfg.axisLo s) (cfg.axisHi s) s) (linspace (cfg.axisLo s) (cfg.axisHi s) points) s vec
    return .vec (colMeans (dropOutside o.data (cfg.axisLo s) (cfg.axisHi s) s).length y)
  | .zeroStart => do
    let y ← runPredict w cfg.cast cfg.which (dropOutside o.data (cfg.axisLo s) (cfg.axisHi s) s) [cfg.axisLo s] s vec
    let y0 ← inert (pyIndex y 0)
    return .vec y0
  | .off => return .scalar EMPTY_SYMBOL

/-- effector/global_effect_pdp.py:114-122: the loop in `fit`. -/
def runPdpFitLoop (w : World σ K D) (cfg : RunPdpCfg K D) (c : Centering) (points : ℕ) (vec : Bool) :
    List (Fin D) → RunM σ K D (PdpState K D) Unit
  | [] => pure ()
  | s :: t => do
    let nc ← runPdpFitFeature w cfg s c points vec
    let o ← readObj
    writeObj { data := o.data
               fe := Function.update o.fe s (some nc)
               fitted := Function.update o.fitted s true
               args := Function.update o.args s (some c) }
    runPdpFitLoop w cfg c points vec t

/-- effector/global_effect_pdp.py:79-122 `fit`. -/
def runPdpFit (w : World σ K D) (cfg : RunPdpCfg K D) (features centering : PyVal) (points : ℕ) (vec : Bool) :
    RunM σ K D (PdpState K D) Unit := do
  let c ← inert (prepCentering centering)
  let f ← inert (prepFeatures features D)
  let l ← inert (resolveFeatures D f)
  runPdpFitLoop w cfg c points vec l

/-- effector/global_effect_pdp.py:174-189: centring and summarising the rows. -/
def pdpSummary [PySqrt K] (nc : Option (NormConst K)) (het : Bool) (c : Centering) (all : Bool) (yy : List (List K)) : Py (PdpOut K) := do
  let yy ← if c = .off then .ok yy
    else match nc with
      | none => .error .keyError
      | some nc => yy.mapM (subNorm nc)
  return if all then .all yy
    else if het then .meanStd (yy.map mean) (yy.map npStd)
    else .meanOnly (yy.map mean)

/-- effector/global_effect_pdp.py:124-189 `eval`. -/
def runPdpEval [PySqrt K] (w : World σ K D) (cfg : RunPdpCfg K D) (s : Fin D) (xs : List K) (het : Bool) (centering : PyVal) (all vec : Bool) :
    RunM σ K D (PdpState K D) (PdpOut K) := do
  let c ← inert (prepCentering centering)
  let o ← readObj
  let again ← inert (needsRefit (o.fitted s) (o.args s) c)
  if again then runPdpFitLoop w cfg c 100 vec [s] else pure ()
  inert (pyAssert (decide (cfg.axisLo s < cfg.axisHi s)))
  let o ← readObj
  let yy ← runPredict w cfg.cast cfg.which o.data xs s vec
  inert (pdpSummary (o.fe s) het c all yy)

/-- effector/global_effect_pdp.py:191-261 `plot`, up to the drawing: the ICE rows on the grid, and the height of the line of the average output. -/
def runPdpPlot [PySqrt K] (w : World σ K D) (cfg : RunPdpCfg K D) (s : Fin D) (het centering : PyVal) (nofPoints : ℕ) (showAvg : Bool)
    (scaleY : Option (Scale K)) (vec : Bool) : RunM σ K D (PdpState K D) (PdpOut K × Option K) := do
  let _ ← inert (prepConfidenceInterval het)
  let c ← inert (prepCentering centering)
  let yy ← runPdpEval w cfg s (linspace (cfg.axisLo s) (cfg.axisHi s) nofPoints) false c.toVal true vec
  let o ← readObj
  let a ← if showAvg then do
      let a ← runAvgOutput w o.data (some cfg.avg) scaleY
      pure (some a)
    else pure none
  return (yy, a)

/-! ## effector/global_effect_ale.py -/

/-- The mutable part of an ALE/RHALE object; `eff` is `self.data_effect` (`none` in an ALE object). -/
structure AleObj (K : Type) (D : ℕ) where
  st : AleState K D
  eff : Option (List (Row K D))

/-- What never changes in an ALE/RHALE object; `fitF` is the method `_fit_feature`. -/
structure RunAleCfg (σ K : Type) (D : ℕ) where
  axisLo : Fin D → K
  axisHi : Fin D → K
  fitF : Fin D → BinMethod K → RunM σ K D (AleObj K D) (AleParams K)
  defaultBin : BinMethod K
  allowed : BinMethod K → Bool
  avg : K

/-- The parts of the object that the call-free functions of Model/Ale.lean read (`aleNormConst` and `aleEvalFitted` use the axis limits only). -/
def RunAleCfg.reader (cfg : RunAleCfg σ K D) : AleCfg K D where
  axisLo := cfg.axisLo
  axisHi := cfg.axisHi
  fitF := fun _ _ => .error .typeError
  defaultBin := cfg.defaultBin
  allowed := cfg.allowed

/-- effector/utils.py:46-62: the statements of `compute_local_effects` before the model is called: the limits after the change, the right and left limit of each
row, and `dx`. -/
def localEffectsHead (data : List (Row K D)) (limits : List K) (s : Fin D) : Py (List K × List K × List K × K) := do
  let lo ← pyIndex limits 0
  let mn ← listMin (col data s)
  pyAssert (lo ≤ mn)
  let hi ← pyIndex limits (limits.length - 1)
  let mx ← listMax (col data s)
  pyAssert (mx ≤ hi)
  let limits' := bumpLast EPS limits
  let ind ← digitize (col data s) limits'
  pyAssert (ind.all (0 < ·))
  let right ← ind.mapM (fun i => pyIndex limits' i)
  let left ← ind.mapM (fun i => pyIndex limits' (i - 1))
  let l0 ← pyIndex limits' 0
  let l1 ← pyIndex limits' 1
  return (limits', right, left, l1 - l0)

/-- effector/utils.py:10-64 `compute_local_effects`: two calls (line 63). -/
def runLocalEffects (w : World σ K D) (cast : K → K) (data : List (Row K D)) (limits : List K) (s : Fin D) :
    RunM σ K D S (List K × List K) := do
  let p ← inert (localEffectsHead data limits s)
  let y1 ← callModel w (setCol cast data s p.2.1)
  let y2 ← callModel w (setCol cast data s p.2.2.1)
  return ((List.zipWith (· - ·) y1 y2).map (· / p.2.2.2), p.1)

/-- effector/global_effect_ale.py:309-334: the bins of `ALE._fit_feature`, which need no call. -/
def aleBins (data : List (Row K D)) (lo hi : Fin D → K) (s : Fin D) (bm : BinMethod K) : Py (List K) := do
  pyAssert (isFixedMethod bm)
  let bm' : BinMethod K := match bm with
    | .str _ => .fixed 20 (some 0) 15
    | b => b
  match ← findLimits { xs := col (data.filter (inAxis (lo s) (hi s) s)) s, eff := none, xmin := lo s, xmax := hi s } bm' with
  | .impossible => .error .assertionError
  | .arr limits => .ok limits

/-- effector/global_effect_ale.py:309-348 `ALE._fit_feature`. -/
def runAleFitFeature (w : World σ K D) (cast : K → K) (data : List (Row K D)) (lo hi : Fin D → K) (s : Fin D) (bm : BinMethod K) :
    RunM σ K D S (AleParams K) := do
  let limits ← inert (aleBins data lo hi s bm)
  let r ← runLocalEffects w cast (data.filter (inAxis (lo s) (hi s) s)) limits s
  inert (computeAleParams (col (data.filter (inAxis (lo s) (hi s) s)) s) r.1 r.2)

/-- effector/utils.py:475-478: the loop of `compute_jacobian_numerically`: the columns, first to last. -/
def runJacobianCols (w : World σ K D) (data : List (Row K D)) (eps : K) : List (Fin D) → RunM σ K D S (List (List K))
  | [] => pure []
  | f :: t => do
    let a ← callModel w (data.map fun r => Function.update r f (r f + eps))
    let b ← callModel w data
    let cs ← runJacobianCols w data eps t
    return List.zipWith (fun a b => (a - b) / eps) a b :: cs

/-- effector/utils.py:445-479 `compute_jacobian_numerically`. -/
def runJacobian (w : World σ K D) (data : List (Row K D)) (eps : K) : RunM σ K D S (List (Row K D)) := do
  let cols ← runJacobianCols w data eps (allFeatures D)
  return (List.range data.length).map fun i => fun f => (cols.getD f []).getD i 0

/-- effector/global_effect_ale.py:473-479 `RHALE.compile`; `hasJac`: `model_jac` was given. -/
def runCompile (w : World σ K D) (hasJac : Bool) (data : List (Row K D)) : RunM σ K D (AleObj K D) Unit := do
  let o ← readObj
  match o.eff with
  | some _ => pure ()
  | none => do
    let e ← if hasJac then callJac w data else runJacobian w data EPS
    writeObj { o with eff := some e }

/-- effector/global_effect_ale.py:481-518 `RHALE._fit_feature`. -/
def runRhaleFitFeature (w : World σ K D) (hasJac : Bool) (data : List (Row K D)) (lo hi : Fin D → K) (s : Fin D) (bm : BinMethod K) :
    RunM σ K D (AleObj K D) (AleParams K) := do
  runCompile w hasJac data
  let o ← readObj
  match o.eff with
  | none => inert (.error .typeError)
  | some e => inert (rhaleFitFeature data e lo hi s bm)

/-- effector/global_effect_ale.py:73-88: the loop of `_fit_loop`; `_compute_norm_const` makes no call. -/
def runAleFitLoop (cfg : RunAleCfg σ K D) (bm : BinMethod K) (c : Centering) : List (Fin D) → RunM σ K D (AleObj K D) Unit
  | [] => pure ()
  | s :: t => do
    let p ← cfg.fitF s bm
    let o ← readObj
    writeObj { o with st := { o.st with fe := Function.update o.st.fe s (some (p, none)) } }
    let z ← inert (aleNormConst cfg.reader p s c)
    writeObj { o with st := { fe := Function.update o.st.fe s (some (p, some z))
                              fitted := Function.update o.st.fitted s true
                              args := Function.update o.st.args s (some c) } }
    runAleFitLoop cfg bm c t

/-- effector/global_effect_ale.py:350-380 `ALE.fit`, 520-560 `RHALE.fit`, with 71-72. -/
def runAleFit (cfg : RunAleCfg σ K D) (features : PyVal) (bm : BinMethod K) (centering : PyVal) : RunM σ K D (AleObj K D) Unit := do
  inert (pyAssert (cfg.allowed bm))
  let f ← inert (prepFeatures features D)
  let c ← inert (prepCentering centering)
  let l ← inert (resolveFeatures D f)
  runAleFitLoop cfg bm c l

/-- effector/global_effect_ale.py:107-157 `eval`. -/
def runAleEval [PySqrt K] (cfg : RunAleCfg σ K D) (s : Fin D) (xs : List K) (het : Bool) (centering : PyVal) :
    RunM σ K D (AleObj K D) (List K × Option (List K)) := do
  let c ← inert (prepCentering centering)
  let o ← readObj
  let again ← inert (needsRefit (o.st.fitted s) (o.st.args s) c)
  if again then runAleFitLoop cfg cfg.defaultBin c [s] else pure ()
  let o ← readObj
  inert (aleEvalFitted cfg.reader o.st s xs het c)

/-- effector/global_effect_ale.py:208-239 `plot` and effector/visualization.py:58-59, up to the drawing: the first `eval` (which may fit), the line of the average
output, the second `eval` on 1000 points. -/
def runAlePlot [PySqrt K] (w : World σ K D) (cfg : RunAleCfg σ K D) (data : List (Row K D)) (s : Fin D) (het centering : PyVal) (showAvg : Bool)
    (scaleY : Option (Scale K)) : RunM σ K D (AleObj K D) (List K × List K × Option (List K) × Option K) := do
  let _ ← inert (prepConfidenceInterval het)
  let c ← inert (prepCentering centering)
  let _ ← runAleEval cfg s [cfg.axisLo s] false c.toVal
  let a ← if showAvg then do
      let a ← runAvgOutput w data (some cfg.avg) scaleY
      pure (some a)
    else pure none
  let o ← readObj
  let p ← inert (match o.st.fe s with
    | none => .error .keyError
    | some (p, _) => .ok p)
  let l0 ← inert (pyIndex p.limits 0)
  let l1 ← inert (pyIndex p.limits (p.limits.length - 1))
  let r ← runAleEval cfg s (linspace l0 l1 1000) true c.toVal
  return (linspace l0 l1 1000, r.1, r.2, a)

/-- effector/global_effect_ale.py:238-380: an `ALE` object with the base part `b`. -/
def runAleCfg (w : World σ K D) (cast : K → K) (b : Base K D) (avg : K) : RunAleCfg σ K D where
  axisLo := b.axisLo
  axisHi := b.axisHi
  fitF := fun s bm => runAleFitFeature w cast b.data b.axisLo b.axisHi s bm
  defaultBin := .str "fixed"
  allowed := isFixedMethod
  avg := avg

/-- effector/global_effect_ale.py:383-560: an `RHALE` object with the base part `b`. -/
def runRhaleCfg (w : World σ K D) (hasJac : Bool) (b : Base K D) (avg : K) : RunAleCfg σ K D where
  axisLo := b.axisLo
  axisHi := b.axisHi
  fitF := fun s bm => runRhaleFitFeature w hasJac b.data b.axisLo b.axisHi s bm
  defaultBin := .str "greedy"
  allowed := rhaleAllowed
  avg := avg

/-- effector/global_effect_ale.py:305-307: constructing an `ALE`. -/
def runAleNew (w : World σ K D) (choice : ℕ → ℕ → List ℕ) (cast : K → K) (data : List (Row K D)) (nof : PyVal)
    (axisLimits : Option ((Fin D → K) × (Fin D → K))) (avg : Option K) : RunM σ K D S (RunAleCfg σ K D × AleObj K D) := do
  let (b, a) ← runBase w choice data nof axisLimits avg
  return (runAleCfg w cast b a, { st := AleState.init, eff := none })

/-- effector/global_effect_ale.py:461-471: constructing an `RHALE`. -/
def runRhaleNew (w : World σ K D) (choice : ℕ → ℕ → List ℕ) (hasJac : Bool) (data : List (Row K D)) (given : Option (List (Row K D))) (nof : PyVal)
    (axisLimits : Option ((Fin D → K) × (Fin D → K))) (avg : Option K) : RunM σ K D S (RunAleCfg σ K D × AleObj K D) := do
  let (_, idx) ← inert (prepNofInstances choice nof data.length)
  let data' ← inert (takeRows data idx)
  let given' ← inert (match given with
    | some e => (takeRows e idx).map some
    | none => .ok none)
  let (b, a) ← runBase w choice data' (.str "all") axisLimits avg
  return (runRhaleCfg w hasJac b a, { st := AleState.init, eff := given' })

/-! ## effector/global_effect_shap.py -/

/-- What never changes in a ShapDP object; `spline` is `UnivariateSpline` (any function that may raise). -/
structure RunShapCfg (K : Type) (D : ℕ) where
  spline : List (K × K) → Py (K → K)
  axisLo : Fin D → K
  axisHi : Fin D → K
  avg : K

/-- effector/global_effect_shap.py:113-146: what `_fit_feature` computes from the SHAP values. -/
def shapCurve (spline : List (K × K) → Py (K → K)) (d vals : List (Row K D)) (s : Fin D) (c : Centering) (points : ℕ) : Py (ShapFe K) := do
  let pairs := sortPairs ((col d s).zip (col vals s))
  let xx := pairs.map (·.1)
  let yy := pairs.map (·.2)
  let spl ← spline pairs
  let std ← spline (pairs.map fun p => (p.1, |p.2 - spl p.1|))
  let nc ← shapNormConst spl xx c points
  return { splineMean := spl, splineStd := std, xx := xx, yy := yy, normConst := nc }

/-- effector/global_effect_shap.py:97-146 `_fit_feature`. -/
def runShapFitFeature (w : World σ K D) (cfg : RunShapCfg K D) (s : Fin D) (c : Centering) (points : ℕ) :
    RunM σ K D (ShapState K D) (ShapFe K) := do
  let o ← readObj
  writeObj { o with data := dropOutside o.data (cfg.axisLo s) (cfg.axisHi s) s }
  let vals ← callExplain w (dropOutside o.data (cfg.axisLo s) (cfg.axisHi s) s)
  inert (shapCurve cfg.spline (dropOutside o.data (cfg.axisLo s) (cfg.axisHi s) s) vals s c points)

/-- effector/global_effect_shap.py:192-200: the loop in `fit`. -/
def runShapFitLoop (w : World σ K D) (cfg : RunShapCfg K D) (c : Centering) (points : ℕ) : List (Fin D) → RunM σ K D (ShapState K D) Unit
  | [] => pure ()
  | s :: t => do
    let fe ← runShapFitFeature w cfg s c points
    let o ← readObj
    writeObj { data := o.data
               fe := Function.update o.fe s (some fe)
               fitted := Function.update o.fitted s true
               args := Function.update o.args s (some c) }
    runShapFitLoop w cfg c points t

/-- effector/global_effect_shap.py:148-200 `fit`. -/
def runShapFit (w : World σ K D) (cfg : RunShapCfg K D) (features centering : PyVal) (points : ℕ) : RunM σ K D (ShapState K D) Unit := do
  let c ← inert (prepCentering centering)
  let f ← inert (prepFeatures features D)
  let l ← inert (resolveFeatures D f)
  runShapFitLoop w cfg c points l

/-- The parts of the object that `shapEvalFitted` of Model/Shap.lean reads. -/
def RunShapCfg.reader (cfg : RunShapCfg K D) : ShapCfg K D where
  ext := { explain := fun _ => .error .typeError, spline := cfg.spline }
  axisLo := cfg.axisLo
  axisHi := cfg.axisHi

/-- effector/global_effect_shap.py:202-248 `eval`. -/
def runShapEval (w : World σ K D) (cfg : RunShapCfg K D) (s : Fin D) (xs : List K) (het : Bool) (centering : PyVal) :
    RunM σ K D (ShapState K D) (List K × Option (List K)) := do
  let c ← inert (prepCentering centering)
  let o ← readObj
  let again ← inert (needsRefit (o.fitted s) (o.args s) c)
  if again then runShapFitLoop w cfg c 100 [s] else pure ()
  let o ← readObj
  inert (shapEvalFitted cfg.reader o s xs het c)

end Effector
