import Verif.Model.Pdp

/-!
# Arrays as objects: what the black-box model may do with the array it is handed

The other model files take the black box as a function from rows to values.  A python model is handed a *reference* to an array: it may return a view of that
array (`lambda x: x[:, 0]`), and it may overwrite it (`x -= mean; ...`).  Here the routines that call the model are written statement by statement over a heap of
two-dimensional arrays.
-/

namespace Effector

variable {K : Type} [Field K] [LinearOrder K] {D : ℕ}

/-- What a call of the black box returns: an array of its own, or a view of the array it was handed (`g` reads the view off the array's contents; every numpy
view is of this form). -/
inductive Ret (K : Type) (D : ℕ)
  | fresh (y : List K)
  | view (g : List (Row K D) → List K)

/-- A python callable: the contents of its argument after the call, and what it returns. -/
structure Callable (K : Type) (D : ℕ) where
  call : List (Row K D) → List (Row K D) × Ret K D

/-- The two-dimensional arrays in memory; an address is a position in the list. -/
abbrev Memory (K : Type) (D : ℕ) := List (List (Row K D))

/-- A one-dimensional array: its own memory, or a view of a two-dimensional one. -/
inductive Arr (K : Type) (D : ℕ)
  | owned (y : List K)
  | view (a : ℕ) (g : List (Row K D) → List K)

/-- A program over the heap. -/
def HeapM (K : Type) (D : ℕ) (α : Type) := Memory K D → Memory K D × α

instance : Monad (HeapM K D) where
  pure x := fun h => (h, x)
  bind m f := fun h => f (m h).2 (m h).1

/-- A new array with the given contents (numpy's fancy indexing, `copy.deepcopy`, `np.repeat` all allocate). -/
def alloc (X : List (Row K D)) : HeapM K D ℕ := fun h => (h ++ [X], h.length)

/-- The contents of an array. -/
def load (a : ℕ) : HeapM K D (List (Row K D)) := fun h => (h, h.getD a [])

/-- Overwriting an array. -/
def store (a : ℕ) (X : List (Row K D)) : HeapM K D Unit := fun h => (h.set a X, ())

/-- `copy.deepcopy(x)`. -/
def copyOf (a : ℕ) : HeapM K D ℕ := do
  let X ← load a
  alloc X

/-- `model(x)`. -/
def callOn (m : Callable K D) (a : ℕ) : HeapM K D (Arr K D) := do
  let X ← load a
  store a (m.call X).1
  return match (m.call X).2 with
    | .fresh y => .owned y
    | .view g => .view a g

/-- The values of a one-dimensional array, now. -/
def readArr : Arr K D → HeapM K D (List K)
  | .owned y => pure y
  | .view a g => do
    let X ← load a
    return g X

/-- The values of several arrays, now (`np.array(y_list)`). -/
def readAll : List (Arr K D) → HeapM K D (List (List K))
  | [] => pure []
  | r :: t => do
    let y ← readArr r
    let ys ← readAll t
    return y :: ys

/-- `x[:, feature] = v`. -/
def setFeature (cast : K → K) (a : ℕ) (s : Fin D) (v : K) : HeapM K D Unit := do
  let X ← load a
  store a (setAll cast X s v)

/-! ## effector/global_effect_pdp.py -/

/-- effector/global_effect_pdp.py:475-480: the loop of `pdp_1d_non_vectorized` that predicts; the list `y_list` of what the model returned. -/
def heapRowsLoop (cast : K → K) (m : Callable K D) (data : ℕ) (s : Fin D) : List K → HeapM K D (List (Arr K D))
  | [] => pure []
  | v :: t => do
    let xNew ← copyOf data
    setFeature cast xNew s v
    let y ← callOn m xNew
    let ys ← heapRowsLoop cast m data s t
    return y :: ys

/-- effector/global_effect_pdp.py:475-481: the matrix `y` of `pdp_1d_non_vectorized` without derivatives (with `model_returns_jac` the callable is
`model(x)[:, feature]`, a view or an array of its own as well). -/
def heapRows (cast : K → K) (m : Callable K D) (data : ℕ) (x : List K) (s : Fin D) : HeapM K D (List (List K)) := do
  let ys ← heapRowsLoop cast m data s x
  readAll ys

/-- effector/global_effect_pdp.py:465-474: the loop of `pdp_1d_non_vectorized` that takes finite differences.  One array `x_new` serves both calls. -/
def heapRowsDer (cast : K → K) (m : Callable K D) (data : ℕ) (s : Fin D) : List K → HeapM K D (List (List K))
  | [] => pure []
  | v :: t => do
    let xNew ← copyOf data
    setFeature cast xNew s (v + FD_STEP)
    let y1 ← callOn m xNew
    setFeature cast xNew s (v - FD_STEP)
    let y2 ← callOn m xNew
    let a ← readArr y1
    let b ← readArr y2
    let ys ← heapRowsDer cast m data s t
    return centralDiff a b :: ys

/-- `x_new[:, :, feature] = np.expand_dims(x, axis=-1)` on the contents of the repeated array, `n` rows per block. -/
def setBlocks (cast : K → K) (n : ℕ) (X : List (Row K D)) (x : List K) (s : Fin D) : List (Row K D) :=
  List.zipWith (fun r v => Function.update r s (cast v)) X (x.flatMap fun v => List.replicate n v)

/-- effector/global_effect_pdp.py:540-543: `x_new`, the data repeated once per position. -/
def heapRepeat (data : ℕ) (x : List K) : HeapM K D ℕ := do
  let xNew ← copyOf data
  let X ← load xNew
  alloc (x.flatMap fun _ => X)

/-- effector/global_effect_pdp.py:540-543, 563-566: `pdp_1d_vectorized` without derivatives. -/
def heapVec (cast : K → K) (m : Callable K D) (data : ℕ) (x : List K) (s : Fin D) : HeapM K D (Py (List (List K))) := do
  let n := (← load data).length
  let xNew ← heapRepeat data x
  let X ← load xNew
  store xNew (setBlocks cast n X x s)
  let y ← callOn m xNew
  let v ← readArr y
  return reshape2 x.length n v

/-- effector/global_effect_pdp.py:540-562: `pdp_1d_vectorized` with derivatives. -/
def heapVecDer (cast : K → K) (m : Callable K D) (data : ℕ) (x : List K) (s : Fin D) : HeapM K D (Py (List (List K))) := do
  let n := (← load data).length
  let xNew ← heapRepeat data x
  let x1 ← copyOf xNew
  let X1 ← load x1
  store x1 (setBlocks cast n X1 (x.map (· + FD_STEP)) s)
  let x2 ← copyOf xNew
  let X2 ← load x2
  store x2 (setBlocks cast n X2 (x.map (· - FD_STEP)) s)
  let y1 ← callOn m x1
  let y2 ← callOn m x2
  let a ← readArr y1
  let b ← readArr y2
  return reshape2 x.length n (centralDiff a b)

/-- What a call of `model_jac` returns. -/
inductive JacRet (K : Type) (D : ℕ)
  | fresh (J : List (Row K D))
  | view (g : List (Row K D) → List (Row K D))

/-- The callable `model_jac`: the contents of its argument after the call, and what it returns. -/
structure JacCallable (K : Type) (D : ℕ) where
  call : List (Row K D) → List (Row K D) × JacRet K D

/-- `model_jac(x)[:, feature]` (global_effect_pdp.py:479, 565): a column of the result is a view of it. -/
def JacCallable.column (j : JacCallable K D) (s : Fin D) : Callable K D where
  call X := ((j.call X).1, match (j.call X).2 with
    | .fresh J => .fresh (col J s)
    | .view g => .view fun X => col (g X) s)

/-- The callables of a PDP object, or of a DerPDP object with / without `model_jac`. -/
inductive HeapKind (K : Type) (D : ℕ)
  | pdp (m : Callable K D)
  | derJac (j : JacCallable K D)
  | derNum (m : Callable K D)

/-- effector/global_effect_pdp.py:36-47 `_predict` (as `pdpPredict`). -/
def heapPredict (cast : K → K) (kind : HeapKind K D) (data : ℕ) (xx : List K) (s : Fin D) (vec : Bool) : HeapM K D (Py (List (List K))) :=
  let rows (p : HeapM K D (List (List K))) : HeapM K D (Py (List (List K))) :=
    if xx = [] then return .error .valueError
    else do
      let y ← p
      return .ok y
  match kind with
  | .pdp m => if vec then heapVec cast m data xx s else rows (heapRows cast m data xx s)
  | .derJac j => if vec then heapVec cast (j.column s) data xx s else rows (heapRows cast (j.column s) data xx s)
  | .derNum m => if vec then heapVecDer cast m data xx s else rows (heapRowsDer cast m data s xx)

/-- A PDP/DerPDP object: what never changes. -/
structure HeapPdpCfg (K : Type) (D : ℕ) where
  cast : K → K
  kind : HeapKind K D
  axisLo : Fin D → K
  axisHi : Fin D → K

/-- A PDP/DerPDP object: its attributes; `self.data` is an address. -/
structure HeapPdp (K : Type) (D : ℕ) where
  data : ℕ
  fe : Fin D → Option (NormConst K)
  fitted : Fin D → Bool
  args : Fin D → Option Centering

/-- effector/global_effect_pdp.py:49-77 `_fit_feature`: the new address of `self.data` (boolean indexing allocates) and the norm constant. -/
def heapFitFeature (cfg : HeapPdpCfg K D) (data : ℕ) (s : Fin D) (c : Centering) (points : ℕ) (vec : Bool) : HeapM K D (ℕ × Py (NormConst K)) := do
  let X ← load data
  let d1 ← alloc (X.filter fun r => decide (cfg.axisLo s ≤ r s))
  let X1 ← load d1
  let d ← alloc (X1.filter fun r => decide (r s ≤ cfg.axisHi s))
  match c with
  | .zeroIntegral => do
    let y ← heapPredict cfg.cast cfg.kind d (linspace (cfg.axisLo s) (cfg.axisHi s) points) s vec
    let n := (← load d).length
    return (d, y.map fun y => .vec (colMeans n y))
  | .zeroStart => do
    let y ← heapPredict cfg.cast cfg.kind d [cfg.axisLo s] s vec
    return (d, y.bind fun y => (pyIndex y 0).map .vec)
  | .off => return (d, .ok (.scalar EMPTY_SYMBOL))

/-- effector/global_effect_pdp.py:114-122: the loop in `fit`. -/
def heapFitLoop (cfg : HeapPdpCfg K D) (c : Centering) (points : ℕ) (vec : Bool) : HeapPdp K D → List (Fin D) → HeapM K D (HeapPdp K D × Py Unit)
  | o, [] => pure (o, .ok ())
  | o, s :: t => do
    let r ← heapFitFeature cfg o.data s c points vec
    match r with
    | (d, .error e) => return ({ o with data := d }, .error e)
    | (d, .ok nc) =>
      heapFitLoop cfg c points vec
        { data := d
          fe := Function.update o.fe s (some nc)
          fitted := Function.update o.fitted s true
          args := Function.update o.args s (some c) } t

/-- effector/global_effect_pdp.py:79-122 `fit`. -/
def heapFit (cfg : HeapPdpCfg K D) (o : HeapPdp K D) (features : PyVal) (centering : PyVal) (points : ℕ) (vec : Bool) : HeapM K D (HeapPdp K D × Py Unit) :=
  match (do let c ← prepCentering centering
            let f ← prepFeatures features D
            let l ← resolveFeatures D f
            return (l, c)) with
  | .error e => return (o, .error e)
  | .ok (l, c) => heapFitLoop cfg c points vec o l

/-- effector/global_effect_pdp.py:168-189: the part of `eval` after the possible refit. -/
def heapEvalFitted [PySqrt K] (cfg : HeapPdpCfg K D) (o : HeapPdp K D) (s : Fin D) (xs : List K) (het : Bool) (c : Centering) (all vec : Bool) :
    HeapM K D (Py (PdpOut K)) :=
  if cfg.axisLo s < cfg.axisHi s then do
    let yy ← heapPredict cfg.cast cfg.kind o.data xs s vec
    return do
      let yy ← yy
      let yy ← if c = .off then .ok yy
        else match o.fe s with
          | none => .error .keyError
          | some nc => yy.mapM (subNorm nc)
      return if all then .all yy
        else if het then .meanStd (yy.map mean) (yy.map npStd)
        else .meanOnly (yy.map mean)
  else return .error .assertionError

/-- effector/global_effect_pdp.py:124-189 `eval`. -/
def heapEval [PySqrt K] (cfg : HeapPdpCfg K D) (o : HeapPdp K D) (s : Fin D) (xs : List K) (het : Bool) (centering : PyVal) (all vec : Bool) :
    HeapM K D (HeapPdp K D × Py (PdpOut K)) :=
  match prepCentering centering with
  | .error e => return (o, .error e)
  | .ok c =>
    match needsRefit (o.fitted s) (o.args s) c with
    | .error e => return (o, .error e)
    | .ok false => do
      let y ← heapEvalFitted cfg o s xs het c all vec
      return (o, y)
    | .ok true => do
      let r ← heapFitLoop cfg c 100 vec o [s]
      match r with
      | (o', .error e) => return (o', .error e)
      | (o', .ok ()) => do
        let y ← heapEvalFitted cfg o' s xs het c all vec
        return (o', y)

/-- One public call, result forgotten. -/
def heapStep [PySqrt K] (cfg : HeapPdpCfg K D) (o : HeapPdp K D) : PdpOp K D → HeapM K D (HeapPdp K D)
  | .fit f c p v => do
    let r ← heapFit cfg o f c p v
    return r.1
  | .eval s xs het c all vec => do
    let r ← heapEval cfg o s xs het c all vec
    return r.1

/-- A history of calls. -/
def heapRun [PySqrt K] (cfg : HeapPdpCfg K D) : HeapPdp K D → List (PdpOp K D) → HeapM K D (HeapPdp K D)
  | o, [] => pure o
  | o, op :: t => do
    let o' ← heapStep cfg o op
    heapRun cfg o' t

/-! ## effector/utils.py -/

/-- effector/utils.py:57-63, the end of `compute_local_effects`: two copies of the data, the feature at the right and at the left limits of the bins, and the
difference of the two predictions. -/
def heapDifference (cast : K → K) (m : Callable K D) (data : ℕ) (s : Fin D) (right left : List K) : HeapM K D (List K) := do
  let r ← copyOf data
  let l ← copyOf data
  let R ← load r
  store r (setCol cast R s right)
  let L ← load l
  store l (setCol cast L s left)
  let y1 ← callOn m r
  let y2 ← callOn m l
  let a ← readArr y1
  let b ← readArr y2
  return List.zipWith (· - ·) a b

/-- effector/utils.py:10-62 `compute_local_effects` up to the predictions: the limits after `limits[-1] += EPS`, the right and the left limits of the instances' bins, and
the width `dx` (the same tests as in `computeLocalEffects`). -/
def localEffectsPrep (data : List (Row K D)) (limits : List K) (s : Fin D) : Py (List K × List K × List K × K) := do
  let lo ← pyIndex limits 0
  let mn ← listMin (col data s)
  pyAssert (lo ≤ mn)
  let hi ← pyIndex limits (limits.length - 1)
  let mx ← listMax (col data s)
  pyAssert (mx ≤ hi)
  let limits' := bumpLast EPS limits
  let ind ← digitize (col data s) limits'
  pyAssert (ind.all (0 < ·))
  let right ← ind.mapM (fun i => pyIndex limits' i)
  let left ← ind.mapM (fun i => pyIndex limits' (i - 1))
  let l0 ← pyIndex limits' 0
  let l1 ← pyIndex limits' 1
  return (limits', right, left, l1 - l0)

/-- effector/utils.py:10-64 `compute_local_effects`. -/
def heapLocalEffects (cast : K → K) (m : Callable K D) (data : ℕ) (limits : List K) (s : Fin D) : HeapM K D (Py (List K × List K)) := do
  let X ← load data
  match localEffectsPrep X limits s with
  | .error e => return .error e
  | .ok (limits', right, left, dx) => do
    let d ← heapDifference cast m data s right left
    return .ok (d.map (· / dx), limits')

/-- effector/utils.py:475-478, the loop of `compute_jacobian_numerically`: the second prediction is made on the data set itself. -/
def heapJacobianCols (m : Callable K D) (data : ℕ) (eps : K) : List (Fin D) → HeapM K D (List (List K))
  | [] => pure []
  | f :: t => do
    let plus ← copyOf data
    let P ← load plus
    store plus (P.map fun r => Function.update r f (r f + eps))
    let y1 ← callOn m plus
    let y2 ← callOn m data
    let a ← readArr y1
    let b ← readArr y2
    let cs ← heapJacobianCols m data eps t
    return List.zipWith (fun u v => (u - v) / eps) a b :: cs

/-- effector/utils.py:445-479 `compute_jacobian_numerically`. -/
def heapJacobian (m : Callable K D) (data : ℕ) (eps : K) : HeapM K D (List (Row K D)) := do
  let n := (← load data).length
  let cols ← heapJacobianCols m data eps (allFeatures D)
  return (List.range n).map fun i => fun f => (cols.getD (f : ℕ) []).getD i 0

/-! ## effector/global_effect.py -/

/-- effector/global_effect.py:63-74: `self.data` is a copy of the selected rows; if `avg_output` is not given, the model is called on it. -/
def heapConstruct (m : Callable K D) (data : ℕ) (rows : List ℕ) (avgGiven : Bool) : HeapM K D ℕ := do
  let X ← load data
  let self ← alloc (rows.filterMap fun i => X[i]?)
  if avgGiven then return self
  else do
    let y ← callOn m self
    let _ ← readArr y
    return self

/-- A fresh PDP object on the array at address `data` (global_effect.py:66-89 with `heapConstruct`). -/
def HeapPdp.init (data : ℕ) : HeapPdp K D := { data := data, fe := fun _ => none, fitted := fun _ => false, args := fun _ => none }

/-! ## effector/global_effect_ale.py -/

/-- effector/global_effect_ale.py:323-324: a string stands for `Fixed(nof_bins=20, min_points_per_bin=0)`. -/
def orFixed : BinMethod K → BinMethod K
  | .str _ => .fixed 20 (some 0) 15
  | b => b

/-- effector/global_effect_ale.py:309-348 `ALE._fit_feature` (as `aleFitFeature`); boolean indexing allocates. -/
def heapAleFit (cast : K → K) (m : Callable K D) (data : ℕ) (lo hi : Fin D → K) (s : Fin D) (bm : BinMethod K) : HeapM K D (Py (AleParams K)) := do
  let X ← load data
  let d ← alloc (X.filter (inAxis (lo s) (hi s) s))
  if isFixedMethod bm then do
    let xs ← load d
    match findLimits { xs := col xs s, eff := none, xmin := lo s, xmax := hi s } (orFixed bm) with
    | .error e => return .error e
    | .ok .impossible => return .error .assertionError
    | .ok (.arr limits) => do
      let r ← heapLocalEffects cast m d limits s
      let xs ← load d
      return r.bind fun p => computeAleParams (col xs s) p.1 p.2
  else return .error .assertionError

/-- `self.data_effect`: an array of its own, or (if `model_jac` returned a view of its argument) a view of `self.data`. -/
inductive EffRef (K : Type) (D : ℕ)
  | owned (J : List (Row K D))
  | view (a : ℕ) (g : List (Row K D) → List (Row K D))

/-- The values of `self.data_effect`, now. -/
def readEff : EffRef K D → HeapM K D (List (Row K D))
  | .owned J => pure J
  | .view a g => do
    let X ← load a
    return g X

/-- `model_jac(x)`. -/
def callJacOn (j : JacCallable K D) (a : ℕ) : HeapM K D (EffRef K D) := do
  let X ← load a
  store a (j.call X).1
  return match (j.call X).2 with
    | .fresh J => .owned J
    | .view g => .view a g

/-- effector/global_effect_ale.py:466-467: a copy of the selected rows of the effects the caller passed (an array at address `a`). -/
def heapTakeEffects (given : Option ℕ) (rows : List ℕ) : HeapM K D (Option (EffRef K D)) :=
  match given with
  | none => pure none
  | some a => do
    let E ← load a
    return some (.owned (rows.filterMap fun i => E[i]?))

/-- effector/global_effect_ale.py:473-479 `RHALE.compile` (default step of the finite differences: 1e-8, utils.py:446). -/
def heapCompile (m : Callable K D) (jac : Option (JacCallable K D)) (data : ℕ) : HeapM K D (EffRef K D) :=
  match jac with
  | some j => callJacOn j data
  | none => do
    let J ← heapJacobian m data EPS
    return .owned J

/-- effector/global_effect_ale.py:481-518 `RHALE._fit_feature`: `self.data_effect` afterwards, and the parameters. -/
def heapRhaleFit (m : Callable K D) (jac : Option (JacCallable K D)) (data : ℕ) (lo hi : Fin D → K) (eff : Option (EffRef K D)) (s : Fin D) (bm : BinMethod K) :
    HeapM K D (Option (EffRef K D) × Py (AleParams K)) := do
  let e ← match eff with
    | some e => pure e
    | none => heapCompile m jac data
  let X ← load data
  let J ← readEff e
  return (some e, rhaleFitFeature X J lo hi s bm)

/-- An ALE or RHALE object: what never changes (as `AleCfg`); `_fit_feature` sees and may set `self.data_effect`. -/
structure HeapAleCfg (K : Type) (D : ℕ) where
  axisLo : Fin D → K
  axisHi : Fin D → K
  fitF : Option (EffRef K D) → Fin D → BinMethod K → HeapM K D (Option (EffRef K D) × Py (AleParams K))
  defaultBin : BinMethod K
  allowed : BinMethod K → Bool

/-- effector/global_effect_ale.py:238-380: an `ALE` object on the array at address `data`. -/
def heapAleCfg (cast : K → K) (m : Callable K D) (data : ℕ) (lo hi : Fin D → K) : HeapAleCfg K D where
  axisLo := lo
  axisHi := hi
  fitF e s bm := do
    let p ← heapAleFit cast m data lo hi s bm
    return (e, p)
  defaultBin := .str "fixed"
  allowed := isFixedMethod

/-- effector/global_effect_ale.py:383-562: an `RHALE` object on the array at address `data`. -/
def heapRhaleCfg (m : Callable K D) (jac : Option (JacCallable K D)) (data : ℕ) (lo hi : Fin D → K) : HeapAleCfg K D where
  axisLo := lo
  axisHi := hi
  fitF := heapRhaleFit m jac data lo hi
  defaultBin := .str "greedy"
  allowed := rhaleAllowed

/-- An ALE/RHALE object: its attributes. -/
structure HeapAle (K : Type) (D : ℕ) where
  eff : Option (EffRef K D)
  st : AleState K D

/-- The parts of `HeapAleCfg` that do not touch memory. -/
def HeapAleCfg.pure (cfg : HeapAleCfg K D) (fitF : Fin D → BinMethod K → Py (AleParams K)) : AleCfg K D where
  axisLo := cfg.axisLo
  axisHi := cfg.axisHi
  fitF := fitF
  defaultBin := cfg.defaultBin
  allowed := cfg.allowed

/-- effector/global_effect_ale.py:73-88: the body of the loop in `_fit_loop` (as `fitOne`; the norm constant is computed from the parameters only). -/
def heapFitOne (cfg : HeapAleCfg K D) (o : HeapAle K D) (s : Fin D) (bm : BinMethod K) (c : Centering) : HeapM K D (HeapAle K D × Py Unit) := do
  let r ← cfg.fitF o.eff s bm
  match r with
  | (e, .error x) => return ({ o with eff := e }, .error x)
  | (e, .ok p) =>
    match aleNormConst (cfg.pure fun _ _ => .ok p) p s c with
    | .error x => return ({ eff := e, st := { o.st with fe := Function.update o.st.fe s (some (p, none)) } }, .error x)
    | .ok z =>
      return ({ eff := e
                st := { fe := Function.update o.st.fe s (some (p, some z))
                        fitted := Function.update o.st.fitted s true
                        args := Function.update o.st.args s (some c) } }, .ok ())

/-- effector/global_effect_ale.py:73-88: the loop. -/
def heapAleLoop (cfg : HeapAleCfg K D) (bm : BinMethod K) (c : Centering) : HeapAle K D → List (Fin D) → HeapM K D (HeapAle K D × Py Unit)
  | o, [] => pure (o, .ok ())
  | o, s :: t => do
    let r ← heapFitOne cfg o s bm c
    match r with
    | (o', .ok ()) => heapAleLoop cfg bm c o' t
    | (o', .error e) => return (o', .error e)

/-- effector/global_effect_ale.py:350-380 `ALE.fit` / 520-562 `RHALE.fit` (as `aleFit`). -/
def heapAleFitCall (cfg : HeapAleCfg K D) (o : HeapAle K D) (features : PyVal) (bm : BinMethod K) (centering : PyVal) : HeapM K D (HeapAle K D × Py Unit) :=
  if cfg.allowed bm then
    match (do let f ← prepFeatures features D
              let c ← prepCentering centering
              let l ← resolveFeatures D f
              return (l, c)) with
    | .error e => return (o, .error e)
    | .ok (l, c) => heapAleLoop cfg bm c o l
  else return (o, .error .assertionError)

/-- effector/global_effect_ale.py:107-157 `eval`; after the possible refit no array of instances is touched. -/
def heapAleEval [PySqrt K] (cfg : HeapAleCfg K D) (o : HeapAle K D) (s : Fin D) (xs : List K) (het : Bool) (centering : PyVal) :
    HeapM K D (HeapAle K D × Py (List K × Option (List K))) :=
  match prepCentering centering with
  | .error e => return (o, .error e)
  | .ok c =>
    match needsRefit (o.st.fitted s) (o.st.args s) c with
    | .error e => return (o, .error e)
    | .ok false => return (o, aleEvalFitted (cfg.pure fun _ _ => .error .keyError) o.st s xs het c)
    | .ok true => do
      let r ← heapAleLoop cfg cfg.defaultBin c o [s]
      match r with
      | (o', .error e) => return (o', .error e)
      | (o', .ok ()) => return (o', aleEvalFitted (cfg.pure fun _ _ => .error .keyError) o'.st s xs het c)

/-- effector/global_effect_ale.py:159-235, visualization.py:58-59: `plot` (as `alePlot`). -/
def heapAlePlot [PySqrt K] (cfg : HeapAleCfg K D) (o : HeapAle K D) (s : Fin D) (centering : PyVal) :
    HeapM K D (HeapAle K D × Py (List K × List K × Option (List K))) := do
  let r ← heapAleEval cfg o s [cfg.axisLo s] false centering
  match r with
  | (o1, .error e) => return (o1, .error e)
  | (o1, .ok _) =>
    match o1.st.fe s with
    | none => return (o1, .error .keyError)
    | some (p, _) =>
      match pyIndex p.limits 0, pyIndex p.limits (p.limits.length - 1) with
      | .ok a, .ok b => do
        let r2 ← heapAleEval cfg o1 s (linspace a b 1000) true centering
        match r2 with
        | (o2, .ok (y, std)) => return (o2, .ok (linspace a b 1000, y, std))
        | (o2, .error e) => return (o2, .error e)
      | _, _ => return (o1, .error .indexError)

/-- One public call, result forgotten. -/
def heapAleStep [PySqrt K] (cfg : HeapAleCfg K D) (o : HeapAle K D) : AleOp K D → HeapM K D (HeapAle K D)
  | .fit f bm c => do
    let r ← heapAleFitCall cfg o f bm c
    return r.1
  | .eval s xs het c => do
    let r ← heapAleEval cfg o s xs het c
    return r.1
  | .plot s c => do
    let r ← heapAlePlot cfg o s c
    return r.1

/-- A history of calls. -/
def heapAleRun [PySqrt K] (cfg : HeapAleCfg K D) : HeapAle K D → List (AleOp K D) → HeapM K D (HeapAle K D)
  | o, [] => pure o
  | o, op :: t => do
    let o' ← heapAleStep cfg o op
    heapAleRun cfg o' t

/-! ## Calls on an object interleaved with what the caller does to the arrays it passed -/

/-- What happens next: a call on the object; the caller overwrites one of its arrays; the caller overwrites the array it passed as `axis_limits`
(global_effect.py:77 and regional_effect.py:53 keep the reference). -/
inductive Sched (Op : Type) (K : Type) (D : ℕ)
  | call (op : Op)
  | write (a : ℕ) (X : List (Row K D))
  | limits (lo hi : Fin D → K)

/-- A PDP/DerPDP object under a schedule; `cfg` carries the current contents of `self.axis_limits`. -/
def heapSched [PySqrt K] : HeapPdpCfg K D → HeapPdp K D → List (Sched (PdpOp K D) K D) → HeapM K D (HeapPdpCfg K D × HeapPdp K D)
  | cfg, o, [] => pure (cfg, o)
  | cfg, o, .call op :: t => do
    let o' ← heapStep cfg o op
    heapSched cfg o' t
  | cfg, o, .write a X :: t => do
    store a X
    heapSched cfg o t
  | cfg, o, .limits lo hi :: t => heapSched { cfg with axisLo := lo, axisHi := hi } o t

/-- An ALE/RHALE object under a schedule (`mk lo hi` is the object with these contents of `self.axis_limits`). -/
def heapAleSched [PySqrt K] (mk : (Fin D → K) → (Fin D → K) → HeapAleCfg K D) :
    (Fin D → K) × (Fin D → K) → HeapAle K D → List (Sched (AleOp K D) K D) → HeapM K D (((Fin D → K) × (Fin D → K)) × HeapAle K D)
  | lim, o, [] => pure (lim, o)
  | lim, o, .call op :: t => do
    let o' ← heapAleStep (mk lim.1 lim.2) o op
    heapAleSched mk lim o' t
  | lim, o, .write a X :: t => do
    store a X
    heapAleSched mk lim o t
  | _, o, .limits lo hi :: t => heapAleSched mk (lo, hi) o t

end Effector
