import Verif.Model.Ale

/-!
# Model of effector/global_effect_pdp.py
-/

namespace Effector

variable {K : Type} [Field K] [LinearOrder K] {D : ℕ}

/-- The callable passed to `pdp_1d_*`: the model (`model_returns_jac=False`) or its Jacobian (`True`). -/
inductive BlackBox (K : Type) (D : ℕ)
  | pred (m : List (Row K D) → List K)
  | jac (j : List (Row K D) → List (Row K D))

/-- `model(x)[:, feature] if model_returns_jac else model(x)` (global_effect_pdp.py:479, 565). -/
def BlackBox.out (b : BlackBox K D) (s : Fin D) (X : List (Row K D)) : List K :=
  match b with
  | .pred m => m X
  | .jac j => col (j X) s

/-- `x_new = deepcopy(data); x_new[:, feature] = v` (global_effect_pdp.py:467-478). -/
def setAll (cast : K → K) (data : List (Row K D)) (s : Fin D) (v : K) : List (Row K D) :=
  data.map fun r => Function.update r s (cast v)

/-- The finite-difference step `1e-6` (global_effect_pdp.py:468-472, 547-560). -/
def FD_STEP : K := 1 / 10 ^ 6

/-- `(y_1 - y_2) / (2 * 1e-6)`. -/
def centralDiff (y1 y2 : List K) : List K := List.zipWith (fun a b => (a - b) / (2 * FD_STEP)) y1 y2

/-- `np.reshape(y, (T, N))`. -/
def reshape2 (T N : ℕ) (y : List K) : Py (List (List K)) :=
  if y.length = T * N then .ok ((List.range T).map fun t => (y.drop (t * N)).take N) else .error .valueError

/-- effector/global_effect_pdp.py:462-481 (the matrix `y` of `pdp_1d_non_vectorized`). -/
def pdpNonVecY (cast : K → K) (b : BlackBox K D) (data : List (Row K D)) (x : List K) (s : Fin D)
    (askDer : Bool) : List (List K) :=
  match askDer, b with
  | true, .pred m => x.map fun v =>
      centralDiff (m (setAll cast data s (v + FD_STEP))) (m (setAll cast data s (v - FD_STEP)))
  | _, b => x.map fun v => b.out s (setAll cast data s v)

/-- `np.repeat(data[None], T)`, feature set per block, reshaped to `(T*N, D)` (global_effect_pdp.py:541-564). -/
def pdpBatch (cast : K → K) (data : List (Row K D)) (x : List K) (s : Fin D) : List (Row K D) :=
  x.flatMap fun v => setAll cast data s v

/-- effector/global_effect_pdp.py:540-566 (the matrix `y` of `pdp_1d_vectorized`). -/
def pdpVecY (cast : K → K) (b : BlackBox K D) (data : List (Row K D)) (x : List K) (s : Fin D)
    (askDer : Bool) : Py (List (List K)) :=
  match askDer, b with
  | true, .pred m =>
      reshape2 x.length data.length
        (centralDiff (m (pdpBatch cast data (x.map (· + FD_STEP)) s)) (m (pdpBatch cast data (x.map (· - FD_STEP)) s)))
  | _, b => reshape2 x.length data.length (b.out s (pdpBatch cast data x s))

/-- The possible results of `pdp_1d_*` and of `PDPBase.eval`. -/
inductive PdpOut (K : Type)
  | all (y : List (List K))
  | meanOnly (m : List K)
  | meanStdErr (m std stderr : List K)
  | meanStd (m std : List K)
deriving DecidableEq

/-- effector/global_effect_pdp.py:483-493, 568-578: `return_all` wins over `heterogeneity`. -/
def pdpFinish [PySqrt K] (data : List (Row K D)) (het all : Bool) (y : List (List K)) : PdpOut K :=
  if all then .all y
  else if het then
    .meanStdErr (y.map mean) (y.map npStd) ((y.map npStd).map (· / PySqrt.sqrt (data.length : K)))
  else .meanOnly (y.map mean)

/-- effector/global_effect_pdp.py:417-493 `pdp_1d_non_vectorized`.  For an empty grid `np.array([])` is 1-d and
`np.mean(y, axis=1)` raises `AxisError` (a `ValueError`).  For an empty data set numpy's means are NaN; not modelled. -/
def pdp1dNonVec [PySqrt K] (cast : K → K) (b : BlackBox K D) (data : List (Row K D)) (x : List K) (s : Fin D)
    (het all askDer : Bool) : Py (PdpOut K) :=
  if x = [] then .error .valueError
  else .ok (pdpFinish data het all (pdpNonVecY cast b data x s askDer))

/-- effector/global_effect_pdp.py:496-578 `pdp_1d_vectorized`. -/
def pdp1dVec [PySqrt K] (cast : K → K) (b : BlackBox K D) (data : List (Row K D)) (x : List K) (s : Fin D)
    (het all askDer : Bool) : Py (PdpOut K) := do
  let y ← pdpVecY cast b data x s askDer
  return pdpFinish data het all y

/-- Which of the two classes: PDP, or DerPDP with / without `model_jac`. -/
inductive PdpKind (K : Type) (D : ℕ)
  | pdp (m : List (Row K D) → List K)
  | derJac (j : List (Row K D) → List (Row K D))
  | derNum (m : List (Row K D) → List K)

/-- effector/global_effect_pdp.py:36-47 `_predict` (always with `return_all=True`). -/
def pdpPredict (cast : K → K) (kind : PdpKind K D) (data : List (Row K D)) (xx : List K) (s : Fin D)
    (vec : Bool) : Py (List (List K)) :=
  let go (b : BlackBox K D) (der : Bool) : Py (List (List K)) :=
    if vec then pdpVecY cast b data xx s der
    else if xx = [] then .error .valueError
    else .ok (pdpNonVecY cast b data xx s der)
  match kind with
  | .pdp m => go (.pred m) false
  | .derJac j => go (.jac j) false
  | .derNum m => go (.pred m) true

/-- `feature_effect[...]["norm_const"]`: the scalar placeholder, or one constant per instance. -/
inductive NormConst (K : Type)
  | scalar (c : K)
  | vec (c : List K)
deriving DecidableEq

/-- `np.mean(y, axis=0)` of a non-empty matrix with rows of length `n`. -/
def colMeans (n : ℕ) (y : List (List K)) : List K :=
  (List.range n).map fun i => mean (y.map fun row => row.getD i 0)

/-- What never changes in a PDP/DerPDP object. -/
structure PdpCfg (K : Type) (D : ℕ) where
  cast : K → K
  kind : PdpKind K D
  axisLo : Fin D → K
  axisHi : Fin D → K

/-- The mutable state of a PDP/DerPDP object, including `self.data`. -/
structure PdpState (K : Type) (D : ℕ) where
  data : List (Row K D)
  fe : Fin D → Option (NormConst K)
  fitted : Fin D → Bool
  args : Fin D → Option Centering

/-- effector/global_effect.py:63-89 for PDP. -/
def PdpState.init (data : List (Row K D)) : PdpState K D :=
  { data := data, fe := fun _ => none, fitted := fun _ => false, args := fun _ => none }

/-- effector/global_effect_pdp.py:49-77 `_fit_feature`: the new `self.data` and the norm constant. -/
def pdpFitFeature (cfg : PdpCfg K D) (data : List (Row K D)) (s : Fin D) (c : Centering) (points : ℕ) (vec : Bool) :
    List (Row K D) × Py (NormConst K) :=
  let d := dropOutside data (cfg.axisLo s) (cfg.axisHi s) s
  (d, match c with
    | .zeroIntegral => do
      let y ← pdpPredict cfg.cast cfg.kind d (linspace (cfg.axisLo s) (cfg.axisHi s) points) s vec
      return .vec (colMeans d.length y)
    | .zeroStart => do
      let y ← pdpPredict cfg.cast cfg.kind d [cfg.axisLo s] s vec
      return .vec (← pyIndex y 0)
    | .off => .ok (.scalar EMPTY_SYMBOL))

/-- effector/global_effect_pdp.py:114-122: the loop in `fit`. -/
def pdpFitLoop (cfg : PdpCfg K D) (c : Centering) (points : ℕ) (vec : Bool) :
    PdpState K D → List (Fin D) → PdpState K D × Py Unit
  | st, [] => (st, .ok ())
  | st, s :: t =>
    match pdpFitFeature cfg st.data s c points vec with
    | (d, .error e) => ({ st with data := d }, .error e)
    | (d, .ok nc) =>
      pdpFitLoop cfg c points vec
        { data := d
          fe := Function.update st.fe s (some nc)
          fitted := Function.update st.fitted s true
          args := Function.update st.args s (some c) } t

/-- effector/global_effect_pdp.py:79-122 `fit`. -/
def pdpFit (cfg : PdpCfg K D) (st : PdpState K D) (features : PyVal) (centering : PyVal) (points : ℕ) (vec : Bool) :
    PdpState K D × Py Unit :=
  match (do let c ← prepCentering centering
            let f ← prepFeatures features D
            let l ← resolveFeatures D f
            return (l, c)) with
  | .error e => (st, .error e)
  | .ok (l, c) => pdpFitLoop cfg c points vec st l

/-- `row - norm_consts` with numpy's broadcasting of `(T, n)` against `(1, n')` or `(1,)`. -/
def subNorm (nc : NormConst K) (row : List K) : Py (List K) :=
  match nc with
  | .scalar c => .ok (row.map (· - c))
  | .vec cs =>
    if cs.length = row.length then .ok (List.zipWith (· - ·) row cs)
    else match cs, row with
      | [c], row => .ok (row.map (· - c))
      | cs, [y] => .ok (cs.map (y - ·))
      | _, _ => .error .valueError

/-- effector/global_effect_pdp.py:168-189: the part of `eval` after the possible refit. -/
def pdpEvalFitted [PySqrt K] (cfg : PdpCfg K D) (st : PdpState K D) (s : Fin D) (xs : List K) (het : Bool)
    (c : Centering) (all vec : Bool) : Py (PdpOut K) := do
  pyAssert (decide (cfg.axisLo s < cfg.axisHi s))
  let yy ← pdpPredict cfg.cast cfg.kind st.data xs s vec
  let yy ← if c = .off then .ok yy
    else match st.fe s with
      | none => .error .keyError
      | some nc => yy.mapM (subNorm nc)
  return if all then .all yy
    else if het then .meanStd (yy.map mean) (yy.map npStd)
    else .meanOnly (yy.map mean)

/-- effector/global_effect_pdp.py:124-189 `eval`. -/
def pdpEval [PySqrt K] (cfg : PdpCfg K D) (st : PdpState K D) (s : Fin D) (xs : List K) (het : Bool)
    (centering : PyVal) (all vec : Bool) : PdpState K D × Py (PdpOut K) :=
  match prepCentering centering with
  | .error e => (st, .error e)
  | .ok c =>
    match needsRefit (st.fitted s) (st.args s) c with
    | .error e => (st, .error e)
    | .ok false => (st, pdpEvalFitted cfg st s xs het c all vec)
    | .ok true =>
      match pdpFitLoop cfg c 100 vec st [s] with
      | (st', .error e) => (st', .error e)
      | (st', .ok ()) => (st', pdpEvalFitted cfg st' s xs het c all vec)

/-- The public operations of a PDP object that touch its state (`plot`, lines 191-261, is one `eval`). -/
inductive PdpOp (K : Type) (D : ℕ)
  | fit (features : PyVal) (centering : PyVal) (points : ℕ) (vec : Bool)
  | eval (s : Fin D) (xs : List K) (het : Bool) (centering : PyVal) (all vec : Bool)

/-- One public call, result forgotten. -/
def pdpStep [PySqrt K] (cfg : PdpCfg K D) (st : PdpState K D) : PdpOp K D → PdpState K D
  | .fit f c p v => (pdpFit cfg st f c p v).1
  | .eval s xs het c all vec => (pdpEval cfg st s xs het c all vec).1

/-- A history of calls on a fresh object. -/
def pdpRun [PySqrt K] (cfg : PdpCfg K D) (data : List (Row K D)) (ops : List (PdpOp K D)) : PdpState K D :=
  ops.foldl (pdpStep cfg) (PdpState.init data)

/-- `x_new[:, :, features[j]] = x[:, j]` for all `j` (global_effect_pdp.py:687-688), one block. -/
def setMany (cast : K → K) (data : List (Row K D)) (features : List (Fin D)) (v : List K) : List (Row K D) :=
  data.map fun r => (features.zip v).foldl (fun r p => Function.update r p.1 (cast p.2)) r

/-- effector/global_effect_pdp.py:641-699 `pdp_nd_vectorized` with `model_returns_jac=False`; `x` is a list of positions,
each with one value per feature (`assert len(features) == x.shape[1]`). -/
def pdpNdVec [PySqrt K] (cast : K → K) (m : List (Row K D) → List K) (data : List (Row K D)) (x : List (List K))
    (features : List (Fin D)) (het : Bool) : Py (PdpOut K) := do
  pyAssert (x.all fun v => decide (v.length = features.length))
  let y ← reshape2 x.length data.length (m (x.flatMap fun v => setMany cast data features v))
  return pdpFinish data het false y

/-- effector/global_effect_pdp.py:582-637 `pdp_nd_non_vectorized`: `for j, feat in features` tries to unpack an `int`
and raises `TypeError` as soon as there is a position and a feature. -/
def pdpNdNonVec [PySqrt K] (m : List (Row K D) → List K) (data : List (Row K D)) (x : List (List K))
    (features : List (Fin D)) (het : Bool) : Py (PdpOut K) := do
  pyAssert (x.all fun v => decide (v.length = features.length))
  if x ≠ [] ∧ features ≠ [] then .error .typeError
  else
    let y := x.map fun _ => m data
    return pdpFinish data het false y

end Effector
