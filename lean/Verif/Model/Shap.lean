import Verif.Model.Pdp

/-!
# Model of effector/global_effect_shap.py

`shap.Explainer` and `scipy.interpolate.UnivariateSpline` are parameters: any functions.
-/

namespace Effector

variable {K : Type} [Field K] [LinearOrder K] {D : ℕ}

/-- The external libraries: `explain data` is `shap.Explainer(model, data)(data).values`, `spline` fits a curve. -/
structure ShapExt (K : Type) (D : ℕ) where
  explain : List (Row K D) → Py (List (Row K D))
  spline : List (K × K) → Py (K → K)

/-- What `_fit_feature` returns (global_effect_shap.py:139-145). -/
structure ShapFe (K : Type) where
  splineMean : K → K
  splineStd : K → K
  xx : List K
  yy : List K
  normConst : K

/-- `np.trapz(y, x)`. -/
def trapz : List K → List K → K
  | y0 :: y1 :: ys, x0 :: x1 :: xs => (x1 - x0) * (y0 + y1) / 2 + trapz (y1 :: ys) (x1 :: xs)
  | _, _ => 0

/-- `idx = np.argsort(xx); xx[idx], yy[idx]` (global_effect_shap.py:118-120); the order of equal `xx` is the one of a
stable sort (numpy's default sort does not promise it). -/
def sortPairs (l : List (K × K)) : List (K × K) := l.insertionSort (fun a b => a.1 ≤ b.1)

/-- effector/global_effect_shap.py:129-137: the norm constant. -/
def shapNormConst (spl : K → K) (xx : List K) (c : Centering) (points : ℕ) : Py K := do
  match c with
  | .off => return EMPTY_SYMBOL
  | .zeroStart => do
    let x0 ← pyIndex xx 0
    return spl x0
  | .zeroIntegral => do
    let x0 ← pyIndex xx 0
    let x1 ← pyIndex xx (xx.length - 1)
    let xn := linspace x0 x1 points
    return trapz (xn.map spl) xn / (x1 - x0)

/-- effector/global_effect_shap.py:97-146 `_fit_feature`: new `self.data` and the dictionary. -/
def shapFitFeature (ext : ShapExt K D) (lo hi : Fin D → K) (data : List (Row K D)) (s : Fin D) (c : Centering)
    (points : ℕ) : List (Row K D) × Py (ShapFe K) :=
  let d := dropOutside data (lo s) (hi s) s
  (d, do
    let vals ← ext.explain d
    let pairs := sortPairs ((col d s).zip (col vals s))
    let xx := pairs.map (·.1)
    let yy := pairs.map (·.2)
    let spl ← ext.spline pairs
    let std ← ext.spline (pairs.map fun p => (p.1, |p.2 - spl p.1|))
    let nc ← shapNormConst spl xx c points
    return { splineMean := spl, splineStd := std, xx := xx, yy := yy, normConst := nc })

/-- The mutable state of a ShapDP object. -/
structure ShapState (K : Type) (D : ℕ) where
  data : List (Row K D)
  fe : Fin D → Option (ShapFe K)
  fitted : Fin D → Bool
  args : Fin D → Option Centering

/-- What never changes in a ShapDP object. -/
structure ShapCfg (K : Type) (D : ℕ) where
  ext : ShapExt K D
  axisLo : Fin D → K
  axisHi : Fin D → K

/-- A fresh object. -/
def ShapState.init (data : List (Row K D)) : ShapState K D :=
  { data := data, fe := fun _ => none, fitted := fun _ => false, args := fun _ => none }

/-- effector/global_effect_shap.py:88-95 `ShapDP.__init__`: `self.indices` is set, the data sub-sampled, and then the
base constructor sub-samples again with the same `nof_instances` and overwrites `self.indices`. -/
def shapInit (choice : ℕ → ℕ → List ℕ) (data : List (Row K D)) (nof : PyVal)
    (axisLimits : Option ((Fin D → K) × (Fin D → K))) : Py (Base K D) := do
  let (_, idx) ← prepNofInstances choice nof data.length
  let data' ← takeRows data idx
  Base.init choice data' nof axisLimits

/-- effector/global_effect_shap.py:192-200: the loop in `fit`. -/
def shapFitLoop (cfg : ShapCfg K D) (c : Centering) (points : ℕ) :
    ShapState K D → List (Fin D) → ShapState K D × Py Unit
  | st, [] => (st, .ok ())
  | st, s :: t =>
    match shapFitFeature cfg.ext cfg.axisLo cfg.axisHi st.data s c points with
    | (d, .error e) => ({ st with data := d }, .error e)
    | (d, .ok fe) =>
      shapFitLoop cfg c points
        { data := d
          fe := Function.update st.fe s (some fe)
          fitted := Function.update st.fitted s true
          args := Function.update st.args s (some c) } t

/-- effector/global_effect_shap.py:148-200 `fit`. -/
def shapFit (cfg : ShapCfg K D) (st : ShapState K D) (features : PyVal) (centering : PyVal) (points : ℕ) :
    ShapState K D × Py Unit :=
  match (do let c ← prepCentering centering
            let f ← prepFeatures features D
            let l ← resolveFeatures D f
            return (l, c)) with
  | .error e => (st, .error e)
  | .ok (l, c) => shapFitLoop cfg c points st l

/-- effector/global_effect_shap.py:235-248, the part of `eval` after the possible refit. -/
def shapEvalFitted (cfg : ShapCfg K D) (st : ShapState K D) (s : Fin D) (xs : List K) (het : Bool) (c : Centering) :
    Py (List K × Option (List K)) := do
  pyAssert (decide (cfg.axisLo s < cfg.axisHi s))
  match st.fe s with
  | none => .error .keyError
  | some fe =>
    let yy := xs.map fe.splineMean
    let yy := if c = .off then yy else yy.map (· - fe.normConst)
    return (yy, if het then some (xs.map fe.splineStd) else none)

/-- effector/global_effect_shap.py:202-248 `eval`. -/
def shapEval (cfg : ShapCfg K D) (st : ShapState K D) (s : Fin D) (xs : List K) (het : Bool) (centering : PyVal) :
    ShapState K D × Py (List K × Option (List K)) :=
  match prepCentering centering with
  | .error e => (st, .error e)
  | .ok c =>
    match needsRefit (st.fitted s) (st.args s) c with
    | .error e => (st, .error e)
    | .ok false => (st, shapEvalFitted cfg st s xs het c)
    | .ok true =>
      match shapFitLoop cfg c 100 st [s] with
      | (st', .error e) => (st', .error e)
      | (st', .ok ()) => (st', shapEvalFitted cfg st' s xs het c)

/-- The public operations of a ShapDP object that touch its state. -/
inductive ShapOp (K : Type) (D : ℕ)
  | fit (features : PyVal) (centering : PyVal) (points : ℕ)
  | eval (s : Fin D) (xs : List K) (het : Bool) (centering : PyVal)

/-- One public call, result forgotten. -/
def shapStep (cfg : ShapCfg K D) (st : ShapState K D) : ShapOp K D → ShapState K D
  | .fit f c p => (shapFit cfg st f c p).1
  | .eval s xs het c => (shapEval cfg st s xs het c).1

/-- A history of calls on a fresh object. -/
def shapRun (cfg : ShapCfg K D) (data : List (Row K D)) (ops : List (ShapOp K D)) : ShapState K D :=
  ops.foldl (shapStep cfg) (ShapState.init data)

end Effector
