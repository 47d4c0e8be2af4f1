import Verif.Model.Pdp
import Verif.Model.Ale
import Verif.Model.Shap

/-!
# Model of the numbers handed to matplotlib (effector/visualization.py) and of effector/interaction.py
-/

namespace Effector

variable {K : Type} [Field K] [LinearOrder K] {D : ℕ}

/-- visualization.py:10-11 `trans_affine`. -/
def transAffine (mu std x : K) : K := x * std + mu

/-- visualization.py:14-16 `trans_scale`. -/
def transScale (std : K) (square : Bool) (x : K) : K := if square then x * std ^ 2 else x * std

/-- visualization.py:19-21 `trans_bin`. -/
def transBin (stdX stdY : K) (square : Bool) (x : K) : K :=
  if square then x * (stdY / stdX) ^ 2 else x * stdY / stdX

/-- The data drawn by `ale_plot`: curve (x, y), accumulated std, bars (limits, widths, heights, variances). -/
structure AleDrawing (K : Type) where
  x : List K
  y : List K
  std : List K
  limits : List K
  dx : List K
  binVariance : List K
  binEffect : List K
deriving DecidableEq

/-- visualization.py:62-88 `ale_plot`, up to the drawing.  `evalOn x` is `accum_effect_func(feature, x, True, centering)`.
With `scale_y` given and `scale_x=None`, `scale_x["std"]` raises `TypeError`. -/
def alePlotData (p : AleParams K) (evalOn : List K → Py (List K × List K)) (scaleX scaleY : Option (Scale K)) :
    Py (AleDrawing K) := do
  let a ← pyIndex p.limits 0
  let b ← pyIndex p.limits (p.limits.length - 1)
  let x := linspace a b 1000
  let (y, std) ← evalOn x
  let x' := match scaleX with
    | none => x
    | some s => x.map (transAffine s.mean s.std)
  let y' := match scaleY with
    | none => y
    | some s => y.map (transAffine s.mean s.std)
  let std' := match scaleY with
    | none => std
    | some s => std.map (transScale s.std false)
  let limits' := match scaleX with
    | none => p.limits
    | some s => p.limits.map (transAffine s.mean s.std)
  let dx' := match scaleX with
    | none => p.dx
    | some s => p.dx.map (transScale s.std false)
  let bv' ← match scaleX, scaleY with
    | _, none => .ok p.binVariance
    | none, some _ => .error .typeError
    | some sx, some sy => .ok (p.binVariance.map (transBin sx.std sy.std true))
  let be' ← match scaleX, scaleY with
    | _, none => .ok p.binEffect
    | none, some _ => .error .typeError
    | some sx, some sy => .ok (p.binEffect.map (transBin sx.std sy.std false))
  return { x := x', y := y', std := std', limits := limits', dx := dx', binVariance := bv', binEffect := be' }

/-- global_effect_ale.py:204-232 `ALE.plot` / `RHALE.plot`: `eval` at the left axis limit (which fits if needed), then `ale_plot` with the
stored parameters and `self.eval` as `accum_effect_func`.  The state after the call is that of `alePlot` and is not repeated here. -/
def aleDraw [PySqrt K] (cfg : AleCfg K D) (st : AleState K D) (s : Fin D) (centering : PyVal) (scaleX scaleY : Option (Scale K)) : Py (AleDrawing K) :=
  match aleEval cfg st s [cfg.axisLo s] false centering with
  | (_, .error e) => .error e
  | (st1, .ok _) =>
    match st1.fe s with
    | none => .error .keyError
    | some (p, _) => alePlotData p (fun x => do
        match ← (aleEval cfg st1 s x true centering).2 with
        | (y, some std) => .ok (y, std)
        | (_, none) => .error .typeError) scaleX scaleY

/-- visualization.py:122 `(limits[:-1] + limits[1:]) / 2`: the centre of the bar of each bin. -/
def barCentres (d : AleDrawing K) : List K := midpoints d.limits

/-- visualization.py:123 `np.sqrt(bin_variance)`. -/
def barErrors [PySqrt K] (d : AleDrawing K) : List K := d.binVariance.map PySqrt.sqrt

/-- What `ALE.plot` / `RHALE.plot` draws: curve and bars, centres of the bars (visualization.py:125 `x=bin_centers`), half-heights of the error bars (`none`: no
error bars) and the horizontal line of the average output. -/
structure AleFigure (K : Type) where
  drawing : AleDrawing K
  centres : List K
  errors : Option (List K)
  avgLine : Option K
deriving DecidableEq

/-- global_effect_ale.py:208-239 `ALEBase.plot`, with visualization.py:121-126 `ale_bins`: `heterogeneity` and `centering` are normalised, the feature is
fitted if needed, the average output is computed on `self.data` (which ALE and RHALE never change), error bars are drawn for any true `heterogeneity`. -/
def aleFigure [PySqrt K] (cfg : AleCfg K D) (data : List (Row K D)) (model : List (Row K D) → List K) (avgOutput : Option K) (st : AleState K D) (s : Fin D)
    (het centering : PyVal) (scaleX scaleY : Option (Scale K)) (showAvg : Bool) : Py (AleFigure K) := do
  let h ← prepConfidenceInterval het
  let c ← prepCentering centering
  let d ← aleDraw cfg st s c.toVal scaleX scaleY
  let avgLine := if showAvg then some (prepAvgOutput data model avgOutput scaleY) else none
  return { drawing := d, centres := barCentres d, errors := if h = .bool false then none else some (barErrors d), avgLine := avgLine }

/-- What `plot_pdp_ice` draws: the curve, the band (lower and upper edge), the ICE curves (one row per position) and the horizontal line of the average output. -/
structure PdpFigure (K : Type) where
  x : List K
  curve : List K
  band : Option (List K × List K)
  ice : Option (List (List K))
  avgLine : Option K
deriving DecidableEq

/-- visualization.py:161-164, 211: the columns drawn as ICE curves. -/
def iceIdx (choice : ℕ → ℕ → List ℕ) (nofIce : Option ℕ) (n : ℕ) : List ℕ :=
  match nofIce with
  | none => List.range n
  | some k => choice n (min k n)

/-- visualization.py:138-233 `plot_pdp_ice`; `het` is the normalised `confidence_interval`, `n = yy.shape[1]` the number of instances, `choice` the outcome of
`np.random.choice(range(n), size=nof_ice, replace=False)`, `nofIce = none` stands for `"all"` (negative numbers are not modelled).  For `"ice"` the code first draws
`y_ice_outputs[:, 0]`, which raises `IndexError` if there is no column.  `isDerivative` is a parameter that no caller sets. -/
def pdpPlotIce [PySqrt K] (choice : ℕ → ℕ → List ℕ) (het : PyVal) (n : ℕ) (x : List K) (yy : List (List K)) (scaleX scaleY : Option (Scale K))
    (nofIce : Option ℕ) (avgLine : Option K) (isDerivative : Bool := false) : Py (PdpFigure K) :=
  let x' := match scaleX with
    | none => x
    | some s => x.map (transAffine s.mean s.std)
  let f : K → K := match scaleY with
    | none => id
    | some s => if isDerivative then transScale s.std false else transAffine s.mean s.std
  let ice := yy.map fun row => row.map f
  let curve := (yy.map mean).map f
  let g : K → K := match scaleY with
    | none => id
    | some s => transScale s.std false
  let stdErr := (yy.map fun row => PySqrt.sqrt (variance row)).map g
  if het = .str "std" then
    let std := ice.map npStd
    .ok { x := x', curve := curve, band := some (List.zipWith (· - ·) curve std, List.zipWith (· + ·) curve std), ice := none, avgLine := avgLine }
  else if het = .str "std_err" then
    .ok { x := x', curve := curve, band := some (List.zipWith (· - ·) curve stdErr, List.zipWith (· + ·) curve stdErr), ice := none, avgLine := avgLine }
  else if het = .str "ice" then do
    let idx := iceIdx choice nofIce n
    if idx = [] then .error .indexError
    else
      let cols ← ice.mapM fun row => takeRows row idx
      return { x := x', curve := curve, band := none, ice := some cols, avgLine := avgLine }
  else .ok { x := x', curve := curve, band := none, ice := none, avgLine := avgLine }

/-- The optional arguments of `plot`. -/
structure PlotArgs (K : Type) where
  het : PyVal
  centering : PyVal
  nofPoints : ℕ
  scaleX : Option (Scale K)
  scaleY : Option (Scale K)
  showAvg : Bool

/-- global_effect_pdp.py:191-261 `PDPBase.plot`: arguments are normalised, `eval(..., return_all=True)` on `nof_points` positions between the axis limits, then
`plot_pdp_ice`.  `model`, `avgOutput` are the constructor's arguments.  The state afterwards is that of the `eval`. -/
def pdpDraw [PySqrt K] (choice : ℕ → ℕ → List ℕ) (cfg : PdpCfg K D) (model : List (Row K D) → List K) (avgOutput : Option K) (st : PdpState K D) (s : Fin D)
    (a : PlotArgs K) (nofIce : Option ℕ) (vec : Bool) : Py (PdpFigure K) := do
  let het ← prepConfidenceInterval a.het
  let c ← prepCentering a.centering
  let x := linspace (cfg.axisLo s) (cfg.axisHi s) a.nofPoints
  let r := pdpEval cfg st s x false c.toVal true vec
  match ← r.2 with
  | .all yy =>
    let avgLine := if a.showAvg then some (prepAvgOutput r.1.data model avgOutput a.scaleY) else none
    pdpPlotIce choice het r.1.data.length x yy a.scaleX a.scaleY nofIce avgLine
  | _ => .error .typeError

/-- What `plot_shap` draws: curve, band, scattered SHAP values, line of the average output. -/
structure ShapFigure (K : Type) where
  x : List K
  curve : List K
  band : Option (List K × List K)
  scatter : Option (List K × List K)
  avgLine : Option K
deriving DecidableEq

/-- `trans_affine(None, ...)` raises `TypeError` (`None * float`). -/
def affineOpt (s : Scale K) : Option (List K) → Py (Option (List K))
  | none => .error .typeError
  | some l => .ok (some (l.map (transAffine s.mean s.std)))

/-- visualization.py:236-294 `plot_shap`.  For `"shap_values"` the code first draws `xx[0], yy[0]`: `IndexError` if there is none (`TypeError` for `None`, which
the caller never passes then). -/
def plotShap (het : PyVal) (x y : List K) (xx yy : Option (List K)) (std : List K) (scaleX scaleY : Option (Scale K)) (avgLine : Option K) :
    Py (ShapFigure K) := do
  let x' := match scaleX with
    | none => x
    | some s => x.map (transAffine s.mean s.std)
  let xx' ← match scaleX with
    | none => .ok xx
    | some s => affineOpt s xx
  let std' := match scaleY with
    | none => std
    | some s => std.map (transScale s.std false)
  let y' := match scaleY with
    | none => y
    | some s => y.map (transAffine s.mean s.std)
  let yy' ← match scaleY with
    | none => .ok yy
    | some s => affineOpt s yy
  if het = .str "std" then
    return { x := x', curve := y', band := some (List.zipWith (· - ·) y' std', List.zipWith (· + ·) y' std'), scatter := none, avgLine := avgLine }
  else if het = .str "shap_values" then
    match xx', yy' with
    | some xs, some ys =>
      if xs = [] ∨ ys = [] then .error .indexError
      else return { x := x', curve := y', band := none, scatter := some (xs, ys), avgLine := avgLine }
    | _, _ => .error .typeError
  else return { x := x', curve := y', band := none, scatter := none, avgLine := avgLine }

/-- global_effect_shap.py:250-334 `ShapDP.plot`.  `centering` is handed to `eval` as it is and later compared with `False`. -/
def shapDraw (choice : ℕ → ℕ → List ℕ) (cfg : ShapCfg K D) (model : List (Row K D) → List K) (avgOutput : Option K) (st : ShapState K D) (s : Fin D)
    (a : PlotArgs K) (nofShap : PyVal) : Py (ShapFigure K) := do
  let het ← prepConfidenceInterval a.het
  let x := linspace (cfg.axisLo s) (cfg.axisHi s) a.nofPoints
  let r := shapEval cfg st s x false a.centering
  let (y, _) ← r.2
  match r.1.fe s with
  | none => .error .keyError
  | some fe =>
    let std := x.map fe.splineStd
    let (_, ind) ← prepNofInstances choice nofShap r.1.data.length
    let yy ← if het = .str "shap_values" then (takeRows fe.yy ind).map some else .ok none
    let yy := if a.centering = .bool false then yy else yy.map fun l => l.map (· - fe.normConst)
    let xx ← if het = .str "shap_values" then (takeRows fe.xx ind).map some else .ok none
    let avgLine := if a.showAvg then some (prepAvgOutput r.1.data model avgOutput a.scaleY) else none
    plotShap het x y xx yy std a.scaleX a.scaleY avgLine

/-! ## effector/interaction.py -/

/-- Python's binding of a call `f(pos_1, ..., pos_n, kw_1=..., ...)` to parameters `params` without `**kwargs`, the first
`required` of which have no default: `TypeError` for too many positional arguments, an unknown or doubly given keyword,
or a missing required parameter. -/
def bindCall (params : List String) (required nPos : ℕ) (kwargs : List String) : Py Unit :=
  if params.length < nPos then .error .typeError
  else if kwargs.any (fun k => !(params.contains k)) then .error .typeError
  else if kwargs.any (fun k => (params.take nPos).contains k) then .error .typeError
  else if ((params.take required).drop nPos).any (fun p => !(kwargs.contains p)) then .error .typeError
  else .ok ()

/-- Parameters of `pdp_1d_vectorized` (global_effect_pdp.py:496-505). -/
def pdp1dParams : List String :=
  ["model", "data", "x", "feature", "heterogeneity", "model_returns_jac", "return_all", "ask_for_derivatives"]

/-- Parameters of `pdp_nd_vectorized` (global_effect_pdp.py:641-648). -/
def pdpNdParams : List String := ["model", "data", "x", "features", "heterogeneity", "model_returns_jac"]

/-- Parameters of `PDPBase.eval` after `self` (global_effect_pdp.py:124-132). -/
def pdpEvalParams : List String := ["feature", "xs", "heterogeneity", "centering", "return_all", "use_vectorized"]

/-- The mean of squares `np.mean(np.square(l))`. -/
def meanSq (l : List K) : K := mean (l.map fun y => y ^ 2)

/-- interaction.py:116-120 `HIndex._pdp_1d`: the call is made with the keyword `uncertainty`. -/
def hPdp1d [PySqrt K] (m : List (Row K D) → List K) (data : List (Row K D)) (f : Fin D) (x : List K) : Py (List K) := do
  bindCall pdp1dParams 6 4 ["uncertainty", "model_returns_jac"]
  match ← pdp1dVec id (.pred m) data x f false false false with
  | .meanOnly y => return y.map (· - mean y)
  | _ => .error .typeError

/-- interaction.py:122-127 `HIndex._pdp_2d` and 129-136 `_pdp_minus_1d`: again `uncertainty=False`. -/
def hPdpNd [PySqrt K] (m : List (Row K D) → List K) (data : List (Row K D)) (fs : List (Fin D)) (x : List (List K)) :
    Py (List K) := do
  bindCall pdpNdParams 6 4 ["uncertainty", "model_returns_jac"]
  match ← pdpNdVec id m data x fs false with
  | .meanOnly y => return y.map (· - mean y)
  | _ => .error .typeError

/-- interaction.py:86-95, the computation in `HIndex.eval_pairwise` on a fresh object (`interaction_matrix[f1, f2]` still the placeholder). -/
def hEvalPairwise [PySqrt K] (m : List (Row K D) → List K) (data : List (Row K D)) (f1 f2 : Fin D) : Py K := do
  let x1 := col data f1
  let x2 := col data f2
  let p1 ← hPdp1d m data f1 x1
  let p2 ← hPdp1d m data f2 x2
  let p12 ← hPdpNd m data [f1, f2] (List.zipWith (fun a b => [a, b]) x1 x2)
  return meanSq (List.zipWith (fun a (b : K × K) => a - b.1 - b.2) p12 (p1.zip p2)) / meanSq p12

/-- interaction.py:105-111, the computation in `HIndex.eval_one_vs_all` on a fresh object. -/
def hEvalOneVsAll [PySqrt K] (m : List (Row K D) → List K) (data : List (Row K D)) (f : Fin D) : Py K := do
  let p1 ← hPdp1d m data f (col data f)
  let others := (List.finRange D).filter (· ≠ f)
  let pm ← hPdpNd m data others (data.map fun r => others.map r)
  let yy := m data
  return meanSq (List.zipWith (fun y (b : K × K) => y - b.1 - b.2) yy (pm.zip p1)) / meanSq yy

/-- interaction.py:198-216 `REPID.eval_one_vs_all` on a fresh object: `pdp.eval(feature=..., xs=..., uncertainty=True,
centering="zero_start")`.  The fit before it (default arguments) may raise first. -/
def repidEvalOneVsAll [PySqrt K] (choice : ℕ → ℕ → List ℕ) (m : List (Row K D) → List K) (data : List (Row K D))
    (f : Fin D) : Py K := do
  let (lo, hi) ← axisLimitsAll data
  let b ← Base.init choice data (.int 300) (some (lo, hi))
  let cfg : PdpCfg K D := { cast := id, kind := .pdp m, axisLo := b.axisLo, axisHi := b.axisHi }
  let (st, r) := pdpFit cfg (PdpState.init b.data) (.int (f : ℕ)) (.bool true) 100 true
  r
  bindCall pdpEvalParams 2 0 ["feature", "xs", "uncertainty", "centering"]
  match (pdpEval cfg st f (midpoints (linspace (lo f) (hi f) 21)) true (.str "zero_start") false true).2 with
  | .ok (.meanStd _ std) => return mean std
  | .ok _ => .error .valueError
  | .error e => .error e

/-- The attributes of an `HIndex` object (interaction.py:30-38): the two matrices, initially filled with `empty_symbol = 1e10`, and
the flags. -/
structure HState (K : Type) (D : ℕ) where
  pair : Fin D → Fin D → K
  one : Fin D → K
  fittedPair : Bool
  fittedOne : Bool

/-- interaction.py:15 `empty_symbol`. -/
def H_EMPTY : K := 10 ^ 10

/-- interaction.py:31-38. -/
def HState.init : HState K D := { pair := fun _ _ => H_EMPTY, one := fun _ => H_EMPTY, fittedPair := false, fittedOne := false }

/-- interaction.py:72-99 `HIndex.eval_pairwise`: a stored value is returned, else computed and stored symmetrically. -/
def hPair [PySqrt K] (m : List (Row K D) → List K) (data : List (Row K D)) (st : HState K D) (i j : Fin D) : HState K D × Py K :=
  if st.pair i j ≠ H_EMPTY then (st, .ok (st.pair i j))
  else match hEvalPairwise m data i j with
    | .error e => (st, .error e)
    | .ok v => ({ st with pair := fun a b => if (a = i ∧ b = j) ∨ (a = j ∧ b = i) then v else st.pair a b }, .ok v)

/-- interaction.py:101-114 `HIndex.eval_one_vs_all`. -/
def hOne [PySqrt K] (m : List (Row K D) → List K) (data : List (Row K D)) (st : HState K D) (i : Fin D) : HState K D × Py K :=
  if st.one i ≠ H_EMPTY then (st, .ok (st.one i))
  else match hEvalOneVsAll m data i with
    | .error e => (st, .error e)
    | .ok v => ({ st with one := Function.update st.one i v }, .ok v)

/-- A `for` loop over `l` that stops at the first exception. -/
def forEach {σ α β : Type} (step : σ → α → σ × Py β) : σ → List α → σ × Py Unit
  | st, [] => (st, .ok ())
  | st, a :: t => match step st a with
    | (st', .error e) => (st', .error e)
    | (st', .ok _) => forEach step st' t

/-- interaction.py:40-57 `HIndex.fit`. -/
def hFit [PySqrt K] (m : List (Row K D) → List K) (data : List (Row K D)) (st : HState K D) (pairwise oneVsAll : Bool) : HState K D × Py Unit :=
  let r1 : HState K D × Py Unit :=
    if pairwise then
      match forEach (fun (s : HState K D) i =>
          forEach (hPair m data · i) { s with pair := fun a b => if a = i ∧ b = i then 0 else s.pair a b } ((List.finRange D).filter (i < ·)))
          st (List.finRange D) with
      | (s, .error e) => (s, .error e)
      | (s, .ok ()) => ({ s with fittedPair := true }, .ok ())
    else (st, .ok ())
  match r1 with
  | (s, .error e) => (s, .error e)
  | (s, .ok ()) =>
    if oneVsAll then
      match forEach (hOne m data) s (List.finRange D) with
      | (s', .error e) => (s', .error e)
      | (s', .ok ()) => ({ s' with fittedOne := true }, .ok ())
    else (s, .ok ())

/-- interaction.py:59-70 `HIndex.plot` (with 138-147: plotting the matrix overwrites its diagonal by the mean of all entries). -/
def hPlot [PySqrt K] (m : List (Row K D) → List K) (data : List (Row K D)) (st : HState K D) (pairwise oneVsAll : Bool) : HState K D × Py Unit :=
  match (if !st.fittedPair && pairwise then hFit m data st true false else (st, .ok ())) with
  | (s, .error e) => (s, .error e)
  | (s, .ok ()) =>
    match (if !s.fittedOne && oneVsAll then hFit m data s false true else (s, .ok ())) with
    | (s', .error e) => (s', .error e)
    | (s', .ok ()) =>
      if pairwise then
        let mu := mean ((List.finRange D).flatMap fun a => (List.finRange D).map (s'.pair a))
        ({ s' with pair := fun a b => if a = b then mu else s'.pair a b }, .ok ())
      else (s', .ok ())

/-- A call on an `HIndex` object. -/
inductive HOp (D : ℕ)
  | fit (pairwise oneVsAll : Bool)
  | plot (pairwise oneVsAll : Bool)
  | pair (i j : Fin D)
  | one (i : Fin D)

/-- The state after a history of calls; calls that raise are survived by the object. -/
def hRun [PySqrt K] (m : List (Row K D) → List K) (data : List (Row K D)) (ops : List (HOp D)) : HState K D :=
  ops.foldl (fun st op => match op with
    | .fit p o => (hFit m data st p o).1
    | .plot p o => (hPlot m data st p o).1
    | .pair i j => (hPair m data st i j).1
    | .one i => (hOne m data st i).1) HState.init

/-- interaction.py:191-196 `REPID.fit` on a fresh object. -/
def repidFit [PySqrt K] (choice : ℕ → ℕ → List ℕ) (m : List (Row K D) → List K) (data : List (Row K D)) (features : PyVal) : Py Unit := do
  let l ← (prepFeatures features D).bind (resolveFeatures D)
  let _ ← l.mapM fun f => repidEvalOneVsAll choice m data f

end Effector
