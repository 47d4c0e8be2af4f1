import Verif.Model.Calls
import Verif.Model.RegionalFit

/-!
# The regional classes with the calls of the black box as effects

`Model/RegionalFit.lean` has the `fit` of the five regional classes with the black box as a function.  Here is the same code, statement by statement in the order of the
code, with every call of the user's code an effect (`Model/Calls.lean`): the heterogeneity functions, which construct a global object for every sub-region they are
asked about and catch what its `fit` raises; the search, which asks them; and `fit`, `refit` and `eval` of the classes.
-/

namespace Effector

variable {K : Type} [Field K] [LinearOrder K] {D : ℕ} {σ S S' α : Type}

/-- A program on another object, which was constructed for it and is then dropped. -/
def onNew (o : S') (p : RunM σ K D S' α) : RunM σ K D S α := fun y =>
  ({ world := (p ⟨y.world, y.trace, o⟩).1.world, trace := (p ⟨y.world, y.trace, o⟩).1.trace, obj := y.obj }, (p ⟨y.world, y.trace, o⟩).2)

/-- `try: p` / `except: ...`: `none` if `p` raised, whatever it raised. -/
def attempt (p : RunM σ K D S α) : RunM σ K D S (Option α) := fun y =>
  match p y with
  | (y', .ok a) => (y', .ok (some a))
  | (y', .error _) => (y', .ok none)

/-- `for`/list comprehension over a list, collecting results. -/
def runEach {β : Type} (f : β → RunM σ K D S α) : List β → RunM σ K D S (List α)
  | [] => pure []
  | b :: t => do
    let a ← f b
    let as ← runEach f t
    return a :: as

/-! ## Heterogeneity functions -/

/-- effector/regional_effect_ale.py:67-81, 219-233 `heter`: `new` constructs the object on the rows of the region. -/
def runAleHeter [PySqrt K] (new : List (Row K D) → Option (List (Row K D)) → RunM σ K D S (RunAleCfg σ K D × AleObj K D)) (foi : Fin D) (bm : BinMethod K)
    (minPoints : ℕ) (centering : PyVal) (data : List (Row K D)) (eff : Option (List (Row K D))) : RunM σ K D S K :=
  if data.length < minPoints then pure BIG_M
  else do
    let c ← new data eff
    onNew c.2 (do
      match ← attempt (runAleFit c.1 (.int (foi : ℕ)) bm centering) with
      | none => pure BIG_M
      | some () => do
        let stop ← inert (listMax (col data foi))
        let r ← runAleEval c.1 foi [stop] true (.bool false)
        inert (match r.2 with
          | some z => pyIndex z 0
          | none => .error .typeError))

/-- effector/regional_effect_pdp.py:39-61 `heter`: both `fit` and `eval` are in a `try`. -/
def runPdpHeter [PySqrt K] (w : World σ K D) (choice : ℕ → ℕ → List ℕ) (cast : K → K) (which : PdpWhich) (lo hi : Fin D → K) (foi : Fin D) (minPoints : ℕ)
    (centering nof : PyVal) (points : ℕ) (vec : Bool) (data : List (Row K D)) : RunM σ K D S K :=
  if data.length < minPoints then pure BIG_M
  else do
    let c ← runPdpNew w choice cast which data nof (some (lo, hi)) none
    onNew c.2 (do
      match ← attempt (runPdpFit w c.1 (.int (foi : ℕ)) centering points vec) with
      | none => pure BIG_M
      | some () => do
        let mn ← inert (listMin (col data foi))
        let mx ← inert (listMax (col data foi))
        match ← attempt (runPdpEval w c.1 foi (linspace mn mx 10) true (.bool false) false vec) with
        | some (.meanStd _ z) => pure (mean z)
        | _ => pure BIG_M)

/-- effector/global_effect_shap.py:88-95 `ShapDP.__init__`: sub-sampling, then the base constructor, which sub-samples again and calls the model. -/
def runShapNew (w : World σ K D) (choice : ℕ → ℕ → List ℕ) (spline : List (K × K) → Py (K → K)) (data : List (Row K D)) (nof : PyVal)
    (axisLimits : Option ((Fin D → K) × (Fin D → K))) (avg : Option K) : RunM σ K D S (RunShapCfg K D × ShapState K D) := do
  let p ← inert (prepNofInstances choice nof data.length)
  let data' ← inert (takeRows data p.2)
  let b ← runBase w choice data' nof axisLimits avg
  return ({ spline := spline, axisLo := b.1.axisLo, axisHi := b.1.axisHi, avg := b.2 }, ShapState.init b.1.data)

/-- effector/regional_effect_shap.py:80-90 `heterogeneity_function`: nothing is caught. -/
def runShapHeter (w : World σ K D) (choice : ℕ → ℕ → List ℕ) (spline : List (K × K) → Py (K → K)) (foi : Fin D) (minPoints : ℕ)
    (centering nof : PyVal) (points : ℕ) (data : List (Row K D)) : RunM σ K D S K :=
  if data.length < minPoints then pure BIG_M
  else do
    let mn ← inert (listMin (col data foi))
    let mx ← inert (listMax (col data foi))
    let c ← runShapNew w choice spline data nof none none
    onNew c.2 (do
      runShapFit w c.1 (.int (foi : ℕ)) centering points
      let r ← runShapEval w c.1 foi (linspace mn mx 10) true (.bool false)
      inert (match r.2 with
        | some z => .ok (mean z)
        | none => .error .typeError))

/-! ## effector/partitioning.py: the search -/

/-- `heter_func`, a program. -/
abbrev HeterR (σ K : Type) (D : ℕ) (S : Type) := List (Row K D) → Option (List (Row K D)) → RunM σ K D S K

/-- effector/partitioning.py:193-199, 241-251. -/
def runHeters (h : HeterR σ K D S) (xs : List (List (Row K D))) (js : Option (List (List (Row K D)))) : RunM σ K D S (List K) :=
  match js with
  | none => runEach (fun x => h x none) xs
  | some js => runEach (fun p => h p.1 (some p.2)) (xs.zip js)

/-- effector/partitioning.py:177-220: one candidate: (weighted_heter_drop[i, j], weighted_heter[i, j]). -/
def runCandidate (h : HeterR σ K D S) (xs : List (List (Row K D))) (js : Option (List (List (Row K D)))) (before : List K) (f : Fin D) (typ : FeatType) (pos : K) :
    RunM σ K D S (K × K) := do
  let sub ← runHeters h (splitAll xs f pos typ) (js.map fun js => splitAllEff xs js f pos typ)
  return ((List.zipWith (· * ·) (heterDrops before sub) (splitWeights (splitAll xs f pos typ))).sum,
    (List.zipWith (· * ·) (splitWeights (splitAll xs f pos typ)) sub).sum)

/-- effector/partitioning.py:176-220: the inner loop, from position number `i` on; `weighted_heter_drop[i, j] = ...` raises if the matrix has too few columns. -/
def runRowFrom (h : HeterR σ K D S) (w : ℕ) (xs : List (List (Row K D))) (js : Option (List (List (Row K D)))) (before : List K) (f : Fin D) (typ : FeatType) :
    ℕ → List K → RunM σ K D S (List (K × K))
  | _, [] => pure []
  | i, pos :: t => do
    let v ← runCandidate h xs js before f typ pos
    inert (if i < w then .ok () else .error .indexError)
    let vs ← runRowFrom h w xs js before f typ (i + 1) t
    return v :: vs

/-- effector/partitioning.py:141-267 `single_level_splits`. -/
def runSingleLevel (cfg : RegCfg K D) (h : HeterR σ K D S) (xs : List (List (Row K D))) (js : Option (List (List (Row K D)))) (before : List K) :
    RunM σ K D S (Split K D) := do
  let cands ← inert (candidatePositions cfg)
  let w := max cfg.nofSplits cfg.catLimit
  let rows ← runEach (fun p => runRowFrom h w xs js before p.1 (cfg.types p.1) 0 p.2) (cfg.foc.zip cands)
  let flat := rows.flatMap fun r => r.map (·.1) ++ List.replicate (w - r.length) (-BIG_M)
  inert (if flat = [] then .error .valueError else .ok ())
  let i := npArgmax flat / w
  let j := npArgmax flat % w
  let f ← inert (pyIndex cfg.foc i)
  let ps ← inert (pyIndex cands i)
  let pos ← inert (pyIndex ps j)
  let sub ← runHeters h (splitAll xs f pos (cfg.types f)) (js.map fun js => splitAllEff xs js f pos (cfg.types f))
  let mn ← inert (listMin (col cfg.data f))
  let mx ← inert (listMax (col cfg.data f))
  let r ← inert (pyIndex rows i)
  let v ← inert (pyIndex r j)
  return { feature := f, position := pos, range := (mn, mx), candidates := ps,
           nofInstances := (splitAll xs f pos (cfg.types f)).map List.length, typ := cfg.types f, heterogeneity := sub,
           splitI := i, splitJ := j, wHeterDrop := v.1, wHeter := v.2 }

/-- effector/partitioning.py:109-135: the loop over the levels. -/
def runLevels (cfg : RegCfg K D) (h : HeterR σ K D S) : ℕ → List (List (Row K D)) → Option (List (List (Row K D))) → List K → RunM σ K D S (List (Split K D))
  | 0, _, _, _ => pure []
  | n + 1, xs, js, before =>
    if xs.any (fun x => decide (x.length < cfg.minPoints)) then pure []
    else do
      let sp ← runSingleLevel cfg h xs js before
      let rest ← runLevels cfg h n (splitAll xs sp.feature sp.position sp.typ) (js.map fun js => splitAllEff xs js sp.feature sp.position sp.typ) sp.heterogeneity
      return sp :: rest

/-- effector/partitioning.py:75-139 `search_all_splits`. -/
def runSearch (cfg : RegCfg K D) (h : HeterR σ K D S) : RunM σ K D S (Option (Splits K D)) :=
  if cfg.types cfg.feature = .cat ∧ cfg.splitCat = false then pure none
  else do
    inert (if cfg.foc.length < cfg.maxLevels then .error .assertionError else .ok ())
    let h0 ← h cfg.data cfg.dataEffect
    let levels ← runLevels cfg h cfg.maxLevels [cfg.data] (cfg.dataEffect.map fun e => [e]) [h0]
    return if levels = [] then none
      else some { heterInit := h0, nofInit := cfg.data.length, levels := levels }

/-! ## effector/regional_effect*.py -/

/-- `_create_heterogeneity_function` (effector/regional_effect_ale.py:64-83, 215-233, effector/regional_effect_pdp.py:38-63, effector/regional_effect_shap.py:78-92); the
black boxes of `o` are not used, the user's code is in `w`. -/
def runHeter [PySqrt K] (w : World σ K D) (o : RegionalObj K D) (kw : FitKw K D) (f : Fin D) : Py (HeterR σ K D S) :=
  let bb := o.cfg.bb
  if o.cfg.methodName = "rhale" then do
    let bm ← prepBinningMethod kw.bin
    return runAleHeter (fun x e => runRhaleNew w bb.choice bb.jac.isSome x e (.str "all") none none) f bm kw.minPoints kw.centering
  else if o.cfg.methodName = "ale" then do
    let bm ← prepBinningMethod kw.bin
    return runAleHeter (fun x _ => runAleNew w bb.choice bb.cast x (.str "all") none none) f bm kw.minPoints kw.centering
  else if o.cfg.methodName = "shap" then
    return fun x _ => runShapHeter w bb.choice bb.ext.spline f kw.minPoints kw.centering (.int o.cfg.data.length) kw.points x
  else if o.cfg.methodName = "pdp" then
    return fun x _ => runPdpHeter w bb.choice bb.cast .pdp o.axisLo o.axisHi f kw.minPoints kw.centering kw.nof kw.points kw.vec x
  else
    return fun x _ => runPdpHeter w bb.choice bb.cast (if bb.jac.isSome then .derJac else .derNum) o.axisLo o.axisHi f kw.minPoints kw.centering kw.nof kw.points
      kw.vec x

/-- The body of the loop of `fit` (effector/regional_effect_ale.py:119-145, 266-293, effector/regional_effect_pdp.py:96-109, effector/regional_effect_shap.py:126-153) with
`_fit_feature` (effector/regional_effect.py:88-132): the trees are written after the search.  (`regionsOf` records the heterogeneity as a function; nothing reads it after
the search.) -/
def runRegionalFitOne [PySqrt K] (w : World σ K D) (o : RegionalObj K D) (kw : FitKw K D) (f : Fin D) : RunM σ K D (RegionalState K D) Unit := do
  let h ← inert (runHeter w o kw f)
  let sp ← runSearch (regionsOf o.cfg (kw.toArgs o) f) h
  let full ← inert (splitsToTree (regionsOf o.cfg (kw.toArgs o) f) (posTextOf o.cfg.fmt none) sp false)
  let pruned ← inert (splitsToTree (regionsOf o.cfg (kw.toArgs o) f) (posTextOf o.cfg.fmt none) sp true)
  let st ← readObj
  writeObj { st with
    treeFull := Function.update st.treeFull f (some full)
    treePruned := Function.update st.treePruned f (some pruned)
    splits := Function.update st.splits f (some (regionsOf o.cfg (kw.toArgs o) f, sp))
    fitted := Function.update st.fitted f true
    methodBin := Function.update st.methodBin f (some kw.bin) }

/-- The loop over the features. -/
def runRegionalFitLoop [PySqrt K] (w : World σ K D) (o : RegionalObj K D) (kw : FitKw K D) : List (Fin D) → RunM σ K D (RegionalState K D) Unit
  | [] => pure ()
  | f :: t => do
    runRegionalFitOne w o kw f
    runRegionalFitLoop w o kw t

/-- `fit` of the five classes (effector/regional_effect_ale.py:117-145, 264-293, effector/regional_effect_pdp.py:94-109, effector/regional_effect_shap.py:124-153). -/
def runRegionalFit [PySqrt K] (w : World σ K D) (o : RegionalObj K D) (features : PyVal) (kw : FitKw K D) : RunM σ K D (RegionalState K D) Unit := do
  inert (if kw.minPoints < 2 then .error .assertionError else .ok ())
  let f ← inert (prepFeatures features D)
  let l ← inert (resolveFeatures D f)
  runRegionalFitLoop w o kw l

/-- effector/regional_effect.py:134-136 `refit`. -/
def runRegionalRefit [PySqrt K] (w : World σ K D) (o : RegionalObj K D) (f : Fin D) : RunM σ K D (RegionalState K D) Unit := do
  let st ← readObj
  if st.fitted f then pure () else runRegionalFit w o (.int (f : ℕ)) (FitKw.default o.cfg.methodName)

/-- effector/regional_effect.py:159-171 `_create_fe_object` followed by `eval` (line 200). -/
def runCreateAndEval [PySqrt K] (w : World σ K D) (bb : BlackBoxes K D) (methodName : String) (data : List (Row K D)) (eff : Option (List (Row K D))) (s : Fin D)
    (xs : List K) (het : Bool) (c : PyVal) : RunM σ K D S (EvalOut K) :=
  if methodName = "rhale" then do
    let a ← runRhaleNew w bb.choice bb.jac.isSome data eff (.str "all") none none
    onNew a.2 (runAleEval a.1 s xs het c)
  else if methodName = "ale" then do
    let a ← runAleNew w bb.choice bb.cast data (.str "all") none none
    onNew a.2 (runAleEval a.1 s xs het c)
  else if methodName = "shap" then do
    let a ← runShapNew w bb.choice bb.ext.spline data (.int 100) none none
    onNew a.2 (runShapEval w a.1 s xs het c)
  else if methodName = "pdp" ∨ methodName = "d-pdp" then do
    let a ← runPdpNew w bb.choice bb.cast (if methodName = "pdp" then .pdp else if bb.jac.isSome then .derJac else .derNum) data (.int 300) none none
    onNew a.2 (do
      let out ← runPdpEval w a.1 s xs het c false true
      inert out.toPair)
  else inert (.error .notImplementedError)

/-- effector/regional_effect.py:173-200 `eval`. -/
def runRegionalEval [PySqrt K] (w : World σ K D) (o : RegionalObj K D) (f : Fin D) (nodeIdx : ℕ) (xs : List K) (het : Bool) (centering : PyVal) :
    RunM σ K D (RegionalState K D) (EvalOut K) := do
  runRegionalRefit w o f
  let c ← inert (prepCentering centering)
  let st ← readObj
  let n ← inert (getNodeInfo st f nodeIdx)
  runCreateAndEval w o.cfg.bb o.cfg.methodName n.rows n.effects f xs het c.toVal

end Effector
