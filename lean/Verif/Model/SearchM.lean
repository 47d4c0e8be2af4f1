import Verif.Model.Partitioning
import Verif.Model.Reports

/-!
# The search of effector/partitioning.py with a heterogeneity function that may raise

`Model/Partitioning.lean` takes the heterogeneity function as a total function.  In the code it is a python function, and an exception in it leaves
`search_all_splits`.  Here is the same search with that taken into account (which of several exceptions comes first is not modelled).
-/

namespace Effector

variable {K : Type} [Field K] [LinearOrder K] {D : ℕ}

/-- `heter_func`. -/
abbrev HeterM (K : Type) (D : ℕ) := List (Row K D) → Option (List (Row K D)) → Py K

/-- partitioning.py:193-199, 239-251. -/
def hetersM (h : HeterM K D) (xs : List (List (Row K D))) (js : Option (List (List (Row K D)))) : Py (List K) :=
  match js with
  | none => xs.mapM fun x => h x none
  | some js => (xs.zip js).mapM fun p => h p.1 (some p.2)

/-- partitioning.py:177-220: (weighted_heter_drop, weighted_heter) of one candidate. -/
def evalCandidateM (h : HeterM K D) (xs : List (List (Row K D))) (js : Option (List (List (Row K D))))
    (before : List K) (f : Fin D) (pos : K) (typ : FeatType) : Py (K × K) := do
  let xs2 := splitAll xs f pos typ
  let sub ← hetersM h xs2 (js.map fun js => splitAllEff xs js f pos typ)
  let w := splitWeights xs2
  return ((List.zipWith (· * ·) (heterDrops before sub) w).sum, (List.zipWith (· * ·) w sub).sum)

/-- partitioning.py:175-220: the matrix row of one conditioning feature. -/
def matrixRowM (h : HeterM K D) (w : ℕ) (xs : List (List (Row K D))) (js : Option (List (List (Row K D)))) (before : List K) (f : Fin D) (typ : FeatType)
    (positions : List K) : Py (List K) := do
  let vals ← positions.mapM fun pos => evalCandidateM h xs js before f pos typ
  padRow w (vals.map (·.1))

/-- partitioning.py:141-267 `single_level_splits`. -/
def singleLevelSplitsM (cfg : RegCfg K D) (h : HeterM K D) (xs : List (List (Row K D))) (js : Option (List (List (Row K D))))
    (before : List K) : Py (Split K D) := do
  let cands ← candidatePositions cfg
  let w := max cfg.nofSplits cfg.catLimit
  let rows ← (cfg.foc.zip cands).mapM fun p => matrixRowM h w xs js before p.1 (cfg.types p.1) p.2
  let flat := rows.flatten
  if flat = [] then .error .valueError
  else do
    let a := npArgmax flat
    let i := a / w
    let j := a % w
    let f ← pyIndex cfg.foc i
    let ps ← pyIndex cands i
    let pos ← pyIndex ps j
    let xs2 := splitAll xs f pos (cfg.types f)
    let sub ← hetersM h xs2 (js.map fun js => splitAllEff xs js f pos (cfg.types f))
    let mn ← listMin (col cfg.data f)
    let mx ← listMax (col cfg.data f)
    let e ← evalCandidateM h xs js before f pos (cfg.types f)
    return { feature := f, position := pos, range := (mn, mx), candidates := ps,
             nofInstances := xs2.map List.length, typ := cfg.types f, heterogeneity := sub,
             splitI := i, splitJ := j, wHeterDrop := e.1, wHeter := e.2 }

/-- partitioning.py:109-135: the loop over the levels, `n` levels to go. -/
def searchLoopM (cfg : RegCfg K D) (h : HeterM K D) : ℕ → List (List (Row K D)) → Option (List (List (Row K D))) → List K →
    Py (List (Split K D))
  | 0, _, _, _ => .ok []
  | n + 1, xs, js, before =>
    if xs.any (fun x => decide (x.length < cfg.minPoints)) then .ok []
    else do
      let sp ← singleLevelSplitsM cfg h xs js before
      let js' := js.map fun js => splitAllEff xs js sp.feature sp.position sp.typ
      let xs' := splitAll xs sp.feature sp.position sp.typ
      let rest ← searchLoopM cfg h n xs' js' sp.heterogeneity
      return sp :: rest

/-- partitioning.py:75-139 `search_all_splits`. -/
def searchAllSplitsM (cfg : RegCfg K D) (h : HeterM K D) : Py (Option (Splits K D)) :=
  if cfg.types cfg.feature = .cat ∧ cfg.splitCat = false then .ok none
  else if cfg.foc.length < cfg.maxLevels then .error .assertionError
  else do
    let h0 ← h cfg.data cfg.dataEffect
    let levels ← searchLoopM cfg h cfg.maxLevels [cfg.data] (cfg.dataEffect.map fun e => [e]) [h0]
    return if levels = [] then none
      else some { heterInit := h0, nofInit := cfg.data.length, levels := levels }

end Effector
