import Verif.Model.RegionalCalls

/-!
# `fit` of the regional classes, with a new random draw for every region that is measured

`Model/RegionalCalls.lean` has the user's code with a state of its own, but `np.random.choice` as one function of the population and the size.  Here every global effect that
`fit` constructs in order to measure the heterogeneity of a region has its own outcome: `draw` takes the state of the world (which includes the random generator) to the next state
and to the outcome of the draws to come.  (One construction draws at most once: after a first draw nothing is left to be drawn, effector/global_effect_shap.py:88-95.)
-/

namespace Effector

variable {K : Type} [Field K] [LinearOrder K] {D : ℕ} {σ S : Type}

/-- The same object with another outcome of the random draws to come (effector/helpers.py:85-107 `prep_nof_instances` calls `np.random.choice`). -/
def drawn (o : RegionalObj K D) (ch : ℕ → ℕ → List ℕ) : RegionalObj K D :=
  { o with cfg := { o.cfg with bb := { o.cfg.bb with choice := ch } } }

/-- A heterogeneity function that draws before each of its evaluations. -/
def redraw (draw : σ → σ × (ℕ → ℕ → List ℕ)) (h : (ℕ → ℕ → List ℕ) → HeterR σ K D S) : HeterR σ K D S := fun x e y =>
  h (draw y.world).2 x e { y with world := (draw y.world).1 }

/-- `_create_heterogeneity_function` (effector/regional_effect_ale.py:64-83, 215-233, effector/regional_effect_pdp.py:38-63, effector/regional_effect_shap.py:78-92): what it
raises does not depend on a draw; every evaluation of the function has its own draw. -/
def randomHeter [PySqrt K] (w : World σ K D) (draw : σ → σ × (ℕ → ℕ → List ℕ)) (o : RegionalObj K D) (kw : FitKw K D) (f : Fin D) : Py (HeterR σ K D S) :=
  match runHeter (S := S) w o kw f with
  | .error e => .error e
  | .ok _ => .ok (redraw draw fun ch => match runHeter w (drawn o ch) kw f with
    | .ok h => h
    | .error e => fun _ _ => inert (.error e))

/-- `_fit_feature` (effector/regional_effect.py:88-132), which takes the heterogeneity function as an argument, and what the loop of `fit` does after it. -/
def runFitFeature [PySqrt K] (o : RegionalObj K D) (kw : FitKw K D) (f : Fin D) (h : HeterR σ K D (RegionalState K D)) : RunM σ K D (RegionalState K D) Unit := do
  let sp ← runSearch (regionsOf o.cfg (kw.toArgs o) f) h
  let full ← inert (splitsToTree (regionsOf o.cfg (kw.toArgs o) f) (posTextOf o.cfg.fmt none) sp false)
  let pruned ← inert (splitsToTree (regionsOf o.cfg (kw.toArgs o) f) (posTextOf o.cfg.fmt none) sp true)
  let st ← readObj
  writeObj { st with
    treeFull := Function.update st.treeFull f (some full)
    treePruned := Function.update st.treePruned f (some pruned)
    splits := Function.update st.splits f (some (regionsOf o.cfg (kw.toArgs o) f, sp))
    fitted := Function.update st.fitted f true
    methodBin := Function.update st.methodBin f (some kw.bin) }

/-- The loop over the features (effector/regional_effect_ale.py:119-145, 266-293, effector/regional_effect_pdp.py:96-109, effector/regional_effect_shap.py:126-153). -/
def randomFitLoop [PySqrt K] (w : World σ K D) (draw : σ → σ × (ℕ → ℕ → List ℕ)) (o : RegionalObj K D) (kw : FitKw K D) :
    List (Fin D) → RunM σ K D (RegionalState K D) Unit
  | [] => pure ()
  | f :: t => do
    let h ← inert (randomHeter w draw o kw f)
    runFitFeature o kw f h
    randomFitLoop w draw o kw t

/-- `fit` of the five classes (effector/regional_effect_ale.py:117-145, 264-293, effector/regional_effect_pdp.py:94-109, effector/regional_effect_shap.py:124-153). -/
def randomFit [PySqrt K] (w : World σ K D) (draw : σ → σ × (ℕ → ℕ → List ℕ)) (o : RegionalObj K D) (features : PyVal) (kw : FitKw K D) :
    RunM σ K D (RegionalState K D) Unit := do
  inert (if kw.minPoints < 2 then .error .assertionError else .ok ())
  let f ← inert (prepFeatures features D)
  let l ← inert (resolveFeatures D f)
  randomFitLoop w draw o kw l

end Effector
