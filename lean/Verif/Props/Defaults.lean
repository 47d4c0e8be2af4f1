import Verif.Props.Refit

/-!
# C94: `eval` without `fit` is `fit` with the documented defaults, then `eval`
-/

set_option linter.unusedSectionVars false

namespace Effector

open Spec

variable {K : Type} [Field K] [LinearOrder K] [IsStrictOrderedRing K] {D : ℕ}

namespace Spec

/-- Call `fit`; if it raises, so does the whole; otherwise go on with the object it leaves behind. -/
def fitThen {S α : Type} (fit : S × Py Unit) (next : S → S × Py α) : S × Py α :=
  match fit with
  | (st, .ok ()) => next st
  | (st, .error e) => (st, .error e)

/-- The documented defaults of `fit` of the regional classes: a drop of 10 %, heterogeneity 0.1, depth 1, 20 candidate positions, 10 points per subregion, all other
features as conditioning features, `split_categorical_features=False`, no centring, all instances, 100 points for centring, batch predictions; bins by `greedy` (RHALE)
or 20 fixed bins (ALE). -/
def documentedFit (methodName : String) : FitKw K D where
  dropThres := 1 / 10
  smallEnough := 1 / 10
  maxDepth := 1
  nofCandidates := 20
  minPoints := 10
  foc := none
  splitCat := false
  bin := if methodName = "ale" then .fixed 20 (some 0) 15 else .str "greedy"
  centering := .bool false
  nof := .str "all"
  points := 100
  vec := true

end Spec

theorem aleFit_int (cfg : AleCfg K D) (st : AleState K D) (s : Fin D) (bm : BinMethod K) (hbm : cfg.allowed bm = true) (c : PyVal) :
    aleFit cfg st (.int (s : ℕ)) bm c = match prepCentering c with
      | .error e => (st, .error e)
      | .ok m => fitLoop cfg bm m st [s] := by
  unfold aleFit
  rw [if_pos hbm]
  have h := resolve_int s
  simp only [Except.bind, prepFeatures] at h
  simp only [bind, Except.bind, pure, Except.pure, prepFeatures, h]
  cases prepCentering c with
  | error e => rfl
  | ok m => rfl

theorem eval_unfitted [PySqrt K] (cfg : AleCfg K D) (hbm : cfg.allowed cfg.defaultBin = true) (st : AleState K D) (s : Fin D) (hs : st.fitted s = false)
    (xs : List K) (het : Bool) (c : PyVal) :
    aleEval cfg st s xs het c = fitThen (aleFit cfg st (.int (s : ℕ)) cfg.defaultBin c) fun st' => aleEval cfg st' s xs het c := by
  rw [aleFit_int cfg st s _ hbm]
  conv_lhs => unfold aleEval
  cases hm : prepCentering c with
  | error e => rfl
  | ok m =>
    have h1 : needsRefit (st.fitted s) (st.args s) m = .ok true := by unfold needsRefit; rw [hs]; rfl
    simp only [h1]
    obtain ⟨-, h2⟩ := fitLoop_again cfg cfg.defaultBin m st s
    rcases h3 : fitLoop cfg cfg.defaultBin m st [s] with ⟨st', e | ⟨⟩⟩
    · rfl
    · obtain ⟨h4, h5⟩ := h2 st' h3
      simp only [fitThen]
      unfold aleEval
      rw [hm]
      simp only [h4, h5, needsRefit_done]

/-- **C94, ALE**: `eval` of a feature that was not fitted is `fit(feature, binning_method="fixed", centering=centering)`, then `eval`. -/
theorem C94_ale [PySqrt K] (cast : K → K) (model : List (Row K D) → List K) (b : Base K D) (calls : List (AleOp K D)) (s : Fin D)
    (hs : (aleRun (aleCfg cast model b) calls).fitted s = false) (xs : List K) (het : Bool) (c : PyVal) :
    aleEval (aleCfg cast model b) (aleRun (aleCfg cast model b) calls) s xs het c =
      fitThen (aleFit (aleCfg cast model b) (aleRun (aleCfg cast model b) calls) (.int (s : ℕ)) (.str "fixed") c)
        fun st => aleEval (aleCfg cast model b) st s xs het c :=
  eval_unfitted (aleCfg cast model b) (by simp [aleCfg, isFixedMethod]) _ s hs xs het c

/-- **C94, RHALE**: `eval` of a feature that was not fitted is `fit(feature, binning_method="greedy", centering=centering)`, then `eval`. -/
theorem C94_rhale [PySqrt K] (eff : List (Row K D)) (b : Base K D) (calls : List (AleOp K D)) (s : Fin D)
    (hs : (aleRun (rhaleCfg eff b) calls).fitted s = false) (xs : List K) (het : Bool) (c : PyVal) :
    aleEval (rhaleCfg eff b) (aleRun (rhaleCfg eff b) calls) s xs het c =
      fitThen (aleFit (rhaleCfg eff b) (aleRun (rhaleCfg eff b) calls) (.int (s : ℕ)) (.str "greedy") c)
        fun st => aleEval (rhaleCfg eff b) st s xs het c :=
  eval_unfitted (rhaleCfg eff b) (by simp [rhaleCfg, rhaleAllowed]) _ s hs xs het c

/-- **C94, PDP and d-PDP**: `eval` of a feature that was not fitted is `fit(feature, centering=centering, points_for_centering=100, use_vectorized=use_vectorized)`, then `eval`. -/
theorem C94_pdp [PySqrt K] (cfg : PdpCfg K D) (data : List (Row K D)) (calls : List (PdpOp K D)) (s : Fin D) (hs : (pdpRun cfg data calls).fitted s = false)
    (xs : List K) (het : Bool) (c : PyVal) (all vec : Bool) :
    pdpEval cfg (pdpRun cfg data calls) s xs het c all vec =
      fitThen (pdpFit cfg (pdpRun cfg data calls) (.int (s : ℕ)) c 100 vec) fun st => pdpEval cfg st s xs het c all vec := by
  generalize pdpRun cfg data calls = st at hs ⊢
  have hfit : pdpFit cfg st (.int (s : ℕ)) c 100 vec = match prepCentering c with
      | .error e => (st, .error e)
      | .ok m => pdpFitLoop cfg m 100 vec st [s] := by
    unfold pdpFit
    have h := resolve_int s
    simp only [Except.bind, prepFeatures] at h
    simp only [bind, Except.bind, pure, Except.pure, prepFeatures, h]
    cases prepCentering c with
    | error e => rfl
    | ok m => rfl
  rw [hfit]
  conv_lhs => unfold pdpEval
  cases hm : prepCentering c with
  | error e => rfl
  | ok m =>
    have h1 : needsRefit (st.fitted s) (st.args s) m = .ok true := by unfold needsRefit; rw [hs]; rfl
    simp only [h1]
    rcases h3 : pdpFitLoop cfg m 100 vec st [s] with ⟨st', e | ⟨⟩⟩
    · rfl
    · have h4 : st'.fitted s = true ∧ st'.args s = some m := by
        unfold pdpFitLoop at h3
        rcases h5 : pdpFitFeature cfg st.data s m 100 vec with ⟨d, e | nc⟩
        · rw [h5] at h3; cases h3
        · rw [h5] at h3
          simp only [pdpFitLoop] at h3
          cases h3
          simp
      simp only [fitThen]
      unfold pdpEval
      rw [hm]
      simp only [h4.1, h4.2, needsRefit_done]

/-- **C94, ShapDP**: `eval` of a feature that was not fitted is `fit(feature, centering=centering, points_for_centering=100)`, then `eval`. -/
theorem C94_shap (cfg : ShapCfg K D) (data : List (Row K D)) (calls : List (ShapOp K D)) (s : Fin D) (hs : (shapRun cfg data calls).fitted s = false)
    (xs : List K) (het : Bool) (c : PyVal) :
    shapEval cfg (shapRun cfg data calls) s xs het c =
      fitThen (shapFit cfg (shapRun cfg data calls) (.int (s : ℕ)) c 100) fun st => shapEval cfg st s xs het c := by
  generalize shapRun cfg data calls = st at hs ⊢
  have hfit : shapFit cfg st (.int (s : ℕ)) c 100 = match prepCentering c with
      | .error e => (st, .error e)
      | .ok m => shapFitLoop cfg m 100 st [s] := by
    unfold shapFit
    have h := resolve_int s
    simp only [Except.bind, prepFeatures] at h
    simp only [bind, Except.bind, pure, Except.pure, prepFeatures, h]
    cases prepCentering c with
    | error e => rfl
    | ok m => rfl
  rw [hfit]
  conv_lhs => unfold shapEval
  cases hm : prepCentering c with
  | error e => rfl
  | ok m =>
    have h1 : needsRefit (st.fitted s) (st.args s) m = .ok true := by unfold needsRefit; rw [hs]; rfl
    simp only [h1]
    rcases h3 : shapFitLoop cfg m 100 st [s] with ⟨st', e | ⟨⟩⟩
    · rfl
    · have h4 : st'.fitted s = true ∧ st'.args s = some m := by
        unfold shapFitLoop at h3
        rcases h5 : shapFitFeature cfg.ext cfg.axisLo cfg.axisHi st.data s m 100 with ⟨d, e | nc⟩
        · rw [h5] at h3; cases h3
        · rw [h5] at h3
          simp only [shapFitLoop] at h3
          cases h3
          simp
      simp only [fitThen]
      unfold shapEval
      rw [hm]
      simp only [h4.1, h4.2, needsRefit_done]

theorem regionalRefitM_fitted [PySqrt K] (o : RegionalObj K D) (st : RegionalState K D) (f : Fin D) (h : st.fitted f = true) :
    regionalRefitM o st f = (st, .ok ()) := by
  unfold regionalRefitM
  rw [if_pos h]

theorem regional_unfitted [PySqrt K] {α : Type} (o : RegionalObj K D) (st : RegionalState K D) (f : Fin D) (hs : st.fitted f = false)
    (call : RegionalState K D → RegionalState K D × Py α) (inner : RegionalState K D → RegionalState K D × Py α)
    (hc : ∀ st, call st = fitThen (regionalRefitM o st f) inner) :
    call st = fitThen (regionalFit o st (.int (f : ℕ)) (documentedFit o.cfg.methodName)) call := by
  have hd : (documentedFit o.cfg.methodName : FitKw K D) = FitKw.default o.cfg.methodName := rfl
  rw [hc st, hd]
  have h1 : regionalRefitM o st f = regionalFitOne o (FitKw.default o.cfg.methodName) st f := by
    unfold regionalRefitM; rw [if_neg (by simp [hs]), regionalFit_int _ _ _ _ (by simp [FitKw.default])]
  rw [h1, regionalFit_int _ _ _ _ (by simp [FitKw.default])]
  obtain ⟨-, h3⟩ := regionalFitOne_state o (FitKw.default o.cfg.methodName) st f
  rcases hr : regionalFitOne o (FitKw.default o.cfg.methodName) st f with ⟨st', e | ⟨⟩⟩
  · rfl
  · have h4 := regionalRefitM_fitted o st' f (h3 st' hr)
    simp only [fitThen]
    rw [hc st', h4]
    rfl

/-- **C94, the regional classes**: `eval` and `plot` of a feature that was not fitted are `fit(feature)` with the documented defaults, then `eval` or `plot`. -/
theorem C94_regional [PySqrt K] (o : RegionalObj K D) (calls : List (RegCall K D)) (f : Fin D) (hs : (regRunM o calls).fitted f = false) (node : ℕ) (xs : List K)
    (het : Bool) (c : PyVal) (scales : Option (Fin D → Scale K)) :
    regionalEvalM o (regRunM o calls) f node xs het c =
      fitThen (regionalFit o (regRunM o calls) (.int (f : ℕ)) (documentedFit o.cfg.methodName)) (fun st => regionalEvalM o st f node xs het c) ∧
    regionalPlotM o (regRunM o calls) f scales =
      fitThen (regionalFit o (regRunM o calls) (.int (f : ℕ)) (documentedFit o.cfg.methodName)) (fun st => regionalPlotM o st f scales) := by
  refine ⟨regional_unfitted o _ f hs (fun st => regionalEvalM o st f node xs het c) (fun st => regionalEval o.cfg st f node xs het c) fun st => ?_,
    regional_unfitted o _ f hs (fun st => regionalPlotM o st f scales) (fun st => regionalPlotPrep o.cfg st f scales) fun st => ?_⟩
  · unfold regionalEvalM
    rcases regionalRefitM o st f with ⟨st', e | ⟨⟩⟩ <;> rfl
  · unfold regionalPlotM
    rcases regionalRefitM o st f with ⟨st', e | ⟨⟩⟩ <;> rfl

/-- A case that meets the hypothesis: PDP of `x_0 x_1`, feature 1 fitted, feature 0 not; `eval` of feature 0 works, and so does the explicit `fit`, then `eval`. -/
theorem C94_example :
    (pdpRun (pdpCfgOf (.pdp fun r : Row ℚ 2 => r 0 * r 1) ![0, 0] ![2, 3]) [![0, 1], ![1, 2], ![2, 3]] [.fit (.int 1) (.str "zero_start") 100 true]).fitted 0 = false ∧
    (pdpEval (pdpCfgOf (.pdp fun r : Row ℚ 2 => r 0 * r 1) ![0, 0] ![2, 3])
      (pdpRun (pdpCfgOf (.pdp fun r : Row ℚ 2 => r 0 * r 1) ![0, 0] ![2, 3]) [![0, 1], ![1, 2], ![2, 3]] [.fit (.int 1) (.str "zero_start") 100 true])
      0 [0, 1, 3] false (.str "zero_start") false true).2 = .ok (.meanOnly [0, 2, 6]) := by
  decide +kernel

end Effector
