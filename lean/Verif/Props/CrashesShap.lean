import Verif.Props.CrashesPdp

/-!
# C109: the user's code raises (ShapDP)
-/

set_option linter.unusedSectionVars false

namespace Effector

variable {K : Type} [Field K] [LinearOrder K] [IsStrictOrderedRing K] {D : ℕ} {σ : Type}

/-- The public calls on a ShapDP object, with all their arguments (`plot` begins with an `eval`; what it does afterwards calls nobody). -/
inductive ShapReq (K : Type) (D : ℕ)
  | fit (features centering : PyVal) (points : ℕ)
  | eval (s : Fin D) (xs : List K) (het : Bool) (centering : PyVal)

/-- What a request returns: `fit` nothing, `eval` the curve (and the heterogeneity). -/
inductive ShapAns (K : Type)
  | fitted
  | curve (v : List K × Option (List K))
deriving DecidableEq

/-- global_effect_shap.py:148-248: a request. -/
def runShapReq (w : World σ K D) (cfg : RunShapCfg K D) : ShapReq K D → RunM σ K D (ShapState K D) (ShapAns K)
  | .fit f c points => do
    runShapFit w cfg f c points
    return .fitted
  | .eval s xs het c => do
    let v ← runShapEval w cfg s xs het c
    return .curve v

/-- The same request to an object whose explainer is a function that never raises. -/
def Spec.shapAnswer (pu : ShapCfg K D) (st : ShapState K D) : ShapReq K D → ShapState K D × Py (ShapAns K)
  | .fit f c points => ((shapFit pu st f c points).1, (shapFit pu st f c points).2.map fun _ => .fitted)
  | .eval s xs het c => ((shapEval pu st s xs het c).1, (shapEval pu st s xs het c).2.map .curve)

/-- The object without the rows outside the axis limits of feature `s`. -/
def Spec.ShapState.without (st : ShapState K D) (lo hi : Fin D → K) (s : Fin D) : ShapState K D :=
  { st with data := st.data.filter fun r => decide (lo s ≤ r s ∧ r s ≤ hi s) }

/-- What a request that the user's code interrupted leaves behind.  `fit`: what it would leave behind had it only been asked for some of the first features, without
the rows outside the limits of the next feature.  `eval`: the same object without the rows outside the limits of the feature. -/
def Spec.shapLeft (pu : ShapCfg K D) (st : ShapState K D) : ShapReq K D → ShapState K D → Prop
  | .fit f c points, st' => ∃ v l1 s l2 c' st1, prepFeatures f D = .ok v ∧ resolveFeatures D v = .ok (l1 ++ s :: l2) ∧ prepCentering c = .ok c' ∧
      shapFitLoop pu c' points st l1 = (st1, .ok ()) ∧ st' = Spec.ShapState.without st1 pu.axisLo pu.axisHi s
  | .eval s _ _ c, st' => ∃ c', prepCentering c = .ok c' ∧ Spec.ToBeFitted st.fitted st.args s c' ∧ st' = Spec.ShapState.without st pu.axisLo pu.axisHi s

/-- The same when all rows lie within the limits (always so when `axis_limits` is not given): `eval` leaves the object as it was. -/
def Spec.shapLeftWithin (pu : ShapCfg K D) (st : ShapState K D) : ShapReq K D → ShapState K D → Prop
  | .fit f c points, st' => ∃ v l1 s l2 c', prepFeatures f D = .ok v ∧ resolveFeatures D v = .ok (l1 ++ s :: l2) ∧ prepCentering c = .ok c' ∧
      shapFitLoop pu c' points st l1 = (st', .ok ())
  | .eval _ _ _ _, st' => st' = st

open Spec

variable {w : World σ K D} {m : List (Row K D) → List K} {j ex : List (Row K D) → List (Row K D)}

theorem shapWithout_eq (st : ShapState K D) (lo hi : Fin D → K) (s : Fin D) :
    Spec.ShapState.without st lo hi s = { st with data := dropOutside st.data (lo s) (hi s) s } := by
  rw [dropOutside_eq]; rfl

/-- One request, whatever its arguments. -/
theorem runs_shapReq (hw : AnswersWith w m j ex) (cfg : RunShapCfg K D) (q : ShapReq K D) (y : Sys σ K D (ShapState K D)) :
    ∃ cs, Runs w (runShapReq w cfg q) y (shapAnswer (cfg.with ex) y.obj q).1 (shapAnswer (cfg.with ex) y.obj q).2 cs (shapLeft (cfg.with ex) y.obj q) := by
  cases q with
  | fit f c points =>
    cases hc : prepCentering c with
    | error e =>
      refine ⟨[], ?_⟩
      have h1 : shapAnswer (cfg.with ex) y.obj (.fit f c points) = (y.obj, .error e) := by
        simp only [shapAnswer, shapFit, hc, bind, Except.bind]; rfl
      have h2 : runShapReq w cfg (.fit f c points) y = (y, .error e) := by
        simp only [runShapReq, runShapFit, hc]; rfl
      left; rw [h1, h2]; simp [answered]
    | ok c' =>
      cases hf : prepFeatures f D with
      | error e =>
        refine ⟨[], ?_⟩
        have h1 : shapAnswer (cfg.with ex) y.obj (.fit f c points) = (y.obj, .error e) := by
          simp only [shapAnswer, shapFit, hc, hf, bind, Except.bind]; rfl
        have h2 : runShapReq w cfg (.fit f c points) y = (y, .error e) := by
          simp only [runShapReq, runShapFit, hc, inert_ok, hf]; rfl
        left; rw [h1, h2]; simp [answered]
      | ok v =>
        cases hl : resolveFeatures D v with
        | error e =>
          refine ⟨[], ?_⟩
          have h1 : shapAnswer (cfg.with ex) y.obj (.fit f c points) = (y.obj, .error e) := by
            simp only [shapAnswer, shapFit, hc, hf, hl, bind, Except.bind]; rfl
          have h2 : runShapReq w cfg (.fit f c points) y = (y, .error e) := by
            simp only [runShapReq, runShapFit, hc, inert_ok, hf, hl]; rfl
          left; rw [h1, h2]; simp [answered]
        | ok l =>
          refine ⟨_, (runs_mapOk (fun _ => ShapAns.fitted) (runs_shapFit hw cfg f c v c' l hc hf hl points y)).mono ?_⟩
          rintro o ⟨l1, s, l2, st1, he, hst, ho⟩
          exact ⟨v, l1, s, l2, c', st1, hf, by rw [hl, he], hc, hst, by rw [ho, shapWithout_eq]; rfl⟩
  | eval s xs het c =>
    cases hc : prepCentering c with
    | error e =>
      refine ⟨[], ?_⟩
      have h1 : shapAnswer (cfg.with ex) y.obj (.eval s xs het c) = (y.obj, .error e) := by
        simp only [shapAnswer, shapEval, hc]; rfl
      have h2 : runShapReq w cfg (.eval s xs het c) y = (y, .error e) := by
        simp only [runShapReq, runShapEval, hc]; rfl
      left; rw [h1, h2]; simp [answered]
    | ok c' =>
      refine ⟨_, (runs_mapOk ShapAns.curve (runs_shapEval hw cfg s xs het c c' hc y)).mono ?_⟩
      rintro o ⟨h1, ho⟩
      exact ⟨c', hc, needsRefit_true.1 h1, by rw [ho, shapWithout_eq]; rfl⟩

/-- **C109 (ShapDP).** The same account for ShapDP, when the explainer (or the model inside it) raises. -/
theorem C109_shap (hw : AnswersWith w m j ex) (cfg : RunShapCfg K D) (qs : List (ShapReq K D)) (y : Sys σ K D (ShapState K D)) :
    ∃ evs, (runReqs (runShapReq w cfg) qs y).1.trace = y.trace ++ evs ∧
      Account (shapAnswer (cfg.with ex)) (shapLeft (cfg.with ex)) y.obj qs (runReqs (runShapReq w cfg) qs y).2 evs
        (runReqs (runShapReq w cfg) qs y).1.obj := by
  obtain ⟨evs, h1, _, h3⟩ := account_of_runs (w := w) (runShapReq w cfg) (fun o => o) (fun _ => True) (shapAnswer (cfg.with ex))
    (shapLeft (cfg.with ex)) (fun q y _ => by
      obtain ⟨cs, hr⟩ := runs_shapReq hw cfg q y
      exact ⟨_, cs, trivial, rfl, hr.mono fun o ho => ⟨trivial, ho⟩⟩) qs y trivial
  exact ⟨evs, h1, h3⟩

theorem shapWithout_within {st : ShapState K D} {lo hi : Fin D → K} (h : AllWithin st.data lo hi) (s : Fin D) : Spec.ShapState.without st lo hi s = st := by
  rw [shapWithout_eq, dropOutside_within h s]

theorem shapAnswer_within {pu : ShapCfg K D} {data : List (Row K D)} (hw : AllWithin data pu.axisLo pu.axisHi) (q : ShapReq K D)
    {st : ShapState K D} (h : st.data = data) : (shapAnswer pu st q).1.data = data := by
  cases q with
  | fit f c points =>
    show (shapFit pu st f c points).1.data = data
    unfold shapFit
    split
    · exact h
    · exact shapFit_data pu data hw _ points _ st h
  | eval s xs het c =>
    show (shapEval pu st s xs het c).1.data = data
    unfold shapEval
    cases prepCentering c with
    | error e => exact h
    | ok c' =>
      simp only
      cases needsRefit (st.fitted s) (st.args s) c' with
      | error e => exact h
      | ok b =>
        cases b with
        | false => exact h
        | true =>
          simp only
          have := shapFit_data pu data hw c' 100 [s] st h
          revert this
          generalize shapFitLoop pu c' 100 st [s] = q
          obtain ⟨st', r⟩ := q
          intro h
          cases r <;> exact h

theorem shapLeft_within {pu : ShapCfg K D} {st st' : ShapState K D} (hw : AllWithin st.data pu.axisLo pu.axisHi) {q : ShapReq K D}
    (h : shapLeft pu st q st') : shapLeftWithin pu st q st' ∧ st'.data = st.data := by
  cases q with
  | fit f c points =>
    obtain ⟨v, l1, s, l2, c', st1, hf, hl, hc, hst, ho⟩ := h
    have h1 : st1.data = st.data := by
      have := shapFit_data pu st.data hw c' points l1 st rfl
      rw [hst] at this
      exact this
    rw [shapWithout_within (by rw [h1]; exact hw)] at ho
    subst ho
    exact ⟨⟨v, l1, s, l2, c', hf, hl, hc, hst⟩, h1⟩
  | eval s xs het c =>
    obtain ⟨_, _, _, h⟩ := h
    rw [shapWithout_within hw] at h
    exact ⟨h, by rw [h]⟩

/-- **C109 (ShapDP; the limits include the data).** An interrupted `eval` leaves the object as it was; an interrupted `fit` what it would leave had it only been asked
for some of the first features. -/
theorem C109_shap_within (hw : AnswersWith w m j ex) (cfg : RunShapCfg K D) (qs : List (ShapReq K D)) (y : Sys σ K D (ShapState K D))
    (hin : AllWithin y.obj.data cfg.axisLo cfg.axisHi) :
    ∃ evs, (runReqs (runShapReq w cfg) qs y).1.trace = y.trace ++ evs ∧
      Account (shapAnswer (cfg.with ex)) (shapLeftWithin (cfg.with ex)) y.obj qs (runReqs (runShapReq w cfg) qs y).2 evs
        (runReqs (runShapReq w cfg) qs y).1.obj := by
  obtain ⟨evs, h1, _, h3⟩ := account_of_runs (w := w) (runShapReq w cfg) (fun o => o) (fun o => o.data = y.obj.data) (shapAnswer (cfg.with ex))
    (shapLeftWithin (cfg.with ex)) (fun q y' hy => by
      obtain ⟨cs, hr⟩ := runs_shapReq hw cfg q y'
      refine ⟨_, cs, shapAnswer_within (pu := cfg.with ex) hin q hy, rfl, hr.mono fun o ho => ?_⟩
      have := shapLeft_within (pu := cfg.with ex) (by rw [hy]; exact hin) ho
      exact ⟨this.2.trans hy, this.1⟩) qs y rfl
  exact ⟨evs, h1, h3⟩

end Effector
