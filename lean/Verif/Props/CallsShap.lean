import Verif.Lemmas.Calls

/-!
# The calls of `ShapDP`, and of the constructors
-/

set_option linter.unusedSectionVars false

namespace Effector

variable {K : Type} [Field K] [LinearOrder K] {D : ℕ} {σ S : Type}

/-! ## Specification -/

/-- The call-free object with the same attributes whose explainer is `ex`. -/
def RunShapCfg.with (cfg : RunShapCfg K D) (ex : List (Row K D) → List (Row K D)) : ShapCfg K D where
  ext := { explain := fun X => .ok (ex X), spline := cfg.spline }
  axisLo := cfg.axisLo
  axisHi := cfg.axisHi

/-- The calls of a fit of the features `l`: all SHAP values of all rows in range, once for each feature; an exception ends it. -/
def Spec.shapFitCalls (cfg : RunShapCfg K D) (ex : List (Row K D) → List (Row K D)) (c : Centering) (points : ℕ) :
    List (Row K D) → List (Fin D) → List (Call K D)
  | _, [] => []
  | data, s :: t =>
    .explain (dropOutside data (cfg.axisLo s) (cfg.axisHi s) s) ::
      match (shapFitFeature (cfg.with ex).ext cfg.axisLo cfg.axisHi data s c points).2 with
      | .ok _ => Spec.shapFitCalls cfg ex c points (dropOutside data (cfg.axisLo s) (cfg.axisHi s) s) t
      | .error _ => []

/-- What an interrupted fit of the features `l` leaves behind: the features before some `s` are fitted; `s` and those after it are as they were; the rows outside
the range of `s` are gone already. -/
def Spec.shapInterrupted (cfg : RunShapCfg K D) (ex : List (Row K D) → List (Row K D)) (c : Centering) (points : ℕ) (st : ShapState K D) (l : List (Fin D))
    (o : ShapState K D) : Prop :=
  ∃ l1 s l2 st1, l = l1 ++ s :: l2 ∧ shapFitLoop (cfg.with ex) c points st l1 = (st1, .ok ()) ∧
    o = { st1 with data := dropOutside st1.data (cfg.axisLo s) (cfg.axisHi s) s }

/-- The calls of `eval`. -/
def Spec.shapEvalCalls (cfg : RunShapCfg K D) (st : ShapState K D) (s : Fin D) (c : Centering) : List (Call K D) :=
  match needsRefit (st.fitted s) (st.args s) c with
  | .ok true => [.explain (dropOutside st.data (cfg.axisLo s) (cfg.axisHi s) s)]
  | _ => []

open Spec

variable {w : World σ K D} {m : List (Row K D) → List K} {j ex : List (Row K D) → List (Row K D)}

theorem runs_shapFitFeature (hw : AnswersWith w m j ex) (cfg : RunShapCfg K D) (s : Fin D) (c : Centering) (points : ℕ)
    (y : Sys σ K D (ShapState K D)) :
    Runs w (runShapFitFeature w cfg s c points) y { y.obj with data := dropOutside y.obj.data (cfg.axisLo s) (cfg.axisHi s) s }
      (shapFitFeature (cfg.with ex).ext cfg.axisLo cfg.axisHi y.obj.data s c points).2
      [.explain (dropOutside y.obj.data (cfg.axisLo s) (cfg.axisHi s) s)]
      (· = { y.obj with data := dropOutside y.obj.data (cfg.axisLo s) (cfg.axisHi s) s }) := by
  unfold runShapFitFeature
  refine Spec.Runs.readBind (Spec.Runs.writeBind fun y1 h1 => ?_)
  have hr : (shapFitFeature (cfg.with ex).ext cfg.axisLo cfg.axisHi y.obj.data s c points).2 =
      shapCurve cfg.spline (dropOutside y.obj.data (cfg.axisLo s) (cfg.axisHi s) s) (ex (dropOutside y.obj.data (cfg.axisLo s) (cfg.axisHi s) s)) s c points :=
    rfl
  rw [hr, ← h1]
  have := Spec.Runs.bind (f := fun vals => (inert (shapCurve cfg.spline (dropOutside y.obj.data (cfg.axisLo s) (cfg.axisHi s) s) vals s c points) :
      RunM σ K D (ShapState K D) (ShapFe K))) (runs_callExplain hw (dropOutside y.obj.data (cfg.axisLo s) (cfg.axisHi s) s) y1 (L := (· = y1.obj)) rfl)
    (fun y2 h2 => h2 ▸ Spec.Runs.inert w _ y2 _)
  exact this

theorem runs_shapFitLoop (hw : AnswersWith w m j ex) (cfg : RunShapCfg K D) (c : Centering) (points : ℕ) :
    ∀ (l : List (Fin D)) (y : Sys σ K D (ShapState K D)),
      Runs w (runShapFitLoop w cfg c points l) y (shapFitLoop (cfg.with ex) c points y.obj l).1
        (shapFitLoop (cfg.with ex) c points y.obj l).2 (shapFitCalls cfg ex c points y.obj.data l)
        (shapInterrupted cfg ex c points y.obj l)
  | [], y => Spec.Runs.pure w _ y _
  | s :: t, y => by
    simp only [runShapFitLoop, shapFitCalls]
    have hf := (runs_shapFitFeature hw cfg s c points y).mono (L' := shapInterrupted cfg ex c points y.obj (s :: t))
      (fun o ho => ⟨[], s, t, y.obj, rfl, rfl, ho⟩)
    have hdat : (shapFitFeature (cfg.with ex).ext cfg.axisLo cfg.axisHi y.obj.data s c points).1 = dropOutside y.obj.data (cfg.axisLo s) (cfg.axisHi s) s := rfl
    have hl : ∀ t, shapFitLoop (cfg.with ex) c points y.obj (s :: t) = match (shapFitFeature (cfg.with ex).ext cfg.axisLo cfg.axisHi y.obj.data s c points).2 with
      | .error e => ({ y.obj with data := dropOutside y.obj.data (cfg.axisLo s) (cfg.axisHi s) s }, .error e)
      | .ok nc => shapFitLoop (cfg.with ex) c points
        { data := dropOutside y.obj.data (cfg.axisLo s) (cfg.axisHi s) s
          fe := Function.update y.obj.fe s (some nc)
          fitted := Function.update y.obj.fitted s true
          args := Function.update y.obj.args s (some c) } t := by
      intro t
      rw [shapFitLoop]
      rw [← hdat]
      have : shapFitFeature (cfg.with ex).ext (cfg.with ex).axisLo (cfg.with ex).axisHi y.obj.data s c points =
        shapFitFeature (cfg.with ex).ext cfg.axisLo cfg.axisHi y.obj.data s c points := rfl
      rw [this]
      generalize shapFitFeature (cfg.with ex).ext cfg.axisLo cfg.axisHi y.obj.data s c points = q
      obtain ⟨d, r⟩ := q
      cases r <;> rfl
    rw [hl t]
    revert hf hl
    generalize (shapFitFeature (cfg.with ex).ext cfg.axisLo cfg.axisHi y.obj.data s c points).2 = R
    intro hf hl
    cases R with
    | error e => exact Spec.Runs.bindError hf
    | ok nc =>
      refine Spec.Runs.bind (c1 := [_]) (c2 := shapFitCalls cfg ex c points _ t) hf fun y1 h1 => Spec.Runs.readBind (Spec.Runs.writeBind fun y2 h2 => ?_)
      rw [h1] at h2
      simp only at h2 ⊢
      have h := runs_shapFitLoop hw cfg c points t y2
      have hd : y2.obj.data = dropOutside y.obj.data (cfg.axisLo s) (cfg.axisHi s) s := by rw [h2]
      rw [hd, h2] at h
      refine h.mono ?_
      rintro o ⟨l1, s', l2, st1, he, hst, ho⟩
      exact ⟨s :: l1, s', l2, st1, by rw [he]; rfl, by rw [hl l1]; exact hst, ho⟩

theorem runs_shapFit (hw : AnswersWith w m j ex) (cfg : RunShapCfg K D) (features centering f : PyVal) (c : Centering) (l : List (Fin D))
    (hc : prepCentering centering = .ok c) (hf : prepFeatures features D = .ok f) (hl : resolveFeatures D f = .ok l) (points : ℕ)
    (y : Sys σ K D (ShapState K D)) :
    Runs w (runShapFit w cfg features centering points) y (shapFit (cfg.with ex) y.obj features centering points).1
      (shapFit (cfg.with ex) y.obj features centering points).2 (shapFitCalls cfg ex c points y.obj.data l)
      (shapInterrupted cfg ex c points y.obj l) := by
  have h1 : shapFit (cfg.with ex) y.obj features centering points = shapFitLoop (cfg.with ex) c points y.obj l := by
    simp only [shapFit, hc, hf, hl, bind, Except.bind, pure, Except.pure]
  have h2 : runShapFit w cfg features centering points y = runShapFitLoop w cfg c points l y := by
    simp only [runShapFit, hc, hf, inert_ok, hl]
  have h := runs_shapFitLoop hw cfg c points l y
  unfold Runs at h ⊢
  rw [h1, h2]
  exact h

theorem shapFitCalls_one (cfg : RunShapCfg K D) (c : Centering) (points : ℕ) (data : List (Row K D)) (s : Fin D) :
    shapFitCalls cfg ex c points data [s] = [.explain (dropOutside data (cfg.axisLo s) (cfg.axisHi s) s)] := by
  simp only [shapFitCalls]
  cases (shapFitFeature (cfg.with ex).ext cfg.axisLo cfg.axisHi data s c points).2 <;> rfl

theorem runs_shapEval (hw : AnswersWith w m j ex) (cfg : RunShapCfg K D) (s : Fin D) (xs : List K) (het : Bool) (centering : PyVal)
    (c : Centering) (hc : prepCentering centering = .ok c) (y : Sys σ K D (ShapState K D)) :
    Runs w (runShapEval w cfg s xs het centering) y (shapEval (cfg.with ex) y.obj s xs het centering).1
      (shapEval (cfg.with ex) y.obj s xs het centering).2 (shapEvalCalls cfg y.obj s c)
      (fun o => needsRefit (y.obj.fitted s) (y.obj.args s) c = .ok true ∧
        o = { y.obj with data := dropOutside y.obj.data (cfg.axisLo s) (cfg.axisHi s) s }) := by
  simp only [shapEval, hc, shapEvalCalls]
  unfold runShapEval
  rw [hc, inert_ok]
  refine Spec.Runs.readBind ?_
  cases hn : needsRefit (y.obj.fitted s) (y.obj.args s) c with
  | error e => exact Spec.Runs.bindError (Spec.Runs.inert w _ y _)
  | ok b =>
    rw [inert_ok]
    cases b with
    | false =>
      simp only [Bool.false_eq_true, if_false]
      have hp : shapEvalFitted (cfg.with ex) y.obj s xs het c = shapEvalFitted cfg.reader y.obj s xs het c := rfl
      rw [hp]
      exact Spec.Runs.readBind (Spec.Runs.inert w _ y _)
    | true =>
      simp only [if_true, true_and]
      have hf := (runs_shapFitLoop hw cfg c 100 [s] y).mono
        (L' := (· = { y.obj with data := dropOutside y.obj.data (cfg.axisLo s) (cfg.axisHi s) s })) (by
        rintro o ⟨l1, s', l2, st1, he, hst, ho⟩
        cases l1 with
        | nil =>
          simp only [List.nil_append, List.cons.injEq] at he
          obtain ⟨rfl, rfl⟩ := he
          have : st1 = y.obj := (congrArg Prod.fst hst).symm
          rw [ho, this]
        | cons a t => simp at he)
      rw [shapFitCalls_one] at hf
      generalize shapFitLoop (cfg.with ex) c 100 y.obj [s] = q at hf ⊢
      obtain ⟨st', r⟩ := q
      cases r with
      | error e => exact Spec.Runs.bindError hf
      | ok u =>
        have := Spec.Runs.bind (f := fun _ => (do
            let o ← readObj
            inert (shapEvalFitted cfg.reader o s xs het c) : RunM σ K D (ShapState K D) (List K × Option (List K)))) (c2 := [])
          (o2 := st') (r := shapEvalFitted (cfg.with ex) st' s xs het c) hf (fun y1 h1 => by
            refine Spec.Runs.readBind ?_
            have h2 : y1.obj = st' := h1
            rw [h2, ← h2]
            exact Spec.Runs.inert w _ y1 _)
        exact this

/-! ## The constructors -/

/-- The rows a constructor keeps. -/
def Spec.sampled (choice : ℕ → ℕ → List ℕ) (data : List (Row K D)) (nof : PyVal) : Py (List (Row K D)) := do
  let (_, idx) ← prepNofInstances choice nof data.length
  takeRows data idx

/-- The call of a constructor: the model on the rows it keeps, if `avg_output` is not given. -/
def Spec.constructorCalls (choice : ℕ → ℕ → List ℕ) (data : List (Row K D)) (nof : PyVal) (avg : Option K) : List (Call K D) :=
  match avg, Spec.sampled choice data nof with
  | none, .ok rows => [.model rows]
  | _, _ => []

theorem runs_base (hw : AnswersWith w m j ex) (choice : ℕ → ℕ → List ℕ) (data : List (Row K D)) (nof : PyVal)
    (axisLimits : Option ((Fin D → K) × (Fin D → K))) (avg : Option K) (y : Sys σ K D S) {L : S → Prop} (hL : L y.obj) :
    Runs w (runBase w choice data nof axisLimits avg) y y.obj
      ((Base.init choice data nof axisLimits).map fun b => (b, avg.getD (mean (m b.data)))) (constructorCalls choice data nof avg) L := by
  unfold runBase Base.init constructorCalls sampled
  cases prepNofInstances choice nof data.length with
  | error e => cases avg <;> exact Spec.Runs.bindError (Spec.Runs.inert w _ y L)
  | ok p =>
    obtain ⟨n, idx⟩ := p
    rw [inert_ok]
    simp only [bind, Except.bind]
    change Runs w (inert (takeRows data idx) >>= _) _ _ _ _ _
    cases takeRows data idx with
    | error e => cases avg <;> exact Spec.Runs.bindError (Spec.Runs.inert w _ y L)
    | ok rows =>
      rw [inert_ok]
      simp only
      have fin : ∀ (a : K) (y1 : Sys σ K D S), Runs w (do
          let l ← inert (match axisLimits with
            | some l => .ok l
            | none => axisLimitsAll rows)
          pure (({ data := rows, indices := idx, axisLo := l.1, axisHi := l.2 } : Base K D), a) : RunM σ K D S (Base K D × K)) y1 y1.obj
          (Except.map (fun b : Base K D => (b, a)) ((match axisLimits with
            | some l => (.ok l : Py ((Fin D → K) × (Fin D → K)))
            | none => axisLimitsAll rows).bind fun l => .ok { data := rows, indices := idx, axisLo := l.1, axisHi := l.2 })) [] L := by
        intro a y1
        generalize (match axisLimits with
            | some l => (.ok l : Py ((Fin D → K) × (Fin D → K)))
            | none => axisLimitsAll rows) = A
        cases A with
        | error e => exact Spec.Runs.bindError (Spec.Runs.inert w _ y1 L)
        | ok l => exact Spec.Runs.pure w _ y1 L
      cases avg with
      | some a =>
        have := fin a y
        cases axisLimits with
        | some l => exact this
        | none =>
          revert this
          simp only
          cases axisLimitsAll rows with
          | error e => intro h; exact h
          | ok l => intro h; exact h
      | none =>
        have h := Spec.Runs.bind (f := fun v => (do
          let l ← inert (match axisLimits with
            | some l => .ok l
            | none => axisLimitsAll rows)
          pure (({ data := rows, indices := idx, axisLo := l.1, axisHi := l.2 } : Base K D), mean v) : RunM σ K D S (Base K D × K)))
          (runs_callModel hw rows y (L := L) hL) (fun y1 h1 => h1 ▸ fin (mean (m rows)) y1)
        cases axisLimits with
        | some l => exact h
        | none =>
          revert h
          simp only
          cases axisLimitsAll rows with
          | error e => intro h; exact h
          | ok l => intro h; exact h

end Effector
