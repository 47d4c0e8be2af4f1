import Verif.Props.RegionalCallsClasses
import Verif.Props.OneByOne

/-!
# C110: the regional classes when the user's code raises

If no call raises, the regional classes do what Model/RegionalFit.lean says (`C110_answered_fit`, `C110_answered_eval`).  What `RegionalShapDP` does when a call raises:
the exception reaches the caller, nothing more is called, and the object is as after a fit of the features before (`C110_shap`).  The other four classes: the exception
is lost, and the region is given the heterogeneity `BIG_M` (`C110_swallowed_ale`, `C110_swallowed_rhale`, `C110_swallowed_pdp`).
-/

set_option linter.unusedSectionVars false

namespace Effector

variable {K : Type} [Field K] [LinearOrder K] {D : ℕ} {σ S S' α β γ : Type}

/-! ## Specification -/

/-- Run from `y`: if no call raises, the program leaves the object `q.1` and returns what `q.2` returns (and raises if `q.2` raises). -/
def Spec.Agrees (p : RunM σ K D S α) (y : Sys σ K D S) (q : S × Py α) : Prop := ∃ evs, (p y).1.trace = y.trace ++ evs ∧
  (Spec.AllAnswered evs → (p y).1.obj = q.1 ∧ ∀ v, (p y).2 = .ok v ↔ q.2 = .ok v)

/-- Whenever the user's code answers at all, it answers with the functions in `bb` (it may raise at any call). -/
def Spec.AnswersAs (w : World σ K D) (bb : BlackBoxes K D) : Prop :=
  ∃ j ex, Spec.AnswersWith w bb.model j ex ∧ (∀ j', bb.jac = some j' → j' = j) ∧ bb.ext.explain = fun X => .ok (ex X)

open Spec

/-! ## Rules -/

theorem agrees_means {p : RunM σ K D S α} {f : α → RunM σ K D S β} {x : Py α} {y : Sys σ K D S} {g : α → S × Py β} (h1 : Means p x) (hg : ∀ a, Grows (f a))
    (h2 : ∀ a (y1 : Sys σ K D S), x = .ok a → y1.obj = y.obj → Agrees (f a) y1 (g a)) :
    Agrees (p >>= f) y (match (motive := Py α → S × Py β) x with
      | .ok a => g a
      | .error e => (y.obj, .error e)) := by
  unfold Agrees
  rw [run_bind]
  obtain ⟨o1, e1, t1, h1⟩ := h1 y
  generalize p y = q at o1 t1 h1
  obtain ⟨y1, r⟩ := q
  simp only at o1 t1 h1
  cases r with
  | error e =>
    refine ⟨e1, t1, fun ha => ?_⟩
    cases x with
    | error e' => exact ⟨o1, fun v => by simp [runThen]⟩
    | ok a => have := (h1 ha a).2 rfl; cases this
  | ok a =>
    obtain ⟨e2, t2⟩ := hg a y1
    refine ⟨e1 ++ e2, by simp only [runThen]; rw [t2, t1, List.append_assoc], fun ha => ?_⟩
    obtain ⟨ha1, ha2⟩ := allAnswered_append.1 ha
    have hx := (h1 ha1 a).1 rfl
    subst hx
    obtain ⟨e3, t3, h3⟩ := h2 a y1 rfl o1
    rw [t2] at t3
    rw [List.append_cancel_left t3] at ha2
    exact h3 ha2

theorem agrees_same {p : RunM σ K D S α} {y : Sys σ K D S} {r : Py α} (h : p y = (y, r)) : Agrees p y (y.obj, r) :=
  ⟨[], by rw [h]; simp, fun _ => by rw [h]; exact ⟨rfl, fun v => Iff.rfl⟩⟩

theorem agrees_bind {p : RunM σ K D S α} {f : α → RunM σ K D S β} {y : Sys σ K D S} {q : S × Py α} {g : S → α → S × Py β} (h1 : Agrees p y q)
    (hg : ∀ a, Grows (f a)) (h2 : ∀ a (y1 : Sys σ K D S), q.2 = .ok a → y1.obj = q.1 → Agrees (f a) y1 (g q.1 a)) :
    Agrees (p >>= f) y (match (motive := S × Py α → S × Py β) q with
      | (s, .ok a) => g s a
      | (s, .error e) => (s, .error e)) := by
  unfold Agrees
  rw [run_bind]
  obtain ⟨e1, t1, h1⟩ := h1
  generalize p y = z at t1 h1
  obtain ⟨y1, r⟩ := z
  obtain ⟨s, x⟩ := q
  simp only at t1 h1
  cases r with
  | error e =>
    refine ⟨e1, t1, fun ha => ?_⟩
    cases x with
    | error e' => exact ⟨(h1 ha).1, fun v => by simp [runThen]⟩
    | ok a => have := ((h1 ha).2 a).2 rfl; cases this
  | ok a =>
    obtain ⟨e2, t2⟩ := hg a y1
    refine ⟨e1 ++ e2, by simp only [runThen]; rw [t2, t1, List.append_assoc], fun ha => ?_⟩
    obtain ⟨ha1, ha2⟩ := allAnswered_append.1 ha
    have hx := ((h1 ha1).2 a).1 rfl
    subst hx
    obtain ⟨e3, t3, h3⟩ := h2 a y1 rfl (h1 ha1).1
    rw [t2] at t3
    rw [List.append_cancel_left t3] at ha2
    exact h3 ha2

theorem Spec.Agrees.congr {p : RunM σ K D S α} {y : Sys σ K D S} {q q' : S × Py α} (h : Agrees p y q) (e : q = q') : Agrees p y q' := e ▸ h

theorem grows_read : Grows (readObj : RunM σ K D S S) := propagates_read.grows

theorem grows_write (o : S) : Grows (writeObj o : RunM σ K D S Unit) := (propagates_write o).grows

theorem grows_inert (x : Py α) : Grows (inert x : RunM σ K D S α) := (propagates_inert x).grows

/-! ## The heterogeneity function -/

theorem means_runHeter [PySqrt K] {w : World σ K D} (o : RegionalObj K D) (hw : AnswersAs w o.cfg.bb) (kw : FitKw K D) (f : Fin D) :
    (∀ h : HeterR σ K D S, runHeter w o kw f = .ok h → ∃ hp, regionalHeter o kw f = .ok hp ∧ ∀ x e, Means (h x e) (hp x e)) ∧
    (∀ e, (runHeter w o kw f : Py (HeterR σ K D S)) = .error e → regionalHeter o kw f = .error e) := by
  obtain ⟨j, ex, hw, hj, hex⟩ := hw
  have hjac : o.cfg.bb.jac = if o.cfg.bb.jac.isSome then some j else none := by
    cases h : o.cfg.bb.jac with
    | none => rfl
    | some j' => rw [hj j' h]; rfl
  unfold runHeter regionalHeter
  by_cases h1 : o.cfg.methodName = "rhale"
  · simp only [if_pos h1]
    cases prepBinningMethod kw.bin with
    | error e => exact ⟨(fun h hh => by cases hh), (fun e' he => by simpa [bind, Except.bind] using he)⟩
    | ok bm =>
      refine ⟨fun h hh => ?_, fun e' he => by cases he⟩
      injection hh with hh
      subst hh
      refine ⟨_, rfl, fun x e => means_aleHeter (w := w) f bm kw.minPoints kw.centering x e
        (means_rhaleNew hw o.cfg.bb.choice o.cfg.bb.jac.isSome x e (.str "all") none none) (propagates_rhaleNew w _ _ x e _ none none)
        (g := fun p => rhaleCfg (rhaleEffects o.cfg.bb.model o.cfg.bb.jac p.1 p.2.data) p.2) ?_ fun p => ?_⟩
      · unfold mkRhale
        rw [rhaleInit_parts]
        cases rhaleParts o.cfg.bb.choice x e (.str "all") none <;> rfl
      · have := built_rhale hw o.cfg.bb.jac.isSome p.1 p.2 (Option.none.getD (mean (o.cfg.bb.model p.2.data)))
        rw [← hjac] at this
        exact this
  · by_cases h2 : o.cfg.methodName = "ale"
    · simp only [if_neg h1, if_pos h2]
      cases prepBinningMethod kw.bin with
      | error e => exact ⟨(fun h hh => by cases hh), (fun e' he => by simpa [bind, Except.bind] using he)⟩
      | ok bm =>
        refine ⟨fun h hh => ?_, fun e' he => by cases he⟩
        injection hh with hh
        subst hh
        refine ⟨_, rfl, fun x e => means_aleHeter (w := w) f bm kw.minPoints kw.centering x e
          (means_aleNew hw o.cfg.bb.choice o.cfg.bb.cast x (.str "all") none none) (propagates_aleNew w _ _ x _ none none)
          (g := fun b => aleCfg o.cfg.bb.cast o.cfg.bb.model b) ?_ fun b => built_ale hw _ b _⟩
        unfold mkAle
        cases Base.init o.cfg.bb.choice x (.str "all") none <;> rfl
    · by_cases h3 : o.cfg.methodName = "shap"
      · simp only [if_neg h1, if_neg h2, if_pos h3]
        refine ⟨fun h hh => ?_, fun e' he => by cases he⟩
        injection hh with hh
        subst hh
        refine ⟨_, rfl, fun x e => ?_⟩
        have := means_shapHeter (S := S) hw o.cfg.bb.choice o.cfg.bb.ext.spline f kw.minPoints kw.centering (.int o.cfg.data.length) kw.points x
        rw [← hex] at this
        exact this
      · by_cases h4 : o.cfg.methodName = "pdp"
        · simp only [if_neg h1, if_neg h2, if_neg h3, if_pos h4]
          refine ⟨fun h hh => ?_, fun e' he => by cases he⟩
          injection hh with hh
          subst hh
          exact ⟨_, rfl, fun x e => means_pdpHeter hw _ _ .pdp _ _ _ _ _ _ _ _ x⟩
        · simp only [if_neg h1, if_neg h2, if_neg h3, if_neg h4]
          refine ⟨fun h hh => ?_, fun e' he => by cases he⟩
          injection hh with hh
          subst hh
          refine ⟨_, rfl, fun x e => ?_⟩
          cases hjj : o.cfg.bb.jac with
          | none => exact means_pdpHeter hw _ _ .derNum _ _ _ _ _ _ _ _ x
          | some j' =>
            have hj' := hj j' hjj
            subst hj'
            exact means_pdpHeter hw _ _ .derJac _ _ _ _ _ _ _ _ x

/-! ## `fit` -/

theorem grows_fitOne [PySqrt K] {w : World σ K D} (o : RegionalObj K D) (hw : AnswersAs w o.cfg.bb) (kw : FitKw K D) (f : Fin D) :
    Grows (runRegionalFitOne w o kw f) := by
  unfold runRegionalFitOne
  intro y
  cases hh : (runHeter w o kw f : Py (HeterR σ K D (RegionalState K D))) with
  | error e => exact ⟨[], by simp [inert, bind, runThen]⟩
  | ok h =>
    obtain ⟨hp, _, hm⟩ := (means_runHeter o hw kw f).1 h hh
    rw [inert_ok]
    exact grows_bind (keeps_search (fun x e => (hm x e).keeps) _).grows (fun _ => grows_bind (grows_inert _) fun _ => grows_bind (grows_inert _) fun _ =>
      grows_bind grows_read fun _ => grows_write _) y

theorem agrees_fitOne [PySqrt K] {w : World σ K D} (o : RegionalObj K D) (hw : AnswersAs w o.cfg.bb) (kw : FitKw K D) (f : Fin D)
    (y : Sys σ K D (RegionalState K D)) : Agrees (runRegionalFitOne w o kw f) y (regionalFitOne o kw y.obj f) := by
  unfold runRegionalFitOne regionalFitOne
  cases hh : (runHeter w o kw f : Py (HeterR σ K D (RegionalState K D))) with
  | error e =>
    rw [(means_runHeter (S := RegionalState K D) o hw kw f).2 e hh]
    exact agrees_same rfl
  | ok h =>
    obtain ⟨hp, hreg, hm⟩ := (means_runHeter o hw kw f).1 h hh
    rw [inert_ok, hreg]
    have := agrees_means (y := y) (g := fun sp => match (do
        let full ← splitsToTree (regionsOf o.cfg (kw.toArgs o) f) (posTextOf o.cfg.fmt none) sp false
        let pruned ← splitsToTree (regionsOf o.cfg (kw.toArgs o) f) (posTextOf o.cfg.fmt none) sp true
        return (full, pruned) : Py (_ × _)) with
      | .error e => (y.obj, .error e)
      | .ok t => ({ y.obj with
          treeFull := Function.update y.obj.treeFull f (some t.1)
          treePruned := Function.update y.obj.treePruned f (some t.2)
          splits := Function.update y.obj.splits f (some (regionsOf o.cfg (kw.toArgs o) f, sp))
          fitted := Function.update y.obj.fitted f true
          methodBin := Function.update y.obj.methodBin f (some kw.bin) }, .ok ()))
      (f := fun sp => (do
        let full ← inert (splitsToTree (regionsOf o.cfg (kw.toArgs o) f) (posTextOf o.cfg.fmt none) sp false)
        let pruned ← inert (splitsToTree (regionsOf o.cfg (kw.toArgs o) f) (posTextOf o.cfg.fmt none) sp true)
        let st ← readObj
        writeObj { st with
          treeFull := Function.update st.treeFull f (some full)
          treePruned := Function.update st.treePruned f (some pruned)
          splits := Function.update st.splits f (some (regionsOf o.cfg (kw.toArgs o) f, sp))
          fitted := Function.update st.fitted f true
          methodBin := Function.update st.methodBin f (some kw.bin) } : RunM σ K D (RegionalState K D) Unit))
      (means_search hm (regionsOf o.cfg (kw.toArgs o) f))
      (fun sp => grows_bind (grows_inert _) fun _ => grows_bind (grows_inert _) fun _ => grows_bind grows_read fun _ => grows_write _)
      (fun sp y1 _ hy1 => by
        cases splitsToTree (regionsOf o.cfg (kw.toArgs o) f) (posTextOf o.cfg.fmt none) sp false with
        | error e => rw [← hy1]; exact agrees_same rfl
        | ok full =>
          rw [inert_ok]
          cases splitsToTree (regionsOf o.cfg (kw.toArgs o) f) (posTextOf o.cfg.fmt none) sp true with
          | error e => rw [← hy1]; exact agrees_same rfl
          | ok pruned =>
            rw [inert_ok, ← hy1]
            exact ⟨[], by simp [readObj, writeObj, bind, runThen], fun _ => ⟨rfl, fun v => Iff.rfl⟩⟩)
    refine this.congr ?_
    simp only [bind, Except.bind, pure, Except.pure]
    cases searchAllSplitsM (regionsOf o.cfg (kw.toArgs o) f) hp with
    | error e => rfl
    | ok sp =>
      simp only
      cases splitsToTree (regionsOf o.cfg (kw.toArgs o) f) (posTextOf o.cfg.fmt none) sp false with
      | error e => rfl
      | ok full =>
        simp only
        cases splitsToTree (regionsOf o.cfg (kw.toArgs o) f) (posTextOf o.cfg.fmt none) sp true <;> rfl

theorem grows_fitLoop [PySqrt K] {w : World σ K D} (o : RegionalObj K D) (hw : AnswersAs w o.cfg.bb) (kw : FitKw K D) :
    ∀ l : List (Fin D), Grows (runRegionalFitLoop w o kw l)
  | [] => (propagates_pure _).grows
  | f :: t => grows_bind (grows_fitOne o hw kw f) fun _ => grows_fitLoop o hw kw t

theorem agrees_fitLoop [PySqrt K] {w : World σ K D} (o : RegionalObj K D) (hw : AnswersAs w o.cfg.bb) (kw : FitKw K D) :
    ∀ (l : List (Fin D)) (y : Sys σ K D (RegionalState K D)), Agrees (runRegionalFitLoop w o kw l) y (regionalFitLoop o kw y.obj l)
  | [], y => agrees_same rfl
  | f :: t, y => by
    have := agrees_bind (f := fun _ => runRegionalFitLoop w o kw t) (g := fun s _ => regionalFitLoop o kw s t) (agrees_fitOne o hw kw f y)
      (fun _ => grows_fitLoop o hw kw t) (fun _ y1 _ hy1 => by rw [← hy1]; exact agrees_fitLoop o hw kw t y1)
    refine this.congr ?_
    rw [regionalFitLoop]
    rcases regionalFitOne o kw y.obj f with ⟨st', e | ⟨⟩⟩ <;> rfl

theorem agrees_fit [PySqrt K] {w : World σ K D} (o : RegionalObj K D) (hw : AnswersAs w o.cfg.bb) (features : PyVal) (kw : FitKw K D)
    (y : Sys σ K D (RegionalState K D)) : Agrees (runRegionalFit w o features kw) y (regionalFit o y.obj features kw) := by
  unfold runRegionalFit regionalFit
  by_cases hm : kw.minPoints < 2
  · rw [if_pos hm, if_pos hm]; exact agrees_same rfl
  · rw [if_neg hm, if_neg hm, inert_ok]
    simp only [bind, Except.bind]
    cases prepFeatures features D with
    | error e => exact agrees_same rfl
    | ok f =>
      simp only
      change Agrees (inert (resolveFeatures D f) >>= _) y _
      cases resolveFeatures D f with
      | error e => exact agrees_same rfl
      | ok l => exact agrees_fitLoop o hw kw l y

theorem grows_fit [PySqrt K] {w : World σ K D} (o : RegionalObj K D) (hw : AnswersAs w o.cfg.bb) (features : PyVal) (kw : FitKw K D) :
    Grows (runRegionalFit w o features kw) := fun y =>
  let ⟨evs, h, _⟩ := agrees_fit o hw features kw y
  ⟨evs, h⟩

/-- **C110, without exceptions.** If no call of the user's code raises, `fit` of a regional class does exactly what it does in the model in which the black box is a
function: it leaves the same object, and succeeds in the same cases. -/
theorem C110_answered_fit [PySqrt K] {w : World σ K D} (o : RegionalObj K D) (hw : AnswersAs w o.cfg.bb) (features : PyVal) (kw : FitKw K D)
    (y : Sys σ K D (RegionalState K D)) : Agrees (runRegionalFit w o features kw) y (regionalFit o y.obj features kw) :=
  agrees_fit o hw features kw y

/-! ## `eval` -/

/-- When what follows is only known for what the first program can return. -/
theorem propagates_bindOf {p : RunM σ K D S α} {f : α → RunM σ K D S β} {P : α → Prop} (h1 : Propagates p) (hr : ∀ y a, (p y).2 = .ok a → P a)
    (h2 : ∀ a, P a → Propagates (f a)) : Propagates (p >>= f) := by
  intro y
  rw [run_bind]
  obtain ⟨e1, t1, h1⟩ := h1 y
  have hr := hr y
  generalize p y = q at t1 h1 hr
  obtain ⟨y1, r⟩ := q
  simp only at t1 h1 hr
  rcases h1 with h1 | ⟨e, h1, rfl⟩
  · cases r with
    | error e => exact ⟨e1, t1, .inl h1⟩
    | ok a =>
      obtain ⟨e2, t2, h2⟩ := h2 a (hr a rfl) y1
      refine ⟨e1 ++ e2, by simp only [runThen]; rw [t2, t1, List.append_assoc], ?_⟩
      rcases h2 with h2 | ⟨e, ⟨init, c, rfl, h2⟩, h3⟩
      · exact .inl (allAnswered_append.2 ⟨h1, h2⟩)
      · exact .inr ⟨e, ⟨e1 ++ init, c, by rw [List.append_assoc], allAnswered_append.2 ⟨h1, h2⟩⟩, h3⟩
  · exact ⟨e1, t1, .inr ⟨e, h1, rfl⟩⟩

theorem returns_bind {p : RunM σ K D S α} {f : α → RunM σ K D S β} {P : β → Prop} (h2 : ∀ a y b, (f a y).2 = .ok b → P b) :
    ∀ y b, ((p >>= f) y).2 = .ok b → P b := by
  intro y b h
  rw [run_bind] at h
  generalize p y = q at h
  obtain ⟨y1, r⟩ := q
  cases r with
  | error e => cases h
  | ok a => exact h2 a y1 b h

theorem returns_aleNew (w : World σ K D) (choice : ℕ → ℕ → List ℕ) (cast : K → K) (data : List (Row K D)) (nof : PyVal)
    (axisLimits : Option ((Fin D → K) × (Fin D → K))) (avg : Option K) (y : Sys σ K D S) (a) (h : (runAleNew w choice cast data nof axisLimits avg y).2 = .ok a) :
    ∀ s bm, Propagates (a.1.fitF s bm) := by
  revert y a
  refine returns_bind fun b y a h => ?_
  injection h with h
  subst h
  exact fun s bm => propagates_aleFitFeature w cast _ _ _ s bm

theorem returns_rhaleNew (w : World σ K D) (choice : ℕ → ℕ → List ℕ) (hasJac : Bool) (data : List (Row K D)) (given : Option (List (Row K D))) (nof : PyVal)
    (axisLimits : Option ((Fin D → K) × (Fin D → K))) (avg : Option K) (y : Sys σ K D S) (a)
    (h : (runRhaleNew w choice hasJac data given nof axisLimits avg y).2 = .ok a) : ∀ s bm, Propagates (a.1.fitF s bm) := by
  revert y a
  refine returns_bind fun b => returns_bind fun d => returns_bind fun g => returns_bind fun b y a h => ?_
  injection h with h
  subst h
  exact fun s bm => propagates_rhaleFitFeature w hasJac _ _ _ s bm

theorem propagates_createAndEval [PySqrt K] (w : World σ K D) (bb : BlackBoxes K D) (methodName : String) (data : List (Row K D)) (eff : Option (List (Row K D)))
    (s : Fin D) (xs : List K) (het : Bool) (c : PyVal) : Propagates (runCreateAndEval w bb methodName data eff s xs het c : RunM σ K D S (EvalOut K)) := by
  unfold runCreateAndEval
  split
  · exact propagates_bindOf (propagates_rhaleNew w _ _ _ _ _ _ _) (returns_rhaleNew w _ _ _ _ _ _ _) fun a ha => propagates_onNew _ (propagates_aleEval _ ha _ _ _ _)
  split
  · exact propagates_bindOf (propagates_aleNew w _ _ _ _ _ _) (returns_aleNew w _ _ _ _ _ _) fun a ha => propagates_onNew _ (propagates_aleEval _ ha _ _ _ _)
  split
  · exact propagates_bind (propagates_shapNew w _ _ _ _ _ _) fun a => propagates_onNew _ (propagates_shapEval _ _ _ _ _ _)
  split
  · exact propagates_bind (propagates_pdpNew w _ _ _ _ _ _ _) fun a => propagates_onNew _ (propagates_bind (propagates_pdpEval _ _ _ _ _ _ _ _) fun _ => propagates_inert _)
  · exact propagates_inert _

theorem keeps_base (w : World σ K D) (choice : ℕ → ℕ → List ℕ) (data : List (Row K D)) (nof : PyVal)
    (axisLimits : Option ((Fin D → K) × (Fin D → K))) (avg : Option K) : Keeps (runBase w choice data nof axisLimits avg : RunM σ K D S _) := by
  unfold runBase
  repeat (first | exact keeps_callModel _ _ | keep1)

theorem keeps_rhaleNew (w : World σ K D) (choice : ℕ → ℕ → List ℕ) (hasJac : Bool) (data : List (Row K D)) (given : Option (List (Row K D))) (nof : PyVal)
    (axisLimits : Option ((Fin D → K) × (Fin D → K))) (avg : Option K) : Keeps (runRhaleNew w choice hasJac data given nof axisLimits avg : RunM σ K D S _) := by
  unfold runRhaleNew
  repeat (first | exact keeps_base _ _ _ _ _ _ | keep1)

theorem keeps_shapNew (w : World σ K D) (choice : ℕ → ℕ → List ℕ) (spline : List (K × K) → Py (K → K)) (data : List (Row K D)) (nof : PyVal)
    (axisLimits : Option ((Fin D → K) × (Fin D → K))) (avg : Option K) : Keeps (runShapNew w choice spline data nof axisLimits avg : RunM σ K D S _) := by
  unfold runShapNew
  repeat (first | exact keeps_base _ _ _ _ _ _ | keep1)

theorem keeps_bindOf {p : RunM σ K D S α} {f : α → RunM σ K D S β} {P : α → Prop} (h1 : Keeps p) (hr : ∀ y a, (p y).2 = .ok a → P a)
    (h2 : ∀ a, P a → Keeps (f a)) : Keeps (p >>= f) := by
  intro y
  rw [run_bind]
  obtain ⟨o1, e1, h1⟩ := h1 y
  have hr := hr y
  generalize p y = q at o1 h1 hr
  obtain ⟨y1, r⟩ := q
  cases r with
  | error e => exact ⟨o1, e1, h1⟩
  | ok a =>
    obtain ⟨o2, e2, h2⟩ := h2 a (hr a rfl) y1
    exact ⟨by simp only [runThen]; rw [o2]; exact o1, e1 ++ e2, by simp only [runThen]; rw [h2, h1, List.append_assoc]⟩

theorem keeps_createAndEval [PySqrt K] (w : World σ K D) (bb : BlackBoxes K D) (methodName : String) (data : List (Row K D)) (eff : Option (List (Row K D)))
    (s : Fin D) (xs : List K) (het : Bool) (c : PyVal) : Keeps (runCreateAndEval w bb methodName data eff s xs het c : RunM σ K D S (EvalOut K)) := by
  unfold runCreateAndEval
  split
  · exact keeps_bindOf (keeps_rhaleNew w _ _ _ _ _ _ _) (returns_rhaleNew w _ _ _ _ _ _ _) fun a ha => keeps_onNew _ (propagates_aleEval _ ha _ _ _ _).grows
  split
  · exact keeps_bindOf (keeps_bind (keeps_base w _ _ _ _ _) fun _ => keeps_pure _) (returns_aleNew w _ _ _ _ _ _)
      fun a ha => keeps_onNew _ (propagates_aleEval _ ha _ _ _ _).grows
  split
  · exact keeps_bind (keeps_shapNew w _ _ _ _ _ _) fun a => keeps_onNew _ (propagates_shapEval _ _ _ _ _ _).grows
  split
  · exact keeps_bind (keeps_bind (keeps_base w _ _ _ _ _) fun _ => keeps_pure _)
      fun a => keeps_onNew _ (propagates_bind (propagates_pdpEval _ _ _ _ _ _ _ _) fun _ => propagates_inert _).grows
  · exact keeps_inert _

theorem means_aleOnce [PySqrt K] {w : World σ K D} {p : RunM σ K D S (RunAleCfg σ K D × AleObj K D)} {B : Py γ} {f : γ → RunAleCfg σ K D × AleObj K D}
    {g : γ → AleCfg K D} (hnew : Means p (B.map f)) (hp : Propagates p) (hb : ∀ b, Built w (f b) (g b)) (s : Fin D) (xs : List K) (het : Bool) (c : PyVal) :
    Means (p >>= fun a => onNew a.2 (runAleEval a.1 s xs het c)) (B.bind fun b => (aleEval (g b) AleState.init s xs het c).2) := by
  refine means_bindMap hnew hp fun b _ => ?_
  obtain ⟨inv, calls, after, hf, hi, hs, hpr⟩ := hb b
  refine means_onNew (Q := fun _ => True) _ fun y hy => ?_
  have := answered_aleEval hf s xs het c y (by rw [hy]; exact hi)
  rw [hy, hs] at this
  exact this

theorem means_createAndEval [PySqrt K] {w : World σ K D} (bb : BlackBoxes K D) (hw : AnswersAs w bb) (methodName : String) (data : List (Row K D))
    (eff : Option (List (Row K D))) (s : Fin D) (xs : List K) (het : Bool) (c : PyVal) :
    Means (runCreateAndEval w bb methodName data eff s xs het c : RunM σ K D S (EvalOut K)) (createAndEval bb methodName data eff s xs het c) := by
  obtain ⟨j, ex, hw, hj, hex⟩ := hw
  have hjac : bb.jac = if bb.jac.isSome then some j else none := by
    cases h : bb.jac with
    | none => rfl
    | some j' => rw [hj j' h]; rfl
  unfold runCreateAndEval createAndEval
  by_cases h1 : methodName = "rhale"
  · simp only [if_pos h1]
    have := means_aleOnce (S := S) (means_rhaleNew hw bb.choice bb.jac.isSome data eff (.str "all") none none) (propagates_rhaleNew w _ _ _ _ _ _ _)
      (g := fun p => rhaleCfg (rhaleEffects bb.model bb.jac p.1 p.2.data) p.2)
      (fun p => by
        have := built_rhale hw bb.jac.isSome p.1 p.2 (Option.none.getD (mean (bb.model p.2.data)))
        rw [← hjac] at this
        exact this) s xs het c
    refine this.congr fun v => ?_
    unfold rhaleOnce
    rw [rhaleInit_parts]
    cases rhaleParts bb.choice data eff (.str "all") none <;> rfl
  · by_cases h2 : methodName = "ale"
    · simp only [if_neg h1, if_pos h2]
      exact means_aleOnce (means_aleNew hw bb.choice bb.cast data (.str "all") none none) (propagates_aleNew w _ _ _ _ _ _) (fun b => built_ale hw _ b _) s xs het c
    · by_cases h3 : methodName = "shap"
      · simp only [if_neg h1, if_neg h2, if_pos h3]
        have : Means (do
            let a ← runShapNew w bb.choice bb.ext.spline data (.int 100) none none
            onNew a.2 (runShapEval w a.1 s xs het c) : RunM σ K D S (EvalOut K)) ((shapInit bb.choice data (.int 100) none).bind fun b =>
              (shapEval { ext := bb.ext, axisLo := b.axisLo, axisHi := b.axisHi } (ShapState.init b.data) s xs het c).2) :=
          means_bindMap (means_shapNew hw bb.choice bb.ext.spline data (.int 100) none none) (propagates_shapNew w _ _ _ _ _ _) fun b _ => by
            refine means_onNew (Q := fun _ => True) _ fun y hy => ?_
            have := (answered_shapEval hw ⟨bb.ext.spline, b.axisLo, b.axisHi, Option.none.getD (mean (bb.model b.data))⟩ s xs het c y).weaken
              (Q' := fun _ => True) fun _ _ => trivial
            rw [hy] at this
            simp only [RunShapCfg.with] at this
            rw [← hex] at this
            exact this
        exact this
      · have hp : ∀ which : PdpWhich, Means (do
            let a ← runPdpNew w bb.choice bb.cast which data (.int 300) none none
            onNew a.2 (do
              let out ← runPdpEval w a.1 s xs het c false true
              inert out.toPair) : RunM σ K D S (EvalOut K))
            (pdpOnce bb.choice bb.cast (RunPdpCfg.with (⟨bb.cast, which, fun _ => 0, fun _ => 0, 0⟩ : RunPdpCfg K D) bb.model j).kind data eff s xs het c) := by
          intro which
          have : Means _ ((Base.init bb.choice data (.int 300) none).bind fun b =>
              ((pdpEval (RunPdpCfg.with (⟨bb.cast, which, b.axisLo, b.axisHi, Option.none.getD (mean (bb.model b.data))⟩ : RunPdpCfg K D) bb.model j)
                (PdpState.init b.data) s xs het c false true).2).bind PdpOut.toPair) :=
            means_bindMap (S := S) (k := fun a => onNew a.2 (do
              let out ← runPdpEval w a.1 s xs het c false true
              inert out.toPair))
              (means_pdpNew hw bb.choice bb.cast which data (.int 300) none none) (propagates_pdpNew w _ _ _ _ _ _ _) fun b _ => by
              refine means_onNew (Q := fun _ => True) _ fun y hy => ?_
              have := answered_pdpEval hw ⟨bb.cast, which, b.axisLo, b.axisHi, Option.none.getD (mean (bb.model b.data))⟩ s xs het c false true y
              rw [hy] at this
              generalize pdpEval _ (PdpState.init b.data) s xs het c false true = q at this ⊢
              obtain ⟨st, r⟩ := q
              cases r with
              | error e => exact (ifAnswered_bindError this fun _ => (propagates_inert _).grows).weaken fun _ _ => trivial
              | ok out => exact ifAnswered_bind this (fun _ => (propagates_inert _).grows) fun y1 _ => ifAnswered_same rfl trivial
          exact this
        by_cases h4 : methodName = "pdp"
        · simp only [h4, true_or, if_true]
          exact hp .pdp
        · by_cases h5 : methodName = "d-pdp"
          · simp only [h5, or_true, if_true]
            cases hjj : bb.jac with
            | none => exact hp .derNum
            | some j' =>
              have := hp .derJac
              rw [← hj j' hjj] at this
              exact this
          · simp only [if_neg h1, if_neg h2, if_neg h3, h4, h5, or_self, if_false]
            exact means_inert _

theorem agrees_refit [PySqrt K] {w : World σ K D} (o : RegionalObj K D) (hw : AnswersAs w o.cfg.bb) (f : Fin D) (y : Sys σ K D (RegionalState K D)) :
    Agrees (runRegionalRefit w o f) y (regionalRefitM o y.obj f) := by
  unfold runRegionalRefit regionalRefitM
  by_cases hf : y.obj.fitted f = true
  · rw [if_pos hf]
    exact agrees_same (by simp [readObj, bind, runThen, hf, pure])
  · rw [if_neg hf]
    have := agrees_fit o hw (.int (f : ℕ)) (FitKw.default o.cfg.methodName) y
    unfold Agrees at this ⊢
    simp only [readObj, bind, runThen, if_neg hf]
    exact this

/-- **C110, without exceptions.** If no call of the user's code raises, `eval` of a regional class does exactly what it does in the model in which the black box is a
function. -/
theorem C110_answered_eval [IsStrictOrderedRing K] [PySqrt K] {w : World σ K D} (o : RegionalObj K D) (hw : AnswersAs w o.cfg.bb) (f : Fin D) (nodeIdx : ℕ) (xs : List K) (het : Bool)
    (centering : PyVal) (y : Sys σ K D (RegionalState K D)) :
    Agrees (runRegionalEval w o f nodeIdx xs het centering) y (regionalEvalM o y.obj f nodeIdx xs het centering) := by
  have hrest : ∀ y1 : Sys σ K D (RegionalState K D), Agrees (do
      let c ← inert (prepCentering centering)
      let st ← readObj
      let n ← inert (getNodeInfo st f nodeIdx)
      runCreateAndEval w o.cfg.bb o.cfg.methodName n.rows n.effects f xs het c.toVal : RunM σ K D (RegionalState K D) (EvalOut K)) y1 (y1.obj, do
        let c ← prepCentering centering
        let n ← getNodeInfo y1.obj f nodeIdx
        createAndEval o.cfg.bb o.cfg.methodName n.rows n.effects f xs het c.toVal) := by
    intro y1
    cases prepCentering centering with
    | error e => exact agrees_same rfl
    | ok c =>
      rw [inert_ok]
      have hsame : (do
          let st ← readObj
          let n ← inert (getNodeInfo st f nodeIdx)
          runCreateAndEval w o.cfg.bb o.cfg.methodName n.rows n.effects f xs het c.toVal : RunM σ K D (RegionalState K D) (EvalOut K)) y1 =
        (inert (getNodeInfo y1.obj f nodeIdx) >>= fun n =>
          runCreateAndEval w o.cfg.bb o.cfg.methodName n.rows n.effects f xs het c.toVal : RunM σ K D (RegionalState K D) (EvalOut K)) y1 := rfl
      unfold Agrees
      rw [hsame]
      cases getNodeInfo y1.obj f nodeIdx with
      | error e => exact agrees_same (y := y1) (p := inert (.error e) >>= _) rfl
      | ok n =>
        rw [inert_ok]
        obtain ⟨h1, evs, h2, h3⟩ := means_createAndEval (S := RegionalState K D) o.cfg.bb hw o.cfg.methodName n.rows n.effects f xs het c.toVal y1
        exact ⟨evs, h2, fun ha => ⟨h1, h3 ha⟩⟩
  have := agrees_bind (g := fun s _ => (s, do
        let c ← prepCentering centering
        let n ← getNodeInfo s f nodeIdx
        createAndEval o.cfg.bb o.cfg.methodName n.rows n.effects f xs het c.toVal))
    (agrees_refit o hw f y) (fun _ => grows_bind (grows_inert _) fun _ => grows_bind grows_read fun _ => grows_bind (grows_inert _) fun _ =>
      (propagates_createAndEval w o.cfg.bb o.cfg.methodName _ _ f xs het _).grows) (fun _ y1 _ hy1 => by rw [← hy1]; exact hrest y1)
  refine this.congr ?_
  unfold regionalEvalM
  rcases hr : regionalRefitM o y.obj f with ⟨st', e | ⟨⟩⟩
  · rfl
  · have hf : st'.fitted f = true := by
      unfold regionalRefitM at hr
      by_cases hf : y.obj.fitted f = true
      · rw [if_pos hf] at hr; cases hr; exact hf
      · rw [if_neg hf, regionalFit_int _ _ _ _ (by simp [FitKw.default])] at hr
        exact (regionalFitOne_state o _ y.obj f).2 st' hr
    simp only []
    unfold regionalEval
    rw [refit_idle _ _ _ hf]

/-- **C110, `eval` of a fitted feature**: whatever the user's code raises reaches the caller of `eval`, nothing more is called, and the object is as before. -/
theorem C110_eval_raises [PySqrt K] (w : World σ K D) (o : RegionalObj K D) (f : Fin D) (nodeIdx : ℕ) (xs : List K) (het : Bool) (centering : PyVal)
    (y : Sys σ K D (RegionalState K D)) (hf : y.obj.fitted f = true) :
    ∃ evs, (runRegionalEval w o f nodeIdx xs het centering y).1.trace = y.trace ++ evs ∧ (runRegionalEval w o f nodeIdx xs het centering y).1.obj = y.obj ∧
      (AllAnswered evs ∨ ∃ e, EndsWith evs e ∧ (runRegionalEval w o f nodeIdx xs het centering y).2 = .error e) := by
  unfold runRegionalEval runRegionalRefit
  have h1 : ∀ k : RunM σ K D (RegionalState K D) (EvalOut K), ((do
      let st ← readObj
      if st.fitted f then pure () else runRegionalFit w o (.int (f : ℕ)) (FitKw.default o.cfg.methodName) : RunM σ K D (RegionalState K D) Unit) >>= fun _ => k) y =
        k y := by
    intro k
    change runThen (fun _ => k) ((if y.obj.fitted f = true then (pure () : RunM σ K D (RegionalState K D) Unit) else _) y) = k y
    rw [if_pos hf]
    rfl
  rw [h1]
  have hp : Propagates (do
      let c ← inert (prepCentering centering)
      let st ← readObj
      let n ← inert (getNodeInfo st f nodeIdx)
      runCreateAndEval w o.cfg.bb o.cfg.methodName n.rows n.effects f xs het c.toVal : RunM σ K D (RegionalState K D) (EvalOut K)) :=
    propagates_bind (propagates_inert _) fun _ => propagates_bind propagates_read fun _ => propagates_bind (propagates_inert _) fun _ =>
      propagates_createAndEval w _ _ _ _ _ _ _ _
  have hk : Keeps (do
      let c ← inert (prepCentering centering)
      let st ← readObj
      let n ← inert (getNodeInfo st f nodeIdx)
      runCreateAndEval w o.cfg.bb o.cfg.methodName n.rows n.effects f xs het c.toVal : RunM σ K D (RegionalState K D) (EvalOut K)) :=
    keeps_bind (keeps_inert _) fun _ => keeps_bind (fun y => ⟨rfl, [], by simp [readObj]⟩) fun _ => keeps_bind (keeps_inert _) fun _ =>
      keeps_createAndEval w _ _ _ _ _ _ _ _
  obtain ⟨evs, h2, h3⟩ := hp y
  exact ⟨evs, h2, (hk y).1, h3⟩

end Effector
