import Verif.Props.RegionalCallsFit
import Verif.Props.CallCounts

/-!
# C110: what the regional classes do with an exception of the user's code
-/

set_option linter.unusedSectionVars false

namespace Effector

variable {K : Type} [Field K] [LinearOrder K] {D : ℕ} {σ S S' α β γ : Type}

/-! ## Specification -/

/-- The heterogeneity of a region: an exception of the first call (`avg_output`, in the constructor) reaches the caller; an exception of any later call is lost, and the
region is given the penalty value.  Either way nothing more is called for this region. -/
def Spec.Swallows (p : RunM σ K D S K) : Prop := ∀ y : Sys σ K D S, ∃ evs, (p y).1.trace = y.trace ++ evs ∧
  (Spec.AllAnswered evs ∨ ∃ e, Spec.EndsWith evs e ∧ (p y).2 = if evs.length = 1 then .error e else .ok BIG_M)

open Spec

/-! ## RegionalShapDP -/

theorem propagates_shapHeter (w : World σ K D) (choice : ℕ → ℕ → List ℕ) (spline : List (K × K) → Py (K → K)) (foi : Fin D) (minPoints : ℕ)
    (centering nof : PyVal) (points : ℕ) (data : List (Row K D)) :
    Propagates (runShapHeter w choice spline foi minPoints centering nof points data : RunM σ K D S K) := by
  unfold runShapHeter
  split
  · exact propagates_pure _
  · exact propagates_bind (propagates_inert _) fun _ => propagates_bind (propagates_inert _) fun _ => propagates_bind (propagates_shapNew w _ _ _ _ _ _) fun _ =>
      propagates_onNew _ (propagates_bind (propagates_shapFit w _ _ _ _) fun _ => propagates_bind (propagates_shapEval w _ _ _ _ _) fun _ => propagates_inert _)

theorem propagates_fitOne_shap [PySqrt K] (w : World σ K D) (o : RegionalObj K D) (hs : o.cfg.methodName = "shap") (kw : FitKw K D) (f : Fin D) :
    Propagates (runRegionalFitOne w o kw f) := by
  unfold runRegionalFitOne
  have : (runHeter w o kw f : Py (HeterR σ K D (RegionalState K D))) =
      .ok fun x _ => runShapHeter w o.cfg.bb.choice o.cfg.bb.ext.spline f kw.minPoints kw.centering (.int o.cfg.data.length) kw.points x := by
    unfold runHeter
    simp only [hs, String.reduceEq, if_false, if_true]
    rfl
  rw [this, inert_ok]
  exact propagates_bind (propagates_search (fun x _ => propagates_shapHeter w _ _ _ _ _ _ _ x) _) fun _ => propagates_bind (propagates_inert _) fun _ =>
    propagates_bind (propagates_inert _) fun _ => propagates_bind propagates_read fun _ => propagates_write _

/-- A feature whose fit raised is not written. -/
theorem fitOne_error [PySqrt K] {w : World σ K D} (o : RegionalObj K D) (hw : AnswersAs w o.cfg.bb) (kw : FitKw K D) (f : Fin D) (y : Sys σ K D (RegionalState K D))
    (e : PyErr) (he : (runRegionalFitOne w o kw f y).2 = .error e) : (runRegionalFitOne w o kw f y).1.obj = y.obj := by
  revert he
  unfold runRegionalFitOne
  cases hh : (runHeter w o kw f : Py (HeterR σ K D (RegionalState K D))) with
  | error e => exact fun _ => rfl
  | ok h =>
    obtain ⟨hp, _, hm⟩ := (means_runHeter o hw kw f).1 h hh
    rw [inert_ok, run_bind]
    obtain ⟨ho, _⟩ := keeps_search (fun x e => (hm x e).keeps) (regionsOf o.cfg (kw.toArgs o) f) y
    generalize runSearch (regionsOf o.cfg (kw.toArgs o) f) h y = q at ho
    obtain ⟨y1, r⟩ := q
    simp only at ho
    cases r with
    | error e => exact fun _ => ho
    | ok sp =>
      simp only [runThen]
      cases splitsToTree (regionsOf o.cfg (kw.toArgs o) f) (posTextOf o.cfg.fmt none) sp false with
      | error e => exact fun _ => ho
      | ok full =>
        rw [inert_ok]
        cases splitsToTree (regionsOf o.cfg (kw.toArgs o) f) (posTextOf o.cfg.fmt none) sp true with
        | error e => exact fun _ => ho
        | ok pruned =>
          rw [inert_ok]
          intro he
          cases he

theorem shap_fitLoop [PySqrt K] {w : World σ K D} (o : RegionalObj K D) (hw : AnswersAs w o.cfg.bb) (hs : o.cfg.methodName = "shap") (kw : FitKw K D) :
    ∀ (l : List (Fin D)) (y : Sys σ K D (RegionalState K D)), ∃ evs, (runRegionalFitLoop w o kw l y).1.trace = y.trace ++ evs ∧
      (AllAnswered evs ∨ ∃ e, EndsWith evs e ∧ (runRegionalFitLoop w o kw l y).2 = .error e ∧
        ∃ l1, l1 <+: l ∧ regionalFitLoop o kw y.obj l1 = ((runRegionalFitLoop w o kw l y).1.obj, .ok ()))
  | [], y => ⟨[], by simp [runRegionalFitLoop, run_pure], .inl allAnswered_nil⟩
  | f :: t, y => by
    rw [runRegionalFitLoop, run_bind]
    obtain ⟨e1, t1, h1⟩ := propagates_fitOne_shap w o hs kw f y
    have herr := fitOne_error o hw kw f y
    obtain ⟨e1', t1', hag⟩ := agrees_fitOne o hw kw f y
    have : e1' = e1 := List.append_cancel_left (t1'.symm.trans t1)
    subst this
    generalize runRegionalFitOne w o kw f y = q at t1 t1' h1 herr hag
    obtain ⟨y1, r⟩ := q
    simp only at t1 h1 herr hag
    rcases h1 with h1 | ⟨e, h1, rfl⟩
    · cases r with
      | error e => exact ⟨e1', t1, .inl h1⟩
      | ok u =>
        obtain ⟨e2, t2, h2⟩ := shap_fitLoop o hw hs kw t y1
        refine ⟨e1' ++ e2, by simp only [runThen]; rw [t2, t1, List.append_assoc], ?_⟩
        rcases h2 with h2 | ⟨e, ⟨init, c, rfl, h2⟩, h3, l1, hl, h4⟩
        · exact .inl (allAnswered_append.2 ⟨h1, h2⟩)
        · refine .inr ⟨e, ⟨e1' ++ init, c, by rw [List.append_assoc], allAnswered_append.2 ⟨h1, h2⟩⟩, h3, f :: l1, List.cons_prefix_cons.2 ⟨rfl, hl⟩, ?_⟩
          obtain ⟨ho, hr⟩ := hag h1
          have hq : regionalFitOne o kw y.obj f = (y1.obj, .ok ()) := by
            rw [ho]; exact Prod.ext rfl ((hr ()).1 rfl)
          rw [regionalFitLoop, hq]
          exact h4
    · refine ⟨e1', t1, .inr ⟨e, h1, rfl, [], List.nil_prefix, ?_⟩⟩
      rw [regionalFitLoop]
      exact Prod.ext (herr e rfl).symm rfl

/-- **C110, RegionalShapDP.** Whatever the user's code raises during `fit` reaches the caller, nothing more is called, and the object is as after a fit of the features
before the one that was interrupted. -/
theorem C110_shap [PySqrt K] {w : World σ K D} (o : RegionalObj K D) (hw : AnswersAs w o.cfg.bb) (hs : o.cfg.methodName = "shap") (features : PyVal) (kw : FitKw K D)
    (y : Sys σ K D (RegionalState K D)) : ∃ evs, (runRegionalFit w o features kw y).1.trace = y.trace ++ evs ∧
      (AllAnswered evs ∨ ∃ e, EndsWith evs e ∧ (runRegionalFit w o features kw y).2 = .error e ∧
        ∃ l1, l1 <+: named D features ∧ regionalFitLoop o kw y.obj l1 = ((runRegionalFit w o features kw y).1.obj, .ok ())) := by
  unfold runRegionalFit named
  by_cases hm : kw.minPoints < 2
  · rw [if_pos hm]; exact ⟨[], by simp [inert, bind, runThen], .inl allAnswered_nil⟩
  · rw [if_neg hm, inert_ok]
    cases prepFeatures features D with
    | error e => exact ⟨[], by simp [inert, bind, runThen], .inl allAnswered_nil⟩
    | ok f =>
      rw [inert_ok]
      simp only [Except.bind]
      cases resolveFeatures D f with
      | error e => exact ⟨[], by simp [inert, bind, runThen], .inl allAnswered_nil⟩
      | ok l =>
        rw [inert_ok]
        exact shap_fitLoop o hw hs kw l y

/-! ## The other four classes: rules -/

/-- No call. -/
def Silent (p : RunM σ K D S α) : Prop := ∀ y : Sys σ K D S, (p y).1.trace = y.trace

theorem silent_pure (a : α) : Silent (pure a : RunM σ K D S α) := fun _ => rfl

theorem silent_inert (x : Py α) : Silent (inert x : RunM σ K D S α) := fun _ => rfl

theorem silent_bind {p : RunM σ K D S α} {f : α → RunM σ K D S β} (h1 : Silent p) (h2 : ∀ a, Silent (f a)) : Silent (p >>= f) := by
  intro y
  rw [run_bind]
  have := h1 y
  generalize p y = q at this
  obtain ⟨y1, r⟩ := q
  cases r with
  | error e => exact this
  | ok a => exact (h2 a y1).trans this

/-- One call, or none if it raises before it; what the call raises reaches the caller. -/
def Once (p : RunM σ K D S α) : Prop := ∀ y : Sys σ K D S, ∃ evs, (p y).1.trace = y.trace ++ evs ∧
  ((AllAnswered evs ∧ ∀ a, (p y).2 = .ok a → evs.length = 1) ∨ ∃ e, EndsWith evs e ∧ evs.length = 1 ∧ (p y).2 = .error e)

theorem once_after {x : Py α} {f : α → RunM σ K D S β} (h : ∀ a, Once (f a)) : Once (inert x >>= f) := by
  cases x with
  | error e => exact fun y => ⟨[], by simp [inert, bind, runThen], .inl ⟨allAnswered_nil, fun a ha => by cases ha⟩⟩
  | ok a => rw [inert_ok]; exact h a

theorem once_bind {p : RunM σ K D S α} {f : α → RunM σ K D S β} (h1 : Once p) (h2 : ∀ a, Silent (f a)) : Once (p >>= f) := by
  intro y
  rw [run_bind]
  obtain ⟨e1, t1, h1⟩ := h1 y
  generalize p y = q at t1 h1
  obtain ⟨y1, r⟩ := q
  simp only at t1 h1
  refine ⟨e1, ?_, ?_⟩
  · cases r with
    | error e => exact t1
    | ok a => exact (h2 a y1).trans t1
  · rcases h1 with ⟨h1, h3⟩ | ⟨e, h1, h3, rfl⟩
    · left
      refine ⟨h1, fun b hb => ?_⟩
      cases r with
      | error e => cases hb
      | ok a => exact h3 a rfl
    · exact .inr ⟨e, h1, h3, rfl⟩

theorem once_callModel (w : World σ K D) (X : List (Row K D)) : Once (callModel w X : RunM σ K D S (List K)) := by
  intro y
  refine ⟨_, rfl, ?_⟩
  simp only [callModel]
  cases (w.model y.world X).2 with
  | ok a => exact .inl ⟨fun e he => by simp only [List.mem_singleton] at he; subst he; rfl, fun _ _ => rfl⟩
  | error e => exact .inr ⟨e, ⟨[], .model X, rfl, allAnswered_nil⟩, rfl, rfl⟩

theorem once_base (w : World σ K D) (choice : ℕ → ℕ → List ℕ) (data : List (Row K D)) (nof : PyVal) (axisLimits : Option ((Fin D → K) × (Fin D → K))) :
    Once (runBase w choice data nof axisLimits none : RunM σ K D S _) :=
  once_after fun _ => once_after fun _ => once_bind (once_callModel w _) fun _ =>
    silent_bind (silent_pure _) fun _ => silent_bind (silent_inert _) fun _ => silent_pure _

/-- A body that loses what is raised. -/
def Loses (p : RunM σ K D S K) : Prop := ∀ y : Sys σ K D S, ∃ evs, (p y).1.trace = y.trace ++ evs ∧
  (AllAnswered evs ∨ ∃ e, EndsWith evs e ∧ (p y).2 = .ok BIG_M)

theorem swallows_of {p : RunM σ K D S α} {f : α → RunM σ K D S K} {P : α → Prop} (h1 : Once p) (hr : ∀ y a, (p y).2 = .ok a → P a) (h2 : ∀ a, P a → Loses (f a)) :
    Swallows (p >>= f) := by
  intro y
  rw [run_bind]
  obtain ⟨e1, t1, h1⟩ := h1 y
  have hr := hr y
  generalize p y = q at t1 h1 hr
  obtain ⟨y1, r⟩ := q
  simp only at t1 h1 hr
  rcases h1 with ⟨h1, h3⟩ | ⟨e, h1, h3, rfl⟩
  · cases r with
    | error e => exact ⟨e1, t1, .inl h1⟩
    | ok a =>
      obtain ⟨e2, t2, h2⟩ := h2 a (hr a rfl) y1
      refine ⟨e1 ++ e2, by simp only [runThen]; rw [t2, t1, List.append_assoc], ?_⟩
      rcases h2 with h2 | ⟨e, ⟨init, c, rfl, h2⟩, h4⟩
      · exact .inl (allAnswered_append.2 ⟨h1, h2⟩)
      · refine .inr ⟨e, ⟨e1 ++ init, c, by rw [List.append_assoc], allAnswered_append.2 ⟨h1, h2⟩⟩, ?_⟩
        rw [if_neg (by simp [h3 a rfl])]
        exact h4
  · exact ⟨e1, t1, .inr ⟨e, h1, by rw [if_pos h3]; rfl⟩⟩

theorem loses_onNew (o : S') {p : RunM σ K D S' K} (h : ∀ y : Sys σ K D S', ∃ evs, (p y).1.trace = y.trace ++ evs ∧
    (AllAnswered evs ∨ ∃ e, EndsWith evs e ∧ (p y).2 = .ok BIG_M)) : Loses (onNew o p : RunM σ K D S K) := fun y => h ⟨y.world, y.trace, o⟩

/-- `try: p` / `except: return BIG_M`, then something that loses what is raised too. -/
theorem loses_attempt {p : RunM σ K D S α} {f : Option α → RunM σ K D S K} {Q : S → Prop} (h1 : Propagates p) (hq : ∀ y a, (p y).2 = .ok a → Q (p y).1.obj)
    (hn : ∀ y, f none y = (y, .ok BIG_M)) (h2 : ∀ a (y : Sys σ K D S), Q y.obj → ∃ evs, (f (some a) y).1.trace = y.trace ++ evs ∧
      (AllAnswered evs ∨ ∃ e, EndsWith evs e ∧ (f (some a) y).2 = .ok BIG_M)) : Loses (attempt p >>= f) := by
  intro y
  rw [run_bind]
  obtain ⟨e1, t1, h1⟩ := h1 y
  have hq := hq y
  unfold attempt
  generalize p y = q at t1 h1 hq
  obtain ⟨y1, r⟩ := q
  simp only at t1 h1 hq
  cases r with
  | error e' =>
    simp only [runThen, hn]
    refine ⟨e1, t1, ?_⟩
    rcases h1 with h1 | ⟨e, h1, _⟩
    · exact .inl h1
    · exact .inr ⟨e, h1, trivial⟩
  | ok a =>
    simp only [runThen]
    rcases h1 with h1 | ⟨e, _, h1⟩
    · obtain ⟨e2, t2, h2⟩ := h2 a y1 (hq a rfl)
      refine ⟨e1 ++ e2, by rw [t2, t1, List.append_assoc], ?_⟩
      rcases h2 with h2 | ⟨e, ⟨init, c, rfl, h2⟩, h4⟩
      · exact .inl (allAnswered_append.2 ⟨h1, h2⟩)
      · exact .inr ⟨e, ⟨e1 ++ init, c, by rw [List.append_assoc], allAnswered_append.2 ⟨h1, h2⟩⟩, h4⟩
    · cases h1

/-! ## RegionalALE and RegionalRHALE -/

theorem aleFit_fits (cfg : RunAleCfg σ K D) (foi : Fin D) (bm : BinMethod K) (centering : PyVal) (y : Sys σ K D (AleObj K D)) (a : Unit)
    (h : (runAleFit cfg (.int (foi : ℕ)) bm centering y).2 = .ok a) : (runAleFit cfg (.int (foi : ℕ)) bm centering y).1.obj.st.fitted foi = true := by
  revert h
  unfold runAleFit
  cases pyAssert (cfg.allowed bm) with
  | error e => intro h; cases h
  | ok u =>
    rw [inert_ok]
    have hr := resolve_int foi
    cases hp : prepFeatures (.int (foi : ℕ)) D with
    | error e => rw [hp] at hr; cases hr
    | ok f =>
      rw [hp] at hr
      rw [inert_ok]
      cases prepCentering centering with
      | error e => intro h; cases h
      | ok c =>
        rw [inert_ok]
        have hr : resolveFeatures D f = .ok [foi] := hr
        rw [hr, inert_ok, runAleFitLoop, run_bind]
        generalize cfg.fitF foi bm y = q
        obtain ⟨y1, r⟩ := q
        cases r with
        | error e => intro h; cases h
        | ok p =>
          simp only [runThen, readObj, writeObj, bind, runAleFitLoop, inert, pure]
          cases aleNormConst cfg.reader p foi c with
          | error e => intro h; cases h
          | ok z => intro _; simp

theorem eval_silent [PySqrt K] (cfg : RunAleCfg σ K D) (foi : Fin D) (xs : List K) (het : Bool) (y : Sys σ K D (AleObj K D)) (h : y.obj.st.fitted foi = true) :
    (runAleEval cfg foi xs het (.bool false) y).1.trace = y.trace := by
  unfold runAleEval
  have : prepCentering (.bool false) = .ok .off := rfl
  rw [this, inert_ok]
  change ((inert (needsRefit (y.obj.st.fitted foi) (y.obj.st.args foi) .off) >>= _ : RunM σ K D (AleObj K D) (List K × Option (List K))) y).1.trace = _
  have hn : needsRefit (y.obj.st.fitted foi) (y.obj.st.args foi) .off = .ok false := by simp [needsRefit, h]
  rw [hn, inert_ok]
  rfl

theorem loses_aleHeter [PySqrt K] (c : RunAleCfg σ K D × AleObj K D) (hc : ∀ s bm, Propagates (c.1.fitF s bm)) (foi : Fin D) (bm : BinMethod K) (centering : PyVal)
    (data : List (Row K D)) : Loses (onNew c.2 (do
      match ← attempt (runAleFit c.1 (.int (foi : ℕ)) bm centering) with
      | none => pure BIG_M
      | some () => do
        let stop ← inert (listMax (col data foi))
        let r ← runAleEval c.1 foi [stop] true (.bool false)
        inert (match r.2 with
          | some z => pyIndex z 0
          | none => .error .typeError)) : RunM σ K D S K) := by
  refine loses_onNew _ (loses_attempt (Q := fun o => o.st.fitted foi = true) (propagates_aleFit c.1 hc _ _ _) (aleFit_fits c.1 foi bm centering) (fun y => rfl)
    fun a y hy => ⟨[], ?_, .inl allAnswered_nil⟩)
  rw [List.append_nil]
  cases listMax (col data foi) with
  | error e => rfl
  | ok stop =>
    simp only [inert_ok]
    rw [run_bind]
    have h := eval_silent c.1 foi [stop] true y hy
    generalize runAleEval c.1 foi [stop] true (.bool false) y = q at h
    obtain ⟨y1, r⟩ := q
    cases r <;> exact h

/-- **C110, RegionalALE.** -/
theorem C110_swallowed_ale [PySqrt K] (w : World σ K D) (choice : ℕ → ℕ → List ℕ) (cast : K → K) (foi : Fin D) (bm : BinMethod K) (minPoints : ℕ)
    (centering : PyVal) (data : List (Row K D)) (eff : Option (List (Row K D))) :
    Swallows (runAleHeter (fun x _ => runAleNew w choice cast x (.str "all") none none) foi bm minPoints centering data eff : RunM σ K D S K) := by
  unfold runAleHeter
  split
  · exact fun y => ⟨[], by simp [run_pure], .inl allAnswered_nil⟩
  · exact swallows_of (once_bind (once_base w _ _ _ _) fun _ => silent_pure _) (returns_aleNew w _ _ _ _ _ _) fun a ha => loses_aleHeter a ha foi bm centering data

/-- **C110, RegionalRHALE.** -/
theorem C110_swallowed_rhale [PySqrt K] (w : World σ K D) (choice : ℕ → ℕ → List ℕ) (hasJac : Bool) (foi : Fin D) (bm : BinMethod K) (minPoints : ℕ)
    (centering : PyVal) (data : List (Row K D)) (eff : Option (List (Row K D))) :
    Swallows (runAleHeter (fun x e => runRhaleNew w choice hasJac x e (.str "all") none none) foi bm minPoints centering data eff : RunM σ K D S K) := by
  unfold runAleHeter
  split
  · exact fun y => ⟨[], by simp [run_pure], .inl allAnswered_nil⟩
  · exact swallows_of (once_after fun _ => once_after fun _ => once_after fun _ => once_bind (once_base w _ _ _ _) fun _ => silent_pure _)
      (returns_rhaleNew w _ _ _ _ _ _ _) fun a ha => loses_aleHeter a ha foi bm centering data

/-! ## RegionalPDP and RegionalDerPDP -/

/-- **C110, RegionalPDP and RegionalDerPDP.** -/
theorem C110_swallowed_pdp [PySqrt K] (w : World σ K D) (choice : ℕ → ℕ → List ℕ) (cast : K → K) (which : PdpWhich) (lo hi : Fin D → K) (foi : Fin D)
    (minPoints : ℕ) (centering nof : PyVal) (points : ℕ) (vec : Bool) (data : List (Row K D)) :
    Swallows (runPdpHeter w choice cast which lo hi foi minPoints centering nof points vec data : RunM σ K D S K) := by
  unfold runPdpHeter
  split
  · exact fun y => ⟨[], by simp [run_pure], .inl allAnswered_nil⟩
  · refine swallows_of (P := fun _ => True) (once_bind (once_base w _ _ _ _) fun _ => silent_pure _) (fun _ _ _ => trivial) fun c _ => ?_
    refine loses_onNew _ (loses_attempt (Q := fun _ => True) (propagates_pdpFit w _ _ _ _ _) (fun _ _ _ => trivial) (fun y => rfl) fun a y _ => ?_)
    cases listMin (col data foi) with
    | error e => exact ⟨[], by simp [inert, bind, runThen], .inl allAnswered_nil⟩
    | ok mn =>
      simp only [inert_ok]
      cases listMax (col data foi) with
      | error e => exact ⟨[], by simp [inert, bind, runThen], .inl allAnswered_nil⟩
      | ok mx =>
        simp only [inert_ok]
        refine loses_attempt (Q := fun _ => True) (propagates_pdpEval w c.1 foi (linspace mn mx 10) true (.bool false) false vec) (fun _ _ _ => trivial) (fun y => rfl)
          (fun o y _ => ⟨[], ?_, .inl allAnswered_nil⟩) y
        cases o <;> simp [run_pure]

end Effector
