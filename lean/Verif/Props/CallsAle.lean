import Verif.Lemmas.Calls

/-!
# The calls of `ALE` and `RHALE`
-/

set_option linter.unusedSectionVars false

namespace Effector

variable {K : Type} [Field K] [LinearOrder K] {D : ℕ} {σ S : Type}

/-! ## Specification -/

/-- The calls fitting one feature of an ALE object takes, when the bins can be made: the rows in range moved to the right limit of their bin, and the rows in range
moved to the left limit of their bin. -/
def Spec.aleCalls (cast : K → K) (data : List (Row K D)) (lo hi : Fin D → K) (s : Fin D) (bm : BinMethod K) : List (Call K D) :=
  match (do let l ← aleBins data lo hi s bm
            localEffectsHead (data.filter (inAxis (lo s) (hi s) s)) l s) with
  | .error _ => []
  | .ok p => [.model (setCol cast (data.filter (inAxis (lo s) (hi s) s)) s p.2.1), .model (setCol cast (data.filter (inAxis (lo s) (hi s) s)) s p.2.2.1)]

/-- The calls that computing the gradients of all rows takes: one call of the gradient function, or else two calls of the model for each feature: the rows moved by
`1e-8` along it, and the rows as they are. -/
def Spec.gradientCalls (hasJac : Bool) (data : List (Row K D)) : List (Call K D) :=
  if hasJac then [.jac data]
  else (allFeatures D).flatMap fun f => [.model (data.map fun r => Function.update r f (r f + EPS)), .model data]

/-- What is common to the classes: how `_fit_feature` deals with the calls.  `after` is `self.data_effect` after it, as a function of `self.data_effect` before; `inv` is
what is known about `self.data_effect`. -/
structure Spec.FitCalls (w : World σ K D) (cfg : RunAleCfg σ K D) (pure : AleCfg K D) (inv : Option (List (Row K D)) → Prop)
    (calls : Fin D → BinMethod K → Option (List (Row K D)) → List (Call K D)) (after : Option (List (Row K D)) → Option (List (Row K D))) : Prop where
  axisLo : cfg.axisLo = pure.axisLo
  axisHi : cfg.axisHi = pure.axisHi
  defaultBin : cfg.defaultBin = pure.defaultBin
  allowed : cfg.allowed = pure.allowed
  keeps : ∀ e, inv e → inv (after e)
  idem : ∀ e, after (after e) = after e
  step : ∀ s bm (y : Sys σ K D (AleObj K D)), inv y.obj.eff →
    Spec.Runs w (cfg.fitF s bm) y { y.obj with eff := after y.obj.eff } (pure.fitF s bm) (calls s bm y.obj.eff) (· = y.obj)

/-- The calls of a fit of the features `l`, one after the other; an exception ends it. -/
def Spec.aleFitCalls (pure : AleCfg K D) (calls : Fin D → BinMethod K → Option (List (Row K D)) → List (Call K D))
    (after : Option (List (Row K D)) → Option (List (Row K D))) (bm : BinMethod K) (c : Centering) :
    Option (List (Row K D)) → List (Fin D) → List (Call K D)
  | _, [] => []
  | e, s :: t => calls s bm e ++ match (pure.fitF s bm).bind fun p => aleNormConst pure p s c with
    | .ok _ => Spec.aleFitCalls pure calls after bm c (after e) t
    | .error _ => []

/-- `self.data_effect` after a fit of the features `l`. -/
def Spec.effAfter (after : Option (List (Row K D)) → Option (List (Row K D))) (e : Option (List (Row K D))) (l : List (Fin D)) : Option (List (Row K D)) :=
  if l = [] then e else after e

/-- What an interrupted fit of the features `l` leaves behind: exactly what a fit of some of the first features leaves behind that was not interrupted. -/
def Spec.aleInterrupted (pure : AleCfg K D) (after : Option (List (Row K D)) → Option (List (Row K D))) (bm : BinMethod K) (c : Centering)
    (o : AleObj K D) (l : List (Fin D)) (o' : AleObj K D) : Prop :=
  ∃ l1 s l2, l = l1 ++ s :: l2 ∧ fitLoop pure bm c o.st l1 = (o'.st, .ok ()) ∧ o'.eff = Spec.effAfter after o.eff l1

open Spec

variable {w : World σ K D} {m : List (Row K D) → List K} {j ex : List (Row K D) → List (Row K D)}

/-! ## `_fit_feature` -/

theorem computeLocalEffects_prep (cast : K → K) (data : List (Row K D)) (limits : List K) (s : Fin D) :
    computeLocalEffects cast data m limits s = (localEffectsHead data limits s).bind fun p =>
      .ok ((List.zipWith (· - ·) (m (setCol cast data s p.2.1)) (m (setCol cast data s p.2.2.1))).map (· / p.2.2.2), p.1) := by
  simp only [computeLocalEffects, localEffectsHead]
  change _ = (_ >>= _)
  simp only [bind_assoc, pure_bind]
  rfl

theorem aleFitFeature_bins (cast : K → K) (data : List (Row K D)) (lo hi : Fin D → K) (s : Fin D) (bm : BinMethod K) :
    aleFitFeature cast m data lo hi s bm = (aleBins data lo hi s bm).bind fun l =>
      (computeLocalEffects cast (data.filter (inAxis (lo s) (hi s) s)) m l s).bind fun r =>
        computeAleParams (col (data.filter (inAxis (lo s) (hi s) s)) s) r.1 r.2 := by
  simp only [aleFitFeature, aleBins]
  cases pyAssert (isFixedMethod bm) with
  | error e => rfl
  | ok u =>
    simp only [bind, Except.bind]
    generalize findLimits (K := K) _ _ = F
    cases F with
    | error e => rfl
    | ok L => cases L <;> rfl

theorem runs_aleFitFeature (hw : AnswersWith w m j ex) (cast : K → K) (data : List (Row K D)) (lo hi : Fin D → K) (s : Fin D) (bm : BinMethod K)
    (y : Sys σ K D S) {L : S → Prop} (hL : L y.obj) :
    Runs w (runAleFitFeature w cast data lo hi s bm) y y.obj (aleFitFeature cast m data lo hi s bm) (aleCalls cast data lo hi s bm) L := by
  rw [aleFitFeature_bins]
  unfold runAleFitFeature aleCalls
  cases aleBins data lo hi s bm with
  | error e => exact Spec.Runs.bindError (Spec.Runs.inert w _ y L)
  | ok l =>
    rw [inert_ok]
    simp only [Except.bind, bind]
    rw [computeLocalEffects_prep]
    change Runs w (runLocalEffects w cast _ l s >>= _) _ _ _ _ _
    unfold runLocalEffects
    generalize data.filter (inAxis (lo s) (hi s) s) = d
    cases localEffectsHead d l s with
    | error e => exact Spec.Runs.bindError (Spec.Runs.bindError (Spec.Runs.inert w _ y L))
    | ok p =>
      rw [inert_ok]
      simp only [Except.bind]
      have h := Spec.Runs.bind (c1 := [.model (setCol cast d s p.2.1)]) (c2 := [.model (setCol cast d s p.2.2.1)]) (f := fun y1 => (do
          let y2 ← callModel w (setCol cast d s p.2.2.1)
          pure ((List.zipWith (· - ·) y1 y2).map (· / p.2.2.2), p.1) : RunM σ K D S (List K × List K))) (o2 := y.obj)
        (r := .ok ((List.zipWith (· - ·) (m (setCol cast d s p.2.1)) (m (setCol cast d s p.2.2.1))).map (· / p.2.2.2), p.1))
        (runs_callModel hw (setCol cast d s p.2.1) y (L := L) hL) (fun y1 h1 => ?_)
      · have := Spec.Runs.bind (f := fun r => (inert (computeAleParams (col d s) r.1 r.2) : RunM σ K D S (AleParams K))) h
          (fun y2 h2 => h2 ▸ Spec.Runs.inert w _ y2 L)
        exact this
      · have := Spec.Runs.bind (f := fun y2 => (pure ((List.zipWith (· - ·) (m (setCol cast d s p.2.1)) y2).map (· / p.2.2.2), p.1) :
            RunM σ K D S (List K × List K))) (runs_callModel hw (setCol cast d s p.2.2.1) y1 (L := L) (h1 ▸ hL))
          (fun y2 h2 => h2 ▸ Spec.Runs.pure w _ y2 L)
        rw [h1] at this
        exact this

theorem fitCalls_ale (hw : AnswersWith w m j ex) (cast : K → K) (b : Base K D) (avg : K) :
    FitCalls w (runAleCfg w cast b avg) (aleCfg cast m b) (fun _ => True) (fun s bm _ => aleCalls cast b.data b.axisLo b.axisHi s bm) id where
  axisLo := rfl
  axisHi := rfl
  defaultBin := rfl
  allowed := rfl
  keeps := fun _ _ => trivial
  idem := fun _ => rfl
  step := fun s bm y _ => runs_aleFitFeature hw cast b.data b.axisLo b.axisHi s bm y rfl

theorem runs_jacobianCols (hw : AnswersWith w m j ex) (data : List (Row K D)) (eps : K) : ∀ (l : List (Fin D)) (y : Sys σ K D S) {L : S → Prop}, L y.obj →
    Runs w (runJacobianCols w data eps l) y y.obj (.ok (l.map (jacobianCol m data eps)))
      (l.flatMap fun f => [.model (data.map fun r => Function.update r f (r f + eps)), .model data]) L
  | [], y, L, _ => Spec.Runs.pure w _ y L
  | f :: t, y, L, hL => by
    simp only [runJacobianCols, List.flatMap_cons]
    refine Spec.Runs.bind (c1 := [_]) (c2 := .model data :: _) (runs_callModel hw _ y hL) fun y1 h1 => ?_
    refine Spec.Runs.bind (c1 := [_]) (c2 := t.flatMap _) (runs_callModel hw _ y1 (h1 ▸ hL)) fun y2 h2 => ?_
    have hy : y2.obj = y.obj := h2.trans h1
    have := Spec.Runs.bind (f := fun cs => (pure (jacobianCol m data eps f :: cs) : RunM σ K D S (List (List K))))
      (runs_jacobianCols hw data eps t y2 (L := L) (hy ▸ hL)) (fun y3 h3 => h3 ▸ Spec.Runs.pure w _ y3 L)
    rw [List.append_nil, hy] at this
    exact this

theorem runs_jacobian (hw : AnswersWith w m j ex) (data : List (Row K D)) (y : Sys σ K D S) {L : S → Prop} (hL : L y.obj) :
    Runs w (runJacobian w data EPS) y y.obj (.ok (computeJacobianNumerically m data EPS)) (gradientCalls false data) L := by
  have := Spec.Runs.bind (f := fun cols => (pure ((List.range data.length).map fun i => fun f : Fin D => (cols.getD f []).getD i 0) :
      RunM σ K D S (List (Row K D)))) (runs_jacobianCols hw data EPS (allFeatures D) y (L := L) hL) (fun y3 h3 => h3 ▸ Spec.Runs.pure w _ y3 L)
  rw [List.append_nil] at this
  have he : ((List.range data.length).map fun i => fun f : Fin D => (((allFeatures D).map (jacobianCol m data EPS)).getD f []).getD i 0) =
      computeJacobianNumerically m data EPS := by
    unfold computeJacobianNumerically
    refine List.map_congr_left fun i _ => funext fun f => ?_
    simp [allFeatures]
  rw [he] at this
  exact this

/-- The effects an RHALE object uses (`self.data_effect` after `compile`) in terms of the functions the user's code computes. -/
def effectsOf (m : List (Row K D) → List K) (j : List (Row K D) → List (Row K D)) (hasJac : Bool) (given : Option (List (Row K D)))
    (data : List (Row K D)) : List (Row K D) :=
  rhaleEffects m (if hasJac then some j else none) given data

theorem fitCalls_rhale (hw : AnswersWith w m j ex) (hasJac : Bool) (given : Option (List (Row K D))) (b : Base K D) (avg : K) :
    FitCalls w (runRhaleCfg w hasJac b avg) (rhaleCfg (effectsOf m j hasJac given b.data) b)
      (fun e => (e = none ∧ given = none) ∨ e = some (effectsOf m j hasJac given b.data))
      (fun _ _ e => if e.isNone then gradientCalls hasJac b.data else []) (fun _ => some (effectsOf m j hasJac given b.data)) where
  axisLo := rfl
  axisHi := rfl
  defaultBin := rfl
  allowed := rfl
  keeps := fun _ _ => .inr rfl
  idem := fun _ => rfl
  step := fun s bm y hi => by
    change Runs w (runRhaleFitFeature w hasJac b.data b.axisLo b.axisHi s bm) _ _ (rhaleFitFeature b.data _ b.axisLo b.axisHi s bm) _ _
    unfold runRhaleFitFeature
    generalize hE : effectsOf m j hasJac given b.data = E at hi ⊢
    have hc : Runs w (runCompile w hasJac b.data) y { y.obj with eff := some E } (.ok ())
        (if y.obj.eff.isNone then gradientCalls hasJac b.data else []) (· = y.obj) := by
      unfold runCompile
      refine Spec.Runs.readBind ?_
      rcases hi with ⟨hn, hg⟩ | hs
      · rw [hn]
        simp only [Option.isNone_none, if_true]
        subst hg
        cases hasJac with
        | true =>
          simp only [if_true]
          have hEj : E = j b.data := by rw [← hE]; rfl
          have := Spec.Runs.bind (f := fun e => (writeObj { y.obj with eff := some e } : RunM σ K D (AleObj K D) Unit))
            (runs_callJac hw b.data y (L := (· = y.obj)) rfl) (fun y1 _ => Spec.Runs.write w _ y1 _)
          rw [hEj]
          exact this
        | false =>
          simp only [Bool.false_eq_true, if_false]
          have hEj : E = computeJacobianNumerically m b.data EPS := by rw [← hE]; rfl
          have := Spec.Runs.bind (f := fun e => (writeObj { y.obj with eff := some e } : RunM σ K D (AleObj K D) Unit))
            (runs_jacobian hw b.data y (L := (· = y.obj)) rfl) (fun y1 _ => Spec.Runs.write w _ y1 _)
          rw [List.append_nil] at this
          rw [hEj]
          exact this
      · have : ({ y.obj with eff := some E } : AleObj K D) = y.obj := by rw [← hs]
        rw [this, hs]
        exact Spec.Runs.pure w _ y _
    have := Spec.Runs.bind (f := fun _ => (do
        let o ← readObj
        match o.eff with
        | none => inert (.error .typeError)
        | some e => inert (rhaleFitFeature b.data e b.axisLo b.axisHi s bm) : RunM σ K D (AleObj K D) (AleParams K))) (c2 := [])
      (o2 := { y.obj with eff := some E }) (r := rhaleFitFeature b.data E b.axisLo b.axisHi s bm) hc (fun y1 h1 => by
        refine Spec.Runs.readBind ?_
        rw [← h1]
        have : y1.obj.eff = some E := by rw [h1]
        rw [this]
        exact Spec.Runs.inert w _ y1 _)
    rw [List.append_nil] at this
    exact this

/-! ## The loop, `fit`, `eval` -/

variable {cfg : RunAleCfg σ K D} {pu : AleCfg K D} {inv : Option (List (Row K D)) → Prop}
  {calls : Fin D → BinMethod K → Option (List (Row K D)) → List (Call K D)} {after : Option (List (Row K D)) → Option (List (Row K D))}

theorem aleNormConst_reader (h : FitCalls w cfg pu inv calls after) (p : AleParams K) (s : Fin D) (c : Centering) :
    aleNormConst cfg.reader p s c = aleNormConst pu p s c := by
  cases c <;> simp only [aleNormConst, RunAleCfg.reader, h.axisLo, h.axisHi]

theorem runs_aleFitLoop (h : FitCalls w cfg pu inv calls after) (bm : BinMethod K) (c : Centering) :
    ∀ (l : List (Fin D)) (y : Sys σ K D (AleObj K D)), inv y.obj.eff →
      Runs w (runAleFitLoop cfg bm c l) y ⟨(fitLoop pu bm c y.obj.st l).1, effAfter after y.obj.eff l⟩ (fitLoop pu bm c y.obj.st l).2
        (aleFitCalls pu calls after bm c y.obj.eff l) (aleInterrupted pu after bm c y.obj l)
  | [], y, _ => Spec.Runs.pure w _ y _
  | s :: t, y, hi => by
    have hf := (h.step s bm y hi).mono (L' := aleInterrupted pu after bm c y.obj (s :: t))
      (fun o ho => ⟨[], s, t, rfl, by rw [ho]; rfl, by rw [ho]; rfl⟩)
    have hnc := fun p => aleNormConst_reader h p s c
    simp only [runAleFitLoop, aleFitCalls, effAfter, List.cons_ne_nil, if_false, hnc]
    have hloop : fitLoop pu bm c y.obj.st (s :: t) = match fitOne pu y.obj.st s bm c with
      | (st', .ok ()) => fitLoop pu bm c st' t
      | (st', .error e) => (st', .error e) := rfl
    have hone : ∀ l1 st', fitOne pu y.obj.st s bm c = (st', .ok ()) → fitLoop pu bm c y.obj.st (s :: l1) = fitLoop pu bm c st' l1 := by
      intro l1 st' h1; rw [fitLoop, h1]
    rw [hloop]
    unfold fitOne at hone ⊢
    revert hf hone
    cases hF : pu.fitF s bm with
    | error e => intro hf _; simp only [Except.bind, List.append_nil]; exact Spec.Runs.bindError hf
    | ok p =>
      intro hf hone
      simp only [Except.bind] at hone ⊢
      refine Spec.Runs.bind hf fun y1 h1 => Spec.Runs.readBind (Spec.Runs.writeBind fun y2 h2 => ?_)
      cases hz : aleNormConst pu p s c with
      | error e =>
        simp only
        rw [h1] at h2
        have := Spec.Runs.bindError (f := fun z => (do
          writeObj { y1.obj with st := { fe := Function.update y1.obj.st.fe s (some (p, some z))
                                         fitted := Function.update y1.obj.st.fitted s true
                                         args := Function.update y1.obj.st.args s (some c) } }
          runAleFitLoop cfg bm c t)) (Spec.Runs.inert w (.error e : Py K) y2 (aleInterrupted pu after bm c y.obj (s :: t)))
        rw [h2] at this
        exact this
      | ok z =>
        rw [hz] at hone
        simp only at hone ⊢
        rw [inert_ok]
        refine Spec.Runs.writeBind fun y3 h3 => ?_
        rw [h1] at h3
        simp only at h3
        have hi3 : inv y3.obj.eff := by rw [h3]; exact h.keeps _ hi
        have hr := runs_aleFitLoop h bm c t y3 hi3
        rw [h3] at hr
        simp only at hr
        have haa : effAfter after (after y.obj.eff) t = after y.obj.eff := by unfold effAfter; split_ifs <;> simp [h.idem]
        rw [haa] at hr
        refine hr.mono ?_
        rintro o ⟨l1, s', l2, he, hst, ho⟩
        have ha1 : effAfter after (after y.obj.eff) l1 = after y.obj.eff := by unfold effAfter; split_ifs <;> simp [h.idem]
        refine ⟨s :: l1, s', l2, by rw [he]; rfl, by rw [hone l1 _ rfl]; exact hst, ?_⟩
        rw [ho, ha1]
        simp [effAfter]

theorem runs_aleFit (h : FitCalls w cfg pu inv calls after) (features centering f : PyVal) (bm : BinMethod K) (c : Centering) (l : List (Fin D))
    (hb : pu.allowed bm = true) (hc : prepCentering centering = .ok c) (hf : prepFeatures features D = .ok f) (hl : resolveFeatures D f = .ok l)
    (y : Sys σ K D (AleObj K D)) (hi : inv y.obj.eff) :
    Runs w (runAleFit cfg features bm centering) y ⟨(aleFit pu y.obj.st features bm centering).1, effAfter after y.obj.eff l⟩
      (aleFit pu y.obj.st features bm centering).2 (aleFitCalls pu calls after bm c y.obj.eff l) (aleInterrupted pu after bm c y.obj l) := by
  have h1 : aleFit pu y.obj.st features bm centering = fitLoop pu bm c y.obj.st l := by
    simp only [aleFit, hb, if_true, hc, hf, hl, bind, Except.bind, pure, Except.pure]
  have h2 : runAleFit cfg features bm centering y = runAleFitLoop cfg bm c l y := by
    simp only [runAleFit, h.allowed, hb, pyAssert, if_true, inert_ok, hc, hf, hl]
  have h3 := runs_aleFitLoop h bm c l y hi
  unfold Runs at h3 ⊢
  rw [h1, h2]
  exact h3

/-- The calls of `eval`: those of the fit, if one is needed; none otherwise. -/
def Spec.aleEvalCalls (pu : AleCfg K D) (calls : Fin D → BinMethod K → Option (List (Row K D)) → List (Call K D))
    (after : Option (List (Row K D)) → Option (List (Row K D))) (o : AleObj K D) (s : Fin D) (c : Centering) : List (Call K D) :=
  match needsRefit (o.st.fitted s) (o.st.args s) c with
  | .ok true => Spec.aleFitCalls pu calls after pu.defaultBin c o.eff [s]
  | _ => []

/-- `self.data_effect` after `eval`. -/
def Spec.effAfterEval (after : Option (List (Row K D)) → Option (List (Row K D))) (o : AleObj K D) (s : Fin D) (c : Centering) : Option (List (Row K D)) :=
  match needsRefit (o.st.fitted s) (o.st.args s) c with
  | .ok true => after o.eff
  | _ => o.eff

theorem aleEvalFitted_reader [PySqrt K] (h : FitCalls w cfg pu inv calls after) (st : AleState K D) (s : Fin D) (xs : List K) (het : Bool) (c : Centering) :
    aleEvalFitted cfg.reader st s xs het c = aleEvalFitted pu st s xs het c := by
  simp only [aleEvalFitted, RunAleCfg.reader, h.axisLo, h.axisHi]

theorem runs_aleEval [PySqrt K] (h : FitCalls w cfg pu inv calls after) (s : Fin D) (xs : List K) (het : Bool) (centering : PyVal) (c : Centering)
    (hc : prepCentering centering = .ok c) (y : Sys σ K D (AleObj K D)) (hi : inv y.obj.eff) :
    Runs w (runAleEval cfg s xs het centering) y ⟨(aleEval pu y.obj.st s xs het centering).1, effAfterEval after y.obj s c⟩
      (aleEval pu y.obj.st s xs het centering).2 (aleEvalCalls pu calls after y.obj s c)
      (· = y.obj) := by
  simp only [aleEval, hc, aleEvalCalls, effAfterEval]
  unfold runAleEval
  rw [hc, inert_ok]
  refine Spec.Runs.readBind ?_
  cases hn : needsRefit (y.obj.st.fitted s) (y.obj.st.args s) c with
  | error e => exact Spec.Runs.bindError (Spec.Runs.inert w _ y _)
  | ok b =>
    rw [inert_ok]
    cases b with
    | false =>
      simp only [Bool.false_eq_true, if_false]
      have hp := aleEvalFitted_reader h y.obj.st s xs het c
      rw [← hp]
      exact Spec.Runs.inert w _ y _
    | true =>
      simp only [if_true, h.defaultBin]
      have hf := (runs_aleFitLoop h pu.defaultBin c [s] y hi).mono (L' := (· = y.obj)) (by
        rintro o ⟨l1, s', l2, he, hst, ho⟩
        have : l1 = [] := by
          cases l1 with
          | nil => rfl
          | cons a t => simp at he
        subst this
        obtain ⟨st, e⟩ := o
        have h1 : y.obj.st = st := congrArg Prod.fst hst
        have h2 : e = y.obj.eff := ho
        rw [← h1, h2])
      generalize fitLoop pu pu.defaultBin c y.obj.st [s] = q at hf ⊢
      obtain ⟨st', r⟩ := q
      cases r with
      | error e => exact Spec.Runs.bindError hf
      | ok u =>
        have := Spec.Runs.bind (f := fun _ => (do
            let o ← readObj
            inert (aleEvalFitted cfg.reader o.st s xs het c) : RunM σ K D (AleObj K D) (List K × Option (List K)))) (c2 := [])
          (o2 := ⟨st', after y.obj.eff⟩) (r := aleEvalFitted pu st' s xs het c) hf (fun y1 h1 => by
            refine Spec.Runs.readBind ?_
            rw [aleEvalFitted_reader h, h1]
            have h2 : (⟨st', after y.obj.eff⟩ : AleObj K D) = y1.obj := h1.symm
            rw [h2]
            exact Spec.Runs.inert w _ y1 _)
        rw [List.append_nil] at this
        exact this


/-! ## `plot` -/

theorem fitOne_ok {pu : AleCfg K D} {st st' : AleState K D} {s : Fin D} {bm : BinMethod K} {c : Centering} (h : fitOne pu st s bm c = (st', .ok ())) :
    st'.fitted s = true ∧ st'.args s = some c := by
  unfold fitOne at h
  revert h
  cases pu.fitF s bm with
  | error e => intro h; cases h
  | ok p =>
    simp only
    cases aleNormConst pu p s c with
    | error e => intro h; cases h
    | ok z => intro h; injection h with h1 _; subst h1; simp

/-- After an `eval` that returned, the same request needs no fit. -/
theorem aleEval_then [PySqrt K] (pu : AleCfg K D) (st : AleState K D) (s : Fin D) (xs : List K) (het : Bool) (centering : PyVal) (c : Centering)
    (hc : prepCentering centering = .ok c) (v : List K × Option (List K)) (h : (aleEval pu st s xs het centering).2 = .ok v) :
    needsRefit ((aleEval pu st s xs het centering).1.fitted s) ((aleEval pu st s xs het centering).1.args s) c = .ok false := by
  revert h
  simp only [aleEval, hc]
  cases hn : needsRefit (st.fitted s) (st.args s) c with
  | error e => intro h; cases h
  | ok b =>
    cases b with
    | false => intro _; exact hn
    | true =>
      simp only [fitLoop]
      have hone := @fitOne_ok K _ _ D pu st
      generalize hq : fitOne pu st s pu.defaultBin c = q
      obtain ⟨st', r⟩ := q
      cases r with
      | error e => intro h; cases h
      | ok u =>
        intro _
        obtain ⟨h1, h2⟩ := hone hq
        simp only [needsRefit, h1, h2, Bool.not_true, Bool.false_eq_true, if_false, ne_eq, not_true, decide_false, ite_self]

theorem pyIndex_error {α : Type} {l : List α} {i : ℕ} {e : PyErr} (h : pyIndex l i = .error e) : e = .indexError := by
  unfold pyIndex at h
  cases hl : l[i]? with
  | none => rw [hl] at h; injection h with h; exact h.symm
  | some a => rw [hl] at h; cases h

theorem runs_empty {α : Type} {p : RunM σ K D S α} {y : Sys σ K D S} {o : S} {r : Py α} {L : S → Prop} (h : Runs w p y o r [] L) (L' : S → Prop) :
    Runs w p y o r [] L' := by
  rcases h with h | ⟨k, c, e, t, hk, _⟩
  · exact .inl h
  · simp at hk

/-- visualization.py:58-59: what `alePlot` does after its first `eval`. -/
def plotRest [PySqrt K] (pu : AleCfg K D) (st1 : AleState K D) (s : Fin D) (centering : PyVal) : AleState K D × Py (List K × List K × Option (List K)) :=
  match st1.fe s with
  | none => (st1, .error .keyError)
  | some (p, _) =>
    match pyIndex p.limits 0, pyIndex p.limits (p.limits.length - 1) with
    | .ok a, .ok b =>
      match aleEval pu st1 s (linspace a b 1000) true centering with
      | (st2, .ok (y, std)) => (st2, .ok (linspace a b 1000, y, std))
      | (st2, .error e) => (st2, .error e)
    | _, _ => (st1, .error .indexError)

theorem runs_alePlot [PySqrt K] (h : FitCalls w cfg pu inv calls after) (data : List (Row K D)) (s : Fin D) (het centering h' : PyVal) (c : Centering)
    (hh : prepConfidenceInterval het = .ok h') (hc : prepCentering centering = .ok c) (showAvg : Bool) (scaleY : Option (Scale K))
    (y : Sys σ K D (AleObj K D)) (hi : inv y.obj.eff) :
    Runs w (runAlePlot w cfg data s het centering showAvg scaleY) y ⟨(alePlot pu y.obj.st s centering).1, effAfterEval after y.obj s c⟩
      ((alePlot pu y.obj.st s centering).2.map fun r => (r.1, r.2.1, r.2.2, averageLine showAvg cfg.avg scaleY))
      (aleEvalCalls pu calls after y.obj s c) (· = y.obj) := by
  unfold runAlePlot
  rw [hh, inert_ok, hc, inert_ok]
  have hcv : prepCentering c.toVal = .ok c := by cases c <;> rfl
  have hE : ∀ st xs het, aleEval pu st s xs het c.toVal = aleEval pu st s xs het centering := by
    intro st xs het; simp only [aleEval, hc, hcv]
  have h1 := runs_aleEval h s [cfg.axisLo s] false c.toVal c hcv y hi
  rw [hE, h.axisLo] at h1
  have hthen := aleEval_then pu y.obj.st s [pu.axisLo s] false centering c hc
  unfold alePlot
  rw [h.axisLo]
  generalize aleEval pu y.obj.st s [pu.axisLo s] false centering = q at h1 hthen ⊢
  obtain ⟨st1, r⟩ := q
  cases r with
  | error e => exact Spec.Runs.bindError h1
  | ok v =>
    simp only at h1 hthen ⊢
    rw [← List.append_nil (aleEvalCalls pu calls after y.obj s c)]
    refine Spec.Runs.bind h1 fun y1 hy1 => ?_
    have hi1 : inv y1.obj.eff := by
      rw [hy1]
      simp only [effAfterEval]
      split
      · exact h.keeps _ hi
      · exact hi
    have hst : y1.obj.st = st1 := by rw [hy1]
    have main : Runs w (do
        let o ← readObj
        let p ← inert (match o.st.fe s with
          | none => .error .keyError
          | some (p, _) => .ok p)
        let l0 ← inert (pyIndex p.limits 0)
        let l1 ← inert (pyIndex p.limits (p.limits.length - 1))
        let r ← runAleEval cfg s (linspace l0 l1 1000) true c.toVal
        return (linspace l0 l1 1000, r.1, r.2, averageLine showAvg cfg.avg scaleY) : RunM σ K D (AleObj K D) (List K × List K × Option (List K) × Option K)) y1
        ⟨(plotRest pu st1 s centering).1, effAfterEval after y.obj s c⟩
        ((plotRest pu st1 s centering).2.map fun r => (r.1, r.2.1, r.2.2, averageLine showAvg cfg.avg scaleY)) [] (· = y.obj) := by
      have hobj : y1.obj = ⟨st1, effAfterEval after y.obj s c⟩ := hy1
      refine Spec.Runs.readBind ?_
      rw [hst]
      unfold plotRest
      cases st1.fe s with
      | none => rw [← hobj]; exact Spec.Runs.bindError (Spec.Runs.inert w _ y1 _)
      | some q =>
        obtain ⟨p, z⟩ := q
        simp only
        rw [inert_ok]
        cases hp0 : pyIndex p.limits 0 with
        | error e =>
          have he : e = .indexError := pyIndex_error hp0
          subst he
          rw [← hobj]; exact Spec.Runs.bindError (Spec.Runs.inert w _ y1 _)
        | ok l0 =>
          rw [inert_ok]
          cases hp1 : pyIndex p.limits (p.limits.length - 1) with
          | error e =>
            have he : e = .indexError := pyIndex_error hp1
            subst he
            rw [← hobj]; exact Spec.Runs.bindError (Spec.Runs.inert w _ y1 _)
          | ok l1 =>
            rw [inert_ok]
            simp only
            generalize linspace l0 l1 1000 = G
            have h2 := runs_aleEval h s (G) true c.toVal c hcv y1 hi1
            have hca : aleEvalCalls pu calls after y1.obj s c = [] := by
              unfold aleEvalCalls; rw [hst, hthen v rfl]
            have hef : effAfterEval after y1.obj s c = y1.obj.eff := by
              unfold effAfterEval; rw [hst, hthen v rfl]
            rw [hE, hca, hef, hst] at h2
            have hsame : ∀ r0, aleEval pu st1 s (G) true centering = r0 → r0.1 = st1 := by
              intro r0 h0
              rw [← h0]
              simp only [aleEval, hc, hthen v rfl]
            generalize haq : aleEval pu st1 s (G) true centering = q2 at h2 ⊢
            have hq2 := hsame q2 haq
            obtain ⟨st2, r2⟩ := q2
            simp only at hq2
            subst hq2
            simp only at h2
            have heq : (⟨st2, y1.obj.eff⟩ : AleObj K D) = ⟨st2, effAfterEval after y.obj s c⟩ := by rw [hy1]
            rw [heq] at h2
            have h2' := runs_empty h2 (· = y.obj)
            cases r2 with
            | error e => exact Spec.Runs.bindError h2'
            | ok u =>
              obtain ⟨u1, u2⟩ := u
              have := Spec.Runs.bind (f := fun r => (pure (G, r.1, r.2, averageLine showAvg cfg.avg scaleY) : RunM σ K D (AleObj K D) (List K × List K × Option (List K) × Option K))) (c2 := []) h2'
                (fun y3 h3 => h3 ▸ Spec.Runs.pure w _ y3 _)
              exact this
    cases showAvg <;> cases scaleY <;> exact main

end Effector
