import Verif.Props.CallCounts

/-!
# C108: how often the user's code is called (ALE, RHALE, ShapDP)
-/

set_option linter.unusedSectionVars false

namespace Effector

variable {K : Type} [Field K] [LinearOrder K] [IsStrictOrderedRing K] {D : ℕ} {σ S α β : Type}

open Spec

variable {w : World σ K D} {m : List (Row K D) → List K} {j ex : List (Row K D) → List (Row K D)}

/-! ## ALE -/

/-- The call is one of the model, and its rows are rows of `data` that lie within the limits of feature `s`, each at most once, with another value in column `s`. -/
def Spec.OnMoved (data : List (Row K D)) (lo hi : Fin D → K) (s : Fin D) (c : Call K D) : Prop :=
  ∃ X, c = .model X ∧ ∃ vals : List K, X = List.zipWith (fun r v => Function.update r s v) (data.filter fun r => decide (lo s ≤ r s ∧ r s ≤ hi s)) vals

theorem inAxis_filter (data : List (Row K D)) (lo hi : Fin D → K) (s : Fin D) :
    data.filter (inAxis (lo s) (hi s) s) = data.filter fun r => decide (lo s ≤ r s ∧ r s ≤ hi s) := by
  refine List.filter_congr fun r _ => ?_
  simp [inAxis]

theorem setCol_moved (cast : K → K) (data : List (Row K D)) (s : Fin D) (vals : List K) :
    setCol cast data s vals = List.zipWith (fun r v => Function.update r s v) data (vals.map cast) := by
  simp [setCol, List.zipWith_map_right]

theorem aleCalls_count (cast : K → K) (data : List (Row K D)) (lo hi : Fin D → K) (s : Fin D) (bm : BinMethod K) :
    (aleCalls cast data lo hi s bm).length ≤ 2 ∧ (∀ c ∈ aleCalls cast data lo hi s bm, OnMoved data lo hi s c) ∧
    (∀ p, aleFitFeature cast m data lo hi s bm = .ok p → (aleCalls cast data lo hi s bm).length = 2) := by
  rw [aleFitFeature_bins]
  unfold aleCalls
  cases aleBins data lo hi s bm with
  | error e => exact ⟨by simp [bind, Except.bind], by simp [bind, Except.bind], fun p hp => by cases hp⟩
  | ok l =>
    simp only [bind, Except.bind]
    rw [computeLocalEffects_prep]
    cases localEffectsHead (data.filter (inAxis (lo s) (hi s) s)) l s with
    | error e => exact ⟨by simp, by simp, fun p hp => by cases hp⟩
    | ok q =>
      refine ⟨by simp, ?_, fun p _ => by simp⟩
      intro c hc
      simp only [List.mem_cons, List.not_mem_nil, or_false] at hc
      rcases hc with rfl | rfl <;> exact ⟨_, rfl, _, by rw [setCol_moved, inAxis_filter]⟩

theorem aleFitCalls_count (cast : K → K) (b : Base K D) (bm : BinMethod K) (c : Centering) (e : Option (List (Row K D))) :
    ∀ (l : List (Fin D)) (st : AleState K D),
      let cs := aleFitCalls (aleCfg cast m b) (fun s bm _ => aleCalls cast b.data b.axisLo b.axisHi s bm) id bm c e l
      cs.length ≤ 2 * l.length ∧ (∀ cl ∈ cs, ∃ s ∈ l, OnMoved b.data b.axisLo b.axisHi s cl) ∧
      (∀ v, (fitLoop (aleCfg cast m b) bm c st l).2 = .ok v → cs.length = 2 * l.length)
  | [], st => by simp [aleFitCalls]
  | s :: t, st => by
    intro cs
    obtain ⟨a1, a2, a3⟩ := aleCalls_count (m := m) cast b.data b.axisLo b.axisHi s bm
    have hF : (aleCfg cast m b).fitF s bm = aleFitFeature cast m b.data b.axisLo b.axisHi s bm := rfl
    have hcs : cs = aleCalls cast b.data b.axisLo b.axisHi s bm ++
      match (aleFitFeature cast m b.data b.axisLo b.axisHi s bm).bind fun p => aleNormConst (aleCfg cast m b) p s c with
      | .ok _ => aleFitCalls (aleCfg cast m b) (fun s bm _ => aleCalls cast b.data b.axisLo b.axisHi s bm) id bm c e t
      | .error _ => [] := rfl
    clear_value cs
    subst hcs
    have hloop : fitLoop (aleCfg cast m b) bm c st (s :: t) = match fitOne (aleCfg cast m b) st s bm c with
      | (st', .ok ()) => fitLoop (aleCfg cast m b) bm c st' t
      | (st', .error e) => (st', .error e) := rfl
    rw [hloop]
    unfold fitOne
    rw [hF]
    cases hp : aleFitFeature cast m b.data b.axisLo b.axisHi s bm with
    | error e' =>
      simp only [Except.bind, List.append_nil, List.length_cons]
      exact ⟨by omega, fun cl hc => ⟨s, by simp, a2 cl hc⟩, fun v hv => by cases hv⟩
    | ok p =>
      have a3 := a3 p hp
      simp only [Except.bind]
      cases hz : aleNormConst (aleCfg cast m b) p s c with
      | error e' =>
        simp only [List.append_nil, List.length_cons]
        exact ⟨by omega, fun cl hc => ⟨s, by simp, a2 cl hc⟩, fun v hv => by cases hv⟩
      | ok z =>
        obtain ⟨h1, h2, h3⟩ := aleFitCalls_count cast b bm c e t
          { fe := Function.update st.fe s (some (p, some z)), fitted := Function.update st.fitted s true, args := Function.update st.args s (some c) }
        simp only [List.length_append, List.length_cons]
        refine ⟨by omega, fun cl hc => ?_, fun v hv => ?_⟩
        · rcases List.mem_append.1 hc with hc | hc
          · exact ⟨s, by simp, a2 cl hc⟩
          · obtain ⟨s', hs', hO⟩ := h2 cl hc
            exact ⟨s', by simp [hs'], hO⟩
        · have := h3 v hv
          omega

/-- **C108, `fit` of ALE.** Two calls of the model for each feature named, each on the rows within the limits of the feature; whatever the number of bins. -/
theorem C108_ale_fit (hw : AnswersWith w m j ex) (cast : K → K) (b : Base K D) (avg : K) (features centering : PyVal) (bm : BinMethod K)
    (y : Sys σ K D (AleObj K D)) :
    Costs (runAleFit (runAleCfg w cast b avg) features bm centering) y (2 * (named D features).length)
      (fun cl => ∃ s ∈ named D features, OnMoved b.data b.axisLo b.axisHi s cl) := by
  have h := fitCalls_ale hw cast b avg
  by_cases hb : (aleCfg cast m b).allowed bm = true
  · unfold named
    cases hf : prepFeatures features D with
    | error e =>
      refine costs_refused (e := e) _ _ ?_
      simp only [runAleFit, h.allowed, hb, pyAssert, if_true, inert_ok, hf]; rfl
    | ok f =>
      simp only [Except.bind]
      cases hc : prepCentering centering with
      | error e =>
        refine costs_refused (e := e) _ _ ?_
        simp only [runAleFit, h.allowed, hb, pyAssert, if_true, inert_ok, hf, hc]; rfl
      | ok c =>
        cases hl : resolveFeatures D f with
        | error e =>
          refine costs_refused (e := e) _ _ ?_
          simp only [runAleFit, h.allowed, hb, pyAssert, if_true, inert_ok, hf, hc, hl]; rfl
        | ok l =>
          obtain ⟨h1, h2, h3⟩ := aleFitCalls_count (m := m) cast b bm c y.obj.eff l y.obj.st
          refine costs_of_runs (runs_aleFit h features centering f bm c l hb hc hf hl y trivial) h1 h2 fun v hv => h3 v ?_
          rw [← hv]
          simp only [aleFit, hb, hc, hf, hl, if_true, bind, Except.bind, pure, Except.pure]
  · refine costs_refused (e := .assertionError) _ _ ?_
    simp only [runAleFit, h.allowed, hb, pyAssert, if_false, Bool.false_eq_true]; rfl

open Classical in
/-- **C108, `eval` of ALE.** No call if the feature is fitted (with this centring); otherwise the two calls of the fit.  However many positions are asked for. -/
theorem C108_ale_eval [PySqrt K] (hw : AnswersWith w m j ex) (cast : K → K) (b : Base K D) (avg : K) (s : Fin D) (xs : List K) (het : Bool) (centering : PyVal)
    (c : Centering) (hc : prepCentering centering = .ok c) (y : Sys σ K D (AleObj K D)) :
    Costs (runAleEval (runAleCfg w cast b avg) s xs het centering) y (if ToBeFitted y.obj.st.fitted y.obj.st.args s c then 2 else 0)
      (OnMoved b.data b.axisLo b.axisHi s) := by
  have h := fitCalls_ale hw cast b avg
  refine costs_of_runs (runs_aleEval h s xs het centering c hc y trivial) ?_ ?_ ?_
  all_goals
    simp only [aleEvalCalls, aleEval, hc]
    cases hn : needsRefit (y.obj.st.fitted s) (y.obj.st.args s) c with
    | error e => simp
    | ok r =>
      cases r with
      | false =>
        have hnt : ¬ ToBeFitted y.obj.st.fitted y.obj.st.args s c := by
          intro h; rw [needsRefit_true.2 h] at hn; cases hn
        simp [hnt]
      | true =>
        have hyt := needsRefit_true.1 hn
        obtain ⟨h1, h2, h3⟩ := aleFitCalls_count (m := m) cast b (aleCfg cast m b).defaultBin c y.obj.eff [s] y.obj.st
        simp only [List.length_singleton, Nat.mul_one, List.mem_singleton, exists_eq_left] at h1 h2 h3
        simp only [if_pos hyt]
        first
          | exact h1
          | exact h2
          | (intro v hv
             revert hv h3
             generalize fitLoop (aleCfg cast m b) (aleCfg cast m b).defaultBin c y.obj.st [s] = q
             obtain ⟨st', r⟩ := q
             intro h3 hv
             cases r with
             | error e => cases hv
             | ok u => exact h3 u rfl)

/-- **C108, `plot` of ALE.** Drawing costs what the `eval` it begins with costs; the second `eval`, on 1000 positions, and the line of the average output cost nothing. -/
theorem C108_ale_plot [PySqrt K] (hw : AnswersWith w m j ex) (cast : K → K) (b : Base K D) (avg : K) (s : Fin D) (het centering : PyVal)
    (c : Centering) (hc : prepCentering centering = .ok c) (showAvg : Bool) (scaleY : Option (Scale K)) (y : Sys σ K D (AleObj K D)) :
    ∃ evs, (runAlePlot w (runAleCfg w cast b avg) b.data s het centering showAvg scaleY y).1.trace = y.trace ++ evs ∧ evs.length ≤ 2 ∧
      (¬ ToBeFitted y.obj.st.fitted y.obj.st.args s c → evs = []) ∧ ∀ e ∈ evs, OnMoved b.data b.axisLo b.axisHi s e.call := by
  have h := fitCalls_ale hw cast b avg
  cases hh : prepConfidenceInterval het with
  | error e =>
    refine ⟨[], ?_, by simp, fun _ => rfl, by simp⟩
    simp only [runAlePlot, hh, List.append_nil]; rfl
  | ok h' =>
    have hr := runs_alePlot h b.data s het centering h' c hh hc showAvg scaleY y trivial
    have hshape : (aleEvalCalls (aleCfg cast m b) (fun s bm _ => aleCalls cast b.data b.axisLo b.axisHi s bm) id y.obj s c).length ≤ 2 ∧
        (¬ ToBeFitted y.obj.st.fitted y.obj.st.args s c →
          aleEvalCalls (aleCfg cast m b) (fun s bm _ => aleCalls cast b.data b.axisLo b.axisHi s bm) id y.obj s c = []) ∧
        ∀ cl ∈ aleEvalCalls (aleCfg cast m b) (fun s bm _ => aleCalls cast b.data b.axisLo b.axisHi s bm) id y.obj s c,
          OnMoved b.data b.axisLo b.axisHi s cl := by
      unfold aleEvalCalls
      cases hn : needsRefit (y.obj.st.fitted s) (y.obj.st.args s) c with
      | error e => simp
      | ok r =>
        cases r with
        | false => simp
        | true =>
          obtain ⟨h1, h2, _⟩ := aleFitCalls_count (m := m) cast b (aleCfg cast m b).defaultBin c y.obj.eff [s] y.obj.st
          simp only [List.length_singleton, Nat.mul_one, List.mem_singleton, exists_eq_left] at h1 h2
          exact ⟨h1, fun hnt => absurd (needsRefit_true.1 hn) hnt, h2⟩
    revert hr hshape
    generalize aleEvalCalls (aleCfg cast m b) (fun s bm _ => aleCalls cast b.data b.axisLo b.axisHi s bm) id y.obj s c = cs
    rintro hr ⟨h1, h2, h3⟩
    obtain ⟨evs, e1, e2, e3, _⟩ := costs_of_runs (n := cs.length) hr le_rfl h3 (fun _ _ => rfl)
    refine ⟨evs, e1, e2.trans h1, fun hnt => ?_, e3⟩
    rw [h2 hnt] at e2
    exact List.length_eq_zero_iff.1 (Nat.le_zero.1 e2)

/-! ## RHALE -/

/-- Attempts to get the answers to the calls `B`, in this order: some attempts that were interrupted, then at most one that went through. -/
inductive Spec.Attempts (B : List (Call K D)) : List (Event K D) → Prop
  | none : Attempts B []
  | done : Attempts B (Spec.answered B)
  | interrupted {evs : List (Event K D)} (k : ℕ) (c : Call K D) (e : PyErr) : B[k]? = some c → Attempts B evs →
      Attempts B (Spec.answered (B.take k) ++ ⟨c, some e⟩ :: evs)

theorem rhaleFitCalls (pu : AleCfg K D) (B : List (Call K D)) (E : List (Row K D)) (bm : BinMethod K) (c : Centering) :
    ∀ (l : List (Fin D)) (e : Option (List (Row K D))),
      aleFitCalls pu (fun _ _ e => if e.isNone then B else []) (fun _ => some E) bm c e l = if l = [] then [] else if e.isNone then B else []
  | [], e => rfl
  | s :: t, e => by
    simp only [aleFitCalls, List.cons_ne_nil, if_false]
    rw [rhaleFitCalls pu B E bm c t (some E)]
    cases (pu.fitF s bm).bind fun p => aleNormConst pu p s c <;> simp

theorem rhale_history [PySqrt K] (hw : AnswersWith w m j ex) (hasJac : Bool) (given : Option (List (Row K D))) (b : Base K D) (avg : K) :
    ∀ (qs : List (AleReq K D)) (y : Sys σ K D (AleObj K D)),
      ((y.obj.eff = none ∧ given = none) ∨ y.obj.eff = some (effectsOf m j hasJac given b.data)) →
      ∃ evs, (runReqs (runAleReq w (runRhaleCfg w hasJac b avg) b.data) qs y).1.trace = y.trace ++ evs ∧
        (y.obj.eff ≠ none → evs = []) ∧ Attempts (gradientCalls hasJac b.data) evs
  | [], y, _ => ⟨[], by simp [runReqs], fun _ => rfl, .none⟩
  | q :: qs, y, hi => by
    have h := fitCalls_rhale hw hasJac given b avg
    obtain ⟨e', cs, he', hcs, hr⟩ := runs_aleReq h b.data q y hi
    have hcs' : (cs = [] ∧ e' = y.obj.eff) ∨ (cs = [] ∧ e' ≠ none ∧ y.obj.eff ≠ none) ∨ (cs = gradientCalls hasJac b.data ∧ e' ≠ none ∧ y.obj.eff = none) := by
      rcases hcs with h1 | ⟨bm, c, l, h1, h2⟩
      · exact .inl h1
      · rw [rhaleFitCalls] at h1
        unfold effAfter at h2
        by_cases hl : l = []
        · rw [if_pos hl] at h1 h2; exact .inl ⟨h1, h2⟩
        · rw [if_neg hl] at h1 h2
          cases hy : y.obj.eff with
          | none => rw [hy] at h1; exact .inr (.inr ⟨h1, by rw [h2]; simp, rfl⟩)
          | some v => rw [hy] at h1; exact .inr (.inl ⟨h1, by rw [h2]; simp, by simp⟩)
    simp only [runReqs]
    rcases hr with ⟨ht, ho, hres⟩ | ⟨k, c, e, t, hk, hra, ht, hres, hl⟩
    · obtain ⟨evs, h1, h2, h3⟩ := rhale_history hw hasJac given b avg qs (runAleReq w (runRhaleCfg w hasJac b avg) b.data q y).1 (by rw [ho]; exact he')
      rw [ho] at h2
      simp only at h2
      rw [h1, ht]
      rcases hcs' with ⟨rfl, rfl⟩ | ⟨rfl, h4, h5⟩ | ⟨rfl, h4, h5⟩
      · exact ⟨evs, by simp [answered], h2, h3⟩
      · exact ⟨evs, by simp [answered], fun _ => h2 h4, h3⟩
      · rw [h2 h4]
        exact ⟨answered (gradientCalls hasJac b.data), by simp, fun h => absurd h5 h, .done⟩
    · obtain ⟨evs, h1, h2, h3⟩ := rhale_history hw hasJac given b avg qs (runAleReq w (runRhaleCfg w hasJac b avg) b.data q y).1 hl.1
      rw [h1, ht]
      rcases hcs' with ⟨rfl, rfl⟩ | ⟨rfl, h4, h5⟩ | ⟨rfl, h4, h5⟩
      · simp at hk
      · simp at hk
      · exact ⟨answered ((gradientCalls hasJac b.data).take k) ++ ⟨c, some e⟩ :: evs, by simp, fun h => absurd h5 h, .interrupted k c e hk h3⟩

/-- **C108, RHALE.** Whatever is asked of an RHALE object, in whatever order, and however often the user's code raises: if `data_effect` was given, the user's code is
never called; otherwise the calls are those that get the gradients of all rows, `model_jac` on all rows, or, without `model_jac`, for each feature the model on the
rows moved along it and on the rows as they are; attempts that were interrupted are made again, and once they have gone through there is no call any more. -/
theorem C108_rhale [PySqrt K] (hw : AnswersWith w m j ex) (hasJac : Bool) (given : Option (List (Row K D))) (b : Base K D) (avg : K) (qs : List (AleReq K D))
    (y : Sys σ K D (AleObj K D)) (hy : y.obj.eff = given) :
    ∃ evs, (runReqs (runAleReq w (runRhaleCfg w hasJac b avg) b.data) qs y).1.trace = y.trace ++ evs ∧
      (given ≠ none → evs = []) ∧ Attempts (gradientCalls hasJac b.data) evs := by
  have hi : (y.obj.eff = none ∧ given = none) ∨ y.obj.eff = some (effectsOf m j hasJac given b.data) := by
    rw [hy]
    cases given with
    | none => exact .inl ⟨rfl, rfl⟩
    | some e => exact .inr rfl
  obtain ⟨evs, h1, h2, h3⟩ := rhale_history hw hasJac given b avg qs y hi
  exact ⟨evs, h1, fun h => h2 (by rw [hy]; exact h), h3⟩

theorem gradientCalls_length (hasJac : Bool) (data : List (Row K D)) : (gradientCalls hasJac data).length = if hasJac then 1 else 2 * D := by
  cases hasJac
  · simp [gradientCalls, List.length_flatMap, allFeatures, Nat.mul_comm]
  · simp [gradientCalls]

/-- Reading of `Attempts`: with one call, at most one answer. -/
theorem Spec.Attempts.answers_le {c : Call K D} {evs : List (Event K D)} (h : Attempts [c] evs) : (evs.filter fun e => e.failed.isNone).length ≤ 1 := by
  induction h with
  | none => simp
  | done => simp [answered]
  | interrupted k c' e hk _ ih =>
    cases k with
    | zero => simpa [answered] using ih
    | succ k => simp at hk

/-- Reading of `Attempts`: without exceptions, nothing or everything, once. -/
theorem Spec.Attempts.all_answered {B : List (Call K D)} {evs : List (Event K D)} (h : Attempts B evs) (ha : ∀ e ∈ evs, e.failed = Option.none) : evs = [] ∨ evs = answered B := by
  cases h with
  | none => exact .inl rfl
  | done => exact .inr rfl
  | interrupted k c e hk _ =>
    have := ha ⟨c, some e⟩ (by simp)
    cases this

/-- **C108, RHALE with `model_jac`.** In the whole life of the object, `model_jac` answers at most once, the model is never called (after construction). -/
theorem C108_rhale_jac [PySqrt K] (hw : AnswersWith w m j ex) (given : Option (List (Row K D))) (b : Base K D) (avg : K) (qs : List (AleReq K D))
    (y : Sys σ K D (AleObj K D)) (hy : y.obj.eff = given) :
    ∃ evs, (runReqs (runAleReq w (runRhaleCfg w true b avg) b.data) qs y).1.trace = y.trace ++ evs ∧
      (evs.filter fun e => e.failed.isNone).length ≤ 1 ∧ ∀ e ∈ evs, e.call = .jac b.data := by
  obtain ⟨evs, h1, h2, h3⟩ := C108_rhale hw true given b avg qs y hy
  refine ⟨evs, h1, Spec.Attempts.answers_le h3, ?_⟩
  clear h1 h2
  change Attempts [.jac b.data] evs at h3
  induction h3 with
  | none => simp
  | done => simp [answered]
  | interrupted k c e hk _ ih =>
    cases k with
    | zero =>
      simp only [List.getElem?_cons_zero, Option.some.injEq] at hk
      intro ev hev
      simp only [List.take_zero, answered, List.map_nil, List.nil_append, List.mem_cons] at hev
      rcases hev with rfl | hev
      · exact hk.symm
      · exact ih ev hev
    | succ k => simp at hk

/-! ## ShapDP -/

theorem shapFitCalls_count (cfg : RunShapCfg K D) (c : Centering) (points : ℕ) : ∀ (l : List (Fin D)) (st : ShapState K D),
    (shapFitCalls cfg ex c points st.data l).length ≤ l.length ∧
    (∀ cl ∈ shapFitCalls cfg ex c points st.data l, ∃ X, cl = .explain X ∧ ∀ r ∈ X, r ∈ st.data) ∧
    (∀ v, (shapFitLoop (cfg.with ex) c points st l).2 = .ok v → (shapFitCalls cfg ex c points st.data l).length = l.length)
  | [], st => by simp [shapFitCalls]
  | s :: t, st => by
    have h0 : (shapFitFeature (cfg.with ex).ext cfg.axisLo cfg.axisHi st.data s c points).1 = dropOutside st.data (cfg.axisLo s) (cfg.axisHi s) s := rfl
    have hsub := dropOutside_sub st.data cfg.axisLo cfg.axisHi s
    simp only [shapFitCalls]
    rw [shapFitLoop]
    have : shapFitFeature (cfg.with ex).ext (cfg.with ex).axisLo (cfg.with ex).axisHi st.data s c points =
        shapFitFeature (cfg.with ex).ext cfg.axisLo cfg.axisHi st.data s c points := rfl
    rw [this]
    revert h0
    generalize shapFitFeature (cfg.with ex).ext cfg.axisLo cfg.axisHi st.data s c points = q
    obtain ⟨d, r⟩ := q
    intro h0
    simp only at h0
    subst h0
    cases r with
    | error e =>
      simp only [List.length_cons, List.length_nil, List.mem_singleton]
      exact ⟨by omega, fun cl hc => ⟨_, hc, hsub⟩, fun v hv => by cases hv⟩
    | ok nc =>
      obtain ⟨h1, h2, h3⟩ := shapFitCalls_count cfg c points t
        { data := dropOutside st.data (cfg.axisLo s) (cfg.axisHi s) s
          fe := Function.update st.fe s (some nc)
          fitted := Function.update st.fitted s true
          args := Function.update st.args s (some c) }
      simp only at h1 h2 h3
      simp only [List.length_cons]
      refine ⟨by omega, fun cl hc => ?_, fun v hv => ?_⟩
      · rcases List.mem_cons.1 hc with rfl | hc
        · exact ⟨_, rfl, hsub⟩
        · obtain ⟨X, hX, hr⟩ := h2 cl hc
          exact ⟨X, hX, fun r hrX => hsub r (hr r hrX)⟩
      · have := h3 v hv
        omega

/-- **C108, `fit` of ShapDP.** The explainer is called once for each feature named, each time on all rows (within the limits): the SHAP values of all features of all
rows are computed anew for each feature, so `fit("all")` computes them `D` times. -/
theorem C108_shap_fit (hw : AnswersWith w m j ex) (cfg : RunShapCfg K D) (features centering : PyVal) (points : ℕ) (y : Sys σ K D (ShapState K D)) :
    Costs (runShapFit w cfg features centering points) y (named D features).length (fun c => ∃ X, c = .explain X ∧ ∀ r ∈ X, r ∈ y.obj.data) := by
  cases hc : prepCentering centering with
  | error e =>
    refine costs_refused (e := e) _ _ ?_
    simp only [runShapFit, hc]; rfl
  | ok c =>
    unfold named
    cases hf : prepFeatures features D with
    | error e =>
      refine costs_refused (e := e) _ _ ?_
      simp only [runShapFit, hc, inert_ok, hf]; rfl
    | ok f =>
      simp only [Except.bind]
      cases hl : resolveFeatures D f with
      | error e =>
        refine costs_refused (e := e) _ _ ?_
        simp only [runShapFit, hc, inert_ok, hf, hl]; rfl
      | ok l =>
        obtain ⟨h1, h2, h3⟩ := shapFitCalls_count (ex := ex) cfg c points l y.obj
        refine costs_of_runs (runs_shapFit hw cfg features centering f c l hc hf hl points y) h1 h2 fun v hv => h3 v ?_
        rw [← hv]
        simp only [shapFit, hc, hf, hl, bind, Except.bind, pure, Except.pure]

open Classical in
/-- **C108, `eval` of ShapDP.** No call if the feature is fitted (with this centring), otherwise one call of the explainer. -/
theorem C108_shap_eval (hw : AnswersWith w m j ex) (cfg : RunShapCfg K D) (s : Fin D) (xs : List K) (het : Bool) (centering : PyVal)
    (c : Centering) (hc : prepCentering centering = .ok c) (y : Sys σ K D (ShapState K D)) :
    Costs (runShapEval w cfg s xs het centering) y (if ToBeFitted y.obj.fitted y.obj.args s c then 1 else 0)
      (fun c => ∃ X, c = .explain X ∧ ∀ r ∈ X, r ∈ y.obj.data) := by
  refine costs_of_runs (runs_shapEval hw cfg s xs het centering c hc y) ?_ ?_ ?_
  all_goals
    simp only [shapEvalCalls, shapEval, hc]
    cases hn : needsRefit (y.obj.fitted s) (y.obj.args s) c with
    | error e => simp
    | ok r =>
      cases r with
      | false =>
        have hnt : ¬ ToBeFitted y.obj.fitted y.obj.args s c := by
          intro h; rw [needsRefit_true.2 h] at hn; cases hn
        simp [hnt]
      | true =>
        have hyt := needsRefit_true.1 hn
        have hsub := dropOutside_sub y.obj.data cfg.axisLo cfg.axisHi s
        simp only [if_pos hyt, List.length_singleton, List.mem_singleton]
        first
          | exact le_rfl
          | exact fun _ h => ⟨_, h, hsub⟩
          | exact fun _ _ => trivial

end Effector
