import Verif.Props.Crashes
import Verif.Props.Refit

/-!
# C109: the user's code raises (PDP, DerPDP, ShapDP)
-/

set_option linter.unusedSectionVars false

namespace Effector

variable {K : Type} [Field K] [LinearOrder K] [IsStrictOrderedRing K] {D : ℕ} {σ : Type}

/-! ## PDP and DerPDP -/

/-- The public calls on a PDP/DerPDP object, with all their arguments. -/
inductive PdpReq (K : Type) (D : ℕ)
  | fit (features centering : PyVal) (points : ℕ) (vec : Bool)
  | eval (s : Fin D) (xs : List K) (het : Bool) (centering : PyVal) (all vec : Bool)
  | plot (s : Fin D) (het centering : PyVal) (nofPoints : ℕ) (showAvg : Bool) (scaleY : Option (Scale K)) (vec : Bool)

/-- What a request returns: `fit` nothing, `eval` the curves or their summary, `plot` the rows it draws and the height of the average line. -/
inductive PdpAns (K : Type)
  | fitted
  | curve (v : PdpOut K)
  | drawn (v : PdpOut K) (line : Option K)
deriving DecidableEq

/-- global_effect_pdp.py:79-261: a request. -/
def runPdpReq [PySqrt K] (w : World σ K D) (cfg : RunPdpCfg K D) : PdpReq K D → RunM σ K D (PdpState K D) (PdpAns K)
  | .fit f c points vec => do
    runPdpFit w cfg f c points vec
    return .fitted
  | .eval s xs het c all vec => do
    let v ← runPdpEval w cfg s xs het c all vec
    return .curve v
  | .plot s het c n showAvg scaleY vec => do
    let v ← runPdpPlot w cfg s het c n showAvg scaleY vec
    return .drawn v.1 v.2

/-- The same request to an object whose black box is a function that never raises. -/
def Spec.pdpAnswer [PySqrt K] (pu : PdpCfg K D) (avg : K) (st : PdpState K D) : PdpReq K D → PdpState K D × Py (PdpAns K)
  | .fit f c points vec => ((pdpFit pu st f c points vec).1, (pdpFit pu st f c points vec).2.map fun _ => .fitted)
  | .eval s xs het c all vec => ((pdpEval pu st s xs het c all vec).1, (pdpEval pu st s xs het c all vec).2.map .curve)
  | .plot s het c n showAvg scaleY vec =>
    match prepConfidenceInterval het with
    | .error e => (st, .error e)
    | .ok _ => ((pdpEval pu st s (linspace (pu.axisLo s) (pu.axisHi s) n) false c true vec).1,
        (pdpEval pu st s (linspace (pu.axisLo s) (pu.axisHi s) n) false c true vec).2.map fun v => .drawn v (Spec.averageLine showAvg avg scaleY))

/-- The object without the rows outside the axis limits of feature `s`. -/
def Spec.PdpState.without (st : PdpState K D) (lo hi : Fin D → K) (s : Fin D) : PdpState K D :=
  { st with data := st.data.filter fun r => decide (lo s ≤ r s ∧ r s ≤ hi s) }

/-- Feature `s` has to be fitted before it can be evaluated with centring `c`: it is not fitted, or it is fitted with another centring and `c` is one. -/
def Spec.ToBeFitted (fitted : Fin D → Bool) (args : Fin D → Option Centering) (s : Fin D) (c : Centering) : Prop :=
  fitted s = false ∨ (c ≠ .off ∧ ∃ a, args s = some a ∧ a ≠ c)

/-- What a request that the user's code interrupted leaves behind.  `fit`: what it would leave behind had it only been asked for some of the first features, without
the rows outside the limits of the next feature.  `eval` and `plot`: what they would leave behind had they not been interrupted; or, interrupted in the fit they begin
with when the feature has to be fitted, the same object without the rows outside the limits of the feature. -/
def Spec.pdpLeft [PySqrt K] (pu : PdpCfg K D) (st : PdpState K D) : PdpReq K D → PdpState K D → Prop
  | .fit f c points vec, st' => ∃ v l1 s l2 c' st1, prepFeatures f D = .ok v ∧ resolveFeatures D v = .ok (l1 ++ s :: l2) ∧ prepCentering c = .ok c' ∧
      pdpFitLoop pu c' points vec st l1 = (st1, .ok ()) ∧ st' = Spec.PdpState.without st1 pu.axisLo pu.axisHi s
  | .eval s xs het c all vec, st' =>
    (∃ c', prepCentering c = .ok c' ∧ Spec.ToBeFitted st.fitted st.args s c' ∧ st' = Spec.PdpState.without st pu.axisLo pu.axisHi s) ∨
      st' = (pdpEval pu st s xs het c all vec).1
  | .plot s het c n _ _ vec, st' => (∃ h', prepConfidenceInterval het = .ok h') ∧
    ((∃ c', prepCentering c = .ok c' ∧ Spec.ToBeFitted st.fitted st.args s c' ∧ st' = Spec.PdpState.without st pu.axisLo pu.axisHi s) ∨
      st' = (pdpEval pu st s (linspace (pu.axisLo s) (pu.axisHi s) n) false c true vec).1)

/-- The same when all rows lie within the limits (always so when `axis_limits` is not given): `fit` leaves what it would leave had it only been asked for some of the
first features; `eval` and `plot` leave the object as it was, or as if they had not been interrupted. -/
def Spec.pdpLeftWithin [PySqrt K] (pu : PdpCfg K D) (st : PdpState K D) : PdpReq K D → PdpState K D → Prop
  | .fit f c points vec, st' => ∃ v l1 s l2 c', prepFeatures f D = .ok v ∧ resolveFeatures D v = .ok (l1 ++ s :: l2) ∧ prepCentering c = .ok c' ∧
      pdpFitLoop pu c' points vec st l1 = (st', .ok ())
  | .eval s xs het c all vec, st' => st' = st ∨ st' = (pdpEval pu st s xs het c all vec).1
  | .plot s _ c n _ _ vec, st' => st' = st ∨ st' = (pdpEval pu st s (linspace (pu.axisLo s) (pu.axisHi s) n) false c true vec).1

open Spec

variable {w : World σ K D} {m : List (Row K D) → List K} {j ex : List (Row K D) → List (Row K D)}

theorem needsRefit_true {fitted : Fin D → Bool} {args : Fin D → Option Centering} {s : Fin D} {c : Centering} :
    needsRefit (fitted s) (args s) c = .ok true ↔ ToBeFitted fitted args s c := by
  unfold needsRefit ToBeFitted
  cases fitted s <;> cases args s <;> cases c <;> simp

theorem without_eq (st : PdpState K D) (lo hi : Fin D → K) (s : Fin D) :
    Spec.PdpState.without st lo hi s = { st with data := dropOutside st.data (lo s) (hi s) s } := by
  rw [dropOutside_eq]; rfl

theorem pdpInterrupted_one {cfg : RunPdpCfg K D} {c : Centering} {points : ℕ} {vec : Bool} {st o : PdpState K D} {s : Fin D}
    (h : pdpInterrupted cfg m j c points vec st [s] o) : o = Spec.PdpState.without st cfg.axisLo cfg.axisHi s := by
  obtain ⟨l1, s', l2, st1, he, hst, ho⟩ := h
  cases l1 with
  | nil =>
    simp only [List.nil_append, List.cons.injEq] at he
    obtain ⟨rfl, rfl⟩ := he
    have : st1 = st := (congrArg Prod.fst hst).symm
    rw [ho, this, without_eq]
  | cons a t => simp at he

/-- One request, whatever its arguments. -/
theorem runs_pdpReq [PySqrt K] (hw : AnswersWith w m j ex) (cfg : RunPdpCfg K D) (q : PdpReq K D) (y : Sys σ K D (PdpState K D)) :
    ∃ cs, Runs w (runPdpReq w cfg q) y (pdpAnswer (cfg.with m j) cfg.avg y.obj q).1 (pdpAnswer (cfg.with m j) cfg.avg y.obj q).2 cs
      (pdpLeft (cfg.with m j) y.obj q) := by
  cases q with
  | fit f c points vec =>
    cases hc : prepCentering c with
    | error e =>
      refine ⟨[], ?_⟩
      have h1 : pdpAnswer (cfg.with m j) cfg.avg y.obj (.fit f c points vec) = (y.obj, .error e) := by
        simp only [pdpAnswer, pdpFit, hc, bind, Except.bind]; rfl
      have h2 : runPdpReq w cfg (.fit f c points vec) y = (y, .error e) := by
        simp only [runPdpReq, runPdpFit, hc]; rfl
      left; rw [h1, h2]; simp [answered]
    | ok c' =>
      cases hf : prepFeatures f D with
      | error e =>
        refine ⟨[], ?_⟩
        have h1 : pdpAnswer (cfg.with m j) cfg.avg y.obj (.fit f c points vec) = (y.obj, .error e) := by
          simp only [pdpAnswer, pdpFit, hc, hf, bind, Except.bind]; rfl
        have h2 : runPdpReq w cfg (.fit f c points vec) y = (y, .error e) := by
          simp only [runPdpReq, runPdpFit, hc, inert_ok, hf]; rfl
        left; rw [h1, h2]; simp [answered]
      | ok v =>
        cases hl : resolveFeatures D v with
        | error e =>
          refine ⟨[], ?_⟩
          have h1 : pdpAnswer (cfg.with m j) cfg.avg y.obj (.fit f c points vec) = (y.obj, .error e) := by
            simp only [pdpAnswer, pdpFit, hc, hf, hl, bind, Except.bind]; rfl
          have h2 : runPdpReq w cfg (.fit f c points vec) y = (y, .error e) := by
            simp only [runPdpReq, runPdpFit, hc, inert_ok, hf, hl]; rfl
          left; rw [h1, h2]; simp [answered]
        | ok l =>
          refine ⟨_, (runs_mapOk (fun _ => PdpAns.fitted) (runs_pdpFit hw cfg f c v c' l hc hf hl points vec y)).mono ?_⟩
          rintro o ⟨l1, s, l2, st1, he, hst, ho⟩
          exact ⟨v, l1, s, l2, c', st1, hf, by rw [hl, he], hc, hst, by rw [ho, without_eq]; rfl⟩
  | eval s xs het c all vec =>
    cases hc : prepCentering c with
    | error e =>
      refine ⟨[], ?_⟩
      have h1 : pdpAnswer (cfg.with m j) cfg.avg y.obj (.eval s xs het c all vec) = (y.obj, .error e) := by
        simp only [pdpAnswer, pdpEval, hc]; rfl
      have h2 : runPdpReq w cfg (.eval s xs het c all vec) y = (y, .error e) := by
        simp only [runPdpReq, runPdpEval, hc]; rfl
      left; rw [h1, h2]; simp [answered]
    | ok c' =>
      refine ⟨_, (runs_mapOk PdpAns.curve (runs_pdpEval hw cfg s xs het c c' hc all vec y)).mono ?_⟩
      rintro o (ho | ho)
      · exact .inl ⟨c', hc, needsRefit_true.1 ho.1, pdpInterrupted_one ho.2⟩
      · exact .inr ho
  | plot s het c n showAvg scaleY vec =>
    cases hh : prepConfidenceInterval het with
    | error e =>
      refine ⟨[], ?_⟩
      have h1 : pdpAnswer (cfg.with m j) cfg.avg y.obj (.plot s het c n showAvg scaleY vec) = (y.obj, .error e) := by
        simp only [pdpAnswer, hh]
      have h2 : runPdpReq w cfg (.plot s het c n showAvg scaleY vec) y = (y, .error e) := by
        simp only [runPdpReq, runPdpPlot, hh]; rfl
      left; rw [h1, h2]; simp [answered]
    | ok h' =>
      cases hc : prepCentering c with
      | error e =>
        refine ⟨[], ?_⟩
        have h1 : pdpAnswer (cfg.with m j) cfg.avg y.obj (.plot s het c n showAvg scaleY vec) = (y.obj, .error e) := by
          simp only [pdpAnswer, hh, pdpEval, hc]; rfl
        have h2 : runPdpReq w cfg (.plot s het c n showAvg scaleY vec) y = (y, .error e) := by
          simp only [runPdpReq, runPdpPlot, hh, inert_ok, hc]; rfl
        left; rw [h1, h2]; simp [answered]
      | ok c' =>
        have := (runs_mapOk (fun v => PdpAns.drawn v.1 v.2) (runs_pdpPlot hw cfg s het c h' c' hh hc n showAvg scaleY vec y)).mono
          (L' := pdpLeft (cfg.with m j) y.obj (.plot s het c n showAvg scaleY vec)) (by
            rintro o (ho | ho)
            · exact ⟨⟨h', hh⟩, .inl ⟨c', hc, needsRefit_true.1 ho.1, pdpInterrupted_one ho.2⟩⟩
            · exact ⟨⟨h', hh⟩, .inr ho⟩)
        refine ⟨pdpEvalCalls cfg m j y.obj s (linspace (cfg.axisLo s) (cfg.axisHi s) n) c' vec, ?_⟩
        · have h1 : pdpAnswer (cfg.with m j) cfg.avg y.obj (.plot s het c n showAvg scaleY vec) =
            ((pdpEval (cfg.with m j) y.obj s (linspace (cfg.axisLo s) (cfg.axisHi s) n) false c true vec).1,
              (pdpEval (cfg.with m j) y.obj s (linspace (cfg.axisLo s) (cfg.axisHi s) n) false c true vec).2.map
                fun v => .drawn v (averageLine showAvg cfg.avg scaleY)) := by
            simp only [pdpAnswer, hh]; rfl
          rw [h1]
          cases hr : (pdpEval (cfg.with m j) y.obj s (linspace (cfg.axisLo s) (cfg.axisHi s) n) false c true vec).2 <;> rw [hr] at this <;> exact this

/-- **C109 (PDP, DerPDP).** Let the user's model (or its gradient) raise whenever it likes; whenever it answers, it answers with the functions `m` and `j`.  Then every
history of public calls, exceptions caught by the caller, has an account: each request either returns exactly what an object in the same state with a model that never
raises returns, or ends with the very exception the model raised, at once, and leaves what `pdpLeft` says. -/
theorem C109_pdp [PySqrt K] (hw : AnswersWith w m j ex) (cfg : RunPdpCfg K D) (qs : List (PdpReq K D)) (y : Sys σ K D (PdpState K D)) :
    ∃ evs, (runReqs (runPdpReq w cfg) qs y).1.trace = y.trace ++ evs ∧
      Account (pdpAnswer (cfg.with m j) cfg.avg) (pdpLeft (cfg.with m j)) y.obj qs (runReqs (runPdpReq w cfg) qs y).2 evs
        (runReqs (runPdpReq w cfg) qs y).1.obj := by
  obtain ⟨evs, h1, _, h3⟩ := account_of_runs (w := w) (runPdpReq w cfg) (fun o => o) (fun _ => True) (pdpAnswer (cfg.with m j) cfg.avg)
    (pdpLeft (cfg.with m j)) (fun q y _ => by
      obtain ⟨cs, hr⟩ := runs_pdpReq hw cfg q y
      exact ⟨_, cs, trivial, rfl, hr.mono fun o ho => ⟨trivial, ho⟩⟩) qs y trivial
  exact ⟨evs, h1, h3⟩

/-! ### All rows within the limits -/

theorem without_within {st : PdpState K D} {lo hi : Fin D → K} (h : AllWithin st.data lo hi) (s : Fin D) : Spec.PdpState.without st lo hi s = st := by
  rw [without_eq, dropOutside_within h s]

theorem pdpFitLoop_within {pu : PdpCfg K D} {data : List (Row K D)} (hw : AllWithin data pu.axisLo pu.axisHi) (c : Centering) (points : ℕ) (vec : Bool)
    (l : List (Fin D)) {st : PdpState K D} (h : st.data = data) : (pdpFitLoop pu c points vec st l).1.data = data := by
  induction l generalizing st with
  | nil => exact h
  | cons s t ih =>
    rw [pdpFitLoop]
    have hd : (pdpFitFeature pu st.data s c points vec).1 = data := by
      show dropOutside st.data (pu.axisLo s) (pu.axisHi s) s = data
      rw [h]; exact dropOutside_within hw s
    revert hd
    generalize pdpFitFeature pu st.data s c points vec = q
    obtain ⟨d, r⟩ := q
    intro hd
    cases r with
    | error e => exact hd
    | ok nc => exact ih hd

theorem pdpEval_within [PySqrt K] {pu : PdpCfg K D} {data : List (Row K D)} (hw : AllWithin data pu.axisLo pu.axisHi) (s : Fin D) (xs : List K) (het : Bool)
    (c : PyVal) (all vec : Bool) {st : PdpState K D} (h : st.data = data) : (pdpEval pu st s xs het c all vec).1.data = data := by
  unfold pdpEval
  cases prepCentering c with
  | error e => exact h
  | ok c' =>
    simp only
    cases needsRefit (st.fitted s) (st.args s) c' with
    | error e => exact h
    | ok b =>
      cases b with
      | false => exact h
      | true =>
        simp only
        have := pdpFitLoop_within hw c' 100 vec [s] h
        revert this
        generalize pdpFitLoop pu c' 100 vec st [s] = q
        obtain ⟨st', r⟩ := q
        intro h
        cases r <;> exact h

theorem pdpAnswer_within [PySqrt K] {pu : PdpCfg K D} {data : List (Row K D)} (hw : AllWithin data pu.axisLo pu.axisHi) (avg : K) (q : PdpReq K D)
    {st : PdpState K D} (h : st.data = data) : (pdpAnswer pu avg st q).1.data = data := by
  cases q with
  | fit f c points vec =>
    show (pdpFit pu st f c points vec).1.data = data
    rcases pdpFit_cases pu f c points vec with ⟨e, hh⟩ | ⟨m, -, hh⟩
    · rw [hh]; exact h
    · rw [hh]; exact pdpFitLoop_within hw m points vec _ h
  | eval s xs het c all vec => exact pdpEval_within hw s xs het c all vec h
  | plot s het c n showAvg scaleY vec =>
    simp only [pdpAnswer]
    cases prepConfidenceInterval het with
    | error e => exact h
    | ok _ => exact pdpEval_within hw s _ false c true vec h

theorem pdpLeft_within [PySqrt K] {pu : PdpCfg K D} {st st' : PdpState K D} (hw : AllWithin st.data pu.axisLo pu.axisHi) {q : PdpReq K D}
    (h : pdpLeft pu st q st') : pdpLeftWithin pu st q st' ∧ st'.data = st.data := by
  cases q with
  | fit f c points vec =>
    obtain ⟨v, l1, s, l2, c', st1, hf, hl, hc, hst, ho⟩ := h
    have h1 : st1.data = st.data := by
      have := pdpFitLoop_within hw c' points vec l1 (st := st) rfl
      rw [hst] at this
      exact this
    rw [without_within (by rw [h1]; exact hw)] at ho
    subst ho
    exact ⟨⟨v, l1, s, l2, c', hf, hl, hc, hst⟩, h1⟩
  | eval s xs het c all vec =>
    rcases h with ⟨_, _, _, h⟩ | h
    · rw [without_within hw] at h
      exact ⟨.inl h, by rw [h]⟩
    · exact ⟨.inr h, by rw [h]; exact pdpEval_within hw s xs het c all vec rfl⟩
  | plot s het c n showAvg scaleY vec =>
    rcases h with ⟨_, ⟨_, _, _, h⟩ | h⟩
    · rw [without_within hw] at h
      exact ⟨.inl h, by rw [h]⟩
    · exact ⟨.inr h, by rw [h]; exact pdpEval_within hw s _ false c true vec rfl⟩

/-- **C109 (PDP, DerPDP; the limits include the data).** An interrupted request does no harm: `fit` leaves what it would leave had it only been asked for some of the
first features; `eval` and `plot` leave the object as it was, or as if they had not been interrupted. -/
theorem C109_pdp_within [PySqrt K] (hw : AnswersWith w m j ex) (cfg : RunPdpCfg K D) (qs : List (PdpReq K D)) (y : Sys σ K D (PdpState K D))
    (hin : AllWithin y.obj.data cfg.axisLo cfg.axisHi) :
    ∃ evs, (runReqs (runPdpReq w cfg) qs y).1.trace = y.trace ++ evs ∧
      Account (pdpAnswer (cfg.with m j) cfg.avg) (pdpLeftWithin (cfg.with m j)) y.obj qs (runReqs (runPdpReq w cfg) qs y).2 evs
        (runReqs (runPdpReq w cfg) qs y).1.obj := by
  obtain ⟨evs, h1, _, h3⟩ := account_of_runs (w := w) (runPdpReq w cfg) (fun o => o) (fun o => o.data = y.obj.data) (pdpAnswer (cfg.with m j) cfg.avg)
    (pdpLeftWithin (cfg.with m j)) (fun q y' hy => by
      obtain ⟨cs, hr⟩ := runs_pdpReq hw cfg q y'
      refine ⟨_, cs, pdpAnswer_within (pu := cfg.with m j) hin cfg.avg q hy, rfl, hr.mono fun o ho => ?_⟩
      have := pdpLeft_within (pu := cfg.with m j) (by rw [hy]; exact hin) ho
      exact ⟨this.2.trans hy, this.1⟩) qs y rfl
  exact ⟨evs, h1, h3⟩

end Effector
