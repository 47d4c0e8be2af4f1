import Verif.Props.PdpProps
import Verif.Props.Helpers

/-!
# C31: do the features of a PDP / d-PDP object interfere?

With default axis limits they do not (`C31_default_limits_partial`, for every model, even one that is not row-wise, every dtype, every number of
centring points, and every history, also with failing calls).  With user-given axis limits they do: `fit` of one feature permanently removes
the instances outside of its limits from `self.data` (`C31_false`).
-/

set_option linter.unusedSectionVars false

namespace Effector

open Spec

variable {K : Type} [Field K] [LinearOrder K] [IsStrictOrderedRing K] {D : ℕ}

namespace Spec

/-- The call names feature `s`. -/
def PdpConcerns (s : Fin D) : PdpOp K D → Prop
  | .fit f _ _ _ => s ∈ named D f
  | .eval t _ _ _ _ _ => t = s

instance (s : Fin D) (op : PdpOp K D) : Decidable (PdpConcerns s op) := by
  cases op <;> unfold PdpConcerns <;> infer_instance

/-- Every instance lies within the axis limits of every feature (true by default, see C53). -/
def AllWithin (data : List (Row K D)) (lo hi : Fin D → K) : Prop := ∀ r ∈ data, ∀ t, lo t ≤ r t ∧ r t ≤ hi t

end Spec

/-- Same about feature `s`, and both still own all the data. -/
structure PdpSame (data : List (Row K D)) (s : Fin D) (st st' : PdpState K D) : Prop where
  data1 : st.data = data
  data2 : st'.data = data
  fe : st.fe s = st'.fe s
  fitted : st.fitted s = st'.fitted s
  args : st.args s = st'.args s

theorem dropOutside_within {data : List (Row K D)} {lo hi : Fin D → K} (h : AllWithin data lo hi) (t : Fin D) :
    dropOutside data (lo t) (hi t) t = data := by
  rw [dropOutside_eq]
  unfold inLimits
  rw [List.filter_eq_self]
  intro r hr
  simpa using h r hr t

theorem pdpFitLoop_local {cfg : PdpCfg K D} {data : List (Row K D)} (hw : AllWithin data cfg.axisLo cfg.axisHi) (s : Fin D) (c : Centering)
    (points : ℕ) (vec : Bool) (l : List (Fin D)) {st st' : PdpState K D} (h : PdpSame data s st st') :
    PdpSame data s (pdpFitLoop cfg c points vec st l).1 (pdpFitLoop cfg c points vec st' l).1 ∧
      (pdpFitLoop cfg c points vec st l).2 = (pdpFitLoop cfg c points vec st' l).2 := by
  induction l generalizing st st' with
  | nil => exact ⟨h, rfl⟩
  | cons t l ih =>
    unfold pdpFitLoop
    rw [h.data1, h.data2]
    have hd : (pdpFitFeature cfg data t c points vec).1 = data := dropOutside_within hw t
    rcases e : pdpFitFeature cfg data t c points vec with ⟨d, r⟩
    rw [e] at hd
    obtain rfl : d = data := hd
    cases r with
    | error e => exact ⟨⟨rfl, rfl, h.fe, h.fitted, h.args⟩, rfl⟩
    | ok nc =>
      refine ih ⟨rfl, rfl, ?_, ?_, ?_⟩ <;> by_cases hst : s = t
      · subst hst; simp
      · simp [hst, h.fe]
      · subst hst; simp
      · simp [hst, h.fitted]
      · subst hst; simp
      · simp [hst, h.args]

theorem pdpFitLoop_other {cfg : PdpCfg K D} {data : List (Row K D)} (hw : AllWithin data cfg.axisLo cfg.axisHi) {s : Fin D} (c : Centering)
    (points : ℕ) (vec : Bool) (l : List (Fin D)) (hs : s ∉ l) {st : PdpState K D} (h : st.data = data) :
    PdpSame data s (pdpFitLoop cfg c points vec st l).1 st := by
  induction l generalizing st with
  | nil => exact ⟨h, h, rfl, rfl, rfl⟩
  | cons t l ih =>
    have hst : s ≠ t := fun e => hs (by simp [e])
    unfold pdpFitLoop
    rw [h]
    have hd : (pdpFitFeature cfg data t c points vec).1 = data := dropOutside_within hw t
    rcases e : pdpFitFeature cfg data t c points vec with ⟨d, r⟩
    rw [e] at hd
    obtain rfl : d = data := hd
    cases r with
    | error e => exact ⟨rfl, h, rfl, rfl, rfl⟩
    | ok nc =>
      obtain ⟨i1, i2, i3, i4, i5⟩ := ih (fun hh => hs (by simp [hh]))
        (st := { data := d, fe := Function.update st.fe t (some nc), fitted := Function.update st.fitted t true,
                 args := Function.update st.args t (some c) }) rfl
      refine ⟨i1, h, ?_, ?_, ?_⟩
      · rw [i3]; simp [hst]
      · rw [i4]; simp [hst]
      · rw [i5]; simp [hst]

theorem pdpFit_cases (cfg : PdpCfg K D) (f c : PyVal) (points : ℕ) (vec : Bool) :
    (∃ e, ∀ st : PdpState K D, pdpFit cfg st f c points vec = (st, .error e)) ∨
    (∃ m, prepCentering c = .ok m ∧ ∀ st : PdpState K D, pdpFit cfg st f c points vec = pdpFitLoop cfg m points vec st (named D f)) := by
  unfold pdpFit named
  simp only [bind, Except.bind]
  cases prepCentering c with
  | error e => exact Or.inl ⟨e, fun st => rfl⟩
  | ok m =>
    simp only []
    cases prepFeatures f D with
    | error e => exact Or.inl ⟨e, fun st => rfl⟩
    | ok g =>
      simp only []
      cases resolveFeatures D g with
      | error e => exact Or.inl ⟨e, fun st => rfl⟩
      | ok l => exact Or.inr ⟨m, rfl, fun st => rfl⟩

theorem pdpEvalFitted_same [PySqrt K] (cfg : PdpCfg K D) {data : List (Row K D)} {s : Fin D} {st st' : PdpState K D} (h : PdpSame data s st st')
    (xs : List K) (het : Bool) (c : Centering) (all vec : Bool) :
    pdpEvalFitted cfg st s xs het c all vec = pdpEvalFitted cfg st' s xs het c all vec := by
  unfold pdpEvalFitted
  rw [h.data1, h.data2, h.fe]

theorem pdpEval_same [PySqrt K] {cfg : PdpCfg K D} {data : List (Row K D)} (hw : AllWithin data cfg.axisLo cfg.axisHi) {s : Fin D}
    {st st' : PdpState K D} (h : PdpSame data s st st') (xs : List K) (het : Bool) (c : PyVal) (all vec : Bool) :
    PdpSame data s (pdpEval cfg st s xs het c all vec).1 (pdpEval cfg st' s xs het c all vec).1 ∧
      (pdpEval cfg st s xs het c all vec).2 = (pdpEval cfg st' s xs het c all vec).2 := by
  unfold pdpEval
  cases prepCentering c with
  | error e => exact ⟨h, rfl⟩
  | ok m =>
    simp only []
    rw [h.fitted, h.args]
    cases needsRefit (st'.fitted s) (st'.args s) m with
    | error e => exact ⟨h, rfl⟩
    | ok b =>
      cases b with
      | false => exact ⟨h, pdpEvalFitted_same cfg h xs het m all vec⟩
      | true =>
        simp only []
        obtain ⟨h1, h2⟩ := pdpFitLoop_local hw s m 100 vec [s] h
        rcases e1 : pdpFitLoop cfg m 100 vec st [s] with ⟨q, r⟩
        rcases e2 : pdpFitLoop cfg m 100 vec st' [s] with ⟨q', r'⟩
        rw [e1, e2] at h1 h2
        obtain rfl : r = r' := h2
        cases r with
        | error e => exact ⟨h1, rfl⟩
        | ok u => exact ⟨h1, pdpEvalFitted_same cfg h1 xs het m all vec⟩

theorem pdpEval_other [PySqrt K] {cfg : PdpCfg K D} {data : List (Row K D)} (hw : AllWithin data cfg.axisLo cfg.axisHi) {s t : Fin D} (hst : s ≠ t)
    {st : PdpState K D} (h : st.data = data) (xs : List K) (het : Bool) (c : PyVal) (all vec : Bool) :
    PdpSame data s (pdpEval cfg st t xs het c all vec).1 st := by
  have h0 : PdpSame data s st st := ⟨h, h, rfl, rfl, rfl⟩
  unfold pdpEval
  cases prepCentering c with
  | error e => exact h0
  | ok m =>
    simp only []
    cases needsRefit (st.fitted t) (st.args t) m with
    | error e => exact h0
    | ok b =>
      cases b with
      | false => exact h0
      | true =>
        simp only []
        have h1 := pdpFitLoop_other hw m 100 vec [t] (s := s) (by simpa using hst) h
        rcases e1 : pdpFitLoop cfg m 100 vec st [t] with ⟨q, r⟩
        rw [e1] at h1
        cases r <;> exact h1

theorem pdpStep_other [PySqrt K] {cfg : PdpCfg K D} {data : List (Row K D)} (hw : AllWithin data cfg.axisLo cfg.axisHi) {s : Fin D}
    (op : PdpOp K D) (hop : ¬ PdpConcerns s op) {st : PdpState K D} (h : st.data = data) : PdpSame data s (pdpStep cfg st op) st := by
  cases op with
  | fit f c p v =>
    show PdpSame data s (pdpFit cfg st f c p v).1 st
    rcases pdpFit_cases cfg f c p v with ⟨e, hh⟩ | ⟨m, -, hh⟩
    · rw [hh]; exact ⟨h, h, rfl, rfl, rfl⟩
    · rw [hh]; exact pdpFitLoop_other hw m p v _ hop h
  | eval t xs het c all vec => exact pdpEval_other hw (fun e => hop e.symm) h xs het c all vec

theorem pdpStep_local [PySqrt K] {cfg : PdpCfg K D} {data : List (Row K D)} (hw : AllWithin data cfg.axisLo cfg.axisHi) {s : Fin D}
    (op : PdpOp K D) {st st' : PdpState K D} (h : PdpSame data s st st') : PdpSame data s (pdpStep cfg st op) (pdpStep cfg st' op) := by
  by_cases hop : PdpConcerns s op
  · cases op with
    | fit f c p v =>
      show PdpSame data s (pdpFit cfg st f c p v).1 (pdpFit cfg st' f c p v).1
      rcases pdpFit_cases cfg f c p v with ⟨e, hh⟩ | ⟨m, -, hh⟩
      · rw [hh, hh]; exact h
      · rw [hh, hh]; exact (pdpFitLoop_local hw s m p v _ h).1
    | eval t xs het c all vec =>
      obtain rfl : t = s := hop
      exact (pdpEval_same hw h xs het c all vec).1
  · have h1 := pdpStep_other hw op hop h.data1
    have h2 := pdpStep_other hw op hop h.data2
    exact ⟨h1.data1, h2.data1, h1.fe.trans (h.fe.trans h2.fe.symm), h1.fitted.trans (h.fitted.trans h2.fitted.symm),
      h1.args.trans (h.args.trans h2.args.symm)⟩

/-- **C31, when no instance lies outside of the axis limits** (in particular with default limits, see C53).  For every history of calls,
successful or not, and every model: dropping all calls that do not name feature `i` changes nothing about what `eval` returns or raises for `i`.
Missing: user-given axis limits that exclude instances, where the property is false (`C31_false`). -/
theorem C31_default_limits_partial [PySqrt K] (cfg : PdpCfg K D) (data : List (Row K D)) (hw : AllWithin data cfg.axisLo cfg.axisHi)
    (calls : List (PdpOp K D)) (i : Fin D) (xs : List K) (het : Bool) (c : PyVal) (all vec : Bool) :
    (pdpEval cfg (pdpRun cfg data calls) i xs het c all vec).2 =
      (pdpEval cfg (pdpRun cfg data (calls.filter fun op => PdpConcerns i op)) i xs het c all vec).2 := by
  suffices ∀ st st' : PdpState K D, PdpSame data i st st' →
      PdpSame data i (calls.foldl (pdpStep cfg) st) ((calls.filter fun op => PdpConcerns i op).foldl (pdpStep cfg) st') from
    (pdpEval_same hw (this _ _ ⟨rfl, rfl, rfl, rfl, rfl⟩) xs het c all vec).2
  induction calls with
  | nil => exact fun _ _ h => h
  | cons op t ih =>
    intro st st' hs
    by_cases hop : PdpConcerns i op
    · rw [List.filter_cons_of_pos (by simpa using hop)]
      exact ih _ _ (pdpStep_local hw op hs)
    · rw [List.filter_cons_of_neg (by simpa using hop)]
      have h1 := pdpStep_other hw op hop hs.data1
      exact ih _ _ ⟨h1.data1, hs.data2, h1.fe.trans hs.fe, h1.fitted.trans hs.fitted, h1.args.trans hs.args⟩

/-- The same for an object as constructed, without `axis_limits`. -/
theorem C31_constructed_partial [PySqrt K] (choice : ℕ → ℕ → List ℕ) (data : List (Row K D)) (nof : PyVal) (b : Base K D)
    (hb : Base.init choice data nof none = .ok b) (cast : K → K) (kind : PdpKind K D) (calls : List (PdpOp K D)) (i : Fin D) (xs : List K)
    (het : Bool) (c : PyVal) (all vec : Bool) :
    let cfg : PdpCfg K D := { cast := cast, kind := kind, axisLo := b.axisLo, axisHi := b.axisHi }
    (pdpEval cfg (pdpRun cfg b.data calls) i xs het c all vec).2 =
      (pdpEval cfg (pdpRun cfg b.data (calls.filter fun op => PdpConcerns i op)) i xs het c all vec).2 := by
  intro cfg
  exact C31_default_limits_partial cfg b.data (C53_default_limits choice data nof b hb).1 calls i xs het c all vec

/-- **C31 with user-given limits, what holds**: two histories that only touch features whose limits exclude no instance valid for `i` give the same
result for `i`. -/
theorem C31_covered_limits_partial [PySqrt K] (M : PdpModel K D) (lo hi : Fin D → K) (data : List (Row K D)) (i : Fin D)
    (calls calls' : List (PdpOp K D)) (h : ∀ op ∈ calls, PdpCallOk data lo hi i op) (h' : ∀ op ∈ calls', PdpCallOk data lo hi i op)
    (xs : List K) (het : Bool) (c : PyVal) (all vec : Bool) :
    pdpEvalAfter M lo hi data calls i xs het c all vec = pdpEvalAfter M lo hi data calls' i xs het c all vec := by
  unfold pdpEvalAfter
  rw [pdp_eval_spec M lo hi data i calls h, pdp_eval_spec M lo hi data i calls' h']

/-- Model `x_0 + x_1`, instances (0,0) and (1,10), limits [0,1] and [0,5]. -/
def exPdp : PdpCfg ℚ 2 := pdpCfgOf (.pdp fun r => r 0 + r 1) ![0, 0] ![1, 5]

/-- **C31 is false with user-given axis limits** (bug: `_fit_feature` overwrites `self.data`).  The PDP of feature 0 at 0 is 5 on a fresh object,
and 0 after `fit(features=1)`, because the instance (1, 10) has been thrown away. -/
theorem C31_false :
    (pdpEval exPdp (pdpRun exPdp [![0, 0], ![1, 10]] []) 0 [0] false (.bool false) false true).2 = .ok (.meanOnly [5]) ∧
    (pdpEval exPdp (pdpRun exPdp [![0, 0], ![1, 10]] [.fit (.int 1) (.bool false) 100 true]) 0 [0] false (.bool false) false true).2 =
      .ok (.meanOnly [0]) := by
  constructor <;> decide +kernel

/-- **C31 is false**, second symptom: after `fit(0, centering=True)` and then `fit(1)`, a centred `eval` of feature 0 raises, or silently pairs
the curves of the remaining instances with the constants of others: here three constants meet two curves. -/
theorem C31_false_raises :
    (pdpEval exPdp (pdpRun exPdp [![0, 0], ![1, 10], ![1, 2]] [.fit (.int 0) (.str "zero_start") 100 true, .fit (.int 1) (.bool false) 100 true])
      0 [0] false (.str "zero_start") false true).2 = .error .valueError := by
  decide +kernel

/-- Non-vacuity of `C31_default_limits_partial`: the data above with limits that include them. -/
example : AllWithin [![(0 : ℚ), 0], ![1, 10]] ![0, 0] ![1, 10] := by
  intro r hr t
  fin_cases t <;> simp at hr <;> rcases hr with rfl | rfl <;> simp

end Effector
