import Verif.Props.OneByOne
import Verif.Props.RegionalApiExamples

/-!
# C91: repeating a fit changes nothing
-/

set_option linter.unusedSectionVars false

namespace Effector

open Spec

variable {K : Type} [Field K] [LinearOrder K] [IsStrictOrderedRing K] {D : ℕ}

/-! ### Loops over features -/

/-- A loop over the features that ends at the first exception. -/
def loopOver {S ι : Type} (step : S → ι → S × Py Unit) : S → List ι → S × Py Unit
  | st, [] => (st, .ok ())
  | st, s :: t =>
    match step st s with
    | (st', .ok ()) => loopOver step st' t
    | (st', .error e) => (st', .error e)

/-- On the states with `P`, the result of a step does not depend on the state, repeating it changes nothing, and the order of two steps does not matter. -/
structure Repeatable {S ι : Type} (P : S → Prop) (step : S → ι → S × Py Unit) : Prop where
  keep : ∀ st s, P st → P (step st s).1
  result : ∀ st st' s, P st → P st' → (step st s).2 = (step st' s).2
  again : ∀ st s, P st → (step (step st s).1 s).1 = (step st s).1
  comm : ∀ st s t, P st → (step (step st s).1 t).1 = (step (step st t).1 s).1

variable {S ι : Type} {P : S → Prop} {step : S → ι → S × Py Unit}

theorem loopOver_ok {st st' : S} {s : ι} (t : List ι) (h : step st s = (st', .ok ())) : loopOver step st (s :: t) = loopOver step st' t := by
  rw [loopOver, h]

theorem loopOver_err {st st' : S} {s : ι} {e : PyErr} (t : List ι) (h : step st s = (st', .error e)) : loopOver step st (s :: t) = (st', .error e) := by
  rw [loopOver, h]

theorem Repeatable.step_eq (h : Repeatable P step) {st st' : S} (s : ι) (hst : P st) (hst' : P st') : step st' s = ((step st' s).1, (step st s).2) := by
  rw [h.result st st' s hst hst']

theorem Repeatable.keep_loop (h : Repeatable P step) (l : List ι) (st : S) (hst : P st) : P (loopOver step st l).1 := by
  induction l generalizing st with
  | nil => exact hst
  | cons s t ih =>
    have h1 := h.keep st s hst
    rcases e : step st s with ⟨st', e' | ⟨⟩⟩
    · rw [loopOver_err t e]; rw [e] at h1; exact h1
    · rw [loopOver_ok t e]; rw [e] at h1; exact ih st' h1

theorem Repeatable.swap (h : Repeatable P step) (l : List ι) (s : ι) (st : S) (hst : P st) :
    loopOver step (step st s).1 l = ((step (loopOver step st l).1 s).1, (loopOver step st l).2) := by
  induction l generalizing st with
  | nil => rfl
  | cons t u ih =>
    have hs := h.keep st s hst
    have ht := h.keep st t hst
    have h1 := h.step_eq t hst hs
    rw [h.comm st s t hst] at h1
    rcases e : step st t with ⟨st', e' | ⟨⟩⟩
    · rw [e] at h1 ht
      rw [loopOver_err u h1, loopOver_err u e]
    · rw [e] at h1 ht
      rw [loopOver_ok u h1, loopOver_ok u e]
      exact ih st' ht

theorem Repeatable.loop (h : Repeatable P step) (l : List ι) (st : S) (hst : P st) :
    loopOver step (loopOver step st l).1 l = loopOver step st l := by
  induction l generalizing st with
  | nil => rfl
  | cons s t ih =>
    have hs := h.keep st s hst
    have hag := h.again st s hst
    rcases e : step st s with ⟨st', e' | ⟨⟩⟩
    · have h1 := h.step_eq s hst hs
      rw [hag, e] at h1
      rw [loopOver_err t e]
      exact loopOver_err t h1
    · rw [e] at hs hag
      have hloop := h.keep_loop t st' hs
      have h1 := h.step_eq s hst hloop
      rw [e] at h1
      rw [loopOver_ok t e, loopOver_ok t h1]
      have h2 := h.swap t s (loopOver step st' t).1 hloop
      rw [ih st' hs] at h2
      have h3 := h.swap t s st' hs
      rw [hag] at h3
      have h4 : loopOver step st' t = ((step (loopOver step st' t).1 s).1, (loopOver step st' t).2) := h3
      exact h2.trans h4.symm

/-! ### ALE and RHALE -/

theorem fitLoop_loop (cfg : AleCfg K D) (bm : BinMethod K) (c : Centering) (st : AleState K D) (l : List (Fin D)) :
    fitLoop cfg bm c st l = loopOver (fun st s => fitOne cfg st s bm c) st l := by
  induction l generalizing st with
  | nil => rfl
  | cons s t ih =>
    unfold fitLoop loopOver
    rcases fitOne cfg st s bm c with ⟨st', e | ⟨⟩⟩
    · rfl
    · exact ih st'

theorem fitOne_repeatable (cfg : AleCfg K D) (bm : BinMethod K) (c : Centering) : Repeatable (fun _ => True) (fun st s => fitOne cfg st s bm c) := by
  refine ⟨fun _ _ _ => trivial, fun st st' s _ _ => ?_, fun st s _ => ?_, fun st s t _ => ?_⟩
  · unfold fitOne
    cases cfg.fitF s bm with
    | error e => rfl
    | ok p => simp only []; cases aleNormConst cfg p s c <;> rfl
  · unfold fitOne
    cases cfg.fitF s bm with
    | error e => rfl
    | ok p => simp only []; cases aleNormConst cfg p s c <;> simp
  · by_cases hst : s = t
    · subst hst; rfl
    unfold fitOne
    cases cfg.fitF s bm with
    | error e => simp only []
    | ok p =>
      cases cfg.fitF t bm with
      | error e => simp only []
      | ok q =>
        simp only []
        cases aleNormConst cfg p s c <;> cases aleNormConst cfg q t c <;> simp [Function.update_comm hst]

/-- **C91, ALE and RHALE.**  After any history of calls, a second `fit` with the same arguments has the same outcome as the first and leaves the object as it
is: whatever is called afterwards, it is as if `fit` had been called once.  This includes fits that raise. -/
theorem C91_ale [PySqrt K] (cfg : AleCfg K D) (ops later : List (AleOp K D)) (f : PyVal) (bm : BinMethod K) (c : PyVal) :
    (aleFit cfg (aleRun cfg (ops ++ [.fit f bm c])) f bm c).2 = (aleFit cfg (aleRun cfg ops) f bm c).2 ∧
    aleRun cfg (ops ++ [.fit f bm c, .fit f bm c] ++ later) = aleRun cfg (ops ++ [.fit f bm c] ++ later) := by
  have key : ∀ st, aleFit cfg (aleFit cfg st f bm c).1 f bm c = aleFit cfg st f bm c := by
    intro st
    unfold aleFit
    by_cases ha : cfg.allowed bm = true
    · simp only [if_pos ha]
      cases (do let f ← prepFeatures f D
                let c ← prepCentering c
                let l ← resolveFeatures D f
                return (l, c) : Py (List (Fin D) × Centering)) with
      | error e => rfl
      | ok q =>
        obtain ⟨l, m⟩ := q
        simp only [fitLoop_loop]
        exact (fitOne_repeatable cfg bm m).loop l st trivial
    · simp only [if_neg ha]
  have e : aleRun cfg (ops ++ [.fit f bm c]) = (aleFit cfg (aleRun cfg ops) f bm c).1 := by
    unfold aleRun
    rw [List.foldl_append]
    rfl
  refine ⟨by rw [e, key], ?_⟩
  unfold aleRun
  simp only [List.foldl_append, List.foldl_cons, List.foldl_nil, aleStep]
  rw [key]

/-! ### PDP and d-PDP -/

/-- The body of the loop of `PDPBase.fit`. -/
def pdpFitOne (cfg : PdpCfg K D) (c : Centering) (points : ℕ) (vec : Bool) (st : PdpState K D) (s : Fin D) : PdpState K D × Py Unit :=
  match pdpFitFeature cfg st.data s c points vec with
  | (d, .error e) => ({ st with data := d }, .error e)
  | (d, .ok nc) =>
    ({ data := d
       fe := Function.update st.fe s (some nc)
       fitted := Function.update st.fitted s true
       args := Function.update st.args s (some c) }, .ok ())

theorem pdpFitLoop_loop (cfg : PdpCfg K D) (c : Centering) (points : ℕ) (vec : Bool) (st : PdpState K D) (l : List (Fin D)) :
    pdpFitLoop cfg c points vec st l = loopOver (pdpFitOne cfg c points vec) st l := by
  induction l generalizing st with
  | nil => rfl
  | cons s t ih =>
    unfold pdpFitLoop loopOver pdpFitOne
    rcases pdpFitFeature cfg st.data s c points vec with ⟨d, e | nc⟩
    · rfl
    · exact ih _

theorem pdpFitOne_repeatable (cfg : PdpCfg K D) (data : List (Row K D)) (hw : AllWithin data cfg.axisLo cfg.axisHi) (c : Centering) (points : ℕ) (vec : Bool) :
    Repeatable (fun st => st.data = data) (pdpFitOne cfg c points vec) := by
  have hd : ∀ t, (pdpFitFeature cfg data t c points vec).1 = data := fun t => dropOutside_within hw t
  refine ⟨fun st s hst => ?_, fun st st' s hst hst' => ?_, fun st s hst => ?_, fun st s t hst => ?_⟩
  · unfold pdpFitOne
    have hd := hd s
    rw [hst]
    rcases e : pdpFitFeature cfg data s c points vec with ⟨d, er | nc⟩ <;> rw [e] at hd <;> exact hd
  · unfold pdpFitOne
    rw [hst, hst']
    rcases pdpFitFeature cfg data s c points vec with ⟨d, er | nc⟩ <;> rfl
  · unfold pdpFitOne
    have hd := hd s
    rw [hst]
    rcases e : pdpFitFeature cfg data s c points vec with ⟨d, er | nc⟩ <;> rw [e] at hd <;> obtain rfl : d = data := hd <;> simp [e]
  · by_cases hne : s = t
    · subst hne; rfl
    unfold pdpFitOne
    have hs := hd s
    have ht := hd t
    rw [hst]
    rcases es : pdpFitFeature cfg data s c points vec with ⟨d, er | nc⟩ <;> rw [es] at hs <;> obtain rfl : d = data := hs <;>
      rcases et : pdpFitFeature cfg d t c points vec with ⟨d', er' | nc'⟩ <;> rw [et] at ht <;> obtain rfl : d' = d := ht <;>
      simp [es, Function.update_comm hne]

theorem pdpFit_data (cfg : PdpCfg K D) (data : List (Row K D)) (hw : AllWithin data cfg.axisLo cfg.axisHi) (m : Centering) (points : ℕ) (vec : Bool)
    (l : List (Fin D)) (st : PdpState K D) (hst : st.data = data) : (pdpFitLoop cfg m points vec st l).1.data = data := by
  rw [pdpFitLoop_loop]
  exact (pdpFitOne_repeatable cfg data hw m points vec).keep_loop l st hst

theorem pdpRun_data [PySqrt K] (cfg : PdpCfg K D) (data : List (Row K D)) (hw : AllWithin data cfg.axisLo cfg.axisHi) (ops : List (PdpOp K D)) :
    (pdpRun cfg data ops).data = data := by
  have key : ∀ st : PdpState K D, st.data = data → (ops.foldl (pdpStep cfg) st).data = data := by
    induction ops with
    | nil => exact fun _ h => h
    | cons op t ih =>
      intro st hst
      rw [List.foldl_cons]
      apply ih
      cases op with
      | fit f c p v =>
        show (pdpFit cfg st f c p v).1.data = data
        rcases pdpFit_cases cfg f c p v with ⟨e, hh⟩ | ⟨m, -, hh⟩
        · rw [hh]; exact hst
        · rw [hh]; exact pdpFit_data cfg data hw m p v _ st hst
      | eval s xs het c all vec =>
        show (pdpEval cfg st s xs het c all vec).1.data = data
        unfold pdpEval
        cases prepCentering c with
        | error e => exact hst
        | ok m =>
          simp only []
          cases needsRefit (st.fitted s) (st.args s) m with
          | error e => exact hst
          | ok b =>
            cases b with
            | false => exact hst
            | true =>
              simp only []
              have h1 := pdpFit_data cfg data hw m 100 vec [s] st hst
              rcases e1 : pdpFitLoop cfg m 100 vec st [s] with ⟨q, er | ⟨⟩⟩ <;> rw [e1] at h1 <;> exact h1
  exact key _ rfl

theorem pdp_twice [PySqrt K] (cfg : PdpCfg K D) (data : List (Row K D)) (ops later : List (PdpOp K D)) (f c : PyVal) (points : ℕ) (vec : Bool)
    (key : pdpFit cfg (pdpFit cfg (pdpRun cfg data ops) f c points vec).1 f c points vec = pdpFit cfg (pdpRun cfg data ops) f c points vec) :
    (pdpFit cfg (pdpRun cfg data (ops ++ [.fit f c points vec])) f c points vec).2 = (pdpFit cfg (pdpRun cfg data ops) f c points vec).2 ∧
    pdpRun cfg data (ops ++ [.fit f c points vec, .fit f c points vec] ++ later) = pdpRun cfg data (ops ++ [.fit f c points vec] ++ later) := by
  have e : pdpRun cfg data (ops ++ [.fit f c points vec]) = (pdpFit cfg (pdpRun cfg data ops) f c points vec).1 := by
    unfold pdpRun
    rw [List.foldl_append]
    rfl
  refine ⟨by rw [e, key], ?_⟩
  unfold pdpRun at key ⊢
  simp only [List.foldl_append, List.foldl_cons, List.foldl_nil, pdpStep]
  rw [key]

/-- **C91, PDP and d-PDP when no instance lies outside of the axis limits** (in particular with default limits, see C53).
Missing: several features at once with limits that exclude instances, where the claim is false (`C91_false_pdp`). -/
theorem C91_pdp_default_limits_partial [PySqrt K] (cfg : PdpCfg K D) (data : List (Row K D)) (hw : AllWithin data cfg.axisLo cfg.axisHi)
    (ops later : List (PdpOp K D)) (f c : PyVal) (points : ℕ) (vec : Bool) :
    (pdpFit cfg (pdpRun cfg data (ops ++ [.fit f c points vec])) f c points vec).2 = (pdpFit cfg (pdpRun cfg data ops) f c points vec).2 ∧
    pdpRun cfg data (ops ++ [.fit f c points vec, .fit f c points vec] ++ later) = pdpRun cfg data (ops ++ [.fit f c points vec] ++ later) := by
  apply pdp_twice
  have hd := pdpRun_data cfg data hw ops
  rcases pdpFit_cases cfg f c points vec with ⟨e, hh⟩ | ⟨m, -, hh⟩
  · rw [hh, hh]
  · rw [hh, hh]
    simp only [pdpFitLoop_loop]
    exact (pdpFitOne_repeatable cfg data hw m points vec).loop _ _ hd

theorem pdpFitOne_again (cfg : PdpCfg K D) (m : Centering) (points : ℕ) (vec : Bool) (st : PdpState K D) (s : Fin D) :
    pdpFitOne cfg m points vec (pdpFitOne cfg m points vec st s).1 s = pdpFitOne cfg m points vec st s := by
  have h1 : (pdpFitFeature cfg st.data s m points vec).1 = dropOutside st.data (cfg.axisLo s) (cfg.axisHi s) s := rfl
  have h2 : pdpFitFeature cfg (dropOutside st.data (cfg.axisLo s) (cfg.axisHi s) s) s m points vec = pdpFitFeature cfg st.data s m points vec := by
    unfold pdpFitFeature
    rw [dropOutside_twice]
  unfold pdpFitOne
  rcases hf : pdpFitFeature cfg st.data s m points vec with ⟨d, e | z⟩ <;> rw [hf] at h1 h2 <;>
    obtain rfl : d = dropOutside st.data (cfg.axisLo s) (cfg.axisHi s) s := h1 <;> simp [h2]

/-- **C91, PDP and d-PDP, one feature**, whatever the axis limits. -/
theorem C91_pdp_one_feature_partial [PySqrt K] (cfg : PdpCfg K D) (data : List (Row K D)) (ops later : List (PdpOp K D)) (i : ℤ) (c : PyVal) (points : ℕ) (vec : Bool) :
    (pdpFit cfg (pdpRun cfg data (ops ++ [.fit (.int i) c points vec])) (.int i) c points vec).2 = (pdpFit cfg (pdpRun cfg data ops) (.int i) c points vec).2 ∧
    pdpRun cfg data (ops ++ [.fit (.int i) c points vec, .fit (.int i) c points vec] ++ later) = pdpRun cfg data (ops ++ [.fit (.int i) c points vec] ++ later) := by
  apply pdp_twice
  rcases pdpFit_cases cfg (.int i) c points vec with ⟨e, hh⟩ | ⟨m, -, hh⟩
  · rw [hh, hh]
  · rw [hh, hh]
    obtain hn | ⟨s, hn⟩ : named D (.int i) = [] ∨ ∃ s, named D (.int i) = [s] := by
      unfold named
      simp only [prepFeatures, resolveFeatures, bind, Except.bind, List.mapM_cons, List.mapM_nil, pure, Except.pure]
      by_cases hi : 0 ≤ i ∧ i.toNat < D
      · right; exact ⟨⟨i.toNat, hi.2⟩, by simp [hi]⟩
      · left; simp [hi]
    · rw [hn]; rfl
    · rw [hn]
      simp only [pdpFitLoop_loop]
      have h := pdpFitOne_again cfg m points vec (pdpRun cfg data ops) s
      rcases e : pdpFitOne cfg m points vec (pdpRun cfg data ops) s with ⟨q, er | ⟨⟩⟩
      · rw [e] at h
        rw [loopOver_err [] e]
        exact loopOver_err [] h
      · rw [e] at h
        rw [loopOver_ok [] e]
        exact loopOver_ok [] h

/-- **C91 is false for several features with axis limits that exclude instances** (bug: `_fit_feature` overwrites `self.data`): after `fit("all")` centred `eval` of
feature 0 raises, after a second `fit("all")` it does not. -/
theorem C91_false_pdp :
    (pdpEval exPdp (pdpRun exPdp [![0, 0], ![1, 3], ![1, 10]] [.fit (.str "all") (.str "zero_start") 100 true]) 0 [0, 1] false (.str "zero_start") false true).2 =
      .error .valueError ∧
    (pdpEval exPdp (pdpRun exPdp [![0, 0], ![1, 3], ![1, 10]] [.fit (.str "all") (.str "zero_start") 100 true, .fit (.str "all") (.str "zero_start") 100 true])
      0 [0, 1] false (.str "zero_start") false true).2 = .ok (.meanOnly [0, 1]) := by
  decide +kernel

/-! ### ShapDP -/

/-- The body of the loop of `ShapDP.fit`. -/
def shapFitOne (cfg : ShapCfg K D) (c : Centering) (points : ℕ) (st : ShapState K D) (s : Fin D) : ShapState K D × Py Unit :=
  match shapFitFeature cfg.ext cfg.axisLo cfg.axisHi st.data s c points with
  | (d, .error e) => ({ st with data := d }, .error e)
  | (d, .ok nc) =>
    ({ data := d
       fe := Function.update st.fe s (some nc)
       fitted := Function.update st.fitted s true
       args := Function.update st.args s (some c) }, .ok ())

theorem shapFitLoop_loop (cfg : ShapCfg K D) (c : Centering) (points : ℕ) (st : ShapState K D) (l : List (Fin D)) :
    shapFitLoop cfg c points st l = loopOver (shapFitOne cfg c points) st l := by
  induction l generalizing st with
  | nil => rfl
  | cons s t ih =>
    unfold shapFitLoop loopOver shapFitOne
    rcases shapFitFeature cfg.ext cfg.axisLo cfg.axisHi st.data s c points with ⟨d, e | nc⟩
    · rfl
    · exact ih _

theorem shapFitOne_repeatable (cfg : ShapCfg K D) (data : List (Row K D)) (hw : AllWithin data cfg.axisLo cfg.axisHi) (c : Centering) (points : ℕ) :
    Repeatable (fun st => st.data = data) (shapFitOne cfg c points) := by
  have hd : ∀ t, (shapFitFeature cfg.ext cfg.axisLo cfg.axisHi data t c points).1 = data := fun t => dropOutside_within hw t
  refine ⟨fun st s hst => ?_, fun st st' s hst hst' => ?_, fun st s hst => ?_, fun st s t hst => ?_⟩
  · unfold shapFitOne
    have hd := hd s
    rw [hst]
    rcases e : shapFitFeature cfg.ext cfg.axisLo cfg.axisHi data s c points with ⟨d, er | nc⟩ <;> rw [e] at hd <;> exact hd
  · unfold shapFitOne
    rw [hst, hst']
    rcases shapFitFeature cfg.ext cfg.axisLo cfg.axisHi data s c points with ⟨d, er | nc⟩ <;> rfl
  · unfold shapFitOne
    have hd := hd s
    rw [hst]
    rcases e : shapFitFeature cfg.ext cfg.axisLo cfg.axisHi data s c points with ⟨d, er | nc⟩ <;> rw [e] at hd <;> obtain rfl : d = data := hd <;> simp [e]
  · by_cases hne : s = t
    · subst hne; rfl
    unfold shapFitOne
    have hs := hd s
    have ht := hd t
    rw [hst]
    rcases es : shapFitFeature cfg.ext cfg.axisLo cfg.axisHi data s c points with ⟨d, er | nc⟩ <;> rw [es] at hs <;> obtain rfl : d = data := hs <;>
      rcases et : shapFitFeature cfg.ext cfg.axisLo cfg.axisHi d t c points with ⟨d', er' | nc'⟩ <;> rw [et] at ht <;> obtain rfl : d' = d := ht <;>
      simp [es, Function.update_comm hne]

theorem shapFit_data (cfg : ShapCfg K D) (data : List (Row K D)) (hw : AllWithin data cfg.axisLo cfg.axisHi) (m : Centering) (points : ℕ)
    (l : List (Fin D)) (st : ShapState K D) (hst : st.data = data) : (shapFitLoop cfg m points st l).1.data = data := by
  rw [shapFitLoop_loop]
  exact (shapFitOne_repeatable cfg data hw m points).keep_loop l st hst

theorem shapRun_data (cfg : ShapCfg K D) (data : List (Row K D)) (hw : AllWithin data cfg.axisLo cfg.axisHi) (ops : List (ShapOp K D)) :
    (shapRun cfg data ops).data = data := by
  have key : ∀ st : ShapState K D, st.data = data → (ops.foldl (shapStep cfg) st).data = data := by
    induction ops with
    | nil => exact fun _ h => h
    | cons op t ih =>
      intro st hst
      rw [List.foldl_cons]
      apply ih
      cases op with
      | fit f c p =>
        show (shapFit cfg st f c p).1.data = data
        rcases shapFit_cases cfg f c p with ⟨e, hh⟩ | ⟨m, -, hh⟩
        · rw [hh]; exact hst
        · rw [hh]; exact shapFit_data cfg data hw m p _ st hst
      | eval s xs het c =>
        show (shapEval cfg st s xs het c).1.data = data
        unfold shapEval
        cases prepCentering c with
        | error e => exact hst
        | ok m =>
          simp only []
          cases needsRefit (st.fitted s) (st.args s) m with
          | error e => exact hst
          | ok b =>
            cases b with
            | false => exact hst
            | true =>
              simp only []
              have h1 := shapFit_data cfg data hw m 100 [s] st hst
              rcases e1 : shapFitLoop cfg m 100 st [s] with ⟨q, er | ⟨⟩⟩ <;> rw [e1] at h1 <;> exact h1
  exact key _ rfl

theorem shap_twice (cfg : ShapCfg K D) (data : List (Row K D)) (ops later : List (ShapOp K D)) (f c : PyVal) (points : ℕ)
    (key : shapFit cfg (shapFit cfg (shapRun cfg data ops) f c points).1 f c points = shapFit cfg (shapRun cfg data ops) f c points) :
    (shapFit cfg (shapRun cfg data (ops ++ [.fit f c points])) f c points).2 = (shapFit cfg (shapRun cfg data ops) f c points).2 ∧
    shapRun cfg data (ops ++ [.fit f c points, .fit f c points] ++ later) = shapRun cfg data (ops ++ [.fit f c points] ++ later) := by
  have e : shapRun cfg data (ops ++ [.fit f c points]) = (shapFit cfg (shapRun cfg data ops) f c points).1 := by
    unfold shapRun
    rw [List.foldl_append]
    rfl
  refine ⟨by rw [e, key], ?_⟩
  unfold shapRun at key ⊢
  simp only [List.foldl_append, List.foldl_cons, List.foldl_nil, shapStep]
  rw [key]

/-- **C91, ShapDP when no instance lies outside of the axis limits** (in particular with default limits, see C53).
Missing: several features at once with limits that exclude instances, where the claim is false (`C91_false_shap`). -/
theorem C91_shap_default_limits_partial (cfg : ShapCfg K D) (data : List (Row K D)) (hw : AllWithin data cfg.axisLo cfg.axisHi)
    (ops later : List (ShapOp K D)) (f c : PyVal) (points : ℕ) :
    (shapFit cfg (shapRun cfg data (ops ++ [.fit f c points])) f c points).2 = (shapFit cfg (shapRun cfg data ops) f c points).2 ∧
    shapRun cfg data (ops ++ [.fit f c points, .fit f c points] ++ later) = shapRun cfg data (ops ++ [.fit f c points] ++ later) := by
  apply shap_twice
  have hd := shapRun_data cfg data hw ops
  rcases shapFit_cases cfg f c points with ⟨e, hh⟩ | ⟨m, -, hh⟩
  · rw [hh, hh]
  · rw [hh, hh]
    simp only [shapFitLoop_loop]
    exact (shapFitOne_repeatable cfg data hw m points).loop _ _ hd

theorem shapFitOne_again (cfg : ShapCfg K D) (m : Centering) (points : ℕ) (st : ShapState K D) (s : Fin D) :
    shapFitOne cfg m points (shapFitOne cfg m points st s).1 s = shapFitOne cfg m points st s := by
  have h1 : (shapFitFeature cfg.ext cfg.axisLo cfg.axisHi st.data s m points).1 = dropOutside st.data (cfg.axisLo s) (cfg.axisHi s) s := rfl
  have h2 : shapFitFeature cfg.ext cfg.axisLo cfg.axisHi (dropOutside st.data (cfg.axisLo s) (cfg.axisHi s) s) s m points = shapFitFeature cfg.ext cfg.axisLo cfg.axisHi st.data s m points := by
    unfold shapFitFeature
    rw [dropOutside_twice]
  unfold shapFitOne
  rcases hf : shapFitFeature cfg.ext cfg.axisLo cfg.axisHi st.data s m points with ⟨d, e | z⟩ <;> rw [hf] at h1 h2 <;>
    obtain rfl : d = dropOutside st.data (cfg.axisLo s) (cfg.axisHi s) s := h1 <;> simp [h2]

/-- **C91, ShapDP, one feature**, whatever the axis limits. -/
theorem C91_shap_one_feature_partial (cfg : ShapCfg K D) (data : List (Row K D)) (ops later : List (ShapOp K D)) (i : ℤ) (c : PyVal) (points : ℕ) :
    (shapFit cfg (shapRun cfg data (ops ++ [.fit (.int i) c points])) (.int i) c points).2 = (shapFit cfg (shapRun cfg data ops) (.int i) c points).2 ∧
    shapRun cfg data (ops ++ [.fit (.int i) c points, .fit (.int i) c points] ++ later) = shapRun cfg data (ops ++ [.fit (.int i) c points] ++ later) := by
  apply shap_twice
  rcases shapFit_cases cfg (.int i) c points with ⟨e, hh⟩ | ⟨m, -, hh⟩
  · rw [hh, hh]
  · rw [hh, hh]
    obtain hn | ⟨s, hn⟩ : named D (.int i) = [] ∨ ∃ s, named D (.int i) = [s] := by
      unfold named
      simp only [prepFeatures, resolveFeatures, bind, Except.bind, List.mapM_cons, List.mapM_nil, pure, Except.pure]
      by_cases hi : 0 ≤ i ∧ i.toNat < D
      · right; exact ⟨⟨i.toNat, hi.2⟩, by simp [hi]⟩
      · left; simp [hi]
    · rw [hn]; rfl
    · rw [hn]
      simp only [shapFitLoop_loop]
      have h := shapFitOne_again cfg m points (shapRun cfg data ops) s
      rcases e : shapFitOne cfg m points (shapRun cfg data ops) s with ⟨q, er | ⟨⟩⟩
      · rw [e] at h
        rw [loopOver_err [] e]
        exact loopOver_err [] h
      · rw [e] at h
        rw [loopOver_ok [] e]
        exact loopOver_ok [] h

/-- **C91 is false for ShapDP**, too: the explainer of `C69_false`; the second `fit("all")` explains one instance only. -/
theorem C91_false_shap :
    (shapEval exShap2 (shapRun exShap2 [![0, 0], ![1, 10]] [.fit (.str "all") (.bool false) 100]) 0 [0] false (.bool false)).2 = .ok ([-1/2], none) ∧
    (shapEval exShap2 (shapRun exShap2 [![0, 0], ![1, 10]] [.fit (.str "all") (.bool false) 100, .fit (.str "all") (.bool false) 100])
      0 [0] false (.bool false)).2 = .ok ([0], none) := by
  decide +kernel

/-! ### The regional classes -/

theorem regionalFitLoop_loop [PySqrt K] (o : RegionalObj K D) (kw : FitKw K D) (st : RegionalState K D) (l : List (Fin D)) :
    regionalFitLoop o kw st l = loopOver (regionalFitOne o kw) st l := by
  induction l generalizing st with
  | nil => rfl
  | cons s t ih =>
    unfold regionalFitLoop loopOver
    rcases regionalFitOne o kw st s with ⟨st', e | ⟨⟩⟩
    · rfl
    · exact ih st'

/-- What a fit of one feature computes; it does not depend on the state. -/
def fitResult [PySqrt K] (o : RegionalObj K D) (kw : FitKw K D) (f : Fin D) :
    Py (RegCfg K D × Option (Splits K D) × Option (List (Node K D)) × Option (List (Node K D))) := do
  let h ← regionalHeter o kw f
  let r := regionsOf o.cfg (kw.toArgs o) f
  let sp ← searchAllSplitsM r h
  let full ← splitsToTree r (posTextOf o.cfg.fmt none) sp false
  let pruned ← splitsToTree r (posTextOf o.cfg.fmt none) sp true
  return (r, sp, full, pruned)

theorem regionalFitOne_eq [PySqrt K] (o : RegionalObj K D) (kw : FitKw K D) (st : RegionalState K D) (f : Fin D) :
    (∀ e, fitResult o kw f = .error e → regionalFitOne o kw st f = (st, .error e)) ∧
    (∀ q, fitResult o kw f = .ok q → regionalFitOne o kw st f = ({ st with
        treeFull := Function.update st.treeFull f (some q.2.2.1)
        treePruned := Function.update st.treePruned f (some q.2.2.2)
        splits := Function.update st.splits f (some (q.1, q.2.1))
        fitted := Function.update st.fitted f true
        methodBin := Function.update st.methodBin f (some kw.bin) }, .ok ())) := by
  constructor
  · intro e h
    unfold fitResult at h
    unfold regionalFitOne
    rw [h]
  · rintro ⟨r, sp, full, pruned⟩ h
    unfold fitResult at h
    unfold regionalFitOne
    rw [h]

theorem regionalFitOne_repeatable [PySqrt K] (o : RegionalObj K D) (kw : FitKw K D) : Repeatable (fun _ => True) (regionalFitOne o kw) := by
  refine ⟨fun _ _ _ => trivial, fun st st' s _ _ => ?_, fun st s _ => ?_, fun st s t _ => ?_⟩
  · cases e : fitResult o kw s with
    | error er => rw [(regionalFitOne_eq o kw st s).1 er e, (regionalFitOne_eq o kw st' s).1 er e]
    | ok q => rw [(regionalFitOne_eq o kw st s).2 q e, (regionalFitOne_eq o kw st' s).2 q e]
  · cases e : fitResult o kw s with
    | error er => rw [(regionalFitOne_eq o kw st s).1 er e]; simp only [(regionalFitOne_eq o kw st s).1 er e]
    | ok q => rw [(regionalFitOne_eq o kw _ s).2 q e, (regionalFitOne_eq o kw st s).2 q e]; simp
  · by_cases hne : s = t
    · subst hne; rfl
    cases e : fitResult o kw s with
    | error er =>
      rw [(regionalFitOne_eq o kw st s).1 er e]
      cases (regionalFitOne o kw st t).2 <;> rw [(regionalFitOne_eq o kw (regionalFitOne o kw st t).1 s).1 er e]
    | ok q =>
      cases e' : fitResult o kw t with
      | error er =>
        rw [(regionalFitOne_eq o kw st t).1 er e', (regionalFitOne_eq o kw (regionalFitOne o kw st s).1 t).1 er e']
      | ok q' =>
        rw [(regionalFitOne_eq o kw _ t).2 q' e', (regionalFitOne_eq o kw st s).2 q e, (regionalFitOne_eq o kw _ s).2 q e, (regionalFitOne_eq o kw st t).2 q' e']
        simp [Function.update_comm hne]

/-- **C91, the regional classes**: after any history of calls, a second `fit` with the same arguments has the same outcome and leaves the object as it is. -/
theorem C91_regional [PySqrt K] (o : RegionalObj K D) (calls later : List (RegCall K D)) (f : PyVal) (kw : FitKw K D) :
    (regionalFit o (regRunM o (calls ++ [.fit f kw])) f kw).2 = (regionalFit o (regRunM o calls) f kw).2 ∧
    regRunM o (calls ++ [.fit f kw, .fit f kw] ++ later) = regRunM o (calls ++ [.fit f kw] ++ later) := by
  have key : ∀ st, regionalFit o (regionalFit o st f kw).1 f kw = regionalFit o st f kw := by
    intro st
    unfold regionalFit
    by_cases hm : kw.minPoints < 2
    · simp only [if_pos hm]
    · simp only [if_neg hm]
      cases (do let l ← prepFeatures f D
                resolveFeatures D l : Py (List (Fin D))) with
      | error e => rfl
      | ok l =>
        simp only [regionalFitLoop_loop]
        exact (regionalFitOne_repeatable o kw).loop l st trivial
  have e : regRunM o (calls ++ [.fit f kw]) = (regionalFit o (regRunM o calls) f kw).1 := by
    unfold regRunM
    rw [List.foldl_append]
    rfl
  refine ⟨by rw [e, key], ?_⟩
  unfold regRunM
  simp only [List.foldl_append, List.foldl_cons, List.foldl_nil, regStepM]
  rw [key]

/-- Non-trivial cases: RHALE's fit of an interaction is not the empty fit, and fitting the regional object twice leaves the three nodes of the first fit. -/
example : (match regionalNew interactionBB "rhale" interactionData none (.str "all") none none 3 none (fun q => toString q) with
    | .ok o => ((nodesOf o [.fit (.int 0) (interactionKw (.greedy 2 (some 2) (1 / 2) 1))] 0).map List.length,
        (nodesOf o [.fit (.int 0) (interactionKw (.greedy 2 (some 2) (1 / 2) 1)), .fit (.int 0) (interactionKw (.greedy 2 (some 2) (1 / 2) 1))] 0).map List.length)
    | .error _ => (none, none)) = (some 3, some 3) := by
  decide +kernel

end Effector
