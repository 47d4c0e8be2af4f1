import Verif.Props.CrashesShap

/-!
# C109: trying again after the user's code has raised
-/

set_option linter.unusedSectionVars false

namespace Effector

variable {K : Type} [Field K] [LinearOrder K] [IsStrictOrderedRing K] {D : ℕ} {σ : Type}

open Spec

theorem loopOver_append {S ι : Type} {step : S → ι → S × Py Unit} (l1 l2 : List ι) {st st1 : S} (h : loopOver step st l1 = (st1, .ok ())) :
    loopOver step st (l1 ++ l2) = loopOver step st1 l2 := by
  induction l1 generalizing st with
  | nil => injection h with h _; subst h; rfl
  | cons s t ih =>
    rcases e : step st s with ⟨st', e' | ⟨⟩⟩
    · rw [loopOver_err t e] at h; cases h
    · rw [loopOver_ok t e] at h
      rw [List.cons_append, loopOver_ok _ e]
      exact ih h

/-- A loop that was interrupted after some of the first steps can be run again from the start. -/
theorem Repeatable.restart {S ι : Type} {P : S → Prop} {step : S → ι → S × Py Unit} (h : Repeatable P step) (l1 l2 : List ι) {st st1 : S} (hst : P st)
    (h1 : loopOver step st l1 = (st1, .ok ())) : loopOver step st1 (l1 ++ l2) = loopOver step st (l1 ++ l2) := by
  have h2 := h.loop l1 st hst
  rw [h1] at h2
  rw [loopOver_append l1 l2 h2, loopOver_append l1 l2 h1]

/-- **C109, trying again (ALE, RHALE).** A request that was interrupted, made again and answered, returns what it would have returned, and leaves what it would have
left, had it not been interrupted. -/
theorem C109_retry_ale [PySqrt K] (pu : AleCfg K D) (avg : K) (st st' : AleState K D) (q : AleReq K D) (h : aleLeft pu st q st') :
    aleAnswer pu avg st' q = aleAnswer pu avg st q := by
  cases q with
  | fit f bm c =>
    obtain ⟨v, l1, s, l2, c', hb, hf, hl, hc, hst⟩ := h
    have key : aleFit pu st' f bm c = aleFit pu st f bm c := by
      unfold aleFit
      simp only [hb, if_true, hf, hc, hl, bind, Except.bind, pure, Except.pure]
      rw [fitLoop_loop] at hst
      rw [fitLoop_loop, fitLoop_loop]
      exact (fitOne_repeatable pu bm c').restart l1 (s :: l2) trivial hst
    simp only [aleAnswer, key]
  | eval s xs het c => rw [show st' = st from h]
  | plot s het c showAvg scaleY => rw [show st' = st from h]

/-! ## PDP and DerPDP -/

theorem pdpFitOne_without (pu : PdpCfg K D) (c : Centering) (points : ℕ) (vec : Bool) (st : PdpState K D) (s : Fin D) :
    pdpFitLoop pu c points vec (Spec.PdpState.without st pu.axisLo pu.axisHi s) [s] = pdpFitLoop pu c points vec st [s] := by
  rw [without_eq]
  have : pdpFitFeature pu (dropOutside st.data (pu.axisLo s) (pu.axisHi s) s) s c points vec = pdpFitFeature pu st.data s c points vec := by
    simp only [pdpFitFeature, dropOutside_twice]
  rw [pdpFitLoop, pdpFitLoop]
  simp only [this]

theorem pdpFitLoop_one (pu : PdpCfg K D) (c : Centering) (points : ℕ) (vec : Bool) (st : PdpState K D) (s : Fin D) :
    (∃ e, pdpFitLoop pu c points vec st [s] = (Spec.PdpState.without st pu.axisLo pu.axisHi s, .error e)) ∨
    (∃ st', pdpFitLoop pu c points vec st [s] = (st', .ok ()) ∧ st'.fitted s = true ∧ st'.args s = some c) := by
  rw [without_eq, pdpFitLoop]
  have hd : (pdpFitFeature pu st.data s c points vec).1 = dropOutside st.data (pu.axisLo s) (pu.axisHi s) s := rfl
  revert hd
  generalize pdpFitFeature pu st.data s c points vec = q
  obtain ⟨d, r⟩ := q
  rintro rfl
  cases r with
  | error e => exact .inl ⟨e, rfl⟩
  | ok nc => exact .inr ⟨_, rfl, by simp, by simp⟩

/-- `eval` again. -/
theorem pdpEval_again [PySqrt K] (pu : PdpCfg K D) (st st' : PdpState K D) (s : Fin D) (xs : List K) (het : Bool) (c : PyVal) (all vec : Bool)
    (h : (∃ c', prepCentering c = .ok c' ∧ ToBeFitted st.fitted st.args s c' ∧ st' = Spec.PdpState.without st pu.axisLo pu.axisHi s) ∨
      st' = (pdpEval pu st s xs het c all vec).1) : pdpEval pu st' s xs het c all vec = pdpEval pu st s xs het c all vec := by
  cases hc : prepCentering c with
  | error e => simp only [pdpEval, hc] at h ⊢; rcases h with ⟨_, h, _⟩ | h; cases h; rw [h]
  | ok c' =>
    have first : ∀ st', ToBeFitted st.fitted st.args s c' → st' = Spec.PdpState.without st pu.axisLo pu.axisHi s →
        pdpEval pu st' s xs het c all vec = pdpEval pu st s xs het c all vec := by
      rintro st' ht rfl
      have hn := needsRefit_true.2 ht
      have hn' : needsRefit ((Spec.PdpState.without st pu.axisLo pu.axisHi s).fitted s) ((Spec.PdpState.without st pu.axisLo pu.axisHi s).args s) c' = .ok true := hn
      simp only [pdpEval, hc, hn, hn', pdpFitOne_without]
    rcases h with ⟨c'', hc'', ht, hst⟩ | h
    · rw [hc] at hc''; injection hc'' with hc''; subst hc''
      exact first st' ht hst
    · cases hn : needsRefit (st.fitted s) (st.args s) c' with
      | error e => simp only [pdpEval, hc, hn] at h; rw [h]
      | ok b =>
        cases b with
        | false => simp only [pdpEval, hc, hn] at h; rw [h]
        | true =>
          rcases pdpFitLoop_one pu c' 100 vec st s with ⟨e, he⟩ | ⟨st1, he, h1, h2⟩
          · simp only [pdpEval, hc, hn, he] at h
            exact first st' (needsRefit_true.1 hn) h
          · have h0 : st' = st1 := by simpa only [pdpEval, hc, hn, he] using h
            subst h0
            have hn' : needsRefit (st'.fitted s) (st'.args s) c' = .ok false := by
              rw [h1, h2]
              cases c' <;> rfl
            simp only [pdpEval, hc, hn, he, hn']

/-- **C109, trying again (PDP, DerPDP).** An `eval` or `plot` that was interrupted, made again and answered, returns what it would have returned, and leaves what it would
have left, had it not been interrupted, whatever the axis limits.  For `fit` this is so when the limits include the data (see `C109_false_pdp_fit`). -/
theorem C109_retry_pdp [PySqrt K] (pu : PdpCfg K D) (avg : K) (st st' : PdpState K D) (q : PdpReq K D) (h : pdpLeft pu st q st')
    (hfit : ∀ f c points vec, q = .fit f c points vec → AllWithin st.data pu.axisLo pu.axisHi) :
    pdpAnswer pu avg st' q = pdpAnswer pu avg st q := by
  cases q with
  | fit f c points vec =>
    have hw := hfit f c points vec rfl
    obtain ⟨⟨v, l1, s, l2, c', hf, hl, hc, hst⟩, hd⟩ := pdpLeft_within hw h
    have key : pdpFit pu st' f c points vec = pdpFit pu st f c points vec := by
      unfold pdpFit
      simp only [hf, hc, hl, bind, Except.bind, pure, Except.pure]
      rw [pdpFitLoop_loop] at hst
      rw [pdpFitLoop_loop, pdpFitLoop_loop]
      exact (pdpFitOne_repeatable pu st.data hw c' points vec).restart l1 (s :: l2) rfl hst
    simp only [pdpAnswer, key]
  | eval s xs het c all vec => simp only [pdpAnswer, pdpEval_again pu st st' s xs het c all vec h]
  | plot s het c n showAvg scaleY vec =>
    obtain ⟨⟨h', hh⟩, h⟩ := h
    simp only [pdpAnswer, hh, pdpEval_again pu st st' s _ false c true vec h]

/-! ## ShapDP -/

theorem shapFitOne_without (pu : ShapCfg K D) (c : Centering) (points : ℕ) (st : ShapState K D) (s : Fin D) :
    shapFitLoop pu c points (Spec.ShapState.without st pu.axisLo pu.axisHi s) [s] = shapFitLoop pu c points st [s] := by
  rw [shapWithout_eq]
  have : shapFitFeature pu.ext pu.axisLo pu.axisHi (dropOutside st.data (pu.axisLo s) (pu.axisHi s) s) s c points =
      shapFitFeature pu.ext pu.axisLo pu.axisHi st.data s c points := by
    simp only [shapFitFeature, dropOutside_twice]
  rw [shapFitLoop, shapFitLoop]
  simp only [this]

/-- **C109, trying again (ShapDP).** The same for ShapDP. -/
theorem C109_retry_shap (pu : ShapCfg K D) (st st' : ShapState K D) (q : ShapReq K D) (h : shapLeft pu st q st')
    (hfit : ∀ f c points, q = .fit f c points → AllWithin st.data pu.axisLo pu.axisHi) :
    shapAnswer pu st' q = shapAnswer pu st q := by
  cases q with
  | fit f c points =>
    have hw := hfit f c points rfl
    obtain ⟨⟨v, l1, s, l2, c', hf, hl, hc, hst⟩, hd⟩ := shapLeft_within hw h
    have key : shapFit pu st' f c points = shapFit pu st f c points := by
      unfold shapFit
      simp only [hf, hc, hl, bind, Except.bind, pure, Except.pure]
      rw [shapFitLoop_loop] at hst
      rw [shapFitLoop_loop, shapFitLoop_loop]
      exact (shapFitOne_repeatable pu st.data hw c' points).restart l1 (s :: l2) rfl hst
    simp only [shapAnswer, key]
  | eval s xs het c =>
    obtain ⟨c', hc, ht, rfl⟩ := h
    have hn := needsRefit_true.2 ht
    have hn' : needsRefit ((Spec.ShapState.without st pu.axisLo pu.axisHi s).fitted s) ((Spec.ShapState.without st pu.axisLo pu.axisHi s).args s) c' = .ok true := hn
    have key : shapEval pu (Spec.ShapState.without st pu.axisLo pu.axisHi s) s xs het c = shapEval pu st s xs het c := by
      simp only [shapEval, hc, hn, hn', shapFitOne_without]
    simp only [shapAnswer, key]

end Effector
