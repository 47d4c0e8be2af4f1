import Verif.Props.Shap

/-!
# C69: do the features of a ShapDP object interfere?

With default axis limits they do not, whatever `shap` and the spline do.  With user-given axis limits they do: `fit` of one feature permanently removes the
instances outside of its limits, and the SHAP values of the other features are then computed against another background data set (`C69_false`).
-/

set_option linter.unusedSectionVars false

namespace Effector

open Spec

variable {K : Type} [Field K] [LinearOrder K] [IsStrictOrderedRing K] {D : ℕ}

namespace Spec

/-- The call names feature `s`. -/
def ShapConcerns (s : Fin D) : ShapOp K D → Prop
  | .fit f _ _ => s ∈ named D f
  | .eval t _ _ _ => t = s

instance (s : Fin D) (op : ShapOp K D) : Decidable (ShapConcerns s op) := by
  cases op <;> unfold ShapConcerns <;> infer_instance

end Spec

/-- Same about feature `s`, and both still own all the data. -/
structure ShapSame (data : List (Row K D)) (s : Fin D) (st st' : ShapState K D) : Prop where
  data1 : st.data = data
  data2 : st'.data = data
  fe : st.fe s = st'.fe s
  fitted : st.fitted s = st'.fitted s
  args : st.args s = st'.args s

theorem shapFitLoop_local {cfg : ShapCfg K D} {data : List (Row K D)} (hw : AllWithin data cfg.axisLo cfg.axisHi) (s : Fin D) (c : Centering)
    (points : ℕ) (l : List (Fin D)) {st st' : ShapState K D} (h : ShapSame data s st st') :
    ShapSame data s (shapFitLoop cfg c points st l).1 (shapFitLoop cfg c points st' l).1 ∧
      (shapFitLoop cfg c points st l).2 = (shapFitLoop cfg c points st' l).2 := by
  induction l generalizing st st' with
  | nil => exact ⟨h, rfl⟩
  | cons t l ih =>
    unfold shapFitLoop
    rw [h.data1, h.data2]
    have hd : (shapFitFeature cfg.ext cfg.axisLo cfg.axisHi data t c points).1 = data := dropOutside_within hw t
    rcases e : shapFitFeature cfg.ext cfg.axisLo cfg.axisHi data t c points with ⟨d, r⟩
    rw [e] at hd
    obtain rfl : d = data := hd
    cases r with
    | error e => exact ⟨⟨rfl, rfl, h.fe, h.fitted, h.args⟩, rfl⟩
    | ok nc =>
      refine ih ⟨rfl, rfl, ?_, ?_, ?_⟩ <;> by_cases hst : s = t
      · subst hst; simp
      · simp [hst, h.fe]
      · subst hst; simp
      · simp [hst, h.fitted]
      · subst hst; simp
      · simp [hst, h.args]

theorem shapFitLoop_other {cfg : ShapCfg K D} {data : List (Row K D)} (hw : AllWithin data cfg.axisLo cfg.axisHi) {s : Fin D} (c : Centering)
    (points : ℕ) (l : List (Fin D)) (hs : s ∉ l) {st : ShapState K D} (h : st.data = data) :
    ShapSame data s (shapFitLoop cfg c points st l).1 st := by
  induction l generalizing st with
  | nil => exact ⟨h, h, rfl, rfl, rfl⟩
  | cons t l ih =>
    have hst : s ≠ t := fun e => hs (by simp [e])
    unfold shapFitLoop
    rw [h]
    have hd : (shapFitFeature cfg.ext cfg.axisLo cfg.axisHi data t c points).1 = data := dropOutside_within hw t
    rcases e : shapFitFeature cfg.ext cfg.axisLo cfg.axisHi data t c points with ⟨d, r⟩
    rw [e] at hd
    obtain rfl : d = data := hd
    cases r with
    | error e => exact ⟨rfl, h, rfl, rfl, rfl⟩
    | ok nc =>
      obtain ⟨i1, i2, i3, i4, i5⟩ := ih (fun hh => hs (by simp [hh]))
        (st := { data := d, fe := Function.update st.fe t (some nc), fitted := Function.update st.fitted t true,
                 args := Function.update st.args t (some c) }) rfl
      refine ⟨i1, h, ?_, ?_, ?_⟩
      · rw [i3]; simp [hst]
      · rw [i4]; simp [hst]
      · rw [i5]; simp [hst]

theorem shapFit_cases (cfg : ShapCfg K D) (f c : PyVal) (points : ℕ) :
    (∃ e, ∀ st : ShapState K D, shapFit cfg st f c points = (st, .error e)) ∨
    (∃ m, prepCentering c = .ok m ∧ ∀ st : ShapState K D, shapFit cfg st f c points = shapFitLoop cfg m points st (named D f)) := by
  unfold shapFit named
  simp only [bind, Except.bind]
  cases prepCentering c with
  | error e => exact Or.inl ⟨e, fun st => rfl⟩
  | ok m =>
    simp only []
    cases prepFeatures f D with
    | error e => exact Or.inl ⟨e, fun st => rfl⟩
    | ok g =>
      simp only []
      cases resolveFeatures D g with
      | error e => exact Or.inl ⟨e, fun st => rfl⟩
      | ok l => exact Or.inr ⟨m, rfl, fun st => rfl⟩

theorem shapEvalFitted_same (cfg : ShapCfg K D) {data : List (Row K D)} {s : Fin D} {st st' : ShapState K D} (h : ShapSame data s st st')
    (xs : List K) (het : Bool) (c : Centering) : shapEvalFitted cfg st s xs het c = shapEvalFitted cfg st' s xs het c := by
  unfold shapEvalFitted
  rw [h.fe]

theorem shapEval_same {cfg : ShapCfg K D} {data : List (Row K D)} (hw : AllWithin data cfg.axisLo cfg.axisHi) {s : Fin D}
    {st st' : ShapState K D} (h : ShapSame data s st st') (xs : List K) (het : Bool) (c : PyVal) :
    ShapSame data s (shapEval cfg st s xs het c).1 (shapEval cfg st' s xs het c).1 ∧
      (shapEval cfg st s xs het c).2 = (shapEval cfg st' s xs het c).2 := by
  unfold shapEval
  cases prepCentering c with
  | error e => exact ⟨h, rfl⟩
  | ok m =>
    simp only []
    rw [h.fitted, h.args]
    cases needsRefit (st'.fitted s) (st'.args s) m with
    | error e => exact ⟨h, rfl⟩
    | ok b =>
      cases b with
      | false => exact ⟨h, shapEvalFitted_same cfg h xs het m⟩
      | true =>
        simp only []
        obtain ⟨h1, h2⟩ := shapFitLoop_local hw s m 100 [s] h
        rcases e1 : shapFitLoop cfg m 100 st [s] with ⟨q, r⟩
        rcases e2 : shapFitLoop cfg m 100 st' [s] with ⟨q', r'⟩
        rw [e1, e2] at h1 h2
        obtain rfl : r = r' := h2
        cases r with
        | error e => exact ⟨h1, rfl⟩
        | ok u => exact ⟨h1, shapEvalFitted_same cfg h1 xs het m⟩

theorem shapEval_other {cfg : ShapCfg K D} {data : List (Row K D)} (hw : AllWithin data cfg.axisLo cfg.axisHi) {s t : Fin D} (hst : s ≠ t)
    {st : ShapState K D} (h : st.data = data) (xs : List K) (het : Bool) (c : PyVal) : ShapSame data s (shapEval cfg st t xs het c).1 st := by
  have h0 : ShapSame data s st st := ⟨h, h, rfl, rfl, rfl⟩
  unfold shapEval
  cases prepCentering c with
  | error e => exact h0
  | ok m =>
    simp only []
    cases needsRefit (st.fitted t) (st.args t) m with
    | error e => exact h0
    | ok b =>
      cases b with
      | false => exact h0
      | true =>
        simp only []
        have h1 := shapFitLoop_other hw m 100 [t] (s := s) (by simpa using hst) h
        rcases e1 : shapFitLoop cfg m 100 st [t] with ⟨q, r⟩
        rw [e1] at h1
        cases r <;> exact h1

theorem shapStep_other {cfg : ShapCfg K D} {data : List (Row K D)} (hw : AllWithin data cfg.axisLo cfg.axisHi) {s : Fin D}
    (op : ShapOp K D) (hop : ¬ ShapConcerns s op) {st : ShapState K D} (h : st.data = data) : ShapSame data s (shapStep cfg st op) st := by
  cases op with
  | fit f c p =>
    show ShapSame data s (shapFit cfg st f c p).1 st
    rcases shapFit_cases cfg f c p with ⟨e, hh⟩ | ⟨m, -, hh⟩
    · rw [hh]; exact ⟨h, h, rfl, rfl, rfl⟩
    · rw [hh]; exact shapFitLoop_other hw m p _ hop h
  | eval t xs het c => exact shapEval_other hw (fun e => hop e.symm) h xs het c

theorem shapStep_local {cfg : ShapCfg K D} {data : List (Row K D)} (hw : AllWithin data cfg.axisLo cfg.axisHi) {s : Fin D}
    (op : ShapOp K D) {st st' : ShapState K D} (h : ShapSame data s st st') : ShapSame data s (shapStep cfg st op) (shapStep cfg st' op) := by
  by_cases hop : ShapConcerns s op
  · cases op with
    | fit f c p =>
      show ShapSame data s (shapFit cfg st f c p).1 (shapFit cfg st' f c p).1
      rcases shapFit_cases cfg f c p with ⟨e, hh⟩ | ⟨m, -, hh⟩
      · rw [hh, hh]; exact h
      · rw [hh, hh]; exact (shapFitLoop_local hw s m p _ h).1
    | eval t xs het c =>
      obtain rfl : t = s := hop
      exact (shapEval_same hw h xs het c).1
  · have h1 := shapStep_other hw op hop h.data1
    have h2 := shapStep_other hw op hop h.data2
    exact ⟨h1.data1, h2.data1, h1.fe.trans (h.fe.trans h2.fe.symm), h1.fitted.trans (h.fitted.trans h2.fitted.symm),
      h1.args.trans (h.args.trans h2.args.symm)⟩

/-- **C69, when no instance lies outside of the axis limits** (in particular with default limits).  For every history of calls, successful or not, and every
behaviour of the explainer and the spline: dropping all calls that do not name feature `i` changes nothing about what `eval` returns or raises for `i`.
Missing: user-given axis limits that exclude instances, where the property is false (`C69_false`). -/
theorem C69_default_limits_partial (cfg : ShapCfg K D) (data : List (Row K D)) (hw : AllWithin data cfg.axisLo cfg.axisHi)
    (calls : List (ShapOp K D)) (i : Fin D) (xs : List K) (het : Bool) (c : PyVal) :
    (shapEval cfg (shapRun cfg data calls) i xs het c).2 =
      (shapEval cfg (shapRun cfg data (calls.filter fun op => ShapConcerns i op)) i xs het c).2 := by
  suffices ∀ st st' : ShapState K D, ShapSame data i st st' →
      ShapSame data i (calls.foldl (shapStep cfg) st) ((calls.filter fun op => ShapConcerns i op).foldl (shapStep cfg) st') from
    (shapEval_same hw (this _ _ ⟨rfl, rfl, rfl, rfl, rfl⟩) xs het c).2
  induction calls with
  | nil => exact fun _ _ h => h
  | cons op t ih =>
    intro st st' hs
    by_cases hop : ShapConcerns i op
    · rw [List.filter_cons_of_pos (by simpa using hop)]
      exact ih _ _ (shapStep_local hw op hs)
    · rw [List.filter_cons_of_neg (by simpa using hop)]
      have h1 := shapStep_other hw op hop hs.data1
      exact ih _ _ ⟨h1.data1, hs.data2, h1.fe.trans hs.fe, h1.fitted.trans hs.fitted, h1.args.trans hs.args⟩

/-- The same for an object as constructed, without `axis_limits`. -/
theorem C69_constructed_partial (choice : ℕ → ℕ → List ℕ) (data : List (Row K D)) (nof : PyVal) (b : Base K D)
    (hb : shapInit choice data nof none = .ok b) (ext : ShapExt K D) (calls : List (ShapOp K D)) (i : Fin D) (xs : List K) (het : Bool) (c : PyVal) :
    let cfg : ShapCfg K D := { ext := ext, axisLo := b.axisLo, axisHi := b.axisHi }
    (shapEval cfg (shapRun cfg b.data calls) i xs het c).2 =
      (shapEval cfg (shapRun cfg b.data (calls.filter fun op => ShapConcerns i op)) i xs het c).2 := by
  intro cfg
  refine C69_default_limits_partial cfg b.data ?_ calls i xs het c
  unfold shapInit at hb
  simp only [bind, Except.bind] at hb
  cases h1 : prepNofInstances choice nof data.length with
  | error e => rw [h1] at hb; cases hb
  | ok q =>
    obtain ⟨n, idx⟩ := q
    rw [h1] at hb
    simp only [] at hb
    cases h2 : takeRows data idx with
    | error e => rw [h2] at hb; cases hb
    | ok d =>
      rw [h2] at hb
      exact (C53_default_limits choice d nof b hb).1

/-- An explainer like the one of `shap` for a linear model: the value of a feature minus its mean over the background data; the "spline" is the horizontal line
through the first point.  Limits [0, 1] and [0, 5]. -/
def exShap2 : ShapCfg ℚ 2 :=
  { ext := { explain := fun d => .ok (d.map fun r t => r t - (d.map fun q => q t).sum / d.length),
             spline := fun l => .ok fun _ => (l.map (·.2)).headD 0 },
    axisLo := ![0, 0], axisHi := ![1, 5] }

/-- **C69 is false with user-given axis limits** (bug: `_fit_feature` overwrites `self.data`).  The SHAP dependence of feature 0 is -1/2 at 0 on a fresh object,
and 0 after `fit(features=1)`, because the instance (1, 10) has been thrown away. -/
theorem C69_false :
    (shapEval exShap2 (shapRun exShap2 [![0, 0], ![1, 10]] []) 0 [0] false (.bool false)).2 = .ok ([-1/2], none) ∧
    (shapEval exShap2 (shapRun exShap2 [![0, 0], ![1, 10]] [.fit (.int 1) (.bool false) 100]) 0 [0] false (.bool false)).2 = .ok ([0], none) := by
  constructor <;> decide +kernel

/-- Non-vacuity of `C69_default_limits_partial`: with limits that contain the data the call on feature 1 is dropped, and the result is not trivial. -/
example : AllWithin [![(0 : ℚ), 0], ![1, 10]] ![0, 0] ![1, 10] ∧
    (shapEval { exShap2 with axisHi := ![1, 10] } (shapRun { exShap2 with axisHi := ![1, 10] } [![0, 0], ![1, 10]]
      [.fit (.int 1) (.bool false) 100, .fit (.int 0) (.str "zero_start") 100]) 0 [0] false (.bool false)).2 = .ok ([-1/2], none) := by
  refine ⟨?_, by decide +kernel⟩
  intro r hr t
  fin_cases t <;> simp at hr <;> rcases hr with rfl | rfl <;> simp

/-! ### C72: the order of the instances does not matter -/

theorem sortPairs_perm {l l' : List (K × K)} (h : l.Perm l') (hd : (l.map (·.1)).Nodup) : sortPairs l = sortPairs l' := by
  obtain ⟨p1, s1⟩ := sortPairs_spec l
  obtain ⟨p2, s2⟩ := sortPairs_spec l'
  refine List.Perm.eq_of_pairwise ?_ s1 s2 (p1.trans (h.trans p2.symm))
  intro a b ha hb hab hba
  have ha' : a ∈ l := p1.subset ha
  have hb' : b ∈ l := h.symm.subset (p2.subset hb)
  exact List.inj_on_of_nodup_map hd ha' hb' (le_antisymm hab hba)

namespace Spec

/-- An explainer that explains every instance against the data set as a whole, so that the order of the instances does not matter. -/
def OrderFree (explain : List (Row K D) → Py (List (Row K D))) : Prop :=
  ∃ phi : List (Row K D) → Py (Row K D → Row K D), (∀ d, explain d = (phi d).map fun f => d.map f) ∧ ∀ d d', d.Perm d' → phi d = phi d'

end Spec

theorem shapFitFeature_perm (ext : ShapExt K D) (hext : OrderFree ext.explain) (lo hi : Fin D → K) {data data' : List (Row K D)} (hperm : data.Perm data')
    (s : Fin D) (hd : (data.map fun r => r s).Nodup) (c : Centering) (points : ℕ) :
    (shapFitFeature ext lo hi data s c points).1.Perm (shapFitFeature ext lo hi data' s c points).1 ∧
    (shapFitFeature ext lo hi data s c points).2 = (shapFitFeature ext lo hi data' s c points).2 := by
  obtain ⟨phi, h1, h2⟩ := hext
  unfold shapFitFeature
  simp only [dropOutside_eq]
  have hp : (inLimits data lo hi s).Perm (inLimits data' lo hi s) := hperm.filter _
  refine ⟨hp, ?_⟩
  simp only [h1, h2 _ _ hp]
  cases hf : phi (inLimits data' lo hi s) with
  | error e => rfl
  | ok f =>
    have hz : ∀ d : List (Row K D), (col d s).zip (col (d.map f) s) = d.map fun r => (r s, f r s) := by
      intro d
      unfold col
      rw [List.map_map, List.zip_map']
      rfl
    have hs : sortPairs ((col (inLimits data lo hi s) s).zip (col ((inLimits data lo hi s).map f) s)) =
        sortPairs ((col (inLimits data' lo hi s) s).zip (col ((inLimits data' lo hi s).map f) s)) := by
      rw [hz, hz]
      refine sortPairs_perm (hp.map _) ?_
      rw [List.map_map]
      have : (fun p : K × K => p.1) ∘ (fun r : Row K D => (r s, f r s)) = fun r => r s := rfl
      rw [this]
      exact hd.sublist ((List.filter_sublist).map _)
    simp only [Except.map, bind, Except.bind, hs]

/-- Two objects that differ only in the order of their instances. -/
structure ShapPerm (st st' : ShapState K D) : Prop where
  data : st.data.Perm st'.data
  fe : st.fe = st'.fe
  fitted : st.fitted = st'.fitted
  args : st.args = st'.args

theorem shapFitFeature_sublist (ext : ShapExt K D) (lo hi : Fin D → K) (data : List (Row K D)) (s : Fin D) (c : Centering) (points : ℕ) :
    (shapFitFeature ext lo hi data s c points).1.Sublist data := by
  unfold shapFitFeature
  simp only [dropOutside_eq]
  exact List.filter_sublist

/-- The feature values stay distinct. -/
def Distinct (data : List (Row K D)) : Prop := ∀ s, (data.map fun r => r s).Nodup

theorem shapFitLoop_perm (cfg : ShapCfg K D) (hext : OrderFree cfg.ext.explain) (c : Centering) (points : ℕ) (l : List (Fin D)) {st st' : ShapState K D}
    (h : ShapPerm st st') (hd : Distinct st.data) :
    ShapPerm (shapFitLoop cfg c points st l).1 (shapFitLoop cfg c points st' l).1 ∧
      (shapFitLoop cfg c points st l).2 = (shapFitLoop cfg c points st' l).2 ∧ Distinct (shapFitLoop cfg c points st l).1.data := by
  induction l generalizing st st' with
  | nil => exact ⟨h, rfl, hd⟩
  | cons t l ih =>
    unfold shapFitLoop
    obtain ⟨h1, h2⟩ := shapFitFeature_perm cfg.ext hext cfg.axisLo cfg.axisHi h.data t (hd t) c points
    have hsub := shapFitFeature_sublist cfg.ext cfg.axisLo cfg.axisHi st.data t c points
    rcases e1 : shapFitFeature cfg.ext cfg.axisLo cfg.axisHi st.data t c points with ⟨d, r⟩
    rcases e2 : shapFitFeature cfg.ext cfg.axisLo cfg.axisHi st'.data t c points with ⟨d', r'⟩
    rw [e1, e2] at h1 h2
    rw [e1] at hsub
    obtain rfl : r = r' := h2
    have hd' : Distinct d := fun s => (hd s).sublist (hsub.map _)
    cases r with
    | error e => exact ⟨⟨h1, h.fe, h.fitted, h.args⟩, rfl, hd'⟩
    | ok fe => exact ih ⟨h1, by simp [h.fe], by simp [h.fitted], by simp [h.args]⟩ hd'

theorem shapEval_perm (cfg : ShapCfg K D) (hext : OrderFree cfg.ext.explain) {st st' : ShapState K D} (h : ShapPerm st st') (hd : Distinct st.data)
    (s : Fin D) (xs : List K) (het : Bool) (c : PyVal) :
    ShapPerm (shapEval cfg st s xs het c).1 (shapEval cfg st' s xs het c).1 ∧
      (shapEval cfg st s xs het c).2 = (shapEval cfg st' s xs het c).2 ∧ Distinct (shapEval cfg st s xs het c).1.data := by
  unfold shapEval
  cases prepCentering c with
  | error e => exact ⟨h, rfl, hd⟩
  | ok m =>
    simp only []
    rw [h.fitted, h.args]
    have hv : ∀ {q q' : ShapState K D}, ShapPerm q q' → shapEvalFitted cfg q s xs het m = shapEvalFitted cfg q' s xs het m := by
      intro q q' hq
      unfold shapEvalFitted
      rw [hq.fe]
    cases needsRefit (st'.fitted s) (st'.args s) m with
    | error e => exact ⟨h, rfl, hd⟩
    | ok b =>
      cases b with
      | false => exact ⟨h, hv h, hd⟩
      | true =>
        simp only []
        obtain ⟨h1, h2, h3⟩ := shapFitLoop_perm cfg hext m 100 [s] h hd
        rcases e1 : shapFitLoop cfg m 100 st [s] with ⟨q, r⟩
        rcases e2 : shapFitLoop cfg m 100 st' [s] with ⟨q', r'⟩
        rw [e1, e2] at h1 h2
        rw [e1] at h3
        obtain rfl : r = r' := h2
        cases r with
        | error e => exact ⟨h1, rfl, h3⟩
        | ok u => exact ⟨h1, hv h1, h3⟩

/-- **C72 for ShapDP.**  If the explainer treats the data set as a set (no dependence on the order) and no two instances share a value of any feature, then
after every history of calls, `eval` gives the same values, or the same error, for any order of the instances.
Missing: repeated feature values, where the pairs given to the spline are in an order that numpy's sort does not promise. -/
theorem C72_shap_order_partial (cfg : ShapCfg K D) (hext : OrderFree cfg.ext.explain) (data data' : List (Row K D)) (hperm : data.Perm data')
    (hd : ∀ s, (data.map fun r => r s).Nodup) (calls : List (ShapOp K D)) (s : Fin D) (xs : List K) (het : Bool) (c : PyVal) :
    (shapEval cfg (shapRun cfg data calls) s xs het c).2 = (shapEval cfg (shapRun cfg data' calls) s xs het c).2 := by
  suffices ∀ st st' : ShapState K D, ShapPerm st st' → Distinct st.data →
      ShapPerm (calls.foldl (shapStep cfg) st) (calls.foldl (shapStep cfg) st') ∧ Distinct (calls.foldl (shapStep cfg) st).data by
    obtain ⟨h1, h2⟩ := this (ShapState.init data) (ShapState.init data') ⟨hperm, rfl, rfl, rfl⟩ hd
    exact (shapEval_perm cfg hext h1 h2 s xs het c).2.1
  induction calls with
  | nil => exact fun _ _ h1 h2 => ⟨h1, h2⟩
  | cons op t ih =>
    intro st st' h1 h2
    have : ShapPerm (shapStep cfg st op) (shapStep cfg st' op) ∧ Distinct (shapStep cfg st op).data := by
      cases op with
      | fit f c p =>
        show ShapPerm (shapFit cfg st f c p).1 (shapFit cfg st' f c p).1 ∧ Distinct (shapFit cfg st f c p).1.data
        rcases shapFit_cases cfg f c p with ⟨e, hh⟩ | ⟨m, -, hh⟩
        · rw [hh, hh]; exact ⟨h1, h2⟩
        · rw [hh, hh]
          obtain ⟨i1, -, i2⟩ := shapFitLoop_perm cfg hext m p (named D f) h1 h2
          exact ⟨i1, i2⟩
      | eval s xs het c =>
        obtain ⟨i1, -, i2⟩ := shapEval_perm cfg hext h1 h2 s xs het c
        exact ⟨i1, i2⟩
    exact ih _ _ this.1 this.2

/-- The explainer of `exShap2` is order free, and the data of the example are distinct. -/
example : OrderFree exShap2.ext.explain ∧ ∀ s, ([![(0 : ℚ), 0], ![1, 10]].map fun r => r s).Nodup := by
  refine ⟨⟨fun d => .ok fun r t => r t - (d.map fun q => q t).sum / d.length, fun d => rfl, ?_⟩, by decide +kernel⟩
  intro d d' h
  have : (fun (r : Row ℚ 2) t => r t - (d.map fun q => q t).sum / d.length) = fun r t => r t - (d'.map fun q => q t).sum / d'.length := by
    funext r t
    rw [(h.map fun q : Row ℚ 2 => q t).sum_eq, h.length_eq]
  simp only [this]

/-! Repeated feature values: the same for a spline that does not depend on the order of points with the same abscissa. -/

namespace Spec

/-- A curve fitting procedure that treats the points as a set: points with the same abscissa may come in any order. -/
def TieFree (spline : List (K × K) → Py (K → K)) : Prop :=
  ∀ l l' : List (K × K), l.Perm l' → l.Pairwise (fun p q => p.1 ≤ q.1) → l'.Pairwise (fun p q => p.1 ≤ q.1) → spline l = spline l'

end Spec

/-- Same stored result except for the order of the SHAP values of instances with the same feature value. -/
def ShapFeSim (a b : ShapFe K) : Prop :=
  a.splineMean = b.splineMean ∧ a.splineStd = b.splineStd ∧ a.xx = b.xx ∧ a.yy.Perm b.yy ∧ a.normConst = b.normConst

/-- `ShapFeSim` for possibly absent results. -/
def ShapFeSimO : Option (ShapFe K) → Option (ShapFe K) → Prop
  | none, none => True
  | some a, some b => ShapFeSim a b
  | _, _ => False

/-- `ShapFeSim` for results that may be an error: the same error. -/
def ShapFeSimP : Py (ShapFe K) → Py (ShapFe K) → Prop
  | .error a, .error b => a = b
  | .ok a, .ok b => ShapFeSim a b
  | _, _ => False

theorem sortPairs_fst {l l' : List (K × K)} (h : l.Perm l') : (sortPairs l).map (·.1) = (sortPairs l').map (·.1) := by
  obtain ⟨p1, s1⟩ := sortPairs_spec l
  obtain ⟨p2, s2⟩ := sortPairs_spec l'
  refine List.Perm.eq_of_pairwise (le := (· ≤ ·)) (fun a b _ _ h1 h2 => le_antisymm h1 h2) ?_ ?_ ((p1.trans (h.trans p2.symm)).map _)
  · exact List.pairwise_map.mpr s1
  · exact List.pairwise_map.mpr s2

theorem shapFitFeature_sim (ext : ShapExt K D) (hext : OrderFree ext.explain) (hspl : TieFree ext.spline) (lo hi : Fin D → K)
    {data data' : List (Row K D)} (hperm : data.Perm data') (s : Fin D) (c : Centering) (points : ℕ) :
    (shapFitFeature ext lo hi data s c points).1.Perm (shapFitFeature ext lo hi data' s c points).1 ∧
    ShapFeSimP (shapFitFeature ext lo hi data s c points).2 (shapFitFeature ext lo hi data' s c points).2 := by
  obtain ⟨phi, h1, h2⟩ := hext
  unfold shapFitFeature
  simp only [dropOutside_eq]
  have hp : (inLimits data lo hi s).Perm (inLimits data' lo hi s) := hperm.filter _
  refine ⟨hp, ?_⟩
  simp only [h1, h2 _ _ hp]
  cases hf : phi (inLimits data' lo hi s) with
  | error e => exact rfl
  | ok f =>
    have hz : ∀ d : List (Row K D), (col d s).zip (col (d.map f) s) = d.map fun r => (r s, f r s) := by
      intro d
      unfold col
      rw [List.map_map, List.zip_map']
      rfl
    simp only [Except.map, bind, Except.bind]
    have hq : ((col (inLimits data lo hi s) s).zip (col ((inLimits data lo hi s).map f) s)).Perm
        ((col (inLimits data' lo hi s) s).zip (col ((inLimits data' lo hi s).map f) s)) := by
      rw [hz, hz]
      exact hp.map _
    generalize (col (inLimits data lo hi s) s).zip (col ((inLimits data lo hi s).map f) s) = l at *
    generalize (col (inLimits data' lo hi s) s).zip (col ((inLimits data' lo hi s).map f) s) = l' at *
    obtain ⟨p1, s1⟩ := sortPairs_spec l
    obtain ⟨p2, s2⟩ := sortPairs_spec l'
    have hpp := p1.trans (hq.trans p2.symm)
    rw [hspl _ _ hpp s1 s2]
    cases ext.spline (sortPairs l') with
    | error e => exact rfl
    | ok g =>
      simp only []
      rw [hspl _ _ (hpp.map fun p => (p.1, |p.2 - g p.1|)) (List.pairwise_map.mpr s1) (List.pairwise_map.mpr s2)]
      cases ext.spline ((sortPairs l').map fun p => (p.1, |p.2 - g p.1|)) with
      | error e => exact rfl
      | ok v =>
        simp only [sortPairs_fst hq]
        cases shapNormConst g ((sortPairs l').map (·.1)) c points with
        | error e => exact rfl
        | ok nc => exact ⟨rfl, rfl, rfl, hpp.map _, rfl⟩

/-- Two objects that differ only in the order of their instances (and of stored values of ties). -/
structure ShapSim (st st' : ShapState K D) : Prop where
  data : st.data.Perm st'.data
  fe : ∀ s, ShapFeSimO (st.fe s) (st'.fe s)
  fitted : st.fitted = st'.fitted
  args : st.args = st'.args

theorem shapFitLoop_sim (cfg : ShapCfg K D) (hext : OrderFree cfg.ext.explain) (hspl : TieFree cfg.ext.spline) (c : Centering) (points : ℕ)
    (l : List (Fin D)) {st st' : ShapState K D} (h : ShapSim st st') :
    ShapSim (shapFitLoop cfg c points st l).1 (shapFitLoop cfg c points st' l).1 ∧
      (shapFitLoop cfg c points st l).2 = (shapFitLoop cfg c points st' l).2 := by
  induction l generalizing st st' with
  | nil => exact ⟨h, rfl⟩
  | cons t l ih =>
    unfold shapFitLoop
    obtain ⟨h1, h2⟩ := shapFitFeature_sim cfg.ext hext hspl cfg.axisLo cfg.axisHi h.data t c points
    rcases e1 : shapFitFeature cfg.ext cfg.axisLo cfg.axisHi st.data t c points with ⟨d, r⟩
    rcases e2 : shapFitFeature cfg.ext cfg.axisLo cfg.axisHi st'.data t c points with ⟨d', r'⟩
    rw [e1, e2] at h1 h2
    cases r with
    | error e =>
      cases r' with
      | error e' =>
        obtain rfl : e = e' := h2
        exact ⟨⟨h1, h.fe, h.fitted, h.args⟩, rfl⟩
      | ok fe' => exact absurd h2 id
    | ok fe =>
      cases r' with
      | error e' => exact absurd h2 id
      | ok fe' =>
        refine ih ⟨h1, fun s => ?_, by simp [h.fitted], by simp [h.args]⟩
        by_cases hs : s = t
        · subst hs
          simp only [Function.update_self]
          exact h2
        · simp only [Function.update_of_ne hs]
          exact h.fe s

theorem shapEvalFitted_sim (cfg : ShapCfg K D) {st st' : ShapState K D} (h : ShapSim st st') (s : Fin D) (xs : List K) (het : Bool) (m : Centering) :
    shapEvalFitted cfg st s xs het m = shapEvalFitted cfg st' s xs het m := by
  unfold shapEvalFitted
  have hs := h.fe s
  rcases e1 : st.fe s with _ | fe <;> rcases e2 : st'.fe s with _ | fe' <;> rw [e1, e2] at hs
  · exact absurd hs id
  · exact absurd hs id
  · obtain ⟨h1, h2, -, -, h3⟩ := hs
    simp only [h1, h2, h3]

theorem shapEval_sim (cfg : ShapCfg K D) (hext : OrderFree cfg.ext.explain) (hspl : TieFree cfg.ext.spline) {st st' : ShapState K D} (h : ShapSim st st')
    (s : Fin D) (xs : List K) (het : Bool) (c : PyVal) :
    ShapSim (shapEval cfg st s xs het c).1 (shapEval cfg st' s xs het c).1 ∧
      (shapEval cfg st s xs het c).2 = (shapEval cfg st' s xs het c).2 := by
  unfold shapEval
  cases prepCentering c with
  | error e => exact ⟨h, rfl⟩
  | ok m =>
    simp only []
    rw [h.fitted, h.args]
    cases needsRefit (st'.fitted s) (st'.args s) m with
    | error e => exact ⟨h, rfl⟩
    | ok b =>
      cases b with
      | false => exact ⟨h, shapEvalFitted_sim cfg h s xs het m⟩
      | true =>
        simp only []
        obtain ⟨h1, h2⟩ := shapFitLoop_sim cfg hext hspl m 100 [s] h
        rcases e1 : shapFitLoop cfg m 100 st [s] with ⟨q, r⟩
        rcases e2 : shapFitLoop cfg m 100 st' [s] with ⟨q', r'⟩
        rw [e1, e2] at h1 h2
        obtain rfl : r = r' := h2
        cases r with
        | error e => exact ⟨h1, rfl⟩
        | ok u => exact ⟨h1, shapEvalFitted_sim cfg h1 s xs het m⟩

/-- **C72 for ShapDP.**  If the explainer treats the data set, and the spline the points, as a set, then after every history of calls (successful or not),
`eval` gives the same values, or the same error, for any order of the instances. -/
theorem C72_shap_order (cfg : ShapCfg K D) (hext : OrderFree cfg.ext.explain) (hspl : TieFree cfg.ext.spline) (data data' : List (Row K D))
    (hperm : data.Perm data') (calls : List (ShapOp K D)) (s : Fin D) (xs : List K) (het : Bool) (c : PyVal) :
    (shapEval cfg (shapRun cfg data calls) s xs het c).2 = (shapEval cfg (shapRun cfg data' calls) s xs het c).2 := by
  suffices ∀ st st' : ShapState K D, ShapSim st st' → ShapSim (calls.foldl (shapStep cfg) st) (calls.foldl (shapStep cfg) st') from
    (shapEval_sim cfg hext hspl (this (ShapState.init data) (ShapState.init data') ⟨hperm, fun _ => trivial, rfl, rfl⟩) s xs het c).2
  induction calls with
  | nil => exact fun _ _ h => h
  | cons op t ih =>
    intro st st' h
    refine ih _ _ ?_
    cases op with
    | fit f c p =>
      show ShapSim (shapFit cfg st f c p).1 (shapFit cfg st' f c p).1
      rcases shapFit_cases cfg f c p with ⟨e, hh⟩ | ⟨m, -, hh⟩
      · rw [hh, hh]; exact h
      · rw [hh, hh]; exact (shapFitLoop_sim cfg hext hspl m p (named D f) h).1
    | eval s xs het c => exact (shapEval_sim cfg hext hspl h s xs het c).1

/-- A curve fit that is `TieFree` and not constant: the horizontal line at the mean ordinate. -/
example : TieFree (fun l : List (ℚ × ℚ) => (.ok fun _ => (l.map (·.2)).sum / l.length : Py (ℚ → ℚ))) := by
  intro l l' h _ _
  simp only [(h.map fun p : ℚ × ℚ => p.2).sum_eq, h.length_eq]

end Effector
