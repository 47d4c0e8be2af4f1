import Verif.Model.Regional
import Verif.Props.TreeData
import Verif.Props.Transformer

/-!
# C59: where the trees of a regional effect come from, after any history of calls
-/

set_option linter.unusedSectionVars false

namespace Effector

variable {K : Type} [Field K] [LinearOrder K] [IsStrictOrderedRing K] {D : ℕ}

namespace Spec

/-- The effects of a regional object, if it has any, are as many as its instances. -/
def Aligned (cfg : RegionalCfg K D) : Prop := ∀ e, cfg.instanceEffects = some e → cfg.data.length = e.length

/-- `t` is the tree (full or pruned, its names scaled or not; `none`: no split exists) that a fit of feature `f` with the arguments `a` leads to. -/
def TreeFor (cfg : RegionalCfg K D) (a : FitArgs K D) (f : Fin D) (scales : Option (Fin D → Scale K)) (imp : Bool)
    (t : Option (List (Node K D))) : Prop :=
  ∃ sp, searchAllSplits (regionsOf cfg a f) = .ok sp ∧ splitsToTree (regionsOf cfg a f) (posTextOf cfg.fmt scales) sp imp = .ok t

/-- The search for splits with the arguments `a` raises no exception. -/
def fits (cfg : RegionalCfg K D) (a : FitArgs K D) (f : Fin D) : Bool := (searchAllSplits (regionsOf cfg a f)).isOk

/-- `refit`: if there was no successful fit yet, the defaults are used. -/
def afterRefit (cfg : RegionalCfg K D) (f : Fin D) : Option (FitArgs K D) → Option (FitArgs K D)
  | some a => some a
  | none => if fits cfg cfg.defaultArgs f then some cfg.defaultArgs else none

/-- What one call does to the record of the last successful fit of feature `f`, explicit or implied by `eval` and `plot`. -/
def regFitStep (cfg : RegionalCfg K D) (f : Fin D) (l : Option (FitArgs K D)) : RegionalOp K D → Option (FitArgs K D)
  | .fit a g => if g = f ∧ 2 ≤ a.minPoints ∧ fits cfg a f = true then some a else l
  | .eval g _ _ _ _ => if g = f then afterRefit cfg f l else l
  | .plot g _ => if g = f then afterRefit cfg f l else l

/-- The arguments of the last successful fit of feature `f` in a history. -/
def lastRegFit (cfg : RegionalCfg K D) (f : Fin D) (ops : List (RegionalOp K D)) : Option (FitArgs K D) := ops.foldl (regFitStep cfg f) none

end Spec

/-- What the object stores about feature `f`, given the last fit `l` and the fit `s` and scaling of the last scaled plot. -/
structure RegStored (cfg : RegionalCfg K D) (f : Fin D) (st : RegionalState K D) (l : Option (FitArgs K D))
    (s : Option (FitArgs K D × (Fin D → Scale K))) : Prop where
  fitted : st.fitted f = l.isSome
  trees : ∀ a, l = some a → ∃ sp full pruned, searchAllSplits (regionsOf cfg a f) = .ok sp ∧ st.splits f = some (regionsOf cfg a f, sp) ∧
    st.treeFull f = some full ∧ st.treePruned f = some pruned ∧ st.methodBin f = some a.bin ∧
    splitsToTree (regionsOf cfg a f) (posTextOf cfg.fmt none) sp false = .ok full ∧
    splitsToTree (regionsOf cfg a f) (posTextOf cfg.fmt none) sp true = .ok pruned
  noTrees : l = none → st.treeFull f = none ∧ st.treePruned f = none
  scaled : ∀ a sc, s = some (a, sc) → ∃ full pruned, st.treeFullScaled f = some full ∧ st.treePrunedScaled f = some pruned ∧
    Spec.TreeFor cfg a f (some sc) false full ∧ Spec.TreeFor cfg a f (some sc) true pruned
  notScaled : s = none → st.treeFullScaled f = none ∧ st.treePrunedScaled f = none

theorem treeFor_exists {cfg : RegionalCfg K D} (hal : Spec.Aligned cfg) (a : FitArgs K D) (f : Fin D) (posText : Fin D → K → String) (imp : Bool)
    (sp : Option (Splits K D)) (h : searchAllSplits (regionsOf cfg a f) = .ok sp) : ∃ t, splitsToTree (regionsOf cfg a f) posText sp imp = .ok t := by
  cases sp with
  | none => exact ⟨none, rfl⟩
  | some s =>
    obtain ⟨t, ht⟩ := C43_trees_exist (regionsOf cfg a f) hal posText imp s h
    exact ⟨some t, ht.tree⟩

theorem regionalFitFeature_error {cfg : RegionalCfg K D} (st : RegionalState K D) (a : FitArgs K D) (f : Fin D) {e : PyErr}
    (h : searchAllSplits (regionsOf cfg a f) = .error e) : regionalFitFeature cfg st a f = (st, .error e) := by
  unfold regionalFitFeature
  simp only [bind, Except.bind, h]

theorem regionalFitFeature_ok {cfg : RegionalCfg K D} (hal : Spec.Aligned cfg) (st : RegionalState K D) (a : FitArgs K D) (f : Fin D)
    {sp : Option (Splits K D)} (h : searchAllSplits (regionsOf cfg a f) = .ok sp) :
    ∃ full pruned, splitsToTree (regionsOf cfg a f) (posTextOf cfg.fmt none) sp false = .ok full ∧
      splitsToTree (regionsOf cfg a f) (posTextOf cfg.fmt none) sp true = .ok pruned ∧
      regionalFitFeature cfg st a f = ({ st with
        treeFull := Function.update st.treeFull f (some full)
        treePruned := Function.update st.treePruned f (some pruned)
        splits := Function.update st.splits f (some (regionsOf cfg a f, sp))
        fitted := Function.update st.fitted f true
        methodBin := Function.update st.methodBin f (some a.bin) }, .ok ()) := by
  obtain ⟨full, h1⟩ := treeFor_exists hal a f (posTextOf cfg.fmt none) false sp h
  obtain ⟨pruned, h2⟩ := treeFor_exists hal a f (posTextOf cfg.fmt none) true sp h
  refine ⟨full, pruned, h1, h2, ?_⟩
  unfold regionalFitFeature
  simp only [bind, Except.bind, pure, Except.pure, h, h1, h2]

theorem fits_iff (cfg : RegionalCfg K D) (a : FitArgs K D) (f : Fin D) :
    Spec.fits cfg a f = true ↔ ∃ sp, searchAllSplits (regionsOf cfg a f) = .ok sp := by
  unfold Spec.fits
  cases searchAllSplits (regionsOf cfg a f) <;> simp [Except.isOk, Except.toBool]

/-- A fit of `f` changes only what is stored about `f`. -/
theorem fitFeature_other {cfg : RegionalCfg K D} (hal : Spec.Aligned cfg) {f g : Fin D} (hfg : g ≠ f) {st : RegionalState K D} {l s} (a : FitArgs K D)
    (h : RegStored cfg f st l s) : RegStored cfg f (regionalFitFeature cfg st a g).1 l s := by
  rcases hs : searchAllSplits (regionsOf cfg a g) with e | sp
  · rw [regionalFitFeature_error st a g hs]; exact h
  · obtain ⟨full, pruned, -, -, he⟩ := regionalFitFeature_ok hal st a g hs
    rw [he]
    have hne : f ≠ g := fun e => hfg e.symm
    obtain ⟨h1, h2, h3, h4, h5⟩ := h
    constructor
    · simpa [Function.update_of_ne hne] using h1
    · simpa [Function.update_of_ne hne] using h2
    · simpa [Function.update_of_ne hne] using h3
    · simpa [Function.update_of_ne hne] using h4
    · simpa [Function.update_of_ne hne] using h5

theorem fitFeature_same {cfg : RegionalCfg K D} (hal : Spec.Aligned cfg) {f : Fin D} {st : RegionalState K D} {l s} (a : FitArgs K D)
    (h : RegStored cfg f st l s) : RegStored cfg f (regionalFitFeature cfg st a f).1 (if Spec.fits cfg a f = true then some a else l) s := by
  rcases hs : searchAllSplits (regionsOf cfg a f) with e | sp
  · rw [regionalFitFeature_error st a f hs, if_neg (by rw [fits_iff, hs]; rintro ⟨_, h⟩; cases h)]; exact h
  · obtain ⟨full, pruned, hf, hp, he⟩ := regionalFitFeature_ok hal st a f hs
    rw [he, if_pos (by rw [fits_iff]; exact ⟨sp, hs⟩)]
    obtain ⟨h1, h2, h3, h4, h5⟩ := h
    constructor
    · simp
    · rintro b hb
      cases hb
      exact ⟨sp, full, pruned, hs, by simp, by simp, by simp, by simp, hf, hp⟩
    · rintro hb; cases hb
    · exact h4
    · exact h5

theorem refit_other {cfg : RegionalCfg K D} (hal : Spec.Aligned cfg) {f g : Fin D} (hfg : g ≠ f) {st : RegionalState K D} {l s}
    (h : RegStored cfg f st l s) : RegStored cfg f (regionalRefit cfg st g).1 l s := by
  unfold regionalRefit
  split_ifs
  · exact h
  · exact fitFeature_other hal hfg _ h

theorem refit_same {cfg : RegionalCfg K D} (hal : Spec.Aligned cfg) {f : Fin D} {st : RegionalState K D} {l s}
    (h : RegStored cfg f st l s) : RegStored cfg f (regionalRefit cfg st f).1 (Spec.afterRefit cfg f l) s ∧
      ((Spec.afterRefit cfg f l).isSome = true ↔ (regionalRefit cfg st f).2 = .ok ()) := by
  unfold regionalRefit
  cases l with
  | some a =>
    have : st.fitted f = true := by rw [h.fitted]; rfl
    rw [if_pos this]
    exact ⟨h, by simp [Spec.afterRefit]⟩
  | none =>
    have : ¬ st.fitted f = true := by rw [h.fitted]; simp
    rw [if_neg this]
    refine ⟨fitFeature_same hal cfg.defaultArgs h, ?_⟩
    rcases hs : searchAllSplits (regionsOf cfg cfg.defaultArgs f) with e | sp
    · rw [regionalFitFeature_error st _ f hs]
      have : ¬ Spec.fits cfg cfg.defaultArgs f = true := by rw [fits_iff, hs]; rintro ⟨_, h⟩; cases h
      simp [Spec.afterRefit, this]
    · obtain ⟨_, _, -, -, he⟩ := regionalFitFeature_ok hal st cfg.defaultArgs f hs
      have : Spec.fits cfg cfg.defaultArgs f = true := by rw [fits_iff]; exact ⟨sp, hs⟩
      rw [he]
      simp [Spec.afterRefit, this]

/-- The fit that the scaled trees of feature `f` come from, one call: a scaled plot of `f` replaces it by the fit that is then current. -/
def scaledStep (cfg : RegionalCfg K D) (f : Fin D) (p : Option (FitArgs K D) × Option (FitArgs K D × (Fin D → Scale K))) (op : RegionalOp K D) :
    Option (FitArgs K D) × Option (FitArgs K D × (Fin D → Scale K)) :=
  (Spec.regFitStep cfg f p.1 op, match op with
    | .plot g (some sc) => if g = f then (match Spec.afterRefit cfg f p.1 with
        | some a => some (a, sc)
        | none => p.2) else p.2
    | _ => p.2)

theorem scaledFold_fst (cfg : RegionalCfg K D) (f : Fin D) (ops : List (RegionalOp K D)) (p) :
    (ops.foldl (scaledStep cfg f) p).1 = ops.foldl (Spec.regFitStep cfg f) p.1 := by
  induction ops generalizing p with
  | nil => rfl
  | cons op t ih => rw [List.foldl_cons, ih, List.foldl_cons]; rfl

theorem plotPrep_other {cfg : RegionalCfg K D} (hal : Spec.Aligned cfg) {f g : Fin D} (hfg : g ≠ f) {st : RegionalState K D} {l s}
    (sc : Option (Fin D → Scale K)) (h : RegStored cfg f st l s) : RegStored cfg f (regionalPlotPrep cfg st g sc).1 l s := by
  have h' := refit_other hal hfg h
  unfold regionalPlotPrep
  rcases hr : regionalRefit cfg st g with ⟨st', e | ⟨⟩⟩
  · rw [hr] at h'; exact h'
  · rw [hr] at h'
    cases sc with
    | none => exact h'
    | some sc =>
      simp only
      split
      · exact h'
      · have hne : f ≠ g := fun e => hfg e.symm
        split
        · obtain ⟨h1, h2, h3, h4, h5⟩ := h'
          constructor
          · exact h1
          · exact h2
          · exact h3
          · simpa [Function.update_of_ne hne] using h4
          · simpa [Function.update_of_ne hne] using h5
        · exact h'
        · exact h'

theorem plotPrep_same {cfg : RegionalCfg K D} (hal : Spec.Aligned cfg) {f : Fin D} {st : RegionalState K D} {l s}
    (sc : Option (Fin D → Scale K)) (h : RegStored cfg f st l s) :
    RegStored cfg f (regionalPlotPrep cfg st f sc).1 (Spec.afterRefit cfg f l) (match sc with
      | none => s
      | some sc => match Spec.afterRefit cfg f l with
        | some a => some (a, sc)
        | none => s) := by
  obtain ⟨h', hok⟩ := refit_same hal h
  unfold regionalPlotPrep
  rcases hr : regionalRefit cfg st f with ⟨st', e | ⟨⟩⟩
  · rw [hr] at h' hok
    have : Spec.afterRefit cfg f l = none := by
      cases hn : Spec.afterRefit cfg f l with
      | none => rfl
      | some a => have := hok.mp (by rw [hn]; rfl); cases this
    rw [this] at h' ⊢
    cases sc <;> exact h'
  · rw [hr] at h' hok
    obtain ⟨a, ha⟩ := Option.isSome_iff_exists.mp (hok.mpr rfl)
    rw [ha] at h' ⊢
    cases sc with
    | none => exact h'
    | some sc =>
      obtain ⟨sp, full, pruned, hs, hsp, e1, e2, e3, e4, e5⟩ := h'.trees a rfl
      obtain ⟨t1, ht1⟩ := treeFor_exists hal a f (posTextOf cfg.fmt (some sc)) false sp hs
      obtain ⟨t2, ht2⟩ := treeFor_exists hal a f (posTextOf cfg.fmt (some sc)) true sp hs
      simp only at hsp ⊢
      rw [hsp]
      simp only [ht1, ht2]
      constructor
      · exact h'.fitted
      · exact h'.trees
      · exact h'.noTrees
      · rintro b sc' hb
        cases hb
        exact ⟨t1, t2, by simp, by simp, ⟨sp, hs, ht1⟩, ⟨sp, hs, ht2⟩⟩
      · rintro hb; cases hb

theorem regStored_init (cfg : RegionalCfg K D) (f : Fin D) : RegStored cfg f RegionalState.init none none := by
  constructor
  · rfl
  · rintro a h; cases h
  · intro _; exact ⟨rfl, rfl⟩
  · rintro a sc h; cases h
  · intro _; exact ⟨rfl, rfl⟩

theorem regionalStep_stored [PySqrt K] {cfg : RegionalCfg K D} (hal : Spec.Aligned cfg) {f : Fin D} {st : RegionalState K D} {p}
    (h : RegStored cfg f st p.1 p.2) (op : RegionalOp K D) : RegStored cfg f (regionalStep cfg st op) (scaledStep cfg f p op).1 (scaledStep cfg f p op).2 := by
  cases op with
  | fit a g =>
    simp only [regionalStep, scaledStep, Spec.regFitStep]
    by_cases hm : a.minPoints < 2
    · rw [if_pos hm, if_neg (by omega)]; exact h
    · rw [if_neg hm]
      by_cases hg : g = f
      · subst hg
        have := fitFeature_same hal a h
        have h2 : 2 ≤ a.minPoints := by omega
        simpa [h2] using this
      · rw [if_neg (by tauto)]
        exact fitFeature_other hal hg a h
  | eval g n xs het c =>
    have e : (regionalEval cfg st g n xs het c).1 = (regionalRefit cfg st g).1 := by
      unfold regionalEval
      rcases regionalRefit cfg st g with ⟨st', e | ⟨⟩⟩ <;> rfl
    simp only [regionalStep, scaledStep, Spec.regFitStep, e]
    by_cases hg : g = f
    · subst hg; rw [if_pos rfl]; exact (refit_same hal h).1
    · rw [if_neg hg]; exact refit_other hal hg h
  | plot g sc =>
    simp only [regionalStep, scaledStep, Spec.regFitStep]
    by_cases hg : g = f
    · subst hg
      rw [if_pos rfl]
      have := plotPrep_same hal sc h
      cases sc with
      | none => exact this
      | some sc => simp only [if_true]; exact this
    · rw [if_neg hg]
      have := plotPrep_other hal hg sc h
      cases sc with
      | none => exact this
      | some sc => simp only [if_neg hg]; exact this

theorem regionalRun_stored [PySqrt K] {cfg : RegionalCfg K D} (hal : Spec.Aligned cfg) (f : Fin D) (ops : List (RegionalOp K D)) :
    RegStored cfg f (regionalRun cfg ops) (Spec.lastRegFit cfg f ops) (ops.foldl (scaledStep cfg f) (none, none)).2 := by
  have key : ∀ (ops : List (RegionalOp K D)) (st : RegionalState K D) p, RegStored cfg f st p.1 p.2 →
      RegStored cfg f (ops.foldl (regionalStep cfg) st) (ops.foldl (scaledStep cfg f) p).1 (ops.foldl (scaledStep cfg f) p).2 := by
    intro ops
    induction ops with
    | nil => intro st p h; exact h
    | cons op t ih => intro st p h; exact ih _ _ (regionalStep_stored hal h op)
  have := key ops RegionalState.init (none, none) (regStored_init cfg f)
  rw [scaledFold_fst] at this
  exact this

/-! ## C59 -/

/-- **C59, the trees used by `show_partitioning` and, without scaling, by `eval` and `plot`.** After any history of calls, the feature is fitted exactly if
some fit of it has succeeded, and the full and the pruned tree are those of the last successful fit. -/
theorem C59_trees_of_last_fit [PySqrt K] (cfg : RegionalCfg K D) (hal : Spec.Aligned cfg) (ops : List (RegionalOp K D)) (f : Fin D) :
    (regionalRun cfg ops).fitted f = (Spec.lastRegFit cfg f ops).isSome ∧
    (∀ a, Spec.lastRegFit cfg f ops = some a → ∃ full pruned, (regionalRun cfg ops).treeFull f = some full ∧
      (regionalRun cfg ops).treePruned f = some pruned ∧ Spec.TreeFor cfg a f none false full ∧ Spec.TreeFor cfg a f none true pruned) ∧
    (Spec.lastRegFit cfg f ops = none → (regionalRun cfg ops).treeFull f = none ∧ (regionalRun cfg ops).treePruned f = none) := by
  have h := regionalRun_stored hal f ops
  refine ⟨h.fitted, ?_, h.noTrees⟩
  intro a ha
  obtain ⟨sp, full, pruned, h1, h2, h3, h4, h5, h6, h7⟩ := h.trees a ha
  exact ⟨full, pruned, h3, h4, ⟨sp, h1, h6⟩, ⟨sp, h1, h7⟩⟩

theorem scaledFold_noplot (cfg : RegionalCfg K D) (f : Fin D) (ops : List (RegionalOp K D)) (h : ∀ sc, RegionalOp.plot f (some sc) ∉ ops) (p) :
    (ops.foldl (scaledStep cfg f) p).2 = p.2 := by
  induction ops generalizing p with
  | nil => rfl
  | cons op t ih =>
    rw [List.foldl_cons, ih (fun sc hm => h sc (List.mem_cons_of_mem _ hm))]
    unfold scaledStep
    cases op with
    | fit a g => rfl
    | eval g n xs het c => rfl
    | plot g sc =>
      cases sc with
      | none => rfl
      | some sc =>
        simp only
        rw [if_neg]
        rintro rfl
        exact h sc (by simp)

theorem fitFold_nofit (cfg : RegionalCfg K D) (f : Fin D) (ops : List (RegionalOp K D)) (h : ∀ a, RegionalOp.fit a f ∉ ops) (a : FitArgs K D) :
    ops.foldl (Spec.regFitStep cfg f) (some a) = some a := by
  induction ops with
  | nil => rfl
  | cons op t ih =>
    have hop : Spec.regFitStep cfg f (some a) op = some a := by
      cases op with
      | fit b g =>
        have : g ≠ f := by rintro rfl; exact h b (by simp)
        simp [Spec.regFitStep, this]
      | eval g n xs het c => simp [Spec.regFitStep, Spec.afterRefit]
      | plot g sc => simp [Spec.regFitStep, Spec.afterRefit]
    rw [List.foldl_cons, hop]
    exact ih (fun b hm => h b (List.mem_cons_of_mem _ hm))

theorem fitFold_nofit_none (cfg : RegionalCfg K D) (f : Fin D) (ops : List (RegionalOp K D)) (h : ∀ a, RegionalOp.fit a f ∉ ops)
    (hn : Spec.afterRefit cfg f none = none) : ops.foldl (Spec.regFitStep cfg f) none = none := by
  induction ops with
  | nil => rfl
  | cons op t ih =>
    have hop : Spec.regFitStep cfg f none op = none := by
      cases op with
      | fit b g =>
        have : g ≠ f := by rintro rfl; exact h b (by simp)
        simp [Spec.regFitStep, this]
      | eval g n xs het c => simp [Spec.regFitStep, hn]
      | plot g sc => simp [Spec.regFitStep, hn]
    rw [List.foldl_cons, hop]
    exact ih (fun b hm => h b (List.mem_cons_of_mem _ hm))

/-- **C59 (partial), never scaled.** If the feature was never plotted with `scale_x_list`, there are no scaled trees, so `eval` and `plot` use the tree of the
last fit.  Missing: a fit after a scaled plot (`C59_false_stale_tree`). -/
theorem C59_never_scaled_partial [PySqrt K] (cfg : RegionalCfg K D) (hal : Spec.Aligned cfg) (ops : List (RegionalOp K D)) (f : Fin D)
    (h : ∀ sc, RegionalOp.plot f (some sc) ∉ ops) :
    (regionalRun cfg ops).treeFullScaled f = none ∧ (regionalRun cfg ops).treePrunedScaled f = none := by
  have hs := regionalRun_stored hal f ops
  rw [scaledFold_noplot cfg f ops h] at hs
  exact hs.notScaled rfl

/-- **C59 (partial), scaled.** If the feature is not fitted explicitly after its last scaled plot, the scaled trees are those of the last fit as well.
Missing: an explicit fit after the last scaled plot (`C59_false_stale_tree`). -/
theorem C59_no_fit_after_scaled_plot_partial [PySqrt K] (cfg : RegionalCfg K D) (hal : Spec.Aligned cfg) (before after : List (RegionalOp K D)) (f : Fin D)
    (sc : Fin D → Scale K) (hplot : ∀ sc', RegionalOp.plot f (some sc') ∉ after) (hfit : ∀ a, RegionalOp.fit a f ∉ after) (a : FitArgs K D)
    (ha : Spec.lastRegFit cfg f (before ++ RegionalOp.plot f (some sc) :: after) = some a) :
    ∃ full pruned, (regionalRun cfg (before ++ RegionalOp.plot f (some sc) :: after)).treeFullScaled f = some full ∧
      (regionalRun cfg (before ++ RegionalOp.plot f (some sc) :: after)).treePrunedScaled f = some pruned ∧
      Spec.TreeFor cfg a f (some sc) false full ∧ Spec.TreeFor cfg a f (some sc) true pruned := by
  have hs := regionalRun_stored hal f (before ++ RegionalOp.plot f (some sc) :: after)
  have hdone : Spec.afterRefit cfg f (Spec.lastRegFit cfg f before) ≠ none := by
    intro hn
    have : Spec.lastRegFit cfg f (before ++ RegionalOp.plot f (some sc) :: after) = none := by
      show List.foldl _ _ _ = _
      rw [List.foldl_append, List.foldl_cons]
      show List.foldl _ (Spec.regFitStep cfg f (Spec.lastRegFit cfg f before) _) _ = _
      have hst : Spec.regFitStep cfg f (Spec.lastRegFit cfg f before) (RegionalOp.plot f (some sc)) = none := by simp [Spec.regFitStep, hn]
      rw [hst]
      exact fitFold_nofit_none cfg f after hfit (by
        cases hl : Spec.lastRegFit cfg f before with
        | none => rw [hl] at hn; exact hn
        | some c => rw [hl] at hn; cases hn)
    rw [this] at ha
    cases ha
  obtain ⟨b, hb⟩ := Option.ne_none_iff_exists'.mp hdone
  have e1 : Spec.lastRegFit cfg f (before ++ RegionalOp.plot f (some sc) :: after) = some b := by
    have hst : Spec.regFitStep cfg f (Spec.lastRegFit cfg f before) (RegionalOp.plot f (some sc)) = some b := by
      simp [Spec.regFitStep, hb]
    show List.foldl _ _ _ = _
    rw [List.foldl_append, List.foldl_cons]
    show List.foldl _ (Spec.regFitStep cfg f (Spec.lastRegFit cfg f before) _) _ = _
    rw [hst]
    exact fitFold_nofit cfg f after hfit b
  rw [ha] at e1
  cases e1
  apply hs.scaled a sc
  rw [List.foldl_append, List.foldl_cons, scaledFold_noplot cfg f after hplot]
  have e2 : (before.foldl (scaledStep cfg f) (none, none)).1 = Spec.lastRegFit cfg f before := scaledFold_fst cfg f before _
  generalize before.foldl (scaledStep cfg f) (none, none) = q at e2
  unfold scaledStep
  simp only [e2, hb, if_true]

end Effector
