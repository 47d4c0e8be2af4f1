import Verif.Props.RegionalClasses
import Verif.Props.FeatureTypes
import Verif.Props.Regional

/-!
# C81 and C71 at the level of the public API of the regional classes
-/

set_option linter.unusedSectionVars false

namespace Effector

open Spec

variable {K : Type} [Field K] [LinearOrder K] [IsStrictOrderedRing K] {D : ℕ}

/-! ### The constructors -/

theorem regionalInit_fields {bb : BlackBoxes K D} {meth : String} {data : List (Row K D)} {given : Option (List (Row K D))} {nof : PyVal}
    {axisLimits : Option ((Fin D → K) × (Fin D → K))} {types : Option (Fin D → FeatType)} {catLimit : ℕ} {names : Option (Fin D → String)}
    {defaultArgs : FitArgs K D} {fmt : K → String} {cfg : RegionalCfg K D}
    (h : regionalInit bb meth data given nof axisLimits types catLimit names defaultArgs fmt = .ok cfg) :
    cfg.bb = bb ∧ cfg.methodName = meth ∧ cfg.fmt = fmt ∧ ((∀ n, names = some n → cfg.names = n) ∧ (names = none → ∀ f : Fin D, cfg.names f = "x_" ++ toString (f : ℕ))) ∧ (axisLimits = none → ∃ l, axisLimitsAll data = .ok l) := by
  unfold regionalInit at h
  simp only [bind, Except.bind, pure, Except.pure] at h
  rcases h1 : prepNofInstances bb.choice nof data.length with e | ⟨n, idx⟩
  · rw [h1] at h; cases h
  rw [h1] at h
  simp only at h
  rcases h2 : takeRows data idx with e | d
  · rw [h2] at h; cases h
  rw [h2] at h
  simp only at h
  cases given with
  | none =>
    simp only at h
    cases axisLimits with
    | some l => cases h; exact ⟨rfl, rfl, rfl, ⟨by rintro n rfl; rfl, by rintro rfl f; rfl⟩, by rintro ⟨⟩⟩
    | none =>
      simp only at h
      rcases h4 : axisLimitsAll data with er | l
      · rw [h4] at h; cases h
      · rw [h4] at h; cases h; exact ⟨rfl, rfl, rfl, ⟨by rintro n rfl; rfl, by rintro rfl f; rfl⟩, fun _ => ⟨l, rfl⟩⟩
  | some e =>
    simp only at h
    rcases h3 : takeRows e idx with er | e'
    · rw [h3] at h; cases h
    rw [h3] at h
    simp only [Except.map] at h
    cases axisLimits with
    | some l => cases h; exact ⟨rfl, rfl, rfl, ⟨by rintro n rfl; rfl, by rintro rfl f; rfl⟩, by rintro ⟨⟩⟩
    | none =>
      simp only at h
      rcases h4 : axisLimitsAll data with er | l
      · rw [h4] at h; cases h
      · rw [h4] at h; cases h; exact ⟨rfl, rfl, rfl, ⟨by rintro n rfl; rfl, by rintro rfl f; rfl⟩, fun _ => ⟨l, rfl⟩⟩

namespace Spec

/-- The effects a regional object of class `meth` starts from: RegionalRHALE has those given, or the gradients; the others have none. -/
def startEffects (bb : BlackBoxes K D) (meth : String) (data : List (Row K D)) (given : Option (List (Row K D))) : Option (List (Row K D)) :=
  if meth = "rhale" then some (regionalRhaleEffects bb given data) else none

end Spec

/-- `toArgs` does not look at `defaultArgs`. -/
theorem toArgs_defaults [PySqrt K] (o : RegionalObj K D) (d : FitArgs K D) (kw : FitKw K D) :
    kw.toArgs { o with cfg := { o.cfg with defaultArgs := d } } = kw.toArgs o := rfl

/-- **What a constructor returns.**  Rows sampled from the data, and the effects of these rows; the class and the black boxes as given; feature names as given, or
`x_0, x_1, ...`; feature types as given, or categorical exactly for fewer than `cat_limit` different values; axis limits as given, or those of the data. -/
theorem C81_constructor [PySqrt K] (bb : BlackBoxes K D) (meth : String) (data : List (Row K D)) (given : Option (List (Row K D))) (nof : PyVal)
    (axisLimits : Option ((Fin D → K) × (Fin D → K))) (types : Option (Fin D → FeatType)) (catLimit : ℕ) (names : Option (Fin D → String)) (fmt : K → String)
    (hlen : ∀ e, startEffects bb meth data given = some e → e.length = data.length) (o : RegionalObj K D)
    (h : regionalNew bb meth data given nof axisLimits types catLimit names fmt = .ok o) :
    Constructed o ∧ o.cfg.bb = bb ∧ o.cfg.methodName = meth ∧ o.cfg.catLimit = catLimit ∧ o.cfg.fmt = fmt ∧ ((∀ n, names = some n → o.cfg.names = n) ∧ (names = none → ∀ f : Fin D, o.cfg.names f = "x_" ++ toString (f : ℕ))) ∧ (∀ r ∈ o.cfg.data, r ∈ data) ∧
    (∀ t, types = some t → o.cfg.types = t) ∧ (types = none → ∀ f, o.cfg.types f = .cat ↔ Spec.distinct (data.map fun r => r f) < catLimit) ∧
    (axisLimits = some (o.axisLo, o.axisHi) ∨ axisLimits = none ∧ axisLimitsAll data = .ok (o.axisLo, o.axisHi)) ∧
    ∃ idx : List ℕ, (∃ n, prepNofInstances bb.choice nof data.length = .ok (n, idx)) ∧ takeRows data idx = .ok o.cfg.data ∧
      (startEffects bb meth data given = none → o.cfg.instanceEffects = none) ∧
      ∀ e, startEffects bb meth data given = some e → ∃ e', o.cfg.instanceEffects = some e' ∧ takeRows e idx = .ok e' := by
  unfold regionalNew at h
  simp only [bind, Except.bind, pure, Except.pure] at h
  have hse : (if meth = "rhale" then some (regionalRhaleEffects bb given data) else none) = startEffects bb meth data given := rfl
  rw [hse] at h
  cases hi : regionalInit bb meth data (startEffects bb meth data given) nof axisLimits types catLimit names FitArgs.blank fmt with
  | error e => rw [hi] at h; cases h
  | ok cfg =>
    rw [hi] at h
    obtain ⟨f1, f2, f3, f5, f4⟩ := regionalInit_fields hi
    obtain ⟨g1, g2, g3, g4⟩ := C70_constructor _ _ _ _ _ _ _ _ _ _ _ _ hi
    obtain ⟨k1, k2, idx, k3, k4, k5⟩ := C50_constructor_keeps_effects_aligned _ _ _ _ hlen _ _ _ _ _ _ _ _ hi
    have key : ∀ lo hi', (axisLimits = some (lo, hi') ∨ axisLimits = none ∧ axisLimitsAll data = .ok (lo, hi')) →
        o = { cfg := { cfg with defaultArgs := (FitKw.default meth).toArgs { cfg := cfg, axisLo := lo, axisHi := hi' } }, axisLo := lo, axisHi := hi' } →
        Constructed o ∧ o.cfg.bb = bb ∧ o.cfg.methodName = meth ∧ o.cfg.catLimit = catLimit ∧ o.cfg.fmt = fmt ∧ ((∀ n, names = some n → o.cfg.names = n) ∧ (names = none → ∀ f : Fin D, o.cfg.names f = "x_" ++ toString (f : ℕ))) ∧ (∀ r ∈ o.cfg.data, r ∈ data) ∧
        (∀ t, types = some t → o.cfg.types = t) ∧ (types = none → ∀ f, o.cfg.types f = .cat ↔ Spec.distinct (data.map fun r => r f) < catLimit) ∧
        (axisLimits = some (o.axisLo, o.axisHi) ∨ axisLimits = none ∧ axisLimitsAll data = .ok (o.axisLo, o.axisHi)) ∧
        ∃ idx : List ℕ, (∃ n, prepNofInstances bb.choice nof data.length = .ok (n, idx)) ∧ takeRows data idx = .ok o.cfg.data ∧
          (startEffects bb meth data given = none → o.cfg.instanceEffects = none) ∧
          ∀ e, startEffects bb meth data given = some e → ∃ e', o.cfg.instanceEffects = some e' ∧ takeRows e idx = .ok e' := by
      rintro lo hi' hax rfl
      refine ⟨⟨k1, ?_⟩, f1, f2, g1, f3, f5, g2, g3, g4, hax, idx, k3, k4, ?_, k5⟩
      · show (FitKw.default meth).toArgs { cfg := cfg, axisLo := lo, axisHi := hi' } = (FitKw.default cfg.methodName).toArgs _
        have : (FitKw.default meth : FitKw K D) = FitKw.default cfg.methodName := by rw [f2]
        rw [this]
        rfl
      · intro hn
        rw [hn] at k2
        simpa using k2
    cases axisLimits with
    | some l =>
      obtain ⟨lo, hi'⟩ := l
      simp only [Except.ok.injEq] at h
      exact key lo hi' (Or.inl rfl) h.symm
    | none =>
      obtain ⟨⟨lo, hi'⟩, hax⟩ := f4 rfl
      rw [hax] at h
      simp only [Except.ok.injEq] at h
      exact key lo hi' (Or.inr ⟨rfl, hax⟩) h.symm

/-! ### C81 -/

theorem lastKw_fits [PySqrt K] (o : RegionalObj K D) (f : Fin D) (calls : List (RegCall K D)) :
    ∀ kw, lastKw o f calls = some kw → kwFits o kw f = true ∧ 2 ≤ kw.minPoints := by
  induction calls using List.reverseRecOn with
  | nil => intro kw h; cases h
  | append_singleton calls c ih =>
    intro kw h
    have hk : lastKw o f (calls ++ [c]) = kwStep o f (lastKw o f calls) c := by
      unfold lastKw; rw [List.foldl_append]; rfl
    rw [hk] at h
    have hdef : 2 ≤ (FitKw.default o.cfg.methodName : FitKw K D).minPoints := by simp [FitKw.default]
    cases c with
    | fit features kw' =>
      simp only [kwStep] at h
      split at h
      · rename_i hc
        cases h
        exact ⟨takeWhile_true hc.2, hc.1⟩
      · exact ih kw h
    | eval g n xs het ce =>
      simp only [kwStep] at h
      split at h
      · rename_i hc
        cases h
        exact ⟨hc.2.2, hdef⟩
      · exact ih kw h
    | plot g sc =>
      simp only [kwStep] at h
      split at h
      · rename_i hc
        cases h
        exact ⟨hc.2.2, hdef⟩
      · exact ih kw h

/-- **C81, the stored trees.**  After any history of public calls on an object of any of the five classes: the feature is fitted exactly if some fit of it
(explicit, or the default one of `eval`/`plot`) has succeeded; and the trees are those of the search with the class's own heterogeneity function and the
keyword arguments of the last such fit. -/
theorem C81_trees_of_own_search [PySqrt K] (o : RegionalObj K D) (hc : Constructed o) (calls : List (RegCall K D)) (f : Fin D) :
    (regRunM o calls).fitted f = (lastKw o f calls).isSome ∧
    (∀ kw, lastKw o f calls = some kw → ∃ sp full pruned, searchOf o kw f = .ok sp ∧
      splitsToTree (regionsOf o.cfg (kw.toArgs o) f) (posTextOf o.cfg.fmt none) sp false = .ok full ∧
      splitsToTree (regionsOf o.cfg (kw.toArgs o) f) (posTextOf o.cfg.fmt none) sp true = .ok pruned ∧
      (regRunM o calls).treeFull f = some full ∧ (regRunM o calls).treePruned f = some pruned) ∧
    (lastKw o f calls = none → (regRunM o calls).treeFull f = none ∧ (regRunM o calls).treePruned f = none) := by
  obtain ⟨ops, h1, h2, -⟩ := regRunM_run hc calls
  obtain ⟨g1, g2, g3⟩ := C59_trees_of_last_fit o.cfg hc.1 ops f
  rw [← h1] at g1 g2 g3
  rw [h2 f] at g1 g2 g3
  refine ⟨by rw [g1]; simp, ?_, fun hn => g3 (by rw [hn]; rfl)⟩
  intro kw hkw
  obtain ⟨full, pruned, e1, e2, ⟨sp, e3, e4⟩, ⟨sp', e5, e6⟩⟩ := g2 (kw.toArgs o) (by rw [hkw]; rfl)
  rw [e3] at e5
  cases e5
  obtain ⟨sp'', hsp⟩ := (kwFits_iff o kw f).mp (lastKw_fits o f calls kw hkw).1
  have := searchOf_ok hsp
  rw [e3] at this
  cases this
  exact ⟨sp, full, pruned, hsp, e4, e6, e1, e2⟩

/-- **C81, when `fit` returns.**  `fit` raises nothing exactly if `min_points_per_subregion ≥ 2`, the `features` argument is accepted, and the search succeeds for
every feature it names. -/
theorem C81_fit_returns [PySqrt K] (o : RegionalObj K D) (hc : Constructed o) (st : RegionalState K D) (features : PyVal) (kw : FitKw K D) :
    (regionalFit o st features kw).2 = .ok () ↔
      2 ≤ kw.minPoints ∧ ∃ l, (prepFeatures features D).bind (resolveFeatures D) = .ok l ∧ ∀ f ∈ l, ∃ sp, searchOf o kw f = .ok sp := by
  unfold regionalFit
  by_cases hm : kw.minPoints < 2
  · rw [if_pos hm]
    constructor
    · intro h; cases h
    · intro h; omega
  · rw [if_neg hm]
    simp only [bind]
    cases (prepFeatures features D).bind (resolveFeatures D) with
    | error e =>
      constructor
      · intro h; cases h
      · rintro ⟨-, l, hl, -⟩; cases hl
    | ok l =>
      simp only [Except.ok.injEq, exists_eq_left']
      rw [(regionalFitLoop_run hc.1 (by omega) l st).2]
      simp only [kwFits_iff]
      constructor
      · intro h; exact ⟨by omega, h⟩
      · intro h; exact h.2

/-- **C81 with C50, `eval`.**  After any history without a scaled plot of the feature, `eval` at a node of the pruned tree of the last fit is the class's global
method on the rows (and effects) of that node. -/
theorem C81_eval [PySqrt K] (o : RegionalObj K D) (hc : Constructed o) (calls : List (RegCall K D)) (f : Fin D)
    (hns : ∀ sc, RegCall.plot f (some sc) ∉ calls) (kw : FitKw K D) (hkw : lastKw o f calls = some kw) (sp : Option (Splits K D)) (hsp : searchOf o kw f = .ok sp)
    (tree : List (Node K D)) (ht : splitsToTree (regionsOf o.cfg (kw.toArgs o) f) (posTextOf o.cfg.fmt none) sp true = .ok (some tree))
    (nd : Node K D) (hm : nd ∈ tree) (xs : List K) (het : Bool) (c : PyVal) (m : Centering) (hcen : prepCentering c = .ok m) :
    (regionalEvalM o (regRunM o calls) f nd.idx xs het c).2 = createAndEval o.cfg.bb o.cfg.methodName nd.rows nd.effects f xs het c := by
  obtain ⟨ops, h1, h2, h3⟩ := regRunM_run hc calls
  have hfit : (regRunM o calls).fitted f = true := by rw [(C81_trees_of_own_search o hc calls f).1, hkw]; rfl
  rcases regionalEvalM_cases hc (regRunM o calls) f nd.idx xs het c with ⟨e, -, e2, -⟩ | ⟨e1, -⟩
  · rw [hfit] at e2; cases e2
  · rw [e1, h1]
    refine C50_eval_is_global_on_node o.cfg hc.1 ops f (fun sc hmem => hns sc (h3 f sc hmem)) (kw.toArgs o) ?_ tree ⟨sp, searchOf_ok hsp, ht⟩ nd hm xs het c m hcen
    rw [h2 f, hkw]
    rfl

end Effector
