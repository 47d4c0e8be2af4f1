import Verif.Props.RegionalPlot

/-!
# C70: which features are categorical
-/

set_option linter.unusedSectionVars false

namespace Effector

variable {K : Type} [Field K] [LinearOrder K] [IsStrictOrderedRing K] {D : ℕ}

/-- **C70.** `get_feature_types` labels a feature categorical exactly if it has fewer than `categorical_limit` different values. -/
theorem C70_categorical_iff (data : List (Row K D)) (catLimit : ℕ) (f : Fin D) :
    getFeatureTypes data catLimit f = .cat ↔ Spec.distinct (data.map fun r => r f) < catLimit := by
  unfold getFeatureTypes Spec.distinct col
  rw [npUnique_length]
  by_cases h : (data.map fun r => r f).dedup.length < catLimit
  · rw [if_pos h]; exact ⟨fun _ => h, fun _ => rfl⟩
  · rw [if_neg h]; exact ⟨(by rintro ⟨⟩), fun h' => absurd h' h⟩

theorem dedup_length_of_mem_iff {l l' : List K} (h : ∀ x, x ∈ l ↔ x ∈ l') : l.dedup.length = l'.dedup.length := by
  apply List.Perm.length_eq
  rw [List.perm_ext_iff_of_nodup (List.nodup_dedup _) (List.nodup_dedup _)]
  intro x
  rw [List.mem_dedup, List.mem_dedup, h]

/-- The labels depend on the set of values only: neither on the order of the instances nor on how often a value occurs. -/
theorem C70_values_only (data data' : List (Row K D)) (catLimit : ℕ) (f : Fin D) (h : ∀ v, (∃ r ∈ data, r f = v) ↔ ∃ r ∈ data', r f = v) :
    getFeatureTypes data catLimit f = getFeatureTypes data' catLimit f := by
  unfold getFeatureTypes col
  rw [npUnique_length, npUnique_length, dedup_length_of_mem_iff]
  intro x
  simpa using h x

/-- A one-to-one recoding of the values (a change of units, say) does not change the labels. -/
theorem C70_recoding (data : List (Row K D)) (catLimit : ℕ) (f : Fin D) (g : K → K) (hg : Function.Injective g) :
    getFeatureTypes (data.map fun r => Function.update r f (g (r f))) catLimit f = getFeatureTypes data catLimit f := by
  unfold getFeatureTypes col
  rw [npUnique_length, npUnique_length, List.map_map]
  have e : (data.map ((fun r => r f) ∘ fun r => Function.update r f (g (r f)))) = (data.map fun r => r f).map g := by
    rw [List.map_map]
    apply List.map_congr_left
    intro r _
    simp [Function.comp]
  rw [e, List.dedup_map_of_injective hg, List.length_map]

theorem dedup_length_le_of_subset {l l' : List K} (h : ∀ x ∈ l, x ∈ l') : l.dedup.length ≤ l'.dedup.length := by
  apply List.Subperm.length_le
  apply List.subperm_of_subset (List.nodup_dedup _)
  intro x hx
  rw [List.mem_dedup] at hx ⊢
  exact h x hx

/-- **C70 for the constructor.** A regional object made without `feature_types` labels the features by the values in the data set it was given (not only in the
instances it keeps); given labels are kept. -/
theorem C70_constructor (bb : BlackBoxes K D) (meth : String) (data : List (Row K D)) (given : Option (List (Row K D))) (nof : PyVal)
    (axisLimits : Option ((Fin D → K) × (Fin D → K))) (types : Option (Fin D → FeatType)) (catLimit : ℕ) (names : Option (Fin D → String))
    (defaultArgs : FitArgs K D) (fmt : K → String) (cfg : RegionalCfg K D)
    (h : regionalInit bb meth data given nof axisLimits types catLimit names defaultArgs fmt = .ok cfg) :
    cfg.catLimit = catLimit ∧ (∀ r ∈ cfg.data, r ∈ data) ∧
    (∀ t, types = some t → cfg.types = t) ∧
    (types = none → ∀ f, cfg.types f = .cat ↔ Spec.distinct (data.map fun r => r f) < catLimit) := by
  unfold regionalInit at h
  simp only [bind, Except.bind, pure, Except.pure] at h
  rcases h1 : prepNofInstances bb.choice nof data.length with e | ⟨n, idx⟩
  · rw [h1] at h; cases h
  rw [h1] at h
  simp only at h
  rcases h2 : takeRows data idx with e | d
  · rw [h2] at h; cases h
  rw [h2] at h
  simp only at h
  suffices hs : cfg.data = d ∧ cfg.catLimit = catLimit ∧ cfg.types = types.getD (getFeatureTypes data catLimit) by
    obtain ⟨hs1, hs2, hs3⟩ := hs
    refine ⟨hs2, ?_, ?_, ?_⟩
    · intro r hr
      rw [hs1] at hr
      obtain ⟨i, hi⟩ := List.getElem?_of_mem hr
      have hlt : i < idx.length := by rw [← takeRows_len h2]; exact (List.getElem?_eq_some_iff.mp hi).1
      obtain ⟨b, hb1, hb2⟩ := mapM_sub h2 i _ (List.getElem?_eq_getElem hlt)
      rw [hb2] at hi
      cases hi
      unfold pyIndex at hb1
      split at hb1
      · rename_i hx
        cases hb1
        exact List.mem_of_getElem? hx
      · cases hb1
    · rintro t rfl
      rw [hs3]; rfl
    · rintro rfl f
      rw [hs3]
      exact C70_categorical_iff data catLimit f
  cases given with
  | none =>
    simp only at h
    cases axisLimits with
    | some l => cases h; exact ⟨rfl, rfl, rfl⟩
    | none =>
      simp only at h
      rcases h4 : axisLimitsAll data with er | l
      · rw [h4] at h; cases h
      · rw [h4] at h; cases h; exact ⟨rfl, rfl, rfl⟩
  | some e =>
    simp only at h
    rcases h3 : takeRows e idx with er | e'
    · rw [h3] at h; cases h
    rw [h3] at h
    simp only [Except.map] at h
    cases axisLimits with
    | some l => cases h; exact ⟨rfl, rfl, rfl⟩
    | none =>
      simp only at h
      rcases h4 : axisLimitsAll data with er | l
      · rw [h4] at h; cases h
      · rw [h4] at h; cases h; exact ⟨rfl, rfl, rfl⟩

/-- **C70 and C61 together.** With automatic labels no categorical feature can have too many values for the table of candidates: a fit of an object made without
`feature_types` raises no exception, whatever the data, if the heterogeneities are between 0 and 1e8. -/
theorem C70_automatic_types_never_raise (bb : BlackBoxes K D) (meth : String) (data : List (Row K D)) (given : Option (List (Row K D)))
    (hlen : ∀ e, given = some e → e.length = data.length) (nof : PyVal) (axisLimits : Option ((Fin D → K) × (Fin D → K))) (catLimit : ℕ)
    (names : Option (Fin D → String)) (defaultArgs : FitArgs K D) (fmt : K → String) (cfg : RegionalCfg K D)
    (h : regionalInit bb meth data given nof axisLimits none catLimit names defaultArgs fmt = .ok cfg) (hne : cfg.data ≠ [])
    (st : RegionalState K D) (a : FitArgs K D) (f : Fin D) (hspl : 0 < a.nofCandidates) (hdep : a.maxDepth ≤ (a.foc.getD (focAll f)).length)
    (hhet : ∀ x e, x.Sublist cfg.data → 0 ≤ a.heter f x e ∧ a.heter f x e ≤ 100000000) :
    (regionalFitFeature cfg st a f).2 = .ok () := by
  obtain ⟨h1, h2, -, h4⟩ := C70_constructor bb meth data given nof axisLimits none catLimit names defaultArgs fmt cfg h
  obtain ⟨hal, -⟩ := C50_constructor_keeps_effects_aligned bb meth data given hlen nof axisLimits none catLimit names defaultArgs fmt cfg h
  have hA : SearchArgsOk (regionsOf cfg a f) := by
    refine ⟨hne, hspl, ?_, hhet, hal⟩
    intro g _ hg
    have := (h4 rfl g).mp hg
    refine le_trans ?_ (le_max_right _ _)
    refine le_trans (dedup_length_le_of_subset (l' := data.map fun r => r g) ?_) (by rw [← h1] at this; exact this.le)
    intro x hx
    obtain ⟨r, hr, rfl⟩ := List.mem_map.mp hx
    exact List.mem_map.mpr ⟨r, h2 r hr, rfl⟩
  obtain ⟨sp, hsp⟩ := C61_search_never_raises (regionsOf cfg a f) hA hdep
  obtain ⟨full, hfull⟩ := treeFor_exists hal a f (posTextOf cfg.fmt none) false sp hsp
  obtain ⟨pruned, hpruned⟩ := treeFor_exists hal a f (posTextOf cfg.fmt none) true sp hsp
  unfold regionalFitFeature
  simp only [hsp, hfull, hpruned, bind, Except.bind, pure, Except.pure]

/-- Three instances of the values 0, 1, 1: categorical for the limit 3, continuous for the limit 2. -/
example : getFeatureTypes [![(0 : ℚ)], ![1], ![1]] 3 0 = .cat ∧ getFeatureTypes [![(0 : ℚ)], ![1], ![1]] 2 0 = .cont := by decide +kernel

/-- The hypotheses of `C70_automatic_types_never_raise` are met by a constructed object. -/
example : (match regionalInit cubeCfg.bb "rhale" cubeData none (.str "all") none none 10 none cubeArgs (fun q => toString q) with
    | .ok cfg => decide ((regionalFitFeature cfg RegionalState.init cubeArgs 0).2.isOk = true ∧ cfg.types 0 = .cat ∧ cfg.types 1 = .cat)
    | .error _ => false) = true := by decide +kernel

end Effector
