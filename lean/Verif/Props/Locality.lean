import Verif.Props.ZeroHeterogeneity

/-!
# C124: within a bin, ALE and RHALE only depend on what is in the bin
-/

namespace Effector

set_option linter.unusedSectionVars false

open Spec

variable {K : Type} [Field K] [LinearOrder K] [IsStrictOrderedRing K] {D : ℕ}

namespace Spec

/-- Two curves change in the same way between any two positions in `[a, b]` (whatever the positions at which they were evaluated, and their level). -/
def SameChanges (a b : K) (xs y xs' y' : List K) : Prop :=
  ∀ (i j i' j' : ℕ) (x z u v u' v' : K), xs[i]? = some x → xs[j]? = some z → xs'[i']? = some x → xs'[j']? = some z → y[i]? = some u → y[j]? = some v → y'[i']? = some u' → y'[j']? = some v' →
    a ≤ x → x ≤ b → a ≤ z → z ≤ b → v - u = v' - u'

end Spec

/-- The change of an accumulated curve within a bin. -/
theorem GoodParams.change {p : AleParams K} (hp : GoodParams p) {es : List K} (hes : es.length = p.limits.length - 1) {xs u : List K} (hu : computeAccumulatedEffect xs p.limits es p.dx = .ok u)
    {k : ℕ} {a b e : K} (ha : p.limits[k]? = some a) (hb : p.limits[k + 1]? = some b) (he : es[k]? = some e) {i j : ℕ} {x z v w : K} (hi : xs[i]? = some x) (hj : xs[j]? = some z)
    (hv : u[i]? = some v) (hw : u[j]? = some w) (h1 : a ≤ x) (h2 : x ≤ min b (10 ^ 8)) (h3 : a ≤ z) (h4 : z ≤ min b (10 ^ 8)) : w - v = e * (z - x) := by
  obtain ⟨el, -, hacc⟩ := hp.acc es xs hes
  rw [hacc] at hu
  cases hu
  obtain ⟨h2, h2'⟩ := le_min_iff.mp h2
  obtain ⟨h4, h4'⟩ := le_min_iff.mp h4
  simp only [List.getElem?_map, hi, hj, Option.map_some, Option.some.injEq] at hv hw
  rw [if_neg (by unfold BIG_M; intro hc; exact absurd hc.2 (not_lt.mpr h2'))] at hv
  rw [if_neg (by unfold BIG_M; intro hc; exact absurd hc.2 (not_lt.mpr h4'))] at hw
  subst hv hw
  have := C01_spec_linear_inside p.limits es hp.inc k a b e x z ha hb he h1 h2 h3 h4
  linarith

/-- After a successful `eval`: where the stored parameters and the result come from. -/
theorem eval_origin [PySqrt K] {cfg : AleCfg K D} {calls : List (AleOp K D)} (P : BinMethod K → Prop) (hdef : P cfg.defaultBin) (hev : ∀ bm, P bm → Evaluable cfg bm)
    (hP : ∀ f bm c, AleOp.fit f bm c ∈ calls → P bm) {s : Fin D} {c : PyVal} {xs : List K} {het : Bool} {y : List K} {o : Option (List K)} {st : AleState K D}
    (h : aleEval cfg (aleRun cfg calls) s xs het c = (st, .ok (y, o))) :
    ∃ bm p nc u z, P bm ∧ cfg.fitF s bm = .ok p ∧ st.fe s = some (p, nc) ∧ evalUnnorm p xs = .ok u ∧ y = u.map (· - z) ∧
      ((het = false ∧ o = none) ∨ (het = true ∧ ∃ v, evalHet p xs = .ok v ∧ o = some v)) := by
  have he := usesEvaluable_of cfg calls fun f bm c hm => hev bm (hP f bm c hm)
  obtain ⟨m, p, u, z, hm, hp, hu, -, hy, hcase⟩ := eval_from_fit (hev _ hdef) he (by rw [h])
  have hbm := effectiveBin_mem cfg calls P hdef hP s m
  have ht := aleEval_tracks (hev _ hdef) (aleRun_tracks (hev _ hdef) calls he) s xs het c m hm s
  rw [h] at ht
  have hL : ∃ m0, afterEval cfg (lastFit cfg calls) s m s = some (effectiveBin cfg (lastFit cfg calls s) m, m0) := by
    unfold afterEval effectiveBin
    unfold effectiveBin at hp
    cases hL : lastFit cfg calls s with
    | none =>
      rw [hL] at hp
      simp only [] at hp
      simp only [afterFit, hp, Function.update_self]
      exact ⟨m, rfl⟩
    | some q =>
      obtain ⟨bm, m0⟩ := q
      rw [hL] at hp
      simp only [] at hp ⊢
      by_cases hc : m = .off ∨ m = m0
      · rw [if_pos hc] at hp ⊢
        rw [if_pos hc, hL]
        exact ⟨m0, rfl⟩
      · rw [if_neg hc] at hp ⊢
        rw [if_neg hc]
        simp only [afterFit, hp, Function.update_self]
        exact ⟨m, rfl⟩
  obtain ⟨m0, hL⟩ := hL
  rw [hL] at ht
  obtain ⟨q, z', hq, -, hfe, -⟩ := ht
  rw [hp] at hq
  cases hq
  exact ⟨_, p, _, u, z, hbm, hp, hfe, hu, hy, hcase⟩

/-- Two sets of parameters with the same limits, made from (value, effect) pairs that are the same in bin `k`. -/
theorem computeAleParams_local [PySqrt K] {α β : Type} {limits : List K} (used : List α) (value effect : α → K) (used' : List β) (value' effect' : β → K) {p p' : AleParams K}
    (hp : GoodParams p) (hl : p.limits = limits) (hp' : GoodParams p') (hl' : p'.limits = limits)
    (hin : Within limits (used.map value)) (h : computeAleParams (used.map value) (used.map effect) limits = .ok p)
    (hin' : Within limits (used'.map value')) (h' : computeAleParams (used'.map value') (used'.map effect') limits = .ok p') {k : ℕ} {a b : K} (ha : limits[k]? = some a) (hb : limits[k + 1]? = some b)
    (hsame : ((used.filter fun q => InBin limits k (value q)).map effect).Perm ((used'.filter fun q => InBin limits k (value' q)).map effect')) (hne : (used.filter fun q => InBin limits k (value q)) ≠ [])
    {xs xs' u u' : List K} (hu : evalUnnorm p xs = .ok u) (hu' : evalUnnorm p' xs' = .ok u') :
    SameChanges a (min b (10 ^ 8)) xs u xs' u' ∧
      (2 ≤ (used.filter fun q => InBin limits k (value q)).length → ∀ v v', evalHet p xs = .ok v → evalHet p' xs' = .ok v' → SameChanges a (min b (10 ^ 8)) xs v xs' v') := by
  have hk : k < limits.length - 1 := by
    have := (List.getElem?_eq_some_iff.mp hb).1
    omega
  have hlen : (used.map effect).length = (used.map value).length := by simp
  have hlen' : (used'.map effect').length = (used'.map value').length := by simp
  have hbin := binEffects_map limits used value effect k
  have hbin' := binEffects_map limits used' value' effect' k
  have hinc : Increasing limits := hl ▸ hp.inc
  have htwo : 2 ≤ limits.length := hl ▸ hp.two
  have hln := hsame.length_eq
  simp only [List.length_map] at hln
  constructor
  · obtain ⟨-, -, -, -, he⟩ := computeAleParams_good hinc htwo hin hlen h
    obtain ⟨-, -, -, -, he'⟩ := computeAleParams_good hinc htwo hin' hlen' h'
    have e1 := he k hk (by rw [hbin]; simpa using hne)
    have e2 := he' k hk (by
      rw [hbin', Ne, List.map_eq_nil_iff, ← List.length_eq_zero_iff, ← hln, List.length_eq_zero_iff]
      exact hne)
    rw [hbin] at e1
    rw [hbin', ← avg_perm hsame] at e2
    intro i j i' j' x z v w v' w' hi hj hi' hj' hv hw hv' hw' h1 h2 h3 h4
    rw [hp.change (by rw [hp.be]) hu (hl ▸ ha) (hl ▸ hb) e1 hi hj hv hw h1 h2 h3 h4, hp'.change (by rw [hp'.be]) hu' (hl' ▸ ha) (hl' ▸ hb) e2 hi' hj' hv' hw' h1 h2 h3 h4]
  · intro htwo' v v' hv hv'
    have e1 := computeAleParams_kept hinc htwo hin hlen h k hk (by rw [hbin, List.length_map]; exact htwo')
    have e2 := computeAleParams_kept hinc htwo hin' hlen' h' k hk (by rw [hbin', List.length_map, ← hln]; exact htwo')
    rw [hbin] at e1
    rw [hbin', ← popVar_perm hsame] at e2
    intro i j i' j' x z w1 w2 w1' w2' hi hj hi' hj' k1 k2 k3 k4 h1 h2 h3 h4
    have s1 : (p.binVariance.map PySqrt.sqrt)[k]? = some (PySqrt.sqrt (popVar ((used.filter fun q => InBin limits k (value q)).map effect))) := by rw [List.getElem?_map, e1]; rfl
    have s2 : (p'.binVariance.map PySqrt.sqrt)[k]? = some (PySqrt.sqrt (popVar ((used.filter fun q => InBin limits k (value q)).map effect))) := by rw [List.getElem?_map, e2]; rfl
    rw [hp.change (by rw [List.length_map, hp.bv]) hv (hl ▸ ha) (hl ▸ hb) s1 hi hj k1 k2 h1 h2 h3 h4,
      hp'.change (by rw [List.length_map, hp'.bv]) hv' (hl' ▸ ha) (hl' ▸ hb) s2 hi' hj' k3 k4 h1 h2 h3 h4]

theorem Spec.SameChanges.shift {a b : K} {xs u xs' u' : List K} (h : SameChanges a b xs u xs' u') (z z' : K) : SameChanges a b xs (u.map (· - z)) xs' (u'.map (· - z')) := by
  intro i j i' j' x t v w v' w' hi hj hi' hj' hv hw hv' hw' h1 h2 h3 h4
  simp only [List.getElem?_map, Option.map_eq_some_iff] at hv hw hv' hw'
  obtain ⟨v, hv, rfl⟩ := hv
  obtain ⟨w, hw, rfl⟩ := hw
  obtain ⟨v', hv', rfl⟩ := hv'
  obtain ⟨w', hw', rfl⟩ := hw'
  have := h i j i' j' x t v w v' w' hi hj hi' hj' hv hw hv' hw' h1 h2 h3 h4
  linarith

/-- **C124, RHALE.**  Two objects (other data, other gradients, other axis limits, other calls before, other centring) that store the same bin limits for the feature, and of which the instances in one bin have the same
derivatives: between any two positions in this bin (up to 1e8) both curves change by the same amount, and so do the heterogeneities if the bin has at least two instances.  What is outside the bin does not matter. -/
theorem C124_rhale [PySqrt K] (eff eff' : List (Row K D)) (b b' : Base K D) (hlt : ∀ s, b.axisLo s < b.axisHi s) (hlt' : ∀ s, b'.axisLo s < b'.axisHi s) (s : Fin D) (calls calls' : List (AleOp K D))
    (hcalls : ∀ f bm c, AleOp.fit f bm c ∈ calls → ∀ t, SafeMethod (rhaleCtx b.data eff b.axisLo b.axisHi t) bm)
    (hcalls' : ∀ f bm c, AleOp.fit f bm c ∈ calls' → ∀ t, SafeMethod (rhaleCtx b'.data eff' b'.axisLo b'.axisHi t) bm) (c c' : PyVal) (xs xs' : List K) (het het' : Bool)
    (y y' : List K) (o o' : Option (List K)) (st st' : AleState K D) (h : aleEval (rhaleCfg eff b) (aleRun (rhaleCfg eff b) calls) s xs het c = (st, .ok (y, o)))
    (h' : aleEval (rhaleCfg eff' b') (aleRun (rhaleCfg eff' b') calls') s xs' het' c' = (st', .ok (y', o'))) (p p' : AleParams K) (nc nc' : Option K) (hfe : st.fe s = some (p, nc)) (hfe' : st'.fe s = some (p', nc'))
    (hlim : p'.limits = p.limits) (k : ℕ) (a e : K) (ha : p.limits[k]? = some a) (hb : p.limits[k + 1]? = some e)
    (hne : (((b.data.zip eff).filter fun q => inAxis (b.axisLo s) (b.axisHi s) s q.1).filter fun q => InBin p.limits k (q.1 s)) ≠ [])
    (hsame : ((((b.data.zip eff).filter fun q => inAxis (b.axisLo s) (b.axisHi s) s q.1).filter fun q => InBin p.limits k (q.1 s)).map fun q => q.2 s).Perm
      ((((b'.data.zip eff').filter fun q => inAxis (b'.axisLo s) (b'.axisHi s) s q.1).filter fun q => InBin p.limits k (q.1 s)).map fun q => q.2 s)) :
    SameChanges a (min e (10 ^ 8)) xs y xs' y' ∧
      (2 ≤ (((b.data.zip eff).filter fun q => inAxis (b.axisLo s) (b.axisHi s) s q.1).filter fun q => InBin p.limits k (q.1 s)).length →
        ∀ v v', o = some v → o' = some v' → SameChanges a (min e (10 ^ 8)) xs v xs' v') := by
  have key : ∀ (eff : List (Row K D)) (b : Base K D), (∀ s, b.axisLo s < b.axisHi s) → ∀ calls : List (AleOp K D),
      (∀ f bm c, AleOp.fit f bm c ∈ calls → ∀ t, SafeMethod (rhaleCtx b.data eff b.axisLo b.axisHi t) bm) → ∀ (c : PyVal) (xs : List K) (het : Bool) (y : List K) (o : Option (List K)) (st : AleState K D),
      aleEval (rhaleCfg eff b) (aleRun (rhaleCfg eff b) calls) s xs het c = (st, .ok (y, o)) → ∀ (p : AleParams K) (nc : Option K), st.fe s = some (p, nc) →
      GoodParams p ∧ Within p.limits (((b.data.zip eff).filter fun q => inAxis (b.axisLo s) (b.axisHi s) s q.1).map fun q => q.1 s) ∧
      computeAleParams (((b.data.zip eff).filter fun q => inAxis (b.axisLo s) (b.axisHi s) s q.1).map fun q => q.1 s) (((b.data.zip eff).filter fun q => inAxis (b.axisLo s) (b.axisHi s) s q.1).map fun q => q.2 s) p.limits = .ok p ∧
      ∃ u z, evalUnnorm p xs = .ok u ∧ y = u.map (· - z) ∧ ((het = false ∧ o = none) ∨ (het = true ∧ ∃ v, evalHet p xs = .ok v ∧ o = some v)) := by
    intro eff b hlt calls hcalls c xs het y o st h p nc hfe
    have hdefs : ∀ t, SafeMethod (rhaleCtx b.data eff b.axisLo b.axisHi t) (rhaleCfg eff b).defaultBin := fun t hc => absurd hc (by decide)
    obtain ⟨bm, q, nc', u, z, hsafe, hp, hq, hu, hy, hcase⟩ := eval_origin (fun bm => ∀ t, SafeMethod (rhaleCtx b.data eff b.axisLo b.axisHi t) bm) hdefs
      (fun bm hbm => (rhale_goodFor eff b hlt bm hbm).evaluable) hcalls h
    rw [hfe] at hq
    cases hq
    obtain ⟨hgp, hwith, hpp⟩ := rhale_good (hlt s) (hsafe s) hp
    obtain ⟨hlen, -⟩ := rhaleFitFeature_ok hp
    have e1 : (rhaleCtx b.data eff b.axisLo b.axisHi s).xs = ((b.data.zip eff).filter fun q => inAxis (b.axisLo s) (b.axisHi s) s q.1).map fun q => q.1 s := by
      show col (b.data.filter (inAxis (b.axisLo s) (b.axisHi s) s)) s = _
      rw [← filter_zip_fst' b.data eff hlen.symm (inAxis (b.axisLo s) (b.axisHi s) s)]
      simp [col]
    have e2 : col (((b.data.zip eff).filter fun p => inAxis (b.axisLo s) (b.axisHi s) s p.1).map (·.2)) s =
        ((b.data.zip eff).filter fun q => inAxis (b.axisLo s) (b.axisHi s) s q.1).map fun q => q.2 s := by
      simp [col]
    rw [e1, e2] at hpp
    rw [e1] at hwith
    exact ⟨hgp, hwith, hpp, u, z, hu, hy, hcase⟩
  obtain ⟨g, w, cp, u, z, hu, rfl, hcase⟩ := key eff b hlt calls hcalls c xs het y o st h p nc hfe
  obtain ⟨g', w', cp', u', z', hu', rfl, hcase'⟩ := key eff' b' hlt' calls' hcalls' c' xs' het' y' o' st' h' p' nc' hfe'
  rw [hlim] at w' cp'
  obtain ⟨r1, r2⟩ := computeAleParams_local _ _ _ _ _ _ g rfl g' hlim w cp w' cp' ha hb hsame hne hu hu'
  refine ⟨r1.shift z z', fun htwo v v' hv hv' => ?_⟩
  rcases hcase with ⟨-, rfl⟩ | ⟨-, v0, hv0, rfl⟩
  · cases hv
  rcases hcase' with ⟨-, rfl⟩ | ⟨-, v0', hv0', rfl⟩
  · cases hv'
  cases hv
  cases hv'
  exact r2 htwo _ _ hv0 hv0'

/-- **C124, ALE.**  The same for two ALE objects with the same stored limits, if the instances in the bin are the same and the two models agree on them with the feature set to the two limits of the bin. -/
theorem C124_ale [PySqrt K] (cast : K → K) (f f' : Row K D → K) (b b' : Base K D) (hlt : ∀ s, b.axisLo s < b.axisHi s) (hlt' : ∀ s, b'.axisLo s < b'.axisHi s) (s : Fin D) (calls calls' : List (AleOp K D))
    (hcalls : ∀ g bm c, AleOp.fit g bm c ∈ calls → ∀ m cl, bm ≠ .fixed 0 m cl) (hcalls' : ∀ g bm c, AleOp.fit g bm c ∈ calls' → ∀ m cl, bm ≠ .fixed 0 m cl) (c c' : PyVal) (xs xs' : List K) (het het' : Bool)
    (y y' : List K) (o o' : Option (List K)) (st st' : AleState K D) (h : aleEval (aleCfg cast (List.map f) b) (aleRun (aleCfg cast (List.map f) b) calls) s xs het c = (st, .ok (y, o)))
    (h' : aleEval (aleCfg cast (List.map f') b') (aleRun (aleCfg cast (List.map f') b') calls') s xs' het' c' = (st', .ok (y', o'))) (p p' : AleParams K) (nc nc' : Option K) (hfe : st.fe s = some (p, nc))
    (hfe' : st'.fe s = some (p', nc')) (hlim : p'.limits = p.limits) (k : ℕ) (a e : K) (ha : p.limits[k]? = some a) (hb : p.limits[k + 1]? = some e)
    (hne : ((b.data.filter (inAxis (b.axisLo s) (b.axisHi s) s)).filter fun r => InBin p.limits k (r s)) ≠ [])
    (hsame : ((b.data.filter (inAxis (b.axisLo s) (b.axisHi s) s)).filter fun r => InBin p.limits k (r s)).Perm ((b'.data.filter (inAxis (b'.axisLo s) (b'.axisHi s) s)).filter fun r => InBin p.limits k (r s)))
    (hmodel : ∀ r ∈ (b.data.filter (inAxis (b.axisLo s) (b.axisHi s) s)).filter fun r => InBin p.limits k (r s),
      f (Function.update r s (cast a)) = f' (Function.update r s (cast a)) ∧ f (Function.update r s (cast e)) = f' (Function.update r s (cast e))) :
    SameChanges a (min e (10 ^ 8)) xs y xs' y' ∧
      (2 ≤ ((b.data.filter (inAxis (b.axisLo s) (b.axisHi s) s)).filter fun r => InBin p.limits k (r s)).length →
        ∀ v v', o = some v → o' = some v' → SameChanges a (min e (10 ^ 8)) xs v xs' v') := by
  have key : ∀ (f : Row K D → K) (b : Base K D), (∀ s, b.axisLo s < b.axisHi s) → ∀ calls : List (AleOp K D),
      (∀ g bm c, AleOp.fit g bm c ∈ calls → ∀ m cl, bm ≠ .fixed 0 m cl) → ∀ (c : PyVal) (xs : List K) (het : Bool) (y : List K) (o : Option (List K)) (st : AleState K D),
      aleEval (aleCfg cast (List.map f) b) (aleRun (aleCfg cast (List.map f) b) calls) s xs het c = (st, .ok (y, o)) → ∀ (p : AleParams K) (nc : Option K), st.fe s = some (p, nc) →
      GoodParams p ∧ Within p.limits ((b.data.filter (inAxis (b.axisLo s) (b.axisHi s) s)).map fun r => r s) ∧
      ∃ (g : Row K D → K) (l0 l1 : K), p.limits[0]? = some l0 ∧ p.limits[1]? = some l1 ∧
      (∀ r ∈ b.data.filter (inAxis (b.axisLo s) (b.axisHi s) s), ∀ k, InBin p.limits k (r s) →
        g r = (f (Function.update r s (cast (p.limits.getD (k + 1) 0))) - f (Function.update r s (cast (p.limits.getD k 0)))) / (l1 - l0)) ∧
      computeAleParams ((b.data.filter (inAxis (b.axisLo s) (b.axisHi s) s)).map fun r => r s) ((b.data.filter (inAxis (b.axisLo s) (b.axisHi s) s)).map g) p.limits = .ok p ∧
      ∃ u z, evalUnnorm p xs = .ok u ∧ y = u.map (· - z) ∧ ((het = false ∧ o = none) ∨ (het = true ∧ ∃ v, evalHet p xs = .ok v ∧ o = some v)) := by
    intro f b hlt calls hcalls c xs het y o st h p nc hfe
    have hdef : ∀ m cl, (aleCfg cast (List.map f) b).defaultBin ≠ .fixed 0 m cl := by intro m cl hc; cases hc
    obtain ⟨bm, q, nc', u, z, hbm, hp, hq, hu, hy, hcase⟩ := eval_origin (fun bm => ∀ m cl, bm ≠ .fixed 0 m cl) hdef
      (fun bm hbm => (ale_goodFor cast f b hlt bm hbm).evaluable) hcalls h
    rw [hfe] at hq
    cases hq
    obtain ⟨L, l0, l1, -, hinc, htwo, hwith, h0, h1, hl, hpp, hgp, hpl⟩ := ale_fit_cases (hlt s) (ale_safe (aleFitFeature_ok hp).1 hbm) hp
    have hwb := within_bump htwo hwith
    refine ⟨hgp, hpl ▸ hwb, _, l0, l1, hpl ▸ h0, hpl ▸ h1, ?_, hpl ▸ hpp, u, z, hu, hy, hcase⟩
    intro r hr k hk
    rw [hpl] at hk ⊢
    obtain ⟨a, a', ha, ha', hall⟩ := hwith
    have hb := hall (r s) (List.mem_map.mpr ⟨r, hr, rfl⟩)
    rw [inBin_bump ha' hb.2 k, inBin_iff hinc htwo ha ha' hb.1 hb.2 k] at hk
    rw [hk, Nat.add_sub_cancel]
  obtain ⟨g, w, ef, l0, l1, h0, h1, he, cp, u, z, hu, rfl, hcase⟩ := key f b hlt calls hcalls c xs het y o st h p nc hfe
  obtain ⟨g', w', ef', l0', l1', h0', h1', he', cp', u', z', hu', rfl, hcase'⟩ := key f' b' hlt' calls' hcalls' c' xs' het' y' o' st' h' p' nc' hfe'
  rw [hlim] at w' cp' h0' h1' he'
  rw [h0] at h0'
  rw [h1] at h1'
  cases h0'
  cases h1'
  have hperm : (((b.data.filter (inAxis (b.axisLo s) (b.axisHi s) s)).filter fun r => InBin p.limits k (r s)).map ef).Perm
      (((b'.data.filter (inAxis (b'.axisLo s) (b'.axisHi s) s)).filter fun r => InBin p.limits k (r s)).map ef') := by
    have : ((b.data.filter (inAxis (b.axisLo s) (b.axisHi s) s)).filter fun r => InBin p.limits k (r s)).map ef =
        ((b.data.filter (inAxis (b.axisLo s) (b.axisHi s) s)).filter fun r => InBin p.limits k (r s)).map ef' := by
      refine List.map_congr_left fun r hr => ?_
      obtain ⟨m1, m2⟩ := hmodel r hr
      have hr2 := List.mem_filter.mp (hsame.subset hr)
      have hr1 := List.mem_filter.mp hr
      rw [he r hr1.1 k (by simpa using hr1.2), he' r hr2.1 k (by simpa using hr2.2)]
      have g1 : p.limits.getD k 0 = a := by rw [List.getD_eq_getElem?_getD, ha]; rfl
      have g2 : p.limits.getD (k + 1) 0 = e := by rw [List.getD_eq_getElem?_getD, hb]; rfl
      rw [g1, g2, m1, m2]
    rw [this]
    exact hsame.map _
  obtain ⟨r1, r2⟩ := computeAleParams_local _ _ _ _ _ _ g rfl g' hlim w cp w' cp' ha hb hperm hne hu hu'
  refine ⟨r1.shift z z', fun htwo v v' hv hv' => ?_⟩
  rcases hcase with ⟨-, rfl⟩ | ⟨-, v0, hv0, rfl⟩
  · cases hv
  rcases hcase' with ⟨-, rfl⟩ | ⟨-, v0', hv0', rfl⟩
  · cases hv'
  cases hv
  cases hv'
  exact r2 htwo _ _ hv0 hv0'

/-! ### Concrete cases -/

/-- Other instances outside the first bin of width 2 (0 to 2), other gradients there, the same three instances in it. -/
def squareBase2 : Base ℚ 2 := { data := [![0, 5], ![6, 6], ![1 / 4, 7], ![5, 6], ![1 / 2, 2]], indices := [0, 1, 2, 3, 4], axisLo := fun _ => 0, axisHi := fun _ => 8 }

/-- Both objects answer, the limits are the same, and between the positions 0, 1 and 2 the curves change in the same way (other centring, other curve to the right). -/
example : ((aleEval (rhaleCfg squareEff squareBase) (aleRun (rhaleCfg squareEff squareBase) [.fit (.int 0) (.fixed 4 (some 0) 0) (.bool false)]) 0 [0, 1, 2, 5] false (.bool false)).2 = .ok ([0, 1 / 2, 1, 21], none) ∧
    (aleEval (rhaleCfg [![0, 0], ![3, 0], ![1 / 2, 0], ![3, 0], ![1, 0]] squareBase2) (aleRun (rhaleCfg [![0, 0], ![3, 0], ![1 / 2, 0], ![3, 0], ![1, 0]] squareBase2)
      [.fit (.int 0) (.fixed 4 (some 0) 0) (.bool false)]) 0 [2, 1, 0, 5] false (.bool false)).2 = .ok ([1, 1 / 2, 0, 15 / 2], none)) := by
  constructor <;> decide +kernel

example : (((squareBase.data.zip squareEff).filter fun q => inAxis 0 8 0 q.1).filter fun q => InBin [0, 2, 4, 6, 8] 0 (q.1 0)).map (fun q => q.2 0) = [0, 1, 1 / 2] ∧
    (((squareBase2.data.zip [![0, 0], ![3, 0], ![1 / 2, 0], ![3, 0], ![1, 0]]).filter fun q => inAxis 0 8 0 q.1).filter fun q => InBin [0, 2, 4, 6, 8] 0 (q.1 0)).map (fun q => q.2 0) = [0, 1 / 2, 1] := by
  constructor <;> decide +kernel

/-- The PDP has no such property: with another instance far away it changes everywhere (`x_0 x_1` at 0 and 1, the instances 1/2 and 7 or 8). -/
theorem C124_not_pdp : pdpEvalAfter (.pdp fun r : Row ℚ 2 => r 0 * r 1) (fun _ => 0) (fun _ => 8) [![1 / 2, 2], ![7, 4]] [] 0 [0, 1] false (.bool false) false false = .ok (.meanOnly [0, 3]) ∧
    pdpEvalAfter (.pdp fun r : Row ℚ 2 => r 0 * r 1) (fun _ => 0) (fun _ => 8) [![1 / 2, 2], ![8, 6]] [] 0 [0, 1] false (.bool false) false false = .ok (.meanOnly [0, 4]) := by
  constructor <;> decide +kernel

end Effector
