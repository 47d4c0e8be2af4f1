import Verif.Props.RegionalApi
import Verif.Props.PerfectRegional

/-!
# C71 through the public API: construct a regional object, call `fit`, nothing is raised
-/

set_option linter.unusedSectionVars false

namespace Effector

open Spec

variable {K : Type} [Field K] [LinearOrder K] [IsStrictOrderedRing K] {D : ℕ}

namespace Spec

/-- The arguments of a fit that every class checks only by failing: at least 2 points per subregion, a candidate position, not more levels than conditioning
features, and a `features` argument naming the columns `l`. -/
structure FitArgsOk (kw : FitKw K D) (features : PyVal) (l : List (Fin D)) : Prop where
  minPoints : 2 ≤ kw.minPoints
  candidates : 0 < kw.nofCandidates
  depth : ∀ f ∈ l, kw.maxDepth ≤ (kw.foc.getD (focAll f)).length
  features : (prepFeatures features D).bind (resolveFeatures D) = .ok l

/-- Feature types are left to the library, or the features declared categorical have no more values than the split matrix has columns. -/
def TypesOk (data : List (Row K D)) (types : Option (Fin D → FeatType)) (catLimit : ℕ) (kw : FitKw K D) : Prop :=
  types = none ∨ ∃ t, types = some t ∧ ∀ f, t f = .cat → distinct (data.map fun r => r f) ≤ max kw.nofCandidates catLimit

end Spec

theorem takeRows_mem {α : Type} {data : List α} {idx : List ℕ} {d : List α} (h : takeRows data idx = .ok d) : ∀ r ∈ d, r ∈ data := by
  intro r hr
  have h1 : some r ∈ d.map some := List.mem_map.mpr ⟨r, hr, rfl⟩
  rw [takeRows_spec h] at h1
  obtain ⟨i, -, hi⟩ := List.mem_map.mp h1
  exact List.mem_of_getElem? hi

/-- The categorical conditioning features of a constructed object fit into the split matrix. -/
theorem catFits [PySqrt K] {data : List (Row K D)} {types : Option (Fin D → FeatType)} {catLimit : ℕ} {kw : FitKw K D} (ht : TypesOk data types catLimit kw)
    {o : RegionalObj K D} (h1 : o.cfg.catLimit = catLimit) (h2 : ∀ r ∈ o.cfg.data, r ∈ data) (h3 : ∀ t, types = some t → o.cfg.types = t)
    (h4 : types = none → ∀ f, o.cfg.types f = .cat ↔ Spec.distinct (data.map fun r => r f) < catLimit) (f : Fin D) (hf : o.cfg.types f = .cat) :
    distinct (o.cfg.data.map (· f)) ≤ max kw.nofCandidates o.cfg.catLimit := by
  have hsub : distinct (o.cfg.data.map (· f)) ≤ distinct (data.map fun r => r f) := by
    refine dedup_length_le_of_subset ?_
    intro x hx
    obtain ⟨r, hr, rfl⟩ := List.mem_map.mp hx
    exact List.mem_map.mpr ⟨r, h2 r hr, rfl⟩
  refine le_trans hsub ?_
  rcases ht with h | ⟨t, h, ht⟩
  · rw [h1]; exact le_trans ((h4 h f).mp hf).le (le_max_right _ _)
  · rw [h1]; exact ht f (by rw [← h3 t h]; exact hf)

/-- **C71 through the API, RegionalRHALE.**  A RegionalRHALE object built on `data` with effects (given or gradients) that are as many as the instances; on the
fitted features the effects lie in an interval of length `C` and the values in one of length `w`.  Then `fit` raises nothing, from any state of the object, for
every accepted `features` argument and every binning method of `BoundedMethod`. -/
theorem C71_rhale_api [PySqrt K] [LawfulSqrt K] (bb : BlackBoxes K D) (data : List (Row K D)) (given : Option (List (Row K D))) (nof : PyVal)
    (axisLimits : Option ((Fin D → K) × (Fin D → K))) (types : Option (Fin D → FeatType)) (catLimit : ℕ) (names : Option (Fin D → String)) (fmt : K → String)
    (o : RegionalObj K D) (ho : regionalNew bb "rhale" data given nof axisLimits types catLimit names fmt = .ok o) (hne : o.cfg.data ≠ [])
    (hlen : (regionalRhaleEffects bb given data).length = data.length)
    (kw : FitKw K D) (features : PyVal) (l : List (Fin D)) (hargs : FitArgsOk kw features l) (htypes : TypesOk data types catLimit kw)
    (bm : BinMethod K) (hbin : prepBinningMethod kw.bin = .ok bm)
    (hb : ∀ f ∈ l, ∃ a C u w : K, 0 ≤ C ∧ (∀ r ∈ regionalRhaleEffects bb given data, a ≤ r f ∧ r f ≤ a + C) ∧ (∀ r ∈ data, u ≤ r f ∧ r f ≤ u + w) ∧
      u + w ≤ 100000000 ∧ 3 / 2 * C * w ≤ 100000000 ∧ BoundedMethod C w bm) (st : RegionalState K D) :
    (regionalFit o st features kw).2 = .ok () := by
  have hse : startEffects bb "rhale" data given = some (regionalRhaleEffects bb given data) := rfl
  obtain ⟨hc, c1, c2, c3, -, -, c4, c5, c6, -, idx, -, -, -, c7⟩ := C81_constructor bb "rhale" data given nof axisLimits types catLimit names fmt
    (fun e he => by rw [hse] at he; cases he; exact hlen) o ho
  obtain ⟨E, hE, hEt⟩ := c7 _ hse
  rw [C81_fit_returns o hc]
  refine ⟨hargs.minPoints, l, hargs.features, fun f hf => ?_⟩
  obtain ⟨a, C, u, w, h1, h2, h3, h4, h5, h6⟩ := hb f hf
  obtain ⟨r, hr⟩ := C71_rhale_bounded (regionsOf o.cfg (kw.toArgs o) f) hc.1 hne hargs.candidates (fun g _ hg => catFits htypes c3 c4 c5 c6 g hg) (hargs.depth f hf)
    (le_trans (by norm_num) hargs.minPoints) bb.choice bb.model bb.jac bm kw.centering E hE a C u w h1 (fun r hr => h2 r (takeRows_mem hEt r hr))
    (fun r hr => h3 r (c4 r hr)) h4 h5 h6
  refine ⟨r, ?_⟩
  unfold searchOf regionalHeter
  rw [c1, c2]
  simp only [if_true, hbin, bind, Except.bind, pure, Except.pure]
  exact hr

/-- **C71 through the API, RegionalALE** with a `Fixed` binning method (the only kind that works without effects; the default is `Fixed(20, 0, 15)`). -/
theorem C71_ale_api [PySqrt K] [LawfulSqrt K] (bb : BlackBoxes K D) (g : Row K D → K) (hmodel : bb.model = List.map g) (data : List (Row K D)) (nof : PyVal)
    (axisLimits : Option ((Fin D → K) × (Fin D → K))) (types : Option (Fin D → FeatType)) (catLimit : ℕ) (names : Option (Fin D → String)) (fmt : K → String)
    (o : RegionalObj K D) (ho : regionalNew bb "ale" data none nof axisLimits types catLimit names fmt = .ok o) (hne : o.cfg.data ≠ [])
    (kw : FitKw K D) (features : PyVal) (l : List (Fin D)) (hargs : FitArgsOk kw features l) (htypes : TypesOk data types catLimit kw)
    (n m cl : ℕ) (hbin : kw.bin = .fixed n (some m) cl) (hn : 1 ≤ n) (hcl : 1 ≤ cl) (a B : K) (hB : 0 ≤ B) (hg : ∀ r, a ≤ g r ∧ g r ≤ a + B)
    (hb : ∀ f ∈ l, ∃ u w δ N : K, (∀ r ∈ data, u ≤ r f ∧ r f ≤ u + w) ∧ 0 < δ ∧ (∀ r ∈ data, ∀ r' ∈ data, r f < r' f → δ ≤ r' f - r f) ∧
      (n : K) ≤ N ∧ 3 / 2 * w ≤ N * δ ∧ u + w ≤ 100000000 ∧ 2 * B * N ≤ 100000000) (st : RegionalState K D) :
    (regionalFit o st features kw).2 = .ok () := by
  have hse : startEffects bb "ale" data none = none := rfl
  obtain ⟨hc, c1, c2, c3, -, -, c4, c5, c6, -⟩ := C81_constructor bb "ale" data none nof axisLimits types catLimit names fmt
    (fun e he => by rw [hse] at he; cases he) o ho
  rw [C81_fit_returns o hc]
  refine ⟨hargs.minPoints, l, hargs.features, fun f hf => ?_⟩
  obtain ⟨u, w, δ, N, h1, h2, h3, h4, h5, h6, h7⟩ := hb f hf
  obtain ⟨r, hr⟩ := C71_ale_bounded (regionsOf o.cfg (kw.toArgs o) f) hc.1 hne hargs.candidates (fun g _ hg => catFits htypes c3 c4 c5 c6 g hg) (hargs.depth f hf)
    (le_trans (by norm_num) hargs.minPoints) bb.choice bb.cast g n m cl hn hcl kw.centering a B hB hg u w δ N (fun r hr => h1 r (c4 r hr)) h2
    (fun r hr r' hr' => h3 r (c4 r hr) r' (c4 r' hr')) h4 h5 h6 h7
  refine ⟨r, ?_⟩
  unfold searchOf regionalHeter
  rw [c1, c2, hbin]
  simp only [prepBinningMethod, bind, Except.bind, pure, Except.pure]
  rw [hmodel]
  exact hr

/-- **C71 through the API, RegionalPDP** with automatic axis limits, a float data matrix and all instances. -/
theorem C71_pdp_api [PySqrt K] [LawfulSqrt K] (bb : BlackBoxes K D) (g : Row K D → K) (hmodel : bb.model = List.map g) (hcast : bb.cast = id)
    (data : List (Row K D)) (nof : PyVal) (types : Option (Fin D → FeatType)) (catLimit : ℕ) (names : Option (Fin D → String)) (fmt : K → String)
    (o : RegionalObj K D) (ho : regionalNew bb "pdp" data none nof none types catLimit names fmt = .ok o) (hne : o.cfg.data ≠ [])
    (kw : FitKw K D) (features : PyVal) (l : List (Fin D)) (hargs : FitArgsOk kw features l) (htypes : TypesOk data types catLimit kw)
    (hnof : kw.nof = .str "all") (hp : 1 ≤ kw.points)
    (hb : ∀ f ∈ l, ∃ B : K → K, ∀ u, ∀ r ∈ data, B u ≤ g (Function.update r f u) ∧ g (Function.update r f u) ≤ B u + 100000000) (st : RegionalState K D) :
    (regionalFit o st features kw).2 = .ok () := by
  have hse : startEffects bb "pdp" data none = none := rfl
  obtain ⟨hc, c1, c2, c3, -, -, c4, c5, c6, c7, -⟩ := C81_constructor bb "pdp" data none nof none types catLimit names fmt
    (fun e he => by rw [hse] at he; cases he) o ho
  have hax : axisLimitsAll data = .ok (o.axisLo, o.axisHi) := by
    rcases c7 with h | ⟨-, h⟩
    · cases h
    · exact h
  rw [C81_fit_returns o hc]
  refine ⟨hargs.minPoints, l, hargs.features, fun f hf => ?_⟩
  obtain ⟨B, hB⟩ := hb f hf
  obtain ⟨r, hr⟩ := C71_pdp_bounded (regionsOf o.cfg (kw.toArgs o) f) hc.1 hne hargs.candidates (fun g _ hg => catFits htypes c3 c4 c5 c6 g hg) (hargs.depth f hf)
    (le_trans (by norm_num) hargs.minPoints) bb.choice (.pdp g) o.axisLo o.axisHi (fun r hr => axisLimits_within hax r (c4 r hr)) kw.centering kw.points hp kw.vec
    B (fun u r hr => hB u r (c4 r hr))
  refine ⟨r, ?_⟩
  unfold searchOf regionalHeter
  rw [c1, c2, hnof]
  simp only [hcast, hmodel]
  exact hr

/-- **C71 through the API, RegionalDerPDP** with a Jacobian, automatic axis limits and all instances. -/
theorem C71_derpdp_api [PySqrt K] [LawfulSqrt K] (bb : BlackBoxes K D) (j : Row K D → Row K D) (hjac : bb.jac = some (List.map j)) (hcast : bb.cast = id)
    (data : List (Row K D)) (nof : PyVal) (types : Option (Fin D → FeatType)) (catLimit : ℕ) (names : Option (Fin D → String)) (fmt : K → String)
    (o : RegionalObj K D) (ho : regionalNew bb "d-pdp" data none nof none types catLimit names fmt = .ok o) (hne : o.cfg.data ≠ [])
    (kw : FitKw K D) (features : PyVal) (l : List (Fin D)) (hargs : FitArgsOk kw features l) (htypes : TypesOk data types catLimit kw)
    (hnof : kw.nof = .str "all") (hp : 1 ≤ kw.points)
    (hb : ∀ f ∈ l, ∃ B : K → K, ∀ u, ∀ r ∈ data, B u ≤ j (Function.update r f u) f ∧ j (Function.update r f u) f ≤ B u + 100000000) (st : RegionalState K D) :
    (regionalFit o st features kw).2 = .ok () := by
  have hse : startEffects bb "d-pdp" data none = none := rfl
  obtain ⟨hc, c1, c2, c3, -, -, c4, c5, c6, c7, -⟩ := C81_constructor bb "d-pdp" data none nof none types catLimit names fmt
    (fun e he => by rw [hse] at he; cases he) o ho
  have hax : axisLimitsAll data = .ok (o.axisLo, o.axisHi) := by
    rcases c7 with h | ⟨-, h⟩
    · cases h
    · exact h
  rw [C81_fit_returns o hc]
  refine ⟨hargs.minPoints, l, hargs.features, fun f hf => ?_⟩
  obtain ⟨B, hB⟩ := hb f hf
  obtain ⟨r, hr⟩ := C71_pdp_bounded (regionsOf o.cfg (kw.toArgs o) f) hc.1 hne hargs.candidates (fun g _ hg => catFits htypes c3 c4 c5 c6 g hg) (hargs.depth f hf)
    (le_trans (by norm_num) hargs.minPoints) bb.choice (.derJac j) o.axisLo o.axisHi (fun r hr => axisLimits_within hax r (c4 r hr)) kw.centering kw.points hp kw.vec
    B (fun u r hr => hB u r (c4 r hr))
  refine ⟨r, ?_⟩
  unfold searchOf regionalHeter
  rw [c1, c2, hnof]
  simp only [hcast, hjac]
  exact hr

end Effector
