import Verif.Props.Defaults

/-!
# C95: what the name of a binning method stands for; default names and default limits
-/

set_option linter.unusedSectionVars false

namespace Effector

open Spec

variable {K : Type} [Field K] [LinearOrder K] [IsStrictOrderedRing K] {D : ℕ}

namespace Spec

/-- `Greedy()`, `DynamicProgramming()` and `Fixed()` (effector/binning_methods.py:7-39): the objects with the default parameters. -/
def defaultObject : String → Option (BinMethod K)
  | "greedy" => some (.greedy 100 (some 10) (3 / 10) 15)
  | "dp" => some (.dp 20 (some 10) (3 / 10) 15)
  | "fixed" => some (.fixed 100 (some 10) 15)
  | _ => none

end Spec

theorem fitLoop_bin (cfg : AleCfg K D) (bm bm' : BinMethod K) (h : ∀ s, cfg.fitF s bm = cfg.fitF s bm') (c : Centering) (l : List (Fin D)) (st : AleState K D) :
    fitLoop cfg bm c st l = fitLoop cfg bm' c st l := by
  induction l generalizing st with
  | nil => rfl
  | cons s t ih =>
    unfold fitLoop
    rw [show fitOne cfg st s bm c = fitOne cfg st s bm' c by unfold fitOne; rw [h s]]
    rcases fitOne cfg st s bm' c with ⟨st', e | ⟨⟩⟩
    · rfl
    · exact ih st'

/-- **C95, `ALE.fit`**: the name `"fixed"` stands for `Fixed(nof_bins=20, min_points_per_bin=0, cat_limit=15)`. -/
theorem C95_ale_partial (cast : K → K) (model : List (Row K D) → List K) (b : Base K D) (st : AleState K D) (features centering : PyVal) :
    aleFit (aleCfg cast model b) st features (.str "fixed") centering = aleFit (aleCfg cast model b) st features (.fixed 20 (some 0) 15) centering := by
  have hf : ∀ s, (aleCfg cast model b).fitF s (.str "fixed") = (aleCfg cast model b).fitF s (.fixed 20 (some 0) 15) := fun s => rfl
  unfold aleFit
  rw [show (aleCfg cast model b).allowed (.str "fixed") = true by simp [aleCfg, isFixedMethod],
    show (aleCfg cast model b).allowed (.fixed 20 (some 0) 15) = true by simp [aleCfg, isFixedMethod]]
  simp only [if_true, fitLoop_bin _ _ _ hf]

/-- **C95, `RHALE.fit`**: `"greedy"` stands for `Greedy(100, 0, 0.3, 15)`, `"fixed"` for `Fixed(20, 0, 15)`. -/
theorem C95_rhale_partial (eff : List (Row K D)) (b : Base K D) (st : AleState K D) (features centering : PyVal) :
    aleFit (rhaleCfg eff b) st features (.str "greedy") centering = aleFit (rhaleCfg eff b) st features (.greedy 100 (some 0) (3 / 10) 15) centering ∧
    aleFit (rhaleCfg eff b) st features (.str "fixed") centering = aleFit (rhaleCfg eff b) st features (.fixed 20 (some 0) 15) centering :=
  C24_names_partial eff b st features centering

/-- **C95, the search of `RegionalRHALE.fit` and `RegionalALE.fit`**: here a name does stand for the object with the default parameters; any other string is rejected. -/
theorem C95_search [PySqrt K] (o : RegionalObj K D) (hm : o.cfg.methodName = "rhale" ∨ o.cfg.methodName = "ale") (kw : FitKw K D) (f : Fin D) (name : String) :
    (∀ bm, defaultObject name = some bm → searchOf o { kw with bin := .str name } f = searchOf o { kw with bin := bm } f) ∧
    (defaultObject (K := K) name = none → searchOf o { kw with bin := .str name } f = .error .assertionError) := by
  have key : ∀ (b1 b2 : BinMethod K), prepBinningMethod b1 = prepBinningMethod b2 →
      regionalHeter o { kw with bin := b1 } f = regionalHeter o { kw with bin := b2 } f := by
    intro b1 b2 h
    unfold regionalHeter
    rcases hm with hm | hm <;> simp only [hm, h, reduceIte, String.reduceEq]
  have key2 : ∀ (b1 b2 : BinMethod K), prepBinningMethod b1 = prepBinningMethod b2 → searchOf o { kw with bin := b1 } f = searchOf o { kw with bin := b2 } f := by
    intro b1 b2 h
    unfold searchOf
    rw [key b1 b2 h]
    cases he : regionalHeter o { kw with bin := b2 } f with
    | error e => rfl
    | ok H =>
      simp only [Except.bind]
      have : regionsOf o.cfg (({ kw with bin := b1 } : FitKw K D).toArgs o) f = regionsOf o.cfg (({ kw with bin := b2 } : FitKw K D).toArgs o) f := by
        simp only [regionsOf, FitKw.toArgs]
        rw [key b1 b2 h]
      rw [this]
  constructor
  · intro bm hbm
    apply key2
    unfold defaultObject at hbm
    split at hbm <;> cases hbm <;> simp [prepBinningMethod]
  · intro hn
    have h1 : prepBinningMethod (.str name : BinMethod K) = .error .assertionError := by
      unfold defaultObject at hn
      split at hn
      · cases hn
      · cases hn
      · cases hn
      · rename_i g1 g2 g3
        simp only [prepBinningMethod]
        rw [if_neg (fun h => g1 h), if_neg (fun h => g2 h), if_neg (fun h => g3 h)]
    unfold searchOf regionalHeter
    rcases hm with hm | hm <;> simp only [hm, h1, reduceIte, String.reduceEq] <;> rfl

/-- Four instances of one feature. -/
def fourRows : Base ℚ 1 := { data := [![0], ![0], ![1], ![1]], indices := [0, 1, 2, 3], axisLo := ![0], axisHi := ![1] }

/-- **Finding (C95 does not hold for the global classes).**  With four instances, `RHALE.fit("all", "greedy")` succeeds and `RHALE.fit("all", Greedy())` raises; the same for
`"fixed"` and `Fixed()`, and for `ALE` (documented: "the default values, which are 20 bins with at least 10 points per bin"). -/
theorem C95_false_names :
    (aleFit (rhaleCfg [![1], ![2], ![3], ![4]] fourRows) AleState.init (.str "all") (.str "greedy") (.bool false)).2 = .ok () ∧
    (aleFit (rhaleCfg [![1], ![2], ![3], ![4]] fourRows) AleState.init (.str "all") (.greedy 100 (some 10) (3 / 10) 15) (.bool false)).2 = .error .assertionError ∧
    (aleFit (rhaleCfg [![1], ![2], ![3], ![4]] fourRows) AleState.init (.str "all") (.str "fixed") (.bool false)).2 = .ok () ∧
    (aleFit (rhaleCfg [![1], ![2], ![3], ![4]] fourRows) AleState.init (.str "all") (.fixed 100 (some 10) 15) (.bool false)).2 = .error .assertionError ∧
    (aleFit (aleCfg id (List.map fun r => 2 * r 0) fourRows) AleState.init (.str "all") (.str "fixed") (.bool false)).2 = .ok () ∧
    (aleFit (aleCfg id (List.map fun r => 2 * r 0) fourRows) AleState.init (.str "all") (.fixed 20 (some 10) 15) (.bool false)).2 = .error .assertionError := by
  decide +kernel

/-! ### Default names, default limits -/

/-- **C81**, the default names: `get_feature_names` gives `x_0, x_1, ...`, the names an object constructed without names has. -/
theorem C81_default_names [PySqrt K] (bb : BlackBoxes K D) (meth : String) (data : List (Row K D)) (given : Option (List (Row K D))) (nof : PyVal)
    (axisLimits : Option ((Fin D → K) × (Fin D → K))) (types : Option (Fin D → FeatType)) (catLimit : ℕ) (fmt : K → String)
    (hlen : ∀ e, startEffects bb meth data given = some e → e.length = data.length) (o : RegionalObj K D)
    (h : regionalNew bb meth data given nof axisLimits types catLimit none fmt = .ok o) (f : Fin D) :
    (getFeatureNames D)[(f : ℕ)]? = some (o.cfg.names f) ∧ o.cfg.names f = "x_" ++ toString (f : ℕ) := by
  have h1 := (C81_constructor bb meth data given nof axisLimits types catLimit none fmt hlen o h).2.2.2.2.2.1.2 rfl f
  refine ⟨?_, h1⟩
  rw [h1]
  simp [getFeatureNames, f.2]

/-- **C53**, the default limits of all features are those of `axis_limits_from_data` for each of them. -/
theorem C53_limits_from_data (data : List (Row K D)) (lo hi : Fin D → K) (h : axisLimitsAll data = .ok (lo, hi)) (f : Fin D) :
    axisLimitsFromData data f = .ok (lo f, hi f) := by
  cases data with
  | nil =>
    unfold axisLimitsAll at h
    simp only at h
    rw [if_neg (by intro hd; subst hd; exact f.elim0)] at h
    cases h
  | cons r rs =>
    unfold axisLimitsAll at h
    cases h
    rfl

end Effector
