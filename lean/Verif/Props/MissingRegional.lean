import Verif.Props.MissingFilled
import Verif.Props.AleInvariance

/-!
# C116: `RegionalPDP` and `RegionalDerPDP` on data with missing values
-/

set_option linter.unusedSectionVars false

namespace Effector

variable {K : Type} [Field K] [LinearOrder K] [IsStrictOrderedRing K] {D : ℕ}

open Spec

/-! ### The heterogeneity is never negative -/

theorem nanSum_nonneg : ∀ {l : List (Option K)} {s : K}, (∀ v, some v ∈ l → 0 ≤ v) → nanSum l = some s → 0 ≤ s := by
  intro l
  induction l with
  | nil =>
    intro s _ h
    rw [← Option.some.inj h]
  | cons a t ih =>
    intro s hl h
    cases a with
    | none => cases h
    | some a =>
      unfold nanSum at h
      rcases ht : nanSum t with _ | u
      · rw [ht] at h; cases h
      · rw [ht] at h
        have h1 := ih (fun v hv => hl v (List.mem_cons_of_mem _ hv)) ht
        have h2 := hl a (List.mem_cons_self ..)
        rw [← Option.some.inj h]
        exact add_nonneg h2 h1

theorem nMean_nonneg {l : List (Option K)} {s : K} (hl : ∀ v, some v ∈ l → 0 ≤ v) (h : nMean l = some s) : 0 ≤ s := by
  unfold nMean at h
  split_ifs at h
  rcases ht : nanSum l with _ | u
  · rw [ht] at h; cases h
  · rw [ht] at h
    rw [← Option.some.inj h]
    exact div_nonneg (nanSum_nonneg hl ht) (by positivity)

theorem mPdpHeter_like [PySqrt K] (hsqrt : ∀ v : K, 0 ≤ PySqrt.sqrt v) (choice : ℕ → ℕ → List ℕ) (cast : K → K) (kind : MPdpKind K D) (lo hi : Fin D → Option K) (foi : Fin D) (minPoints : ℕ) (centering nof : PyVal)
    (points : ℕ) (vec : Bool) : HeterLike minPoints (mPdpHeterFun choice cast kind lo hi foi minPoints centering nof points vec) where
  small := by
    intro x e hx
    simp [mPdpHeterFun, mPdpHeter, hx, bind, Except.bind, BIG_M]
  nonneg := by
    intro x e v h
    have hbig : (0 : K) ≤ BIG_M := by unfold BIG_M; positivity
    unfold mPdpHeterFun at h
    simp only [bind, Except.bind] at h
    rcases hq : mPdpHeter choice cast kind lo hi foi minPoints centering nof points vec x with er | q
    · rw [hq] at h; cases h
    rw [hq] at h
    cases q with
    | none => cases h
    | some w =>
      obtain rfl := Except.ok.inj h
      unfold mPdpHeter at hq
      split_ifs at hq
      · obtain rfl := Option.some.inj (Except.ok.inj hq)
        exact hbig
      · simp only [bind, Except.bind, pure, Except.pure] at hq
        rcases h1 : prepNofInstances choice nof x.length with er | idx
        · rw [h1] at hq; cases hq
        rw [h1] at hq
        dsimp only at hq
        rcases h2 : takeRows x idx.2 with er | d
        · rw [h2] at hq; cases hq
        rw [h2] at hq
        dsimp only at hq
        generalize mPdpFit { cast := cast, kind := kind, axisLo := lo, axisHi := hi } (MPdpState.init d) (.int (foi : ℕ)) centering points vec = q at hq
        obtain ⟨st, r⟩ := q
        cases r with
        | error er =>
          obtain rfl := Option.some.inj (Except.ok.inj hq)
          exact hbig
        | ok u =>
          dsimp only at hq
          rcases h3 : mAxisLimits x with er | l
          · rw [h3] at hq; cases hq
          rw [h3] at hq
          dsimp only at hq
          split at hq
          · have := Except.ok.inj hq
            refine nMean_nonneg ?_ this
            intro y hy
            obtain ⟨row, -, hrow⟩ := List.mem_map.mp hy
            unfold nanStd at hrow
            split_ifs at hrow
            rw [← Option.some.inj hrow]
            exact hsqrt _
          · obtain rfl := Option.some.inj (Except.ok.inj hq)
            exact hbig

/-! ### The heterogeneity of a region is that of the filled-in region -/

theorem nanSum_numbers (l : List K) : nanSum (l.map some) = some l.sum := by
  induction l with
  | nil => rfl
  | cons a t ih =>
    rw [List.map_cons, List.sum_cons]
    unfold nanSum
    rw [ih]

theorem nMean_numbers {l : List K} (h : l ≠ []) : nMean (l.map some) = some (mean l) := by
  unfold nMean
  rw [if_neg (by simpa using h), nanSum_numbers]
  simp [mean]

theorem mPdpHeter_filled [PySqrt K] (choice : ℕ → ℕ → List ℕ) {imp : MRow K D → Row K D} (hk : KeepsKnown imp) {foi : Fin D} (hf : Fills foi imp) {M : MPdpModel K D} {M0 : PdpModel K D}
    (hM : FilledBy foi imp M M0) {lo hi : Fin D → Option K} {lo0 hi0 : Fin D → K} (hlo : lo foi = some (lo0 foi)) (hhi : hi foi = some (hi0 foi)) {minPoints : ℕ} (hm : 1 ≤ minPoints)
    (centering : PyVal) (points : ℕ) (vec : Bool) {x : List (MRow K D)} (hx : ∀ r ∈ x, ∃ v, r foi = some v ∧ lo0 foi ≤ v ∧ v ≤ hi0 foi) (e : Option (List (Row K D))) :
    mPdpHeterFun choice id M.kind lo hi foi minPoints centering (.str "all") points vec x e =
      pdpHeter choice id M0.kind lo0 hi0 foi minPoints centering (.str "all") points vec (x.map imp) := by
  unfold mPdpHeterFun mPdpHeter pdpHeter
  rw [List.length_map]
  by_cases hs : x.length < minPoints
  · rw [if_pos hs, if_pos hs]; rfl
  rw [if_neg hs, if_neg hs, base_init_all]
  have hne : x ≠ [] := by
    rintro rfl
    simp at hs
    omega
  have hall : ∀ r ∈ x, (r foi).isSome := by
    intro r hr
    obtain ⟨v, hv, -⟩ := hx r hr
    rw [hv]; rfl
  have hwith : withValue foi x = x := List.filter_eq_self.mpr hall
  have hdrop : mDropOutside x (some (lo0 foi)) (some (hi0 foi)) foi = x := by
    unfold mDropOutside
    rw [List.filter_filter]
    apply List.filter_eq_self.mpr
    intro r hr
    obtain ⟨v, hv, h1, h2⟩ := hx r hr
    rw [hv]
    simp [nanLe, h1, h2]
  have hdrop0 : dropOutside (x.map imp) (lo0 foi) (hi0 foi) foi = x.map imp := by
    have := mDrop_fills hf x (lo0 foi) (hi0 foi)
    rw [hdrop, hwith] at this
    exact this.symm
  have hst : FilledState foi imp x (lo0 foi) (hi0 foi) (MPdpState.init x) (PdpState.init (x.map imp)) := by
    refine ⟨rfl, rfl, rfl, rfl, ?_, (fun hh => by cases hh), (fun hh => by cases hh), (fun _ hh => by cases hh)⟩
    rw [hwith]
    rfl
  simp only [bind, Except.bind, pure, Except.pure, limitsOr, prepNofInstances, if_true, takeRows_range]
  -- the two fits
  have hfit : ∀ c : Centering, _ := fun c => fitLoop_fills (cfg := { cast := id, kind := M.kind, axisLo := lo, axisHi := hi })
    (cfg0 := { cast := id, kind := M0.kind, axisLo := lo0, axisHi := hi0 }) hf hM hlo hhi rfl rfl rfl rfl rfl rfl hst c points vec
  have hfe := features_only (D := D) (s := foi) (f := .int (foi : ℕ)) (Or.inl rfl)
  unfold mPdpFit pdpFit
  cases hpc : prepCentering centering with
  | error er => rfl
  | ok c =>
    simp only [bind, Except.bind, pure, Except.pure] at hfe ⊢
    cases hpf : prepFeatures (.int (foi : ℕ)) D with
    | error er => simp [prepFeatures] at hpf
    | ok g =>
      rw [hpf] at hfe
      dsimp only at hfe ⊢
      rw [hfe]
      dsimp only
      obtain ⟨k1, k2, k3⟩ := hfit c
      generalize mPdpFitLoop { cast := id, kind := M.kind, axisLo := lo, axisHi := hi } c points vec (MPdpState.init x) [foi] = q at k1 k2 k3
      generalize pdpFitLoop { cast := id, kind := M0.kind, axisLo := lo0, axisHi := hi0 } c points vec (PdpState.init (x.map imp)) [foi] = q0 at k1 k2
      obtain ⟨st, r⟩ := q
      obtain ⟨st0, r0⟩ := q0
      dsimp only at k1 k2 k3
      subst k2
      cases r with
      | error er => rfl
      | ok u =>
        dsimp only
        have d1 := k1.isDropped (k3 rfl)
        have d0 := k1.isDropped0 (k3 rfl)
        rw [hdrop] at d1
        rw [hwith, hdrop0] at d0
        have hcol : col (x.map imp) foi ≠ [] := by simpa [col] using hne
        obtain ⟨mn, hmn⟩ := listMin_ok hcol
        obtain ⟨mx, hmx⟩ := listMax_ok hcol
        have e1 := npMin_numbers hmn
        have e2 := npMax_numbers hmx
        rw [← mcol_fills hk hall] at e1 e2
        rw [hmn, hmx]
        have hax : mAxisLimits x = .ok (fun s => npMin (mcol x s), fun s => npMax (mcol x s)) := by
          unfold mAxisLimits
          rcases x with _ | ⟨r, t⟩
          · exact absurd rfl hne
          · rfl
        rw [hax]
        dsimp only
        rw [e1, e2, hlo, hhi, d1]
        have hp : mPdpPredict id M.kind x (mLinspace (some mn) (some mx) 10) foi vec = pdpPredict id M0.kind (x.map imp) (linspace mn mx 10) foi vec :=
          mPredict_fills hf hM x (linspace mn mx 10) vec
        rw [hp, predict_rowwise]
        have hl : linspace mn mx 10 ≠ [] := by
          intro h0
          have := congrArg List.length h0
          simp [linspace] at this
        rw [if_neg (fun h => hl h.2)]
        -- the evaluation on the filled-in data
        unfold pdpEval
        have hcf : prepCentering (.bool false) = .ok .off := rfl
        have hfit0 : st0.fitted foi = true := by rw [← k1.fitted]; exact k3 rfl
        have hnr : needsRefit (st0.fitted foi) (st0.args foi) .off = .ok false := by rw [hfit0]; rfl
        rw [hcf]
        dsimp only
        rw [hnr]
        dsimp only
        unfold pdpEvalFitted
        rw [d0]
        dsimp only
        rw [predict_rowwise, if_neg (fun h => hl h.2)]
        simp only [bind, Except.bind, pure, Except.pure, pyAssert, nanLt]
        by_cases hab : lo0 foi < hi0 foi
        · simp only [hab, decide_true, if_true]
          generalize linspace mn mx 10 = xs at hl
          have hz : ((xs.map fun v => (x.map imp).map fun r => M0.at foi v r).map nanStd) = ((xs.map fun v => (x.map imp).map fun r => M0.at foi v r).map npStd).map some := by
            rw [List.map_map, List.map_map, List.map_map]
            refine List.map_congr_left fun v _ => ?_
            simp only [Function.comp_apply]
            unfold nanStd
            rw [if_neg (by simpa using hne)]
          rw [hz, nMean_numbers (by simpa using hl)]
          rfl
        · simp only [hab, decide_false]
          rfl

/-- **C116, `RegionalPDP` and `RegionalDerPDP`.**  Data with missing values, the feature of interest `cfg.feature` and the categorical conditioning features complete; a model that fills in the missing values
before it predicts.  The fit (axis limits inferred from the data) reports exactly the splits - features, positions, numbers of instances, heterogeneities - that it would report on the filled-in data
*if only the complete conditioning features were passed*: the continuous features with a missing value are ignored.  (Two fits that do not raise; no region has a heterogeneity above `BIG_M / 2`.) -/
theorem C116_regional_pdp [PySqrt K] (hsqrt : ∀ v : K, 0 ≤ PySqrt.sqrt v) (choice : ℕ → ℕ → List ℕ) (imp : MRow K D → Row K D) (hk : KeepsKnown imp) (cfg : MRegCfg K D) (hf : Fills cfg.feature imp)
    (M : MPdpModel K D) (M0 : PdpModel K D) (hM : FilledBy cfg.feature imp M M0) (hfoi : Complete cfg.data cfg.feature) (hcat : ∀ f ∈ cfg.foc, cfg.types f = .cat → Complete cfg.data f)
    (hthr : 0 ≤ cfg.dropThres) (hm : 1 ≤ cfg.minPoints) (lo hi : Fin D → Option K) (hlim : mAxisLimits cfg.data = .ok (lo, hi)) (lo0 hi0 : Fin D → K)
    (hlim0 : axisLimitsFromData (cfg.data.map imp) cfg.feature = .ok (lo0 cfg.feature, hi0 cfg.feature)) (centering : PyVal) (points : ℕ) (vec : Bool)
    (hmod : ∀ (x : List (MRow K D)) v, x.Sublist cfg.data → cfg.minPoints ≤ x.length →
      pdpHeter choice id M0.kind lo0 hi0 cfg.feature cfg.minPoints centering (.str "all") points vec (x.map imp) = .ok v → 2 * v ≤ 10 ^ 8)
    (s : Option (MSplits K D)) (hs : mSearchAllSplits cfg (mPdpHeterFun choice id M.kind lo hi cfg.feature cfg.minPoints centering (.str "all") points vec) = .ok s)
    (s0 : Option (Splits K D)) (hs0 : searchAllSplitsM (filledCfg imp { cfg with foc := usable cfg.types cfg.data cfg.foc })
      (fun x _ => pdpHeter choice id M0.kind lo0 hi0 cfg.feature cfg.minPoints centering (.str "all") points vec x) = .ok s0) :
    (mChooseImportantSplits cfg s).map mContent =
      (chooseImportantSplits (filledCfg imp { cfg with foc := usable cfg.types cfg.data cfg.foc }) s0).map fun sp => mContent (asMSplit sp) := by
  have hne : cfg.data ≠ [] := by
    intro h0
    rw [h0] at hlim
    have hD : D ≠ 0 := fun h => absurd cfg.feature.2 (by omega)
    simp [mAxisLimits, hD] at hlim
  have hax : mAxisLimits cfg.data = .ok (fun s => npMin (mcol cfg.data s), fun s => npMax (mcol cfg.data s)) := by
    unfold mAxisLimits
    rcases hd : cfg.data with _ | ⟨r, t⟩
    · exact absurd hd hne
    · rfl
  rw [hax] at hlim
  have hl := Except.ok.inj hlim
  have hcol : col (cfg.data.map imp) cfg.feature ≠ [] := by simpa [col] using hne
  obtain ⟨mn, hmn⟩ := listMin_ok hcol
  obtain ⟨mx, hmx⟩ := listMax_ok hcol
  have e1 := npMin_numbers hmn
  have e2 := npMax_numbers hmx
  rw [← mcol_fills hk hfoi] at e1 e2
  have hl0 : lo0 cfg.feature = mn ∧ hi0 cfg.feature = mx := by
    unfold axisLimitsFromData at hlim0
    rw [hmn, hmx] at hlim0
    have := Except.ok.inj hlim0
    exact ⟨(congrArg Prod.fst this).symm, (congrArg Prod.snd this).symm⟩
  have hlo : lo cfg.feature = some (lo0 cfg.feature) := by
    rw [hl0.1, ← e1]
    exact (congrFun (congrArg Prod.fst hl) cfg.feature).symm
  have hhi : hi cfg.feature = some (hi0 cfg.feature) := by
    rw [hl0.2, ← e2]
    exact (congrFun (congrArg Prod.snd hl) cfg.feature).symm
  have hin : ∀ r ∈ cfg.data, ∃ v, r cfg.feature = some v ∧ lo0 cfg.feature ≤ v ∧ v ≤ hi0 cfg.feature := by
    intro r hr
    have hmem : imp r cfg.feature ∈ col (cfg.data.map imp) cfg.feature := List.mem_map.mpr ⟨imp r, List.mem_map.mpr ⟨r, hr, rfl⟩, rfl⟩
    refine ⟨imp r cfg.feature, known_at hk hfoi hr, ?_, ?_⟩
    · rw [hl0.1]; exact (listMin_least hmn).2 _ hmem
    · rw [hl0.2]; exact (listMax_greatest hmx).2 _ hmem
  have hHeq : ∀ (x : List (MRow K D)) (e : Option (List (Row K D))), (∀ r ∈ x, r ∈ cfg.data) →
      mPdpHeterFun choice id M.kind lo hi cfg.feature cfg.minPoints centering (.str "all") points vec x e =
        pdpHeter choice id M0.kind lo0 hi0 cfg.feature cfg.minPoints centering (.str "all") points vec (x.map imp) :=
    fun x e hx => mPdpHeter_filled choice hk hf hM hlo hhi hm centering points vec (fun r hr => hin r (hx r hr)) e
  have hfoc : ∀ f ∈ usable cfg.types cfg.data cfg.foc, Complete cfg.data f := by
    intro f hfm
    obtain ⟨h1, h2⟩ := List.mem_filter.mp hfm
    rcases of_decide_eq_true h2 with h2 | h2
    · exact hcat f h1 h2
    · exact h2
  have hs' := mSearch_fills (cfg := { cfg with foc := usable cfg.types cfg.data cfg.foc }) hk hne hfoc
    (H0 := fun x _ => pdpHeter choice id M0.kind lo0 hi0 cfg.feature cfg.minPoints centering (.str "all") points vec x) hHeq
  rw [hs0] at hs'
  have hmain := C116_ignored cfg hthr hm _ (mPdpHeter_like hsqrt choice id M.kind lo hi cfg.feature cfg.minPoints centering (.str "all") points vec) (by
    intro x e v hx hl hv
    rw [hHeq x e fun r hr => hx.subset hr] at hv
    exact hmod x v hx hl hv) s _ hs hs'
  rw [hmain, mChoose_fills (imp := imp), List.map_map]
  rfl

/-! ### A concrete case -/

/-- Missing values are taken as 0. -/
def missImp : MRow ℚ 3 → Row ℚ 3 := fun r f => (r f).getD 0

/-- The slope of the first feature depends on the third. -/
def missModel : Row ℚ 3 → ℚ := fun r => if r 2 = 1 then 4 * r 0 else 0

/-- The first feature is of interest and complete, the second is continuous with a missing value, the third is categorical and complete. -/
def missPdpCfg : MRegCfg ℚ 3 where
  feature := 0
  data := [![some 0, some 0, some 0], ![some 1, none, some 0], ![some 0, some 10, some 1], ![some 1, some 10, some 1]]
  dataEffect := none
  types := ![.cont, .cont, .cat]
  catLimit := 3
  foc := [1, 2]
  minPoints := 2
  nofSplits := 2
  maxLevels := 1
  dropThres := 1 / 10
  smallEnough := 0
  splitCat := true

theorem missUsable : usable missPdpCfg.types missPdpCfg.data missPdpCfg.foc = [2] := by
  unfold usable
  have h1 : ¬ (missPdpCfg.types 1 = .cat ∨ ∀ r ∈ missPdpCfg.data, (r 1).isSome) := by decide +kernel
  have h2 : missPdpCfg.types 2 = .cat ∨ ∀ r ∈ missPdpCfg.data, (r 2).isSome := by decide +kernel
  change List.filter _ [1, 2] = [2]
  rw [List.filter_cons_of_neg (by simpa using h1), List.filter_cons_of_pos (by simpa using h2)]
  rfl

/-- All hypotheses of `C116_regional_pdp` hold for this data set and model. -/
example : (∀ v : ℚ, 0 ≤ PySqrt.sqrt v) ∧ KeepsKnown missImp ∧ Fills missPdpCfg.feature missImp ∧
    FilledBy missPdpCfg.feature missImp (.pdp fun r => missModel (missImp r)) (.pdp missModel) ∧ Complete missPdpCfg.data missPdpCfg.feature ∧
    (∀ f ∈ missPdpCfg.foc, missPdpCfg.types f = .cat → Complete missPdpCfg.data f) ∧ 0 ≤ missPdpCfg.dropThres ∧ 1 ≤ missPdpCfg.minPoints ∧
    axisLimitsFromData (missPdpCfg.data.map missImp) 0 = .ok (0, 1) ∧
    (∀ (x : List (MRow ℚ 3)) v, x.Sublist missPdpCfg.data → missPdpCfg.minPoints ≤ x.length →
      pdpHeter (fun _ _ => []) id (.pdp (List.map missModel)) (fun _ => 0) (fun _ => 1) 0 2 (.bool false) (.str "all") 0 true (x.map missImp) = .ok v → 2 * v ≤ 10 ^ 8) := by
  refine ⟨fun v => Rat.sqrt_nonneg v, ?_, ?_, fun _ => rfl, by unfold Complete; decide +kernel, by unfold Complete; decide +kernel, by decide +kernel, by decide, by decide +kernel, ?_⟩
  · intro r f v h
    simp [missImp, h]
  · intro r v
    funext f
    simp only [missImp, missPdpCfg, Function.update_apply]
    split_ifs <;> rfl
  · have key : ∀ x ∈ missPdpCfg.data.sublists, missPdpCfg.minPoints ≤ x.length →
        (match pdpHeter (fun _ _ => []) id (.pdp (List.map missModel)) (fun _ => 0) (fun _ => 1) 0 2 (.bool false) (.str "all") 0 true (x.map missImp) with
          | .ok v => decide (2 * v ≤ 10 ^ 8) | .error _ => true) = true := by decide +kernel
    intro x v hx hl hv
    have := key x (List.mem_sublists.mpr hx) hl
    rw [hv] at this
    exact of_decide_eq_true this

/-- The two fits succeed and report the split of the third feature. -/
example :
    (match mSearchAllSplits missPdpCfg (mPdpHeterFun (fun _ _ => []) id (.pdp (List.map fun r => missModel (missImp r))) ![some 0, none, some 0] ![some 1, none, some 1] 0 2 (.bool false)
        (.str "all") 0 true) with
      | .ok s => (mChooseImportantSplits missPdpCfg s).map (fun sp => (sp.feature, sp.position, sp.nofInstances)) | .error _ => []) = [(2, some 0, [2, 2])] ∧
    (match searchAllSplitsM (filledCfg missImp { missPdpCfg with foc := [2] })
        (fun x _ => pdpHeter (fun _ _ => []) id (.pdp (List.map missModel)) (fun _ => 0) (fun _ => 1) 0 2 (.bool false) (.str "all") 0 true x) with
      | .ok s => (chooseImportantSplits (filledCfg missImp { missPdpCfg with foc := [2] }) s).map (fun sp => (sp.feature, sp.position, sp.nofInstances)) | .error _ => []) = [(2, 0, [2, 2])] := by
  refine ⟨?_, ?_⟩ <;> decide +kernel

end Effector
