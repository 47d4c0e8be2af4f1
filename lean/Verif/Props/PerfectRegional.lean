import Verif.Props.PerfectSplit
import Verif.Props.SearchM
import Verif.Props.FitSucceeds
import Verif.Props.PdpModels
import Verif.Props.AleModels
import Verif.Props.Monotone

/-!
# C77 and C79 for the regional methods: perfect splits are found; features without interactions are not split
-/

set_option linter.unusedSectionVars false

namespace Effector

open Spec

variable {K : Type} [Field K] [LinearOrder K] [IsStrictOrderedRing K] {D : ℕ}

/-- The search with exceptions does not look at the total heterogeneity function of the configuration. -/
theorem searchAllSplitsM_heter (cfg : RegCfg K D) (h : HeterM K D) (g : List (Row K D) → Option (List (Row K D)) → K) :
    searchAllSplitsM { cfg with heter := g } h = searchAllSplitsM cfg h := by
  have hs : ∀ n xs js before, searchLoopM { cfg with heter := g } h n xs js before = searchLoopM cfg h n xs js before := by
    intro n
    induction n with
    | zero => intros; rfl
    | succ n ih =>
      intro xs js before
      unfold searchLoopM
      simp only [ih]
      rfl
  unfold searchAllSplitsM
  simp only [hs]

open Classical in
/-- The values of a heterogeneity function on the regions the search can meet. -/
noncomputable def totalHeter (cfg : RegCfg K D) (h : HeterM K D) : List (Row K D) → Option (List (Row K D)) → K := fun x e =>
  if RegionArg cfg.data cfg.dataEffect x e then (match h x e with | .ok v => v | .error _ => 0) else 0

theorem totalHeter_ok {cfg : RegCfg K D} {h : HeterM K D} {x : List (Row K D)} {e : Option (List (Row K D))} {v : K}
    (hx : RegionArg cfg.data cfg.dataEffect x e) (hv : h x e = .ok v) : totalHeter cfg h x e = v := by
  unfold totalHeter
  rw [if_pos hx, hv]

/-- The search with exceptions is a search with a total heterogeneity function. -/
theorem searchM_total {cfg : RegCfg K D} (heff : EffAligned cfg) {h : HeterM K D}
    (hh : ∀ x e, RegionArg cfg.data cfg.dataEffect x e → ∃ v, h x e = .ok v ∧ 0 ≤ v) :
    searchAllSplits { cfg with heter := totalHeter cfg h } = searchAllSplitsM cfg h ∧ ∀ x e, 0 ≤ totalHeter cfg h x e := by
  constructor
  · rw [← searchAllSplitsM_heter cfg h (totalHeter cfg h)]
    symm
    apply searchAllSplitsM_eq { cfg with heter := totalHeter cfg h } heff h
    intro x e hx
    obtain ⟨v, hv, -⟩ := hh x e hx
    show h x e = .ok (totalHeter cfg h x e)
    rw [totalHeter_ok (cfg := cfg) hx hv, hv]
  · intro x e
    unfold totalHeter
    split_ifs with hx
    · obtain ⟨v, hv, h0⟩ := hh x e hx
      rw [hv]
      exact h0
    · exact le_rfl

theorem regionArg_self {cfg : RegCfg K D} (heff : EffAligned cfg) : RegionArg cfg.data cfg.dataEffect cfg.data cfg.dataEffect :=
  ⟨List.Sublist.refl _, rfl, fun e' he => ⟨(heff e' he).symm, e', he, List.Sublist.refl _⟩⟩

theorem regionArg_part {cfg : RegCfg K D} (heff : EffAligned cfg) (f : Fin D) (pos : K) (typ : FeatType) (right : Bool) :
    RegionArg cfg.data cfg.dataEffect (part f pos typ right (cfg.data, cfg.dataEffect)).1 (part f pos typ right (cfg.data, cfg.dataEffect)).2 := by
  unfold part
  refine ⟨List.filter_sublist, by simp, ?_⟩
  intro e' he'
  cases he : cfg.dataEffect with
  | none => rw [he] at he'; cases he'
  | some e =>
    rw [he] at he'
    simp only [Option.map_some, Option.some.injEq] at he'
    have hz : ∀ l : List (Row K D × Row K D), (l.map (·.1)).zip (l.map (·.2)) = l := by
      intro l
      induction l with
      | nil => rfl
      | cons a t ih => simp [ih]
    rw [← he', ← filter_zip_fst' cfg.data e (heff e he), List.length_map, List.length_map]
    refine ⟨rfl, e, rfl, ?_⟩
    rw [hz]
    exact List.filter_sublist

/-- **C77, with a heterogeneity function that may raise elsewhere.** -/
theorem C77_perfect_split (cfg : RegCfg K D) (heff : EffAligned cfg) (h : HeterM K D)
    (hh : ∀ x e, RegionArg cfg.data cfg.dataEffect x e → ∃ v, h x e = .ok v ∧ 0 ≤ v) (s : Splits K D) (hs : searchAllSplitsM cfg h = .ok (some s))
    (f : Fin D) (hf : f ∈ cfg.foc) (pos : K) (hpos : Candidate cfg.data cfg.types cfg.nofSplits f pos)
    (hperf : ∀ right, h (part f pos (cfg.types f) right (cfg.data, cfg.dataEffect)).1 (part f pos (cfg.types f) right (cfg.data, cfg.dataEffect)).2 = .ok 0)
    (v0 : K) (hv0 : h cfg.data cfg.dataEffect = .ok v0) (h0 : 0 < v0) (hbig : v0 ≠ 100000000)
    (hsmall : cfg.smallEnough ≤ v0) (hthres : cfg.dropThres < 1) :
    ∃ sp, s.levels[0]? = some sp ∧ chooseImportantSplits cfg (some s) = [sp] ∧ sp.heterogeneity = [0, 0] ∧
      sp.feature ∈ cfg.foc ∧
      ∀ right, h (part sp.feature sp.position (cfg.types sp.feature) right (cfg.data, cfg.dataEffect)).1
        (part sp.feature sp.position (cfg.types sp.feature) right (cfg.data, cfg.dataEffect)).2 = .ok 0 := by
  obtain ⟨h1, h2⟩ := searchM_total heff hh
  have e0 := totalHeter_ok (regionArg_self heff) hv0
  obtain ⟨sp, a, b, c, -, ⟨e, -⟩, g⟩ := C77_perfect_split_found { cfg with heter := totalHeter cfg h } heff s (h1.trans hs) h2 f hf pos hpos
    (fun right => totalHeter_ok (regionArg_part heff f pos (cfg.types f) right) (hperf right)) 
    (show 0 < totalHeter cfg h cfg.data cfg.dataEffect from e0.symm ▸ h0) (show totalHeter cfg h cfg.data cfg.dataEffect ≠ 100000000 from e0.symm ▸ hbig)
    (show cfg.smallEnough ≤ totalHeter cfg h cfg.data cfg.dataEffect from e0.symm ▸ hsmall) hthres
  refine ⟨sp, a, b, c, e, fun right => ?_⟩
  obtain ⟨v, hv, -⟩ := hh _ _ (regionArg_part heff sp.feature sp.position (cfg.types sp.feature) right)
  have g' : totalHeter cfg h (part sp.feature sp.position (cfg.types sp.feature) right (cfg.data, cfg.dataEffect)).1
      (part sp.feature sp.position (cfg.types sp.feature) right (cfg.data, cfg.dataEffect)).2 = 0 := g right
  rw [totalHeter_ok (regionArg_part heff sp.feature sp.position (cfg.types sp.feature) right) hv] at g'
  rw [hv, g']

/-- **C79, in general.**  If the heterogeneity of the whole data set is 0 (nothing to explain) or 1e8 (it could not be computed), no split is kept, whatever
the thresholds. -/
theorem C79_zero_heterogeneity (cfg : RegCfg K D) (heff : EffAligned cfg) (h : HeterM K D)
    (hh : ∀ x e, RegionArg cfg.data cfg.dataEffect x e → ∃ v, h x e = .ok v ∧ 0 ≤ v) (r : Option (Splits K D)) (hs : searchAllSplitsM cfg h = .ok r)
    (hv0 : h cfg.data cfg.dataEffect = .ok 0 ∨ h cfg.data cfg.dataEffect = .ok 100000000) : chooseImportantSplits cfg r = [] := by
  cases r with
  | none => exact C42_nothing cfg none (Or.inl rfl)
  | some s =>
    obtain ⟨h1, h2⟩ := searchM_total heff hh
    have hS := searchAllSplits_ok { cfg with heter := totalHeter cfg h } heff s (h1.trans hs)
    rcases hv0 with hv0 | hv0
    · have hi : s.heterInit = 0 := by
        rw [hS.heterInit]
        exact totalHeter_ok (regionArg_self heff) hv0
      by_cases hsm : s.heterInit < cfg.smallEnough
      · exact C42_nothing cfg _ (Or.inr ⟨s, rfl, Or.inl hsm⟩)
      · have hyp := C42_hypotheses_met { cfg with heter := totalHeter cfg h } heff s (h1.trans hs) h2
        obtain ⟨n, -, hch, hall, -⟩ := C42_longest_prefix cfg s (by rw [hi]; norm_num) (not_lt.mp hsm) hyp.1 hyp.2
        have : n = 0 := by
          by_contra hne
          obtain ⟨prev, sp, hp, hsp, hd⟩ := hall 0 (by omega)
          simp only [heterPrev, Option.some.injEq] at hp
          rw [← hp, hi] at hd
          have := hyp.2 sp (List.mem_of_getElem? hsp)
          linarith
        rw [hch, this]
        rfl
    · refine C42_nothing cfg _ (Or.inr ⟨s, rfl, Or.inr ?_⟩)
      rw [hS.heterInit]
      exact totalHeter_ok (regionArg_self heff) hv0

/-! ### RHALE -/

theorem big_eq {r : Py K} (h : r = .ok BIG_M) : r = .ok 100000000 := by
  rw [h]
  norm_num [BIG_M]

/-- The heterogeneity of RHALE on any region is a non-negative number. -/
theorem rhale_heter_total [PySqrt K] [LawfulSqrt K] (choice : ℕ → ℕ → List ℕ) (model : List (Row K D) → List K)
    (jac : Option (List (Row K D) → List (Row K D))) (bm : BinMethod K) (hbm : PlainMethod bm) (foi : Fin D) (minPoints : ℕ) (hmin : 1 ≤ minPoints) (centering : PyVal)
    (x : List (Row K D)) (e : Option (List (Row K D))) (he : ∀ e', e = some e' → e'.length = x.length) :
    ∃ v, aleHeter (mkRhale choice model jac) foi bm minPoints centering x e = .ok v ∧ 0 ≤ v := by
  by_cases hxe : x = []
  · refine ⟨_, aleHeter_few _ _ _ _ _ _ _ ?_, big_pos.le⟩
    rw [hxe]; exact hmin
  · obtain ⟨lo, hi, hlim⟩ := axisLimits_ok hxe
    obtain ⟨v, h1, h2, -⟩ := C68_rhale_heterogeneity choice model jac foi bm minPoints centering x e lo hi hlim he
      (fun _ _ _ => (plain_safe hbm _).1) (plain_safe hbm (rhaleCtx x [] lo hi foi)).2
    exact ⟨v, h1, h2⟩

/-- Effects that do not vary: the heterogeneity of RHALE is 0, or 1e8 if it cannot be computed; it is 0 if the fit of the feature succeeds. -/
theorem rhale_heter_zero [PySqrt K] [LawfulSqrt K] (choice : ℕ → ℕ → List ℕ) (model : List (Row K D) → List K)
    (jac : Option (List (Row K D) → List (Row K D))) (bm : BinMethod K) (hbm : PlainMethod bm) (foi : Fin D) (minPoints : ℕ) (centering : PyVal)
    (x e : List (Row K D)) (he : e.length = x.length) (lo hi : Fin D → K) (hlim : axisLimitsAll x = .ok (lo, hi)) (c : K) (hc : ∀ r ∈ e, r foi = c) :
    (aleHeter (mkRhale choice model jac) foi bm minPoints centering x (some e) = .ok 0 ∨
      aleHeter (mkRhale choice model jac) foi bm minPoints centering x (some e) = .ok 100000000) ∧
    (minPoints ≤ x.length → (∃ m, prepCentering centering = .ok m) → (∃ p, rhaleFitFeature x e lo hi foi bm = .ok p) →
      aleHeter (mkRhale choice model jac) foi bm minPoints centering x (some e) = .ok 0) := by
  obtain ⟨hmx, -, hne⟩ := listMax_axis hlim foi
  have hsafe := plain_safe hbm
  by_cases hfew : x.length < minPoints
  · refine ⟨Or.inr (big_eq (aleHeter_few _ _ _ _ _ _ _ hfew)), fun h => ?_⟩
    omega
  have hmk : mkRhale choice model jac x (some e) = .ok (rhaleCfg e
      { data := x, indices := List.range x.length, axisLo := lo, axisHi := hi }) := by
    unfold mkRhale
    rw [rhaleInit_all choice model jac x (some e) (by rintro e' ⟨⟩; exact he) none]
    simp only [limitsOr, hlim, Except.bind, bind, pure, Except.pure, rhaleEffects]
  have hgood : ∀ p, rhaleFitFeature x e lo hi foi bm = .ok p → GoodParams p ∧ lo foi < hi foi := by
    intro p hp
    by_cases hlt : lo foi < hi foi
    · exact ⟨(rhale_good hlt (hsafe _).1 hp).1, hlt⟩
    · obtain ⟨-, L, hL, -⟩ := rhaleFitFeature_ok hp
      exact absurd hL (findLimits_constant _ _ (distinct_of_axis hlim hlt) (hsafe (rhaleCtx x [] lo hi foi)).2 L)
  obtain ⟨h1, h2⟩ := aleHeter_value (minPoints := minPoints) (centering := centering) hmk hmx (by omega) hgood
  have hal : rhaleAllowed bm = true := by
    cases bm with
    | greedy n m d cl => rfl
    | fixed n m cl => rfl
    | dp n m d cl => exact hbm.elim
    | str s => exact hbm.elim
  cases hfit : rhaleFitFeature x e lo hi foi bm with
  | error e' =>
    refine ⟨Or.inr (big_eq <| h2 (Or.inr (Or.inr ⟨e', hfit⟩))), fun _ _ h => ?_⟩
    obtain ⟨p, h⟩ := h
    cases h
  | ok p =>
    obtain ⟨hg, hlt⟩ := hgood p hfit
    have hz : ∀ ys, evalHet p ys = .ok (ys.map fun _ => 0) := by
      refine (C08_constant_gradient x e lo hi foi bm p c hlt ?_ hc hfit).2.2
      cases bm with
      | greedy n m d cl => trivial
      | fixed n m cl => exact hbm.1
      | dp n m d cl => exact hbm.elim
      | str s => exact hbm.elim
    have hval : ∀ m, prepCentering centering = .ok m →
        aleHeter (mkRhale choice model jac) foi bm minPoints centering x (some e) = .ok 0 := by
      intro m hm
      obtain ⟨H, hH, -, hv⟩ := h1 p m hal hm hfit
      rw [hv]
      have h3 := hH [hi foi]
      rw [hz] at h3
      simpa using h3.symm
    refine ⟨?_, fun _ ⟨m, hm⟩ _ => hval m hm⟩
    rcases prepCentering_ok_or centering with ⟨m, hm⟩ | ⟨e', he'⟩
    · exact Or.inl (hval m hm)
    · exact Or.inr (big_eq <| h2 (Or.inr (Or.inl ⟨e', he'⟩)))

/-- With the axis limits of the data, all values are used. -/
theorem usedValues_axis {x : List (Row K D)} {lo hi : Fin D → K} (hlim : axisLimitsAll x = .ok (lo, hi)) (s : Fin D) : usedValues x lo hi s = x.map (· s) := by
  unfold usedValues
  rw [List.filter_eq_self]
  intro v hv
  obtain ⟨r, hr, rfl⟩ := List.mem_map.mp hv
  simpa using axisLimits_within hlim r hr s

/-- Two different values: the axis limits differ. -/
theorem axis_lt_of_distinct {x : List (Row K D)} {lo hi : Fin D → K} (hlim : axisLimitsAll x = .ok (lo, hi)) (s : Fin D) (h2 : 2 ≤ distinct (x.map (· s))) :
    lo s < hi s := by
  by_contra hc
  have h1 := distinct_of_axis hlim hc
  have : x.filter (inAxis (lo s) (hi s) s) = x := by
    rw [List.filter_eq_self]
    intro r hr
    have := axisLimits_within hlim r hr s
    simp [inAxis, this.1, this.2]
  rw [this] at h1
  unfold col at h1
  omega

/-- What the greedy method asks for (C78), with `n ≥ 1` and `m ≥ 2`, in a region where the feature takes the values `vs`. -/
def Spec.GreedyPossible (vs : List K) (m cl : ℕ) : Prop :=
  2 ≤ distinct vs ∧ m ≤ vs.length ∧ (distinct vs ≤ cl → ∀ x ∈ vs, m ≤ vs.count x)

/-- The values of feature `s` on one side of a split. -/
def Spec.sideValues (data : List (Row K D)) (f : Fin D) (pos : K) (typ : FeatType) (right : Bool) (s : Fin D) : List K :=
  (data.filter fun r => OnSide typ pos right (r f)).map (· s)

/-- **C77, RegionalRHALE with the greedy method (the default one).**  If some candidate split separates the data into two sides on each of which the local effects
of the feature are all the same, and the feature can be fitted on both sides, then exactly one split is kept and after it the heterogeneity is 0 on both sides. -/
theorem C77_rhale [PySqrt K] [LawfulSqrt K] (cfg : RegCfg K D) (e : List (Row K D)) (heq : cfg.dataEffect = some e) (hlen : e.length = cfg.data.length)
    (choice : ℕ → ℕ → List ℕ) (model : List (Row K D) → List K) (jac : Option (List (Row K D) → List (Row K D)))
    (n m cl : ℕ) (d : K) (hn : 1 ≤ n) (hm : 2 ≤ m) (centering : PyVal) (hcent : ∃ mode, prepCentering centering = .ok mode) (hmin : 1 ≤ cfg.minPoints)
    (s : Splits K D) (hs : searchAllSplitsM cfg (aleHeter (mkRhale choice model jac) cfg.feature (.greedy n (some m) d cl) cfg.minPoints centering) = .ok (some s))
    (f : Fin D) (hf : f ∈ cfg.foc) (pos : K) (hpos : Candidate cfg.data cfg.types cfg.nofSplits f pos)
    (c : Bool → K) (hc : ∀ right, ∀ p ∈ cfg.data.zip e, OnSide (cfg.types f) pos right (p.1 f) → p.2 cfg.feature = c right)
    (hfit : ∀ right, GreedyPossible (sideValues cfg.data f pos (cfg.types f) right cfg.feature) m cl ∧
      cfg.minPoints ≤ (sideValues cfg.data f pos (cfg.types f) right cfg.feature).length)
    (v0 : K) (hv0 : aleHeter (mkRhale choice model jac) cfg.feature (.greedy n (some m) d cl) cfg.minPoints centering cfg.data cfg.dataEffect = .ok v0) (h0 : 0 < v0)
    (hbig : v0 ≠ 100000000) (hsmall : cfg.smallEnough ≤ v0) (hthres : cfg.dropThres < 1) :
    ∃ sp, s.levels[0]? = some sp ∧ chooseImportantSplits cfg (some s) = [sp] ∧ sp.heterogeneity = [0, 0] ∧
      sp.feature ∈ cfg.foc ∧
      ∀ right, aleHeter (mkRhale choice model jac) cfg.feature (.greedy n (some m) d cl) cfg.minPoints centering
        (part sp.feature sp.position (cfg.types sp.feature) right (cfg.data, cfg.dataEffect)).1
        (part sp.feature sp.position (cfg.types sp.feature) right (cfg.data, cfg.dataEffect)).2 = .ok 0 := by
  have heff : EffAligned cfg := by
    intro e' he'
    rw [heq] at he'
    cases he'
    exact hlen.symm
  refine C77_perfect_split cfg heff _ (fun x e' hx => rhale_heter_total choice model jac (.greedy n (some m) d cl) trivial cfg.feature cfg.minPoints hmin centering x e' (regionArg_len hx)) s hs f hf pos hpos
    (fun right => ?_) v0 hv0 h0 hbig hsmall hthres
  have hR := regionArg_part heff f pos (cfg.types f) right
  have e2 : (part f pos (cfg.types f) right (cfg.data, cfg.dataEffect)).2 =
      some (((cfg.data.zip e).filter fun p => decide (OnSide (cfg.types f) pos right (p.1 f))).map (·.2)) := by
    unfold part
    rw [heq]
    rfl
  have e1 : (part f pos (cfg.types f) right (cfg.data, cfg.dataEffect)).1 = cfg.data.filter fun r => decide (OnSide (cfg.types f) pos right (r f)) := rfl
  have hl := hR.2.2 _ e2
  rw [e2, e1]
  rw [e1] at hl
  obtain ⟨⟨h2, hmn, hcat⟩, hmp⟩ := hfit right
  unfold sideValues at h2 hmn hcat hmp
  generalize cfg.data.filter (fun r => decide (OnSide (cfg.types f) pos right (r f))) = x at *
  have hx : x ≠ [] := by
    rintro rfl
    simp [distinct] at h2
  obtain ⟨lo, hi, hlim⟩ := axisLimits_ok hx
  refine (rhale_heter_zero choice model jac (.greedy n (some m) d cl) trivial cfg.feature cfg.minPoints centering x _ hl.1 lo hi hlim (c right) ?_).2
    (by rw [List.length_map] at hmp; exact hmp) hcent ?_
  · intro r hr
    obtain ⟨p, hp, rfl⟩ := List.mem_map.mp hr
    obtain ⟨hp1, hp2⟩ := List.mem_filter.mp hp
    exact hc right p hp1 (by simpa using hp2)
  · refine (C78_rhale_greedy x _ lo hi cfg.feature n m cl d hl.1 (axis_lt_of_distinct hlim _ h2) hn hm).mpr ?_
    rw [usedValues_axis hlim]
    exact ⟨h2, hmn, hcat⟩

/-- **C79, RegionalRHALE.**  If the local effects of the feature are the same for all instances (a model that is linear in the feature, without interactions), no split
is kept. -/
theorem C79_rhale [PySqrt K] [LawfulSqrt K] (cfg : RegCfg K D) (hne : cfg.data ≠ []) (e : List (Row K D)) (heq : cfg.dataEffect = some e) (hlen : e.length = cfg.data.length)
    (choice : ℕ → ℕ → List ℕ) (model : List (Row K D) → List K) (jac : Option (List (Row K D) → List (Row K D))) (bm : BinMethod K) (hbm : PlainMethod bm)
    (centering : PyVal) (hmin : 1 ≤ cfg.minPoints) (r : Option (Splits K D))
    (hs : searchAllSplitsM cfg (aleHeter (mkRhale choice model jac) cfg.feature bm cfg.minPoints centering) = .ok r)
    (c : K) (hc : ∀ g ∈ e, g cfg.feature = c) : chooseImportantSplits cfg r = [] := by
  have heff : EffAligned cfg := by
    intro e' he'
    rw [heq] at he'
    cases he'
    exact hlen.symm
  obtain ⟨lo, hi, hlim⟩ := axisLimits_ok hne
  refine C79_zero_heterogeneity cfg heff _ (fun x e' hx => rhale_heter_total choice model jac _ hbm cfg.feature cfg.minPoints hmin centering x e' (regionArg_len hx)) r hs ?_
  rw [heq]
  exact (rhale_heter_zero choice model jac bm hbm cfg.feature cfg.minPoints centering cfg.data e hlen lo hi hlim c hc).1

/-! ### ALE -/

theorem ale_heter_total [PySqrt K] [LawfulSqrt K] (choice : ℕ → ℕ → List ℕ) (cast : K → K) (f : Row K D → K) (bm : BinMethod K) (hbm : PlainMethod bm) (foi : Fin D)
    (minPoints : ℕ) (hmin : 1 ≤ minPoints) (centering : PyVal) (x : List (Row K D)) (e : Option (List (Row K D))) :
    ∃ v, aleHeter (mkAle choice cast (List.map f)) foi bm minPoints centering x e = .ok v ∧ 0 ≤ v := by
  by_cases hxe : x = []
  · refine ⟨_, aleHeter_few _ _ _ _ _ _ _ ?_, big_pos.le⟩
    rw [hxe]; exact hmin
  · obtain ⟨lo, hi, hlim⟩ := axisLimits_ok hxe
    have hb : ∀ m cl, bm ≠ .fixed 0 m cl := by
      rintro m cl rfl
      have := hbm.1
      omega
    obtain ⟨v, h1, h2, -⟩ := C68_ale_heterogeneity choice cast f foi bm minPoints centering x e lo hi hlim hb
      (plain_safe hbm (rhaleCtx x [] lo hi foi)).2
    exact ⟨v, h1, h2⟩

/-- If the model is additive in the feature on the given rows, all effects within a bin are the same and the ALE heterogeneity curve is 0. -/
theorem ale_additive_flat [PySqrt K] [LawfulSqrt K] {cast : K → K} {f : Row K D → K} {s : Fin D} {g : K → K} {k : Row K D → K} {data : List (Row K D)}
    (hadd : ∀ r ∈ data, ∀ v, f (Function.update r s v) = g v + k r) {lo hi : Fin D → K} {bm : BinMethod K} {p : AleParams K} (hlt : lo s < hi s)
    (hn : ∀ m cl, bm ≠ .fixed 0 m cl) (hfit : aleFitFeature cast (List.map f) data lo hi s bm = .ok p) :
    (∀ v ∈ p.binVariance, v = 0) ∧ ∀ xs, evalHet p xs = .ok (xs.map fun _ => 0) := by
  obtain ⟨L, l0, l1, hL, hinc, htwo, hwith, h0, h1, h01, hp, hg, hlim⟩ :=
    ale_fit_cases hlt (ale_safe (aleFitFeature_ok hfit).1 hn) hfit
  have hz : ∀ v ∈ p.binVariance, v = 0 := by
    obtain ⟨-, -, -, ⟨bv, hbv, h2⟩, -⟩ := computeAleParams_good (increasing_bumpLast (EPS_pos (K := K)).le hinc)
      (by rw [length_bumpLast]; exact htwo) (within_bump htwo hwith) (by simp [aleCtx, col]) hp
    apply fillNans_const hbv
    intro v hv
    obtain ⟨j, rfl⟩ := h2 v hv
    have hxs : (aleCtx data lo hi s).xs = col (data.filter (inAxis (lo s) (hi s) s)) s := rfl
    rw [hxs] at hwith ⊢
    rw [binEffects_rows]
    refine popVar_const (c := (g (cast ((bumpLast EPS L).getD (j + 1) 0)) - g (cast ((bumpLast EPS L).getD j 0))) / (l1 - l0)) ?_
    intro y hy
    obtain ⟨r, hr, rfl⟩ := List.mem_map.mp hy
    obtain ⟨hr1, hr2⟩ := List.mem_filter.mp hr
    obtain ⟨lo', hi', hlo', hhi', hmem⟩ := hwith
    have hx := hmem (r s) (List.mem_map.mpr ⟨r, hr1, rfl⟩)
    have hidx := (inBin_iff hinc htwo hlo' hhi' hx.1 hx.2 j).mp ((inBin_bump hhi' hx.2 j).mp (by simpa using hr2))
    have hrd := (List.mem_filter.mp hr1).1
    rw [hidx, Nat.add_sub_cancel, hadd r hrd, hadd r hrd]
    congr 1
    ring
  exact ⟨hz, hg.het_zero hz⟩

/-- A model that is additive in the feature on the region: the heterogeneity of ALE is 0, or 1e8 if it cannot be computed. -/
theorem ale_heter_zero [PySqrt K] [LawfulSqrt K] (choice : ℕ → ℕ → List ℕ) (cast : K → K) (f : Row K D → K) (bm : BinMethod K) (hbm : PlainMethod bm) (foi : Fin D)
    (minPoints : ℕ) (centering : PyVal) (x : List (Row K D)) (e : Option (List (Row K D))) (lo hi : Fin D → K) (hlim : axisLimitsAll x = .ok (lo, hi)) (g : K → K) (k : Row K D → K)
    (hadd : ∀ r ∈ x, ∀ v, f (Function.update r foi v) = g v + k r) :
    (aleHeter (mkAle choice cast (List.map f)) foi bm minPoints centering x e = .ok 0 ∨
      aleHeter (mkAle choice cast (List.map f)) foi bm minPoints centering x e = .ok 100000000) ∧
    (minPoints ≤ x.length → (∃ m, prepCentering centering = .ok m) → (∃ p, aleFitFeature cast (List.map f) x lo hi foi bm = .ok p) →
      aleHeter (mkAle choice cast (List.map f)) foi bm minPoints centering x e = .ok 0) := by
  obtain ⟨hmx, -, hne⟩ := listMax_axis hlim foi
  have hb : ∀ m cl, bm ≠ .fixed 0 m cl := by
    rintro m cl rfl
    have := hbm.1
    omega
  have hcl := (plain_safe hbm (rhaleCtx x [] lo hi foi)).2
  by_cases hfew : x.length < minPoints
  · refine ⟨Or.inr (big_eq (aleHeter_few _ _ _ _ _ _ _ hfew)), fun h => ?_⟩
    omega
  have hmk : mkAle choice cast (List.map f) x e = .ok (aleCfg cast (List.map f)
      { data := x, indices := List.range x.length, axisLo := lo, axisHi := hi }) := by
    unfold mkAle
    rw [base_init_all choice x none]
    simp only [limitsOr, hlim, Except.bind, bind, pure, Except.pure]
  have hgood : ∀ p, aleFitFeature cast (List.map f) x lo hi foi bm = .ok p → GoodParams p ∧ lo foi < hi foi := by
    intro p hp
    by_cases hlt : lo foi < hi foi
    · obtain ⟨-, -, -, -, -, -, -, -, -, -, -, hg, -⟩ := ale_fit_cases hlt (ale_safe (aleFitFeature_ok hp).1 hb) hp
      exact ⟨hg, hlt⟩
    · obtain ⟨hfx, L, -, -, hL, -⟩ := aleFitFeature_ok hp
      refine absurd hL (findLimits_constant _ _ (distinct_of_axis hlim hlt) ?_ L)
      intro n m h
      cases bm with
      | str s => cases h
      | fixed n' m' cl' => exact hcl _ _ h
      | greedy n' m' d' cl' => cases h
      | dp n' m' d' cl' => cases h
  obtain ⟨h1, h2⟩ := aleHeter_value (minPoints := minPoints) (centering := centering) hmk hmx (by omega) hgood
  cases hfit : aleFitFeature cast (List.map f) x lo hi foi bm with
  | error e' =>
    refine ⟨Or.inr (big_eq <| h2 (Or.inr (Or.inr ⟨e', hfit⟩))), fun _ _ h => ?_⟩
    obtain ⟨p, h⟩ := h
    cases h
  | ok p =>
    have hal := (aleFitFeature_ok hfit).1
    obtain ⟨hg, hlt⟩ := hgood p hfit
    have hz := (ale_additive_flat hadd hlt hb hfit).2
    have hval : ∀ m, prepCentering centering = .ok m →
        aleHeter (mkAle choice cast (List.map f)) foi bm minPoints centering x e = .ok 0 := by
      intro m hm
      obtain ⟨H, hH, -, hv⟩ := h1 p m hal hm hfit
      rw [hv]
      have h3 := hH [hi foi]
      rw [hz] at h3
      simpa using h3.symm
    refine ⟨?_, fun _ ⟨m, hm⟩ _ => hval m hm⟩
    rcases prepCentering_ok_or centering with ⟨m, hm⟩ | ⟨e', he'⟩
    · exact Or.inl (hval m hm)
    · exact Or.inr (big_eq <| h2 (Or.inr (Or.inl ⟨e', he'⟩)))

/-- **C79, RegionalALE.**  If the model is additive in the feature (no interaction with any other feature; any non-linear dependence on the feature), no split is
kept, for any arguments of `fit`. -/
theorem C79_ale [PySqrt K] [LawfulSqrt K] (cfg : RegCfg K D) (hne : cfg.data ≠ []) (heq : cfg.dataEffect = none)
    (choice : ℕ → ℕ → List ℕ) (cast : K → K) (f : Row K D → K) (bm : BinMethod K) (hbm : PlainMethod bm)
    (centering : PyVal) (hmin : 1 ≤ cfg.minPoints) (r : Option (Splits K D))
    (hs : searchAllSplitsM cfg (aleHeter (mkAle choice cast (List.map f)) cfg.feature bm cfg.minPoints centering) = .ok r)
    (g : K → K) (k : Row K D → K) (hadd : ∀ r ∈ cfg.data, ∀ v, f (Function.update r cfg.feature v) = g v + k r) : chooseImportantSplits cfg r = [] := by
  have heff : EffAligned cfg := by
    intro e' he'
    rw [heq] at he'
    cases he'
  obtain ⟨lo, hi, hlim⟩ := axisLimits_ok hne
  refine C79_zero_heterogeneity cfg heff _ (fun x e' hx => ale_heter_total choice cast f bm hbm cfg.feature cfg.minPoints hmin centering x e') r hs ?_
  exact (ale_heter_zero choice cast f bm hbm cfg.feature cfg.minPoints centering cfg.data _ lo hi hlim g k hadd).1

/-- **C77, RegionalALE.**  If some candidate split separates the data into two sides on each of which the model is additive in the feature, and ALE can be
fitted on both sides, then exactly one split is kept and after it the heterogeneity is 0 on both sides. -/
theorem C77_ale [PySqrt K] [LawfulSqrt K] (cfg : RegCfg K D) (heq : cfg.dataEffect = none)
    (choice : ℕ → ℕ → List ℕ) (cast : K → K) (F : Row K D → K) (n m cl : ℕ) (hn : 1 ≤ n) (hm : 2 ≤ m) (hcl : 1 ≤ cl)
    (centering : PyVal) (hcent : ∃ mode, prepCentering centering = .ok mode) (hmin : 1 ≤ cfg.minPoints)
    (s : Splits K D) (hs : searchAllSplitsM cfg (aleHeter (mkAle choice cast (List.map F)) cfg.feature (.fixed n (some m) cl) cfg.minPoints centering) = .ok (some s))
    (f : Fin D) (hf : f ∈ cfg.foc) (pos : K) (hpos : Candidate cfg.data cfg.types cfg.nofSplits f pos)
    (g : Bool → K → K) (k : Row K D → K)
    (hadd : ∀ right, ∀ r ∈ cfg.data, OnSide (cfg.types f) pos right (r f) → ∀ v, F (Function.update r cfg.feature v) = g right v + k r)
    (lo hi : Bool → K)
    (hlo : ∀ right, IsLeast {v | v ∈ sideValues cfg.data f pos (cfg.types f) right cfg.feature} (lo right))
    (hhi : ∀ right, IsGreatest {v | v ∈ sideValues cfg.data f pos (cfg.types f) right cfg.feature} (hi right))
    (hfit : ∀ right, FixedPossible (sideValues cfg.data f pos (cfg.types f) right cfg.feature) (lo right) (hi right) n m cl ∧
      cfg.minPoints ≤ (sideValues cfg.data f pos (cfg.types f) right cfg.feature).length)
    (v0 : K) (hv0 : aleHeter (mkAle choice cast (List.map F)) cfg.feature (.fixed n (some m) cl) cfg.minPoints centering cfg.data cfg.dataEffect = .ok v0) (h0 : 0 < v0)
    (hbig : v0 ≠ 100000000) (hsmall : cfg.smallEnough ≤ v0) (hthres : cfg.dropThres < 1) :
    ∃ sp, s.levels[0]? = some sp ∧ chooseImportantSplits cfg (some s) = [sp] ∧ sp.heterogeneity = [0, 0] ∧
      sp.feature ∈ cfg.foc ∧
      ∀ right, aleHeter (mkAle choice cast (List.map F)) cfg.feature (.fixed n (some m) cl) cfg.minPoints centering
        (part sp.feature sp.position (cfg.types sp.feature) right (cfg.data, cfg.dataEffect)).1
        (part sp.feature sp.position (cfg.types sp.feature) right (cfg.data, cfg.dataEffect)).2 = .ok 0 := by
  have heff : EffAligned cfg := by
    intro e' he'
    rw [heq] at he'
    cases he'
  have hbm : PlainMethod (.fixed n (some m) cl : BinMethod K) := ⟨hn, hcl⟩
  refine C77_perfect_split cfg heff _ (fun x e' hx => ale_heter_total choice cast F _ hbm cfg.feature cfg.minPoints hmin centering x e') s hs f hf pos hpos
    (fun right => ?_) v0 hv0 h0 hbig hsmall hthres
  have e1 : (part f pos (cfg.types f) right (cfg.data, cfg.dataEffect)).1 = cfg.data.filter fun r => decide (OnSide (cfg.types f) pos right (r f)) := rfl
  rw [e1]
  obtain ⟨hfp, hmp⟩ := hfit right
  have hl' := hlo right
  have hh' := hhi right
  have hadd' : ∀ r ∈ cfg.data.filter (fun r => decide (OnSide (cfg.types f) pos right (r f))), ∀ v, F (Function.update r cfg.feature v) = g right v + k r := by
    intro r hr
    obtain ⟨h1, h2⟩ := List.mem_filter.mp hr
    exact hadd right r h1 (by simpa using h2)
  unfold sideValues at hfp hmp hl' hh'
  generalize cfg.data.filter (fun r => decide (OnSide (cfg.types f) pos right (r f))) = x at *
  have hx : x ≠ [] := by
    rintro rfl
    simp [FixedPossible, distinct] at hfp
  obtain ⟨a, b, hlim⟩ := axisLimits_ok hx
  have hab := axis_lt_of_distinct hlim cfg.feature hfp.1
  obtain ⟨g1, g2, -⟩ := listMax_axis hlim cfg.feature
  have ha : a cfg.feature = lo right := by
    have := (listMin_least g2)
    exact le_antisymm (this.2 _ hl'.1) (hl'.2 this.1)
  have hb : b cfg.feature = hi right := by
    have := (listMax_greatest g1)
    exact le_antisymm (hh'.2 this.1) (this.2 _ hh'.1)
  refine (ale_heter_zero choice cast F _ hbm cfg.feature cfg.minPoints centering x _ a b hlim (g right) k hadd').2
    (by rw [List.length_map] at hmp; exact hmp) hcent ?_
  refine (C78_ale_fixed cast F x a b cfg.feature n m cl hab hn hm hcl).mpr ?_
  rw [usedValues_axis hlim, ha, hb]
  exact hfp

/-! ### PDP and d-PDP -/

/-- The heterogeneity of PDP / d-PDP on a region: its value. -/
theorem pdp_heter_total [PySqrt K] [LawfulSqrt K] (choice : ℕ → ℕ → List ℕ) (M : PdpModel K D) (lo hi : Fin D → K) (foi : Fin D) (minPoints : ℕ) (hmin : 1 ≤ minPoints)
    (centering : PyVal) (points : ℕ) (hp : 1 ≤ points) (vec : Bool) (x : List (Row K D)) (hw : AllWithin x lo hi) :
    ∃ v, pdpHeter choice id M.kind lo hi foi minPoints centering (.str "all") points vec x = .ok v ∧ 0 ≤ v ∧
      (x.length < minPoints ∨ (∃ e, prepCentering centering = .error e) ∨ hi foi ≤ lo foi → v = 100000000) ∧
      ∀ m mn mx, minPoints ≤ x.length → prepCentering centering = .ok m → lo foi < hi foi → IsLeast {u | u ∈ x.map (· foi)} mn → IsGreatest {u | u ∈ x.map (· foi)} mx →
        v = avg ((evenly mn mx 10).map fun u => PySqrt.sqrt (popVar (x.map fun r => M.at foi u r))) := by
  by_cases hxe : x = []
  · refine ⟨BIG_M, ?_, big_pos.le, fun _ => by norm_num [BIG_M], fun m mn mx h => ?_⟩
    · unfold pdpHeter
      rw [if_pos]
      rw [hxe]; exact hmin
    · rw [hxe, List.length_nil] at h
      omega
  · obtain ⟨r, hr⟩ := List.exists_mem_of_ne_nil _ hxe
    have hb := base_init_all choice x (some (lo, hi))
    simp only [limitsOr, Except.bind] at hb
    have hc : col x foi ≠ [] := by simpa [col] using hxe
    obtain ⟨mn, hmn⟩ := listMin_ne hc
    obtain ⟨mx, hmx⟩ := listMax_ne hc
    obtain ⟨v, h1, h2, h3, h4⟩ := pdp_heter_value choice M lo hi foi minPoints centering (.str "all") points hp vec x _ hb mn mx hmn hmx
    refine ⟨v, h1, h2, fun h => by rw [h3 h]; norm_num [BIG_M], ?_⟩
    intro m mn' mx' hle hm hlt hmn' hmx'
    have e1 : mn' = mn := le_antisymm (hmn'.2 (listMin_least hmn).1) ((listMin_least hmn).2 _ hmn'.1)
    have e2 : mx' = mx := le_antisymm ((listMax_greatest hmx).2 _ hmx'.1) (hmx'.2 (listMax_greatest hmx).1)
    have e3 : inLimits x lo hi foi = x := by
      unfold inLimits
      rw [List.filter_eq_self]
      intro r hr
      simpa using hw r hr foi
    rw [e1, e2, h4 m hle hm hlt]
    simp only [e3, linspace_evenly]

theorem pdp_heter_zero [PySqrt K] [LawfulSqrt K] (choice : ℕ → ℕ → List ℕ) (M : PdpModel K D) (lo hi : Fin D → K) (foi : Fin D) (minPoints : ℕ) (hmin : 1 ≤ minPoints)
    (centering : PyVal) (points : ℕ) (hp : 1 ≤ points) (vec : Bool) (x : List (Row K D)) (hw : AllWithin x lo hi) (G : K → K)
    (hG : ∀ r ∈ x, ∀ u, M.at foi u r = G u) :
    (pdpHeter choice id M.kind lo hi foi minPoints centering (.str "all") points vec x = .ok 0 ∨
      pdpHeter choice id M.kind lo hi foi minPoints centering (.str "all") points vec x = .ok 100000000) ∧
    (minPoints ≤ x.length → (∃ m, prepCentering centering = .ok m) → lo foi < hi foi →
      pdpHeter choice id M.kind lo hi foi minPoints centering (.str "all") points vec x = .ok 0) := by
  obtain ⟨v, h1, -, h3, h4⟩ := pdp_heter_total choice M lo hi foi minPoints hmin centering points hp vec x hw
  have hval : minPoints ≤ x.length → (∃ m, prepCentering centering = .ok m) → lo foi < hi foi → v = 0 := by
    rintro hle ⟨m, hm⟩ hlt
    have hxe : col x foi ≠ [] := by
      intro h
      have : x = [] := by simpa [col] using h
      rw [this, List.length_nil] at hle
      omega
    obtain ⟨mn, hmn⟩ := listMin_ne hxe
    obtain ⟨mx, hmx⟩ := listMax_ne hxe
    rw [h4 m mn mx hle hm hlt ⟨(listMin_least hmn).1, (listMin_least hmn).2⟩ ⟨(listMax_greatest hmx).1, (listMax_greatest hmx).2⟩]
    apply avg_const
    · intro y hy
      obtain ⟨u, -, rfl⟩ := List.mem_map.mp hy
      rw [popVar_const (c := G u), sqrt_zero]
      intro z hz
      obtain ⟨r, hr, rfl⟩ := List.mem_map.mp hz
      exact hG r hr u
    · unfold evenly
      simp
  rw [h1]
  constructor
  · by_cases hc : minPoints ≤ x.length ∧ (∃ m, prepCentering centering = .ok m) ∧ lo foi < hi foi
    · left
      rw [hval hc.1 hc.2.1 hc.2.2]
    · right
      rw [h3]
      by_contra hcon
      push Not at hcon
      refine hc ⟨hcon.1, ?_, hcon.2.2⟩
      rcases prepCentering_ok_or centering with h | ⟨e, he⟩
      · exact h
      · exact absurd he (hcon.2.1 e)
  · intro a b c
    rw [hval a b c]

/-- **C79, RegionalDerPDP and RegionalPDP.**  If all (d-)ICE curves of the data coincide, no split is kept.  For d-PDP this is the case for every model without
interactions with the feature; see `C79_derpdp_additive`.  For PDP see `C79_false_pdp`. -/
theorem C79_pdp [PySqrt K] [LawfulSqrt K] (cfg : RegCfg K D) (heff : EffAligned cfg) (choice : ℕ → ℕ → List ℕ) (M : PdpModel K D) (lo hi : Fin D → K)
    (hw : AllWithin cfg.data lo hi) (centering : PyVal) (points : ℕ) (hp : 1 ≤ points) (vec : Bool) (hmin : 1 ≤ cfg.minPoints) (r : Option (Splits K D))
    (hs : searchAllSplitsM cfg (fun x _ => pdpHeter choice id M.kind lo hi cfg.feature cfg.minPoints centering (.str "all") points vec x) = .ok r)
    (G : K → K) (hG : ∀ r ∈ cfg.data, ∀ u, M.at cfg.feature u r = G u) : chooseImportantSplits cfg r = [] := by
  refine C79_zero_heterogeneity cfg heff _ (fun x e' hx => ?_) r hs ?_
  · obtain ⟨v, h1, h2, -⟩ := pdp_heter_total choice M lo hi cfg.feature cfg.minPoints hmin centering points hp vec x fun r hr => hw r (hx.1.subset hr)
    exact ⟨v, h1, h2⟩
  · exact (pdp_heter_zero choice M lo hi cfg.feature cfg.minPoints hmin centering points hp vec cfg.data hw G hG).1

/-- **C79, RegionalDerPDP without Jacobian**: a model additive in the feature. -/
theorem C79_derpdp_additive [PySqrt K] [LawfulSqrt K] (cfg : RegCfg K D) (heff : EffAligned cfg) (choice : ℕ → ℕ → List ℕ) (f : Row K D → K) (lo hi : Fin D → K)
    (hw : AllWithin cfg.data lo hi) (centering : PyVal) (points : ℕ) (hp : 1 ≤ points) (vec : Bool) (hmin : 1 ≤ cfg.minPoints) (r : Option (Splits K D))
    (hs : searchAllSplitsM cfg (fun x _ => pdpHeter choice id (.derNum (List.map f)) lo hi cfg.feature cfg.minPoints centering (.str "all") points vec x) = .ok r)
    (g : K → K) (k : Row K D → K) (hadd : ∀ r ∈ cfg.data, ∀ v, f (Function.update r cfg.feature v) = g v + k r) : chooseImportantSplits cfg r = [] := by
  refine C79_pdp cfg heff choice (.derNum f) lo hi hw centering points hp vec hmin r hs
    (fun u => (g (u + 1 / 10 ^ 6) - g (u - 1 / 10 ^ 6)) / (2 * (1 / 10 ^ 6))) fun r hr u => ?_
  unfold PdpModel.at
  simp only [hadd r hr]
  congr 1
  ring

/-- **C77, RegionalPDP and RegionalDerPDP.**  If some candidate split separates the data into two sides on each of which all (d-)ICE curves coincide, then exactly one
split is kept and after it the heterogeneity is 0 on both sides. -/
theorem C77_pdp [PySqrt K] [LawfulSqrt K] (cfg : RegCfg K D) (heff : EffAligned cfg) (choice : ℕ → ℕ → List ℕ) (M : PdpModel K D) (lo hi : Fin D → K)
    (hw : AllWithin cfg.data lo hi) (hlt : lo cfg.feature < hi cfg.feature) (centering : PyVal) (hcent : ∃ mode, prepCentering centering = .ok mode)
    (points : ℕ) (hp : 1 ≤ points) (vec : Bool) (hmin : 1 ≤ cfg.minPoints)
    (s : Splits K D)
    (hs : searchAllSplitsM cfg (fun x _ => pdpHeter choice id M.kind lo hi cfg.feature cfg.minPoints centering (.str "all") points vec x) = .ok (some s))
    (f : Fin D) (hf : f ∈ cfg.foc) (pos : K) (hpos : Candidate cfg.data cfg.types cfg.nofSplits f pos)
    (G : Bool → K → K) (hG : ∀ right, ∀ r ∈ cfg.data, OnSide (cfg.types f) pos right (r f) → ∀ u, M.at cfg.feature u r = G right u)
    (hsize : ∀ right, cfg.minPoints ≤ (sideValues cfg.data f pos (cfg.types f) right cfg.feature).length)
    (v0 : K) (hv0 : pdpHeter choice id M.kind lo hi cfg.feature cfg.minPoints centering (.str "all") points vec cfg.data = .ok v0) (h0 : 0 < v0)
    (hbig : v0 ≠ 100000000) (hsmall : cfg.smallEnough ≤ v0) (hthres : cfg.dropThres < 1) :
    ∃ sp, s.levels[0]? = some sp ∧ chooseImportantSplits cfg (some s) = [sp] ∧ sp.heterogeneity = [0, 0] ∧
      sp.feature ∈ cfg.foc ∧
      ∀ right, pdpHeter choice id M.kind lo hi cfg.feature cfg.minPoints centering (.str "all") points vec
        (part sp.feature sp.position (cfg.types sp.feature) right (cfg.data, cfg.dataEffect)).1 = .ok 0 := by
  refine C77_perfect_split cfg heff _ (fun x e' hx => ?_) s hs f hf pos hpos (fun right => ?_) v0 hv0 h0 hbig hsmall hthres
  · obtain ⟨v, h1, h2, -⟩ := pdp_heter_total choice M lo hi cfg.feature cfg.minPoints hmin centering points hp vec x fun r hr => hw r (hx.1.subset hr)
    exact ⟨v, h1, h2⟩
  · refine (pdp_heter_zero choice M lo hi cfg.feature cfg.minPoints hmin centering points hp vec _ ?_ (G right) ?_).2 ?_ hcent hlt
    · intro r hr
      exact hw r (List.mem_filter.mp hr).1
    · intro r hr
      obtain ⟨h1, h2⟩ := List.mem_filter.mp hr
      exact hG right r h1 (by simpa using h2)
    · have := hsize right
      unfold sideValues at this
      rw [List.length_map] at this
      exact this

/-- Values between `a` and `b`: their standard deviation is at most `b - a`. -/
theorem sqrt_popVar_le [PySqrt K] [LawfulSqrt K] {l : List K} {a b : K} (hab : a ≤ b) (h : ∀ y ∈ l, a ≤ y ∧ y ≤ b) : PySqrt.sqrt (popVar l) ≤ b - a := by
  by_cases hne : l = []
  · have : popVar l = 0 := by rw [hne]; simp [popVar]
    rw [this, sqrt_zero]
    linarith
  · have h1 : popVar l ≤ (b - a) ^ 2 := by
      obtain ⟨m1, m2⟩ := avg_bounds h hne
      have := (avg_bounds (l := l.map fun y => (y - avg l) ^ 2) (g1 := 0) (g2 := (b - a) ^ 2) ?_ (by simpa using hne)).2
      · unfold avg at this
        rw [List.length_map] at this
        exact this
      · intro z hz
        obtain ⟨y, hy, rfl⟩ := List.mem_map.mp hz
        obtain ⟨y1, y2⟩ := h y hy
        exact ⟨sq_nonneg _, sq_le_sq' (by linarith) (by linarith)⟩
    have h2 := LawfulSqrt.sqrt_mul_self (popVar l) (popVar_nonneg l)
    have h3 := LawfulSqrt.sqrt_nonneg (popVar l)
    nlinarith

/-- **C71, RegionalPDP / RegionalDerPDP**, with a bound on the (d-)ICE values instead of a bound on the heterogeneity: `fit` raises nothing if at no position two
ICE values of instances in the data differ by more than 1e8. -/
theorem C71_pdp_bounded [PySqrt K] [LawfulSqrt K] (cfg : RegCfg K D) (heff : EffAligned cfg) (hne : cfg.data ≠ []) (hspl : 0 < cfg.nofSplits)
    (hcat : ∀ f ∈ cfg.foc, cfg.types f = .cat → distinct (cfg.data.map (· f)) ≤ max cfg.nofSplits cfg.catLimit)
    (hdep : cfg.maxLevels ≤ cfg.foc.length) (hmin : 1 ≤ cfg.minPoints) (choice : ℕ → ℕ → List ℕ) (M : PdpModel K D) (lo hi : Fin D → K)
    (hw : AllWithin cfg.data lo hi) (centering : PyVal) (points : ℕ) (hp : 1 ≤ points) (vec : Bool)
    (B : K → K) (hB : ∀ u, ∀ r ∈ cfg.data, B u ≤ M.at cfg.feature u r ∧ M.at cfg.feature u r ≤ B u + 100000000) :
    ∃ r, searchAllSplitsM cfg (fun x _ => pdpHeter choice id M.kind lo hi cfg.feature cfg.minPoints centering (.str "all") points vec x) = .ok r := by
  refine C71_pdp_fit_never_raises_partial cfg heff hne hspl hcat hdep hmin choice M lo hi hw centering points hp vec fun x e v hx hv => ?_
  obtain ⟨v', h1, -, h3, h4⟩ := pdp_heter_total choice M lo hi cfg.feature cfg.minPoints hmin centering points hp vec x fun r hr => hw r (hx.1.subset hr)
  rw [hv] at h1
  cases h1
  by_cases hc : x.length < cfg.minPoints ∨ (∃ e, prepCentering centering = .error e) ∨ hi cfg.feature ≤ lo cfg.feature
  · rw [h3 hc]
  · push Not at hc
    obtain ⟨hc1, hc2, hc3⟩ := hc
    obtain ⟨m, hm⟩ : ∃ m, prepCentering centering = .ok m := by
      rcases prepCentering_ok_or centering with h | ⟨e, he⟩
      · exact h
      · exact absurd he (hc2 e)
    have hxe : col x cfg.feature ≠ [] := by
      intro h
      have : x = [] := by simpa [col] using h
      rw [this, List.length_nil] at hc1
      omega
    obtain ⟨mn, hmn⟩ := listMin_ne hxe
    obtain ⟨mx, hmx⟩ := listMax_ne hxe
    rw [h4 m mn mx hc1 hm hc3 ⟨(listMin_least hmn).1, (listMin_least hmn).2⟩ ⟨(listMax_greatest hmx).1, (listMax_greatest hmx).2⟩]
    refine (avg_bounds (g1 := 0) ?_ (by unfold evenly; simp)).2
    intro y hy
    obtain ⟨u, -, rfl⟩ := List.mem_map.mp hy
    refine ⟨LawfulSqrt.sqrt_nonneg _, ?_⟩
    have := sqrt_popVar_le (l := x.map fun r => M.at cfg.feature u r) (a := B u) (b := B u + 100000000) (by linarith) ?_
    · linarith
    · intro z hz
      obtain ⟨r, hr, rfl⟩ := List.mem_map.mp hz
      exact hB u r (hx.1.subset hr)

/-- A search of at least one level over enough data returns splits. -/
theorem searchM_some {cfg : RegCfg K D} {h : HeterM K D} {r : Option (Splits K D)} (hs : searchAllSplitsM cfg h = .ok r) (hc : cfg.types cfg.feature = .cont)
    (hl : 1 ≤ cfg.maxLevels) (hm : cfg.minPoints ≤ cfg.data.length) : ∃ s, r = some s := by
  unfold searchAllSplitsM at hs
  rw [if_neg (by rw [hc]; simp)] at hs
  by_cases h2 : cfg.foc.length < cfg.maxLevels
  · rw [if_pos h2] at hs; cases hs
  · rw [if_neg h2] at hs
    simp only [bind, Except.bind] at hs
    cases hv : h cfg.data cfg.dataEffect with
    | error e => rw [hv] at hs; cases hs
    | ok v =>
      rw [hv] at hs
      simp only [] at hs
      obtain ⟨n, hn⟩ : ∃ n, cfg.maxLevels = n + 1 := ⟨cfg.maxLevels - 1, by omega⟩
      rw [hn] at hs
      unfold searchLoopM at hs
      have : [cfg.data].any (fun x => decide (x.length < cfg.minPoints)) = false := by
        simp only [List.any_cons, List.any_nil, Bool.or_false, decide_eq_false_iff_not]
        omega
      rw [this] at hs
      simp only [Bool.false_eq_true, if_false, bind, Except.bind] at hs
      generalize singleLevelSplitsM cfg h [cfg.data] (cfg.dataEffect.map fun e => [e]) [v] = q at hs
      cases q with
      | error e => cases hs
      | ok sp =>
        simp only [] at hs
        generalize searchLoopM cfg h n _ _ _ = q2 at hs
        cases q2 with
        | error e => cases hs
        | ok rest =>
          simp only [pure, Except.pure, Except.ok.injEq] at hs
          rw [if_neg (by simp)] at hs
          exact ⟨_, hs.symm⟩

/-- The data of the refutation: four instances, two features. -/
noncomputable def additiveCfg : RegCfg ℝ 2 :=
  { feature := 0, heter := fun _ _ => 0, data := [![0, 0], ![1, 0], ![0, 1], ![1, 1]], dataEffect := none,
    types := ![.cont, .cat], names := fun _ => "", catLimit := 3, foc := [1], minPoints := 2, nofSplits := 2, maxLevels := 1, dropThres := 1 / 10,
    smallEnough := 1 / 10, splitCat := false }

/-- **C79 is false for RegionalPDP**: its heterogeneity is computed from the ICE curves without centring, whatever `centering` is passed to `fit`.  The model
`x_0 + 10 x_1` has no interactions and all its ICE curves are parallel, but `fit` keeps a split of feature 0 on feature 1, for every valid centring. -/
theorem C79_false_pdp (choice : ℕ → ℕ → List ℕ) (centering : PyVal) (hcent : ∃ mode, prepCentering centering = .ok mode) (vec : Bool) :
    ∃ s, searchAllSplitsM additiveCfg (fun x _ => pdpHeter choice id (.pdp (List.map fun r : Row ℝ 2 => r 0 + 10 * r 1)) (fun _ => 0) (fun _ => 1) 0 2 centering (.str "all")
        100 vec x) = .ok (some s) ∧
      ∃ sp, chooseImportantSplits additiveCfg (some s) = [sp] ∧ sp.feature = 1 := by
  have hw : AllWithin additiveCfg.data (fun _ => 0) (fun _ => 1) := by
    intro r hr t
    simp only [additiveCfg, List.mem_cons, List.not_mem_nil, or_false] at hr
    rcases hr with rfl | rfl | rfl | rfl <;> fin_cases t <;> simp
  have heff : EffAligned additiveCfg := by
    intro e he
    cases he
  have hval : pdpHeter choice id (.pdp (List.map fun r : Row ℝ 2 => r 0 + 10 * r 1)) (fun _ => 0) (fun _ => 1) 0 2 centering (.str "all") 100 vec additiveCfg.data = .ok 5 := by
    obtain ⟨v, h1, -, -, h4⟩ := pdp_heter_total choice (.pdp fun r : Row ℝ 2 => r 0 + 10 * r 1) (fun _ => 0) (fun _ => 1) 0 2 (by omega) centering 100 (by omega) vec
      additiveCfg.data hw
    obtain ⟨m, hm⟩ := hcent
    refine h1.trans ?_
    rw [h4 m 0 1 (by simp [additiveCfg]) hm zero_lt_one ⟨by simp [additiveCfg], ?_⟩ ⟨by simp [additiveCfg], ?_⟩]
    · congr 1
      apply avg_const
      · intro y hy
        obtain ⟨u, -, rfl⟩ := List.mem_map.mp hy
        have : popVar (additiveCfg.data.map fun r => (PdpModel.pdp fun r : Row ℝ 2 => r 0 + 10 * r 1).at 0 u r) = 5 ^ 2 := by
          simp [additiveCfg, PdpModel.at, popVar, avg, Function.update]
          ring
        rw [this]
        exact Real.sqrt_sq (by norm_num)
      · unfold evenly
        simp
    · intro y hy
      simp [additiveCfg] at hy
      rcases hy with rfl | rfl | rfl | rfl <;> norm_num
    · intro y hy
      simp [additiveCfg] at hy
      rcases hy with rfl | rfl | rfl | rfl <;> norm_num
  obtain ⟨r, hr⟩ := C71_pdp_bounded additiveCfg heff (by simp [additiveCfg]) (by simp [additiveCfg])
    (by intro f hf hc; simp [additiveCfg] at hf; subst hf; simp [additiveCfg, distinct]) (by simp [additiveCfg]) (by simp [additiveCfg]) choice
    (.pdp fun r : Row ℝ 2 => r 0 + 10 * r 1) (fun _ => 0) (fun _ => 1) hw centering 100 (by omega) vec (fun u => u) (by
      intro u r hr
      simp only [additiveCfg, List.mem_cons, List.not_mem_nil, or_false] at hr
      rcases hr with rfl | rfl | rfl | rfl <;> norm_num [PdpModel.at, additiveCfg, Function.update])
  obtain ⟨s, rfl⟩ := searchM_some hr rfl (by simp [additiveCfg]) (by simp [additiveCfg])
  refine ⟨s, hr, ?_⟩
  obtain ⟨sp, -, h2, -, h4, -⟩ := C77_pdp additiveCfg heff choice (.pdp fun r : Row ℝ 2 => r 0 + 10 * r 1) (fun _ => 0) (fun _ => 1) hw zero_lt_one centering hcent 100 (by omega) vec
    (by simp [additiveCfg]) s hr 1 (by simp [additiveCfg]) 1 (by simp [Candidate, additiveCfg]) (fun right u => if right then u else u + 10) (by
      intro right r hr hside u
      simp only [additiveCfg, List.mem_cons, List.not_mem_nil, or_false] at hr
      cases right <;> rcases hr with rfl | rfl | rfl | rfl <;> simp [OnSide, additiveCfg, PdpModel.at, Function.update] at hside ⊢)
    (by intro right; cases right <;> simp [sideValues, additiveCfg, OnSide, List.filter]) 5 hval (by norm_num) (by norm_num) (by norm_num [additiveCfg]) (by norm_num [additiveCfg])
  exact ⟨sp, h2, by simpa [additiveCfg] using h4⟩

/-! ### The hypotheses are met -/

/-- Feature 0 has slope 1 where feature 1 is 0 and slope 3 where it is 1. -/
def interactionCfg (eff : Option (List (Row ℚ 2))) : RegCfg ℚ 2 :=
  { feature := 0, heter := fun _ _ => 0, data := [![0, 0], ![1, 0], ![2, 0], ![0, 1], ![1, 1], ![2, 1]], dataEffect := eff,
    types := ![.cont, .cat], names := fun _ => "", catLimit := 3, foc := [1], minPoints := 2, nofSplits := 2, maxLevels := 1, dropThres := 1 / 10,
    smallEnough := 1 / 10, splitCat := false }

/-- Its gradients. -/
def interactionEff : List (Row ℚ 2) := [![1, 0], ![1, 0], ![1, 0], ![3, 0], ![3, 0], ![3, 0]]

/-- A candidate of C77_rhale: all its hypotheses that do not speak of a square root, and its conclusion, on the example (where all variances are squares). -/
example :
    let cfg := interactionCfg (some interactionEff)
    let H : HeterM ℚ 2 := aleHeter (mkRhale firstRows (List.map fun r => r 0 + 2 * r 0 * r 1) none) 0 (.greedy 2 (some 2) (1 / 2) 1) 2 (.bool false)
    Candidate cfg.data cfg.types cfg.nofSplits 1 1 ∧
    (∀ right, GreedyPossible (sideValues cfg.data 1 1 (cfg.types 1) right 0) 2 1 ∧ 2 ≤ (sideValues cfg.data 1 1 (cfg.types 1) right 0).length) ∧
    (match H cfg.data cfg.dataEffect with | .ok v => decide (v = 2) | _ => false) = true ∧
    (match searchAllSplitsM cfg H with
      | .ok (some s) => (chooseImportantSplits cfg (some s)).map (fun sp => (sp.feature, sp.heterogeneity)) == [(1, [0, 0])]
      | _ => false) = true := by
  refine ⟨by show (1 : ℚ) ∈ (interactionCfg (some interactionEff)).data.map (· 1); decide +kernel, ?_, by decide +kernel, by decide +kernel⟩
  intro right
  unfold GreedyPossible
  cases right <;> decide +kernel

/-- The same for C77_ale, with the model itself. -/
example :
    let cfg := interactionCfg none
    let H : HeterM ℚ 2 := aleHeter (mkAle firstRows id (List.map fun r => r 0 + 2 * r 0 * r 1)) 0 (.fixed 1 (some 2) 1) 2 (.bool false)
    (∀ right, FixedPossible (sideValues cfg.data 1 1 (cfg.types 1) right 0) 0 2 1 2 1) ∧
    (match H cfg.data cfg.dataEffect with | .ok v => decide (0 < v ∧ v < 10) | _ => false) = true ∧
    (match searchAllSplitsM cfg H with
      | .ok (some s) => (chooseImportantSplits cfg (some s)).map (fun sp => (sp.feature, sp.heterogeneity)) == [(1, [0, 0])]
      | _ => false) = true := by
  refine ⟨?_, by decide +kernel, by decide +kernel⟩
  intro right
  unfold FixedPossible
  cases right <;> decide +kernel

/-- C79: the additive model `x_0 + 10 x_1` is split by RegionalPDP (`C79_false_pdp`), but not by RegionalALE. -/
example :
    let cfg := interactionCfg none
    (match searchAllSplitsM cfg (aleHeter (mkAle firstRows id (List.map fun r => r 0 ^ 2 + 10 * r 1)) 0 (.fixed 1 (some 2) 1) 2 (.bool false)) with
      | .ok (some s) => decide (s.heterInit = 0) && (chooseImportantSplits cfg (some s)).isEmpty
      | _ => false) = true := by
  decide +kernel

end Effector
