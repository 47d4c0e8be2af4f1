import Verif.Props.AleInvariance
import Verif.Props.AleHistory
import Verif.Props.AleEffects
import Verif.Props.Helpers
import Verif.Props.PdpModels
import Verif.Props.Shap
import Verif.Props.RegionalHistory
import Verif.Props.RegionalExamples
import Verif.Model.Reports

/-!
# C68: the heterogeneity of a region is a non-negative number, and what it is
-/

set_option linter.unusedSectionVars false

namespace Effector

open Spec

variable {K : Type} [Field K] [LinearOrder K] [IsStrictOrderedRing K] {D : ℕ}

/-! ### ALE and RHALE -/

theorem resolve_int (s : Fin D) : (prepFeatures (.int ((s : ℕ) : ℤ)) D).bind (resolveFeatures D) = .ok [s] := by
  show resolveFeatures D (.list [((s : ℕ) : ℤ)]) = _
  unfold resolveFeatures
  simp only [List.mapM_cons, List.mapM_nil]
  rw [dif_pos ⟨by omega, by have := s.2; omega⟩]
  rfl

theorem big_pos : (0 : K) < BIG_M := by
  norm_num [BIG_M]

/-- The heterogeneity of a region, from the outcome of the fit. -/
theorem aleHeter_value [PySqrt K] [LawfulSqrt K] {mk : List (Row K D) → Option (List (Row K D)) → Py (AleCfg K D)} {foi : Fin D}
    {bm : BinMethod K} {minPoints : ℕ} {centering : PyVal} {data : List (Row K D)} {eff : Option (List (Row K D))} {cfg : AleCfg K D}
    (hmk : mk data eff = .ok cfg) {mx : K} (hmx : listMax (col data foi) = .ok mx) (hlen : minPoints ≤ data.length)
    (hgood : ∀ p, cfg.fitF foi bm = .ok p → GoodParams p ∧ cfg.axisLo foi < cfg.axisHi foi) :
    (∀ p m, cfg.allowed bm = true → prepCentering centering = .ok m → cfg.fitF foi bm = .ok p →
      ∃ H : K → K, (∀ xs, evalHet p xs = .ok (xs.map H)) ∧ (∀ x, 0 ≤ H x) ∧
        aleHeter mk foi bm minPoints centering data eff = .ok (H mx)) ∧
    ((cfg.allowed bm = false ∨ (∃ e, prepCentering centering = .error e) ∨ ∃ e, cfg.fitF foi bm = .error e) →
      aleHeter mk foi bm minPoints centering data eff = .ok BIG_M) := by
  constructor
  · intro p m hal hm hp
    obtain ⟨hg, hlt⟩ := hgood p hp
    obtain ⟨H, hH, hgrow⟩ := hg.het_grows
    refine ⟨H, hH, hgrow.nonneg, ?_⟩
    obtain ⟨z, hz⟩ : ∃ z, aleNormConst cfg p foi m = .ok z := by
      cases m with
      | off => exact ⟨_, rfl⟩
      | zeroStart =>
        obtain ⟨el, -, hacc⟩ := hg.acc p.binEffect [cfg.axisLo foi] hg.be
        unfold aleNormConst evalUnnorm
        rw [hacc]
        exact ⟨_, rfl⟩
      | zeroIntegral =>
        obtain ⟨el, -, hacc⟩ := hg.acc p.binEffect (centres (cfg.axisLo foi) (cfg.axisHi foi) 99) hg.be
        unfold aleNormConst evalUnnorm
        rw [mean1dLinspace, centring_grid, hacc]
        exact ⟨_, rfl⟩
    have hfit := aleFit_run (st := AleState.init) hal hm (resolve_int foi)
    obtain ⟨el, -, hacc⟩ := hg.acc p.binEffect [mx] hg.be
    unfold aleHeter
    rw [if_neg (by omega), hmk]
    simp only [bind, Except.bind, hfit, fitLoop, fitOne, hp, hz, hmx]
    simp only [aleEval, prepCentering, needsRefit, Function.update_self, Bool.not_true, Bool.false_eq_true, if_false,
      aleEvalFitted, pyAssert, hlt, decide_true, bind, Except.bind, evalUnnorm, hacc, hH, pure, Except.pure]
    rfl
  · intro h
    have hfit : ∃ st e, aleFit cfg AleState.init (.int ((foi : ℕ) : ℤ)) bm centering = (st, .error e) := by
      by_cases hal : cfg.allowed bm = true
      · cases hc : prepCentering centering with
        | error e =>
          refine ⟨AleState.init, e, ?_⟩
          unfold aleFit
          rw [if_pos hal, hc]
          rfl
        | ok m =>
          obtain ⟨e, he⟩ : ∃ e, cfg.fitF foi bm = .error e := by
            rcases h with h | ⟨e, h⟩ | h
            · rw [hal] at h; cases h
            · rw [hc] at h; cases h
            · exact h
          rw [aleFit_run hal hc (resolve_int foi)]
          refine ⟨AleState.init, e, ?_⟩
          simp only [fitLoop, fitOne, he]
      · exact ⟨_, _, by unfold aleFit; rw [if_neg hal]⟩
    obtain ⟨st, e, hf⟩ := hfit
    unfold aleHeter
    rw [if_neg (by omega), hmk]
    simp only [bind, Except.bind, hf]
    rfl

/-- A constant feature: no binning method returns limits, except `Fixed` with `cat_limit = 0`. -/
theorem findLimits_constant (c : BinCtx K) (bm : BinMethod K) (h1 : distinct c.xs = 1) (hbm : ∀ n m, bm ≠ .fixed n m 0) (L : List K) :
    findLimits c bm ≠ .ok (.arr L) := by
  have hnone := C23_false_min_points_none c
  have hgd := fun n m cl d => C22_greedy_dp_impossible_partial c n m cl d (Or.inl h1)
  have hf := fun n m cl hcl => C22_false_fixed_constant_raises c n m cl h1 hcl
  intro h
  cases bm with
  | fixed n mo cl =>
    cases mo with
    | none => rw [(hnone n cl 0).1] at h; cases h
    | some m =>
      rcases Nat.eq_zero_or_pos cl with rfl | hcl
      · exact hbm n _ rfl
      · rw [hf n m cl hcl] at h; cases h
  | greedy n mo d cl =>
    cases mo with
    | none => rw [(hnone n cl d).2.1] at h; cases h
    | some m => rw [(hgd n m cl d).1] at h; cases h
  | dp n mo d cl =>
    cases mo with
    | none => rw [(hnone n cl d).2.2] at h; cases h
    | some m => rw [(hgd n m cl d).2] at h; cases h
  | str s =>
    unfold findLimits at h
    simp only [] at h
    by_cases h1 : s = "fixed"
    · rw [if_pos h1] at h
      have := hf 20 0 15 (by omega)
      simp only [findLimits] at this
      rw [this] at h; cases h
    · rw [if_neg h1] at h
      by_cases h2 : s = "greedy"
      · rw [if_pos h2] at h
        have := (hgd 100 0 15 (3 / 10)).1
        simp only [findLimits] at this
        rw [this] at h; cases h
      · rw [if_neg h2] at h
        by_cases h3 : s = "dp"
        · rw [if_pos h3] at h
          have := (hgd 20 0 15 (3 / 10)).2
          simp only [findLimits] at this
          rw [this] at h; cases h
        · rw [if_neg h3] at h; cases h

theorem listMax_axis {data : List (Row K D)} {lo hi : Fin D → K} (h : axisLimitsAll data = .ok (lo, hi)) (s : Fin D) :
    listMax (col data s) = .ok (hi s) ∧ listMin (col data s) = .ok (lo s) ∧ data ≠ [] := by
  cases data with
  | nil =>
    unfold axisLimitsAll at h
    simp only [] at h
    by_cases hD : D = 0
    · subst hD; exact s.elim0
    · rw [if_neg hD] at h; cases h
  | cons r rs =>
    cases h
    exact ⟨rfl, rfl, by simp⟩

/-- If the two axis limits coincide, the feature is constant. -/
theorem distinct_of_axis {data : List (Row K D)} {lo hi : Fin D → K} (h : axisLimitsAll data = .ok (lo, hi)) {s : Fin D} (heq : ¬ lo s < hi s) :
    distinct (col (data.filter (inAxis (lo s) (hi s) s)) s) = 1 := by
  have hin := axisLimits_within h
  have hall : data.filter (inAxis (lo s) (hi s) s) = data := by
    rw [List.filter_eq_self]
    intro r hr
    have := hin r hr s
    simp [inAxis, this.1, this.2]
  rw [hall]
  have hne := (listMax_axis h s).2.2
  have hc : ∀ x ∈ col data s, x = lo s := by
    intro x hx
    obtain ⟨r, hr, rfl⟩ := List.mem_map.mp hx
    have := hin r hr s
    exact le_antisymm (this.2.trans (not_lt.mp heq)) this.1
  have hrep : col data s = List.replicate (col data s).length (lo s) := List.eq_replicate_iff.mpr ⟨rfl, hc⟩
  have hpos : 0 < (col data s).length := by
    rw [col, List.length_map]
    exact List.length_pos_iff.mpr hne
  unfold distinct
  obtain ⟨n, hn⟩ : ∃ n, (col data s).length = n + 1 := ⟨(col data s).length - 1, by omega⟩
  rw [hrep, hn]
  clear hrep hc hpos hn
  induction n with
  | zero => simp
  | succ n ih => rw [List.replicate_succ, List.dedup_cons_of_mem (by simp)]; exact ih

theorem aleHeter_few [PySqrt K] (mk : List (Row K D) → Option (List (Row K D)) → Py (AleCfg K D)) (foi : Fin D)
    (bm : BinMethod K) (minPoints : ℕ) (centering : PyVal) (data : List (Row K D)) (eff : Option (List (Row K D)))
    (h : data.length < minPoints) : aleHeter mk foi bm minPoints centering data eff = .ok BIG_M := by
  unfold aleHeter
  rw [if_pos h]

theorem prepCentering_ok_or (c : PyVal) : (∃ m, prepCentering c = .ok m) ∨ ∃ e, prepCentering c = .error e := by
  cases prepCentering c with
  | ok m => exact Or.inl ⟨m, rfl⟩
  | error e => exact Or.inr ⟨e, rfl⟩

/-- **C68, RHALE.**  The heterogeneity of a region (any rows, with effects of the same number of rows or none): it is a non-negative number for
every binning method (see `SafeMethod`) but `Fixed` with `cat_limit = 0`; it is 1e8 if the region has too few rows or the feature cannot be fitted on it, and
otherwise the standard deviation of the effects, accumulated over the bins up to the largest value of the feature in the region. -/
theorem C68_rhale_heterogeneity [PySqrt K] [LawfulSqrt K] (choice : ℕ → ℕ → List ℕ) (model : List (Row K D) → List K)
    (jac : Option (List (Row K D) → List (Row K D))) (foi : Fin D) (bm : BinMethod K) (minPoints : ℕ) (centering : PyVal)
    (data : List (Row K D)) (eff : Option (List (Row K D))) (lo hi : Fin D → K) (hlim : axisLimitsAll data = .ok (lo, hi))
    (heff : ∀ e, eff = some e → e.length = data.length)
    (hsafe : lo foi < hi foi → ∀ L, findLimits (rhaleCtx data (rhaleEffects model jac eff data) lo hi foi) bm = .ok (.arr L) →
      SafeMethod (rhaleCtx data (rhaleEffects model jac eff data) lo hi foi) bm) (hcl : ∀ n m, bm ≠ .fixed n m 0) :
    ∃ v, aleHeter (mkRhale choice model jac) foi bm minPoints centering data eff = .ok v ∧ 0 ≤ v ∧
      (data.length < minPoints → v = 10 ^ 8) ∧
      ((rhaleAllowed bm = false ∨ (∃ e, prepCentering centering = .error e) ∨
        (∃ e, rhaleFitFeature data (rhaleEffects model jac eff data) lo hi foi bm = .error e)) → v = 10 ^ 8) ∧
      ∀ p m, minPoints ≤ data.length → rhaleAllowed bm = true → prepCentering centering = .ok m →
        rhaleFitFeature data (rhaleEffects model jac eff data) lo hi foi bm = .ok p → hi foi ≤ 10 ^ 8 →
        v = stepIntegral p.limits (p.binVariance.map PySqrt.sqrt) (hi foi) := by
  simp only [BIG_M_lit] at *
  by_cases hfew : data.length < minPoints
  · refine ⟨_, aleHeter_few _ _ _ _ _ _ _ hfew, big_pos.le, fun _ => rfl, fun _ => rfl, fun p m hle => ?_⟩
    omega
  · obtain ⟨hmx, -, hne⟩ := listMax_axis hlim foi
    have hmk : mkRhale choice model jac data eff = .ok (rhaleCfg (rhaleEffects model jac eff data)
        { data := data, indices := List.range data.length, axisLo := lo, axisHi := hi }) := by
      unfold mkRhale
      rw [rhaleInit_all choice model jac data eff heff none]
      simp only [limitsOr, hlim, Except.bind, bind, pure, Except.pure]
    have hgood : ∀ p, rhaleFitFeature data (rhaleEffects model jac eff data) lo hi foi bm = .ok p → GoodParams p ∧ lo foi < hi foi := by
      intro p hp
      obtain ⟨-, L, hL, -⟩ := rhaleFitFeature_ok hp
      by_cases hlt : lo foi < hi foi
      · exact ⟨(rhale_good hlt (hsafe hlt L hL) hp).1, hlt⟩
      · exact absurd hL (findLimits_constant _ _ (distinct_of_axis hlim hlt) hcl L)
    obtain ⟨h1, h2⟩ := aleHeter_value (minPoints := minPoints) (centering := centering) hmk hmx (by omega) hgood
    cases hal : rhaleAllowed bm with
    | false =>
      exact ⟨_, h2 (Or.inl hal), big_pos.le, fun _ => rfl, fun _ => rfl, fun p m _ h => by cases h⟩
    | true =>
      cases hc : prepCentering centering with
      | error e =>
        exact ⟨_, h2 (Or.inr (Or.inl ⟨e, hc⟩)), big_pos.le, fun _ => rfl, fun _ => rfl, fun p m _ _ h => by cases h⟩
      | ok m =>
        cases hfit : rhaleFitFeature data (rhaleEffects model jac eff data) lo hi foi bm with
        | error e =>
          exact ⟨_, h2 (Or.inr (Or.inr ⟨e, hfit⟩)), big_pos.le, fun _ => rfl, fun _ => rfl, fun p m _ _ _ h => by cases h⟩
        | ok p =>
          obtain ⟨H, hH, hpos, hv⟩ := h1 p m hal hc hfit
          refine ⟨_, hv, hpos _, fun h => absurd h hfew, ?_, ?_⟩
          · rintro (h | ⟨e, h⟩ | ⟨e, h⟩) <;> cases h
          · intro p' m' _ _ _ hp' hbig
            cases hp'
            have hg := (hgood p hfit).1
            have := hg.acc_below (p.binVariance.map PySqrt.sqrt) [hi foi] (by rw [List.length_map]; exact hg.bv)
              (by intro x hx; rw [List.mem_singleton] at hx; subst hx; exact Or.inl hbig)
            have hH1 := hH [hi foi]
            unfold evalHet at hH1
            rw [this] at hH1
            simpa using hH1.symm

/-- **C68, ALE**, for a model that works row by row. -/
theorem C68_ale_heterogeneity [PySqrt K] [LawfulSqrt K] (choice : ℕ → ℕ → List ℕ) (cast : K → K) (f : Row K D → K) (foi : Fin D)
    (bm : BinMethod K) (minPoints : ℕ) (centering : PyVal)
    (data : List (Row K D)) (eff : Option (List (Row K D))) (lo hi : Fin D → K) (hlim : axisLimitsAll data = .ok (lo, hi))
    (hbins : ∀ m cl, bm ≠ .fixed 0 m cl) (hcl : ∀ n m, bm ≠ .fixed n m 0) :
    ∃ v, aleHeter (mkAle choice cast (List.map f)) foi bm minPoints centering data eff = .ok v ∧ 0 ≤ v ∧
      (data.length < minPoints → v = 10 ^ 8) ∧
      ((isFixedMethod bm = false ∨ (∃ e, prepCentering centering = .error e) ∨
        (∃ e, aleFitFeature cast (List.map f) data lo hi foi bm = .error e)) → v = 10 ^ 8) ∧
      ∀ p m, minPoints ≤ data.length → isFixedMethod bm = true → prepCentering centering = .ok m →
        aleFitFeature cast (List.map f) data lo hi foi bm = .ok p → hi foi ≤ 10 ^ 8 →
        v = stepIntegral p.limits (p.binVariance.map PySqrt.sqrt) (hi foi) := by
  simp only [BIG_M_lit] at *
  by_cases hfew : data.length < minPoints
  · refine ⟨_, aleHeter_few _ _ _ _ _ _ _ hfew, big_pos.le, fun _ => rfl, fun _ => rfl, fun p m hle => ?_⟩
    omega
  · obtain ⟨hmx, -, hne⟩ := listMax_axis hlim foi
    have hmk : mkAle choice cast (List.map f) data eff = .ok (aleCfg cast (List.map f)
        { data := data, indices := List.range data.length, axisLo := lo, axisHi := hi }) := by
      unfold mkAle
      rw [base_init_all choice data none]
      simp only [limitsOr, hlim, Except.bind, bind, pure, Except.pure]
    have hgood : ∀ p, aleFitFeature cast (List.map f) data lo hi foi bm = .ok p → GoodParams p ∧ lo foi < hi foi := by
      intro p hp
      by_cases hlt : lo foi < hi foi
      · obtain ⟨-, -, -, -, -, -, -, -, -, -, -, hg, -⟩ := ale_fit_cases hlt (ale_safe (aleFitFeature_ok hp).1 hbins) hp
        exact ⟨hg, hlt⟩
      · obtain ⟨hfx, L, -, -, hL, -⟩ := aleFitFeature_ok hp
        refine absurd hL (findLimits_constant _ _ (distinct_of_axis hlim hlt) ?_ L)
        intro n m h
        cases bm with
        | str s => cases h
        | fixed n' m' cl' => exact hcl _ _ h
        | greedy n' m' d' cl' => cases h
        | dp n' m' d' cl' => cases h
    obtain ⟨h1, h2⟩ := aleHeter_value (minPoints := minPoints) (centering := centering) hmk hmx (by omega) hgood
    cases hal : isFixedMethod bm with
    | false =>
      exact ⟨_, h2 (Or.inl hal), big_pos.le, fun _ => rfl, fun _ => rfl, fun p m _ h => by cases h⟩
    | true =>
      cases hc : prepCentering centering with
      | error e =>
        exact ⟨_, h2 (Or.inr (Or.inl ⟨e, hc⟩)), big_pos.le, fun _ => rfl, fun _ => rfl, fun p m _ _ h => by cases h⟩
      | ok m =>
        cases hfit : aleFitFeature cast (List.map f) data lo hi foi bm with
        | error e =>
          exact ⟨_, h2 (Or.inr (Or.inr ⟨e, hfit⟩)), big_pos.le, fun _ => rfl, fun _ => rfl, fun p m _ _ _ h => by cases h⟩
        | ok p =>
          obtain ⟨H, hH, hpos, hv⟩ := h1 p m hal hc hfit
          refine ⟨_, hv, hpos _, fun h => absurd h hfew, ?_, ?_⟩
          · rintro (h | ⟨e, h⟩ | ⟨e, h⟩) <;> cases h
          · intro p' m' _ _ _ hp' hbig
            cases hp'
            have hg := (hgood p hfit).1
            have := hg.acc_below (p.binVariance.map PySqrt.sqrt) [hi foi] (by rw [List.length_map]; exact hg.bv)
              (by intro x hx; rw [List.mem_singleton] at hx; subst hx; exact Or.inl hbig)
            have hH1 := hH [hi foi]
            unfold evalHet at hH1
            rw [this] at hH1
            simpa using hH1.symm

/-! ### PDP and d-PDP -/

theorem mean_nonneg {l : List K} (h : ∀ x ∈ l, 0 ≤ x) : 0 ≤ mean l := by
  unfold mean
  exact div_nonneg (List.sum_nonneg h) (Nat.cast_nonneg _)

/-- `eval` with `centering=False` right after `fit` of the same feature. -/
theorem pdpEval_after_fit [PySqrt K] (M : PdpModel K D) (lo hi : Fin D → K) (data : List (Row K D)) (s : Fin D) (centering : PyVal) (points : ℕ)
    (vec : Bool) (st : PdpState K D) (h : pdpFit (pdpCfgOf M lo hi) (PdpState.init data) (.int ((s : ℕ) : ℤ)) centering points vec = (st, .ok ()))
    (xs : List K) (het all vec' : Bool) :
    (pdpEval (pdpCfgOf M lo hi) st s xs het (.bool false) all vec').2 = M.value lo hi data s xs het all vec' .off := by
  have hres : resolveFeatures D (.list [((s : ℕ) : ℤ)]) = .ok [s] := resolve_int s
  unfold pdpFit at h
  rw [show prepFeatures (.int ((s : ℕ) : ℤ)) D = .ok (.list [((s : ℕ) : ℤ)]) from rfl] at h
  simp only [bind, Except.bind] at h
  cases hm : prepCentering centering with
  | error e => rw [hm] at h; cases h
  | ok m =>
    rw [hm] at h
    simp only [] at h
    rw [hres] at h
    simp only [pure, Except.pure, pdpFitLoop] at h
    have hd : (pdpFitFeature (pdpCfgOf M lo hi) (PdpState.init data).data s m points vec).1 = inLimits data lo hi s := by
      unfold pdpFitFeature
      exact dropOutside_eq data lo hi s
    rcases e : pdpFitFeature (pdpCfgOf M lo hi) (PdpState.init data).data s m points vec with ⟨d, r⟩
    rw [e] at hd h
    simp only at hd
    subst hd
    cases r with
    | error e => cases h
    | ok nc =>
      simp only [] at h
      cases h
      unfold pdpEval
      simp only [prepCentering, needsRefit, Function.update_self, Bool.not_true, Bool.false_eq_true, if_false, if_true]
      unfold pdpEvalFitted PdpModel.value
      by_cases hlt : lo s < hi s
      · have h1 : pyAssert (decide ((pdpCfgOf M lo hi).axisLo s < (pdpCfgOf M lo hi).axisHi s)) = .ok () := by
          simp [pyAssert, pdpCfgOf, hlt]
        rw [h1]
        have h2 := predict_rowwise M (inLimits data lo hi s) xs s vec'
        simp only [bind, Except.bind, pdpCfgOf, h2, hlt, not_true_eq_false, if_false]
        by_cases hv : vec' = false ∧ xs = []
        · rw [if_pos hv, if_pos hv]
        · rw [if_neg hv, if_neg hv]
          simp only [if_true, pure, Except.pure]
          rw [report_eq]
          unfold PdpModel.ice
          simp only [PdpModel.shift, sub_zero]
      · have h1 : pyAssert (decide ((pdpCfgOf M lo hi).axisLo s < (pdpCfgOf M lo hi).axisHi s)) = .error .assertionError := by
          simp [pyAssert, pdpCfgOf, hlt]
        rw [h1]
        simp only [bind, Except.bind, hlt, not_false_eq_true, if_true]

theorem pdpFit_ok [PySqrt K] (M : PdpModel K D) (lo hi : Fin D → K) (st : PdpState K D) (s : Fin D) (centering : PyVal) (m : Centering)
    (hm : prepCentering centering = .ok m) (points : ℕ) (hp : 1 ≤ points) (vec : Bool) :
    ∃ st', pdpFit (pdpCfgOf M lo hi) st (.int ((s : ℕ) : ℤ)) centering points vec = (st', .ok ()) := by
  have hres : resolveFeatures D (.list [((s : ℕ) : ℤ)]) = .ok [s] := resolve_int s
  unfold pdpFit
  rw [show prepFeatures (.int ((s : ℕ) : ℤ)) D = .ok (.list [((s : ℕ) : ℤ)]) from rfl]
  simp only [bind, Except.bind]
  rw [hm]
  simp only []
  rw [hres]
  simp only [pure, Except.pure, pdpFitLoop]
  have hok : ∃ nc, (pdpFitFeature (pdpCfgOf M lo hi) st.data s m points vec).2 = .ok nc := by
    unfold pdpFitFeature pdpCfgOf
    cases m with
    | off => exact ⟨_, rfl⟩
    | zeroStart =>
      simp only [predict_rowwise, List.cons_ne_nil, and_false, if_false, bind, Except.bind]
      exact ⟨_, rfl⟩
    | zeroIntegral =>
      have : linspace (lo s) (hi s) points ≠ [] := by
        intro h0
        have := congrArg List.length h0
        simp [linspace] at this
        omega
      simp only [predict_rowwise, this, and_false, if_false, bind, Except.bind, pure, Except.pure]
      exact ⟨_, rfl⟩
  rcases e : pdpFitFeature (pdpCfgOf M lo hi) st.data s m points vec with ⟨d, r⟩
  rw [e] at hok
  obtain ⟨nc, rfl⟩ := hok
  exact ⟨_, rfl⟩

theorem pdp_heter_value [PySqrt K] [LawfulSqrt K] (choice : ℕ → ℕ → List ℕ) (M : PdpModel K D) (lo hi : Fin D → K) (foi : Fin D)
    (minPoints : ℕ) (centering : PyVal) (nof : PyVal) (points : ℕ) (hp : 1 ≤ points) (vec : Bool) (data : List (Row K D)) (b : Base K D)
    (hb : Base.init choice data nof (some (lo, hi)) = .ok b) (mn mx : K)
    (hmn : listMin (col data foi) = .ok mn) (hmx : listMax (col data foi) = .ok mx) :
    ∃ v, pdpHeter choice id M.kind lo hi foi minPoints centering nof points vec data = .ok v ∧ 0 ≤ v ∧
      (data.length < minPoints ∨ (∃ e, prepCentering centering = .error e) ∨ hi foi ≤ lo foi → v = BIG_M) ∧
      ∀ m, minPoints ≤ data.length → prepCentering centering = .ok m → lo foi < hi foi →
        v = avg ((linspace mn mx 10).map fun x => PySqrt.sqrt (popVar ((inLimits b.data lo hi foi).map fun r => M.at foi x r))) := by
  by_cases hfew : data.length < minPoints
  · refine ⟨BIG_M, ?_, big_pos.le, fun _ => rfl, fun m hle => ?_⟩
    · unfold pdpHeter
      rw [if_pos hfew]
    · omega
  · have hax : b.axisLo = lo ∧ b.axisHi = hi := by
      unfold Base.init at hb
      simp only [bind, Except.bind] at hb
      cases h1 : prepNofInstances choice nof data.length with
      | error e => rw [h1] at hb; cases hb
      | ok q =>
        rw [h1] at hb
        simp only [] at hb
        cases h2 : takeRows data q.2 with
        | error e => rw [h2] at hb; cases hb
        | ok d =>
          rw [h2] at hb
          simp only [pure, Except.pure] at hb
          cases hb
          exact ⟨rfl, rfl⟩
    have hcfg : ({ cast := id, kind := M.kind, axisLo := b.axisLo, axisHi := b.axisHi } : PdpCfg K D) = pdpCfgOf M lo hi := by
      rw [hax.1, hax.2]
      rfl
    cases hc : prepCentering centering with
    | error e =>
      refine ⟨BIG_M, ?_, big_pos.le, fun _ => rfl, fun m _ h => by cases h⟩
      unfold pdpHeter
      rw [if_neg hfew, hb]
      simp only [bind, Except.bind, hcfg]
      have : pdpFit (pdpCfgOf M lo hi) (PdpState.init b.data) (.int ((foi : ℕ) : ℤ)) centering points vec = (PdpState.init b.data, .error e) := by
        unfold pdpFit
        rw [hc]
        rfl
      rw [this]
      rfl
    | ok m =>
      obtain ⟨st, hst⟩ := pdpFit_ok M lo hi (PdpState.init b.data) foi centering m hc points hp vec
      have hev := pdpEval_after_fit M lo hi b.data foi centering points vec st hst (linspace mn mx 10) true false vec
      have hlin : linspace mn mx 10 ≠ [] := by unfold linspace; simp
      by_cases hlt : lo foi < hi foi
      · refine ⟨_, ?_, ?_, ?_, fun m' _ _ _ => rfl⟩
        · unfold pdpHeter
          rw [if_neg hfew, hb]
          simp only [bind, Except.bind, hcfg, hst, hmn, hmx]
          rw [hev]
          unfold PdpModel.value
          simp only [hlt, not_true_eq_false, if_false, hlin, and_false, report, Bool.false_eq_true, if_true, pure, Except.pure]
          unfold PdpModel.ice
          simp only [PdpModel.shift, sub_zero, List.map_map]
          rfl
        · refine mean_nonneg ?_
          intro x hx
          obtain ⟨y, -, rfl⟩ := List.mem_map.mp hx
          exact LawfulSqrt.sqrt_nonneg _
        · rintro (h | ⟨e, h⟩ | h)
          · exact absurd h hfew
          · cases h
          · exact absurd hlt (not_lt.mpr h)
      · refine ⟨BIG_M, ?_, big_pos.le, fun _ => rfl, fun m' _ _ h => absurd h hlt⟩
        unfold pdpHeter
        rw [if_neg hfew, hb]
        simp only [bind, Except.bind, hcfg, hst, hmn, hmx]
        rw [hev]
        unfold PdpModel.value
        simp only [hlt, not_false_eq_true, if_true]
        rfl

theorem listMin_of_least {l : List K} {mn : K} (h : IsLeast {u | u ∈ l} mn) : listMin l = .ok mn := by
  cases e : listMin l with
  | error er => cases l with
    | nil => exact absurd h.1 (by simp)
    | cons a t => cases e
  | ok m => rw [le_antisymm (h.2 (listMin_least e).1) ((listMin_least e).2 _ h.1)]

theorem listMax_of_greatest {l : List K} {mx : K} (h : IsGreatest {u | u ∈ l} mx) : listMax l = .ok mx := by
  cases e : listMax l with
  | error er => cases l with
    | nil => exact absurd h.1 (by simp)
    | cons a t => cases e
  | ok m => rw [le_antisymm ((listMax_greatest e).2 _ h.1) (h.2 (listMax_greatest e).1)]

/-- **C68, PDP and d-PDP** (any row-wise model or Jacobian).  For a non-empty region with an instance within the axis limits: a non-negative number;
1e8 if the region has too few rows, if the centring is invalid or if the limits are degenerate; otherwise the mean, over ten points spread
evenly between the smallest and the largest value of the feature in the region, of the standard deviation of the (uncentred) ICE values. -/
theorem C68_pdp_heterogeneity [PySqrt K] [LawfulSqrt K] (choice : ℕ → ℕ → List ℕ) (M : PdpModel K D) (lo hi : Fin D → K) (foi : Fin D)
    (minPoints : ℕ) (centering : PyVal) (nof : PyVal) (points : ℕ) (hp : 1 ≤ points) (vec : Bool) (data : List (Row K D)) (b : Base K D)
    (hb : Base.init choice data nof (some (lo, hi)) = .ok b) (_hin : ∃ r ∈ b.data, lo foi ≤ r foi ∧ r foi ≤ hi foi) (mn mx : K)
    (hmn : IsLeast {u | u ∈ data.map (· foi)} mn) (hmx : IsGreatest {u | u ∈ data.map (· foi)} mx) :
    ∃ v, pdpHeter choice id M.kind lo hi foi minPoints centering nof points vec data = .ok v ∧ 0 ≤ v ∧
      (data.length < minPoints ∨ (∃ e, prepCentering centering = .error e) ∨ hi foi ≤ lo foi → v = 10 ^ 8) ∧
      ∀ m, minPoints ≤ data.length → prepCentering centering = .ok m → lo foi < hi foi →
        v = avg ((evenly mn mx 10).map fun x => PySqrt.sqrt (popVar ((inLimits b.data lo hi foi).map fun r => M.at foi x r))) :=
  pdp_heter_value choice M lo hi foi minPoints centering nof points hp vec data b hb mn mx (listMin_of_least hmn) (listMax_of_greatest hmx)

/-! ### ShapDP -/

theorem shapInit_limits {choice : ℕ → ℕ → List ℕ} {data : List (Row K D)} {nof : PyVal} {b : Base K D}
    (h : shapInit choice data nof none = .ok b) : AllWithin b.data b.axisLo b.axisHi := by
  unfold shapInit at h
  simp only [bind, Except.bind] at h
  cases h1 : prepNofInstances choice nof data.length with
  | error e => rw [h1] at h; cases h
  | ok q =>
    rw [h1] at h
    simp only [] at h
    cases h2 : takeRows data q.2 with
    | error e => rw [h2] at h; cases h
    | ok d =>
      rw [h2] at h
      simp only [] at h
      exact (C53_default_limits choice d nof b h).1

/-- **C68, ShapDP, in so far as it holds**: when the heterogeneity of a region with enough rows is computed without an exception, it is the mean, over ten points
spread evenly between the smallest and the largest value of the feature in the region, of the spread curve that the external libraries fit to the
(sub-sampled) rows of the region; so it is not negative if that curve is not. -/
theorem C68_shap_heterogeneity_partial (choice : ℕ → ℕ → List ℕ) (ext : ShapExt K D) (foi : Fin D) (minPoints : ℕ) (centering : PyVal) (nof : PyVal)
    (points : ℕ) (hp : 2 ≤ points) (data : List (Row K D)) (hlen : minPoints ≤ data.length) (v : K)
    (h : shapHeter choice ext foi minPoints centering nof points data = .ok v) :
    ∃ b mn mx curve spread lo hi, shapInit choice data nof none = .ok b ∧ IsLeast {u | u ∈ data.map (· foi)} mn ∧ IsGreatest {u | u ∈ data.map (· foi)} mx ∧
      ShapCurve ext b.data foi curve spread lo hi ∧ v = avg ((evenly mn mx 10).map spread) ∧
      ((∀ x, 0 ≤ spread x) → 0 ≤ v) := by
  unfold shapHeter at h
  rw [if_neg (by omega)] at h
  simp only [bind, Except.bind] at h
  cases hmn : listMin (col data foi) with
  | error e => rw [hmn] at h; cases h
  | ok mn =>
    rw [hmn] at h
    simp only [] at h
    cases hmx : listMax (col data foi) with
    | error e => rw [hmx] at h; cases h
    | ok mx =>
      rw [hmx] at h
      simp only [] at h
      cases hb : shapInit choice data nof none with
      | error e => rw [hb] at h; cases h
      | ok b =>
        rw [hb] at h
        simp only [] at h
        have hall := shapInit_limits hb
        generalize hcfg : ({ ext := ext, axisLo := b.axisLo, axisHi := b.axisHi } : ShapCfg K D) = cfg at h
        have hrun : shapRun cfg b.data [.fit (.int ((foi : ℕ) : ℤ)) centering points] =
            (shapFit cfg (ShapState.init b.data) (.int ((foi : ℕ) : ℤ)) centering points).1 := rfl
        rcases e : shapFit cfg (ShapState.init b.data) (.int ((foi : ℕ) : ℤ)) centering points with ⟨st, r⟩
        rw [e] at h hrun
        simp only at h hrun
        cases r with
        | error e => cases h
        | ok u =>
          simp only [] at h
          rcases ev : (shapEval cfg st foi (linspace mn mx 10) true (.bool false)).2 with er | ⟨y, o⟩
          · rw [ev] at h; cases h
          · rw [ev] at h
            have hev := ev
            rw [← hrun] at hev
            obtain ⟨m, used, pts, curve, spread, lo, hi, -, -, -, -, hu, hcurve, -, ho⟩ :=
              C27_shap_eval_uses_right_constant cfg b.data [.fit (.int ((foi : ℕ) : ℤ)) centering points]
                (by intro f c p hm; rw [List.mem_singleton] at hm; cases hm; exact hp) foi (linspace mn mx 10) true (.bool false) y o hev
            have hw : AllWithin b.data cfg.axisLo cfg.axisHi := by rw [← hcfg]; exact hall
            rw [hu hw] at hcurve
            simp only [if_true] at ho
            subst ho
            simp only [pure, Except.pure] at h
            cases h
            refine ⟨b, mn, mx, curve, spread, lo, hi, rfl, listMin_least hmn, listMax_greatest hmx, ?_, rfl, fun hpos => ?_⟩
            · rw [← hcfg] at hcurve
              exact hcurve
            · refine mean_nonneg ?_
              intro x hx
              obtain ⟨y, -, rfl⟩ := List.mem_map.mp hx
              exact hpos y

/-! ### Where the property fails -/

/-- A choice that takes the first rows. -/
def firstRows : ℕ → ℕ → List ℕ := fun n _ => List.range n

/-- An explainer that returns the feature values, and splines that return `0` for the curve and `-1` for the spread (a fitted cubic spline through
non-negative points can be negative). -/
def dipExt : ShapExt ℚ 1 :=
  { explain := fun d => .ok d, spline := fun l => .ok fun _ => if l.all (fun p => decide (0 ≤ p.2)) then -1 else 0 }

/-- **C68 is false for ShapDP**: the heterogeneity can be negative, since it is read off a spline … -/
theorem C68_false_shap_negative :
    ¬ ∀ (ext : ShapExt ℚ 1) (data : List (Row ℚ 1)) (v : ℚ), data ≠ [] →
      shapHeter firstRows ext 0 2 (.bool false) (.str "all") 100 data = .ok v → 0 ≤ v := by
  intro h
  have h1 : shapHeter firstRows dipExt 0 2 (.bool false) (.str "all") 100 [![1], ![2], ![4]] = .ok (-1) := by decide +kernel
  exact absurd (h _ _ _ (by simp) h1) (by norm_num)

/-- … and a region in which the feature is constant makes it raise `AssertionError`: nothing is caught, so the whole search ends. -/
theorem C68_false_shap_constant_feature (choice : ℕ → ℕ → List ℕ) (ext : ShapExt K D) (foi : Fin D) (minPoints : ℕ) (centering : PyVal)
    (points : ℕ) (data : List (Row K D)) (hlen : minPoints ≤ data.length) (lo hi : Fin D → K) (hlim : axisLimitsAll data = .ok (lo, hi))
    (hconst : lo foi = hi foi) : ∃ e, shapHeter choice ext foi minPoints centering (.str "all") points data = .error e := by
  obtain ⟨hmx, hmn, hne⟩ := listMax_axis hlim foi
  have hb : shapInit choice data (.str "all") none =
      .ok { data := data, indices := List.range data.length, axisLo := lo, axisHi := hi } := by
    unfold shapInit
    rw [show prepNofInstances choice (.str "all") data.length = .ok ((data.length : ℤ), List.range data.length) from rfl]
    simp only [bind, Except.bind, takeRows_range, base_init_all, limitsOr, hlim]
  unfold shapHeter
  rw [if_neg (by omega), hmn, hmx, hb]
  simp only [bind, Except.bind]
  rcases e : shapFit { ext := ext, axisLo := lo, axisHi := hi } (ShapState.init data) (.int ((foi : ℕ) : ℤ)) centering points with ⟨st, r⟩
  simp only
  cases r with
  | error e1 => exact ⟨e1, rfl⟩
  | ok u =>
    simp only []
    have hbad : ∀ s' c, shapEvalFitted { ext := ext, axisLo := lo, axisHi := hi } s' foi (linspace (lo foi) (hi foi) 10) true c =
        .error .assertionError := by
      intro s' c
      unfold shapEvalFitted pyAssert
      simp [hconst, bind, Except.bind]
    have : ∃ e, (shapEval { ext := ext, axisLo := lo, axisHi := hi } st foi (linspace (lo foi) (hi foi) 10) true (.bool false)).2 = .error e := by
      unfold shapEval
      simp only [prepCentering]
      cases needsRefit (st.fitted foi) (st.args foi) .off with
      | error e => exact ⟨e, rfl⟩
      | ok q =>
        cases q with
        | false => exact ⟨_, hbad _ _⟩
        | true =>
          simp only []
          rcases e2 : shapFitLoop { ext := ext, axisLo := lo, axisHi := hi } .off 100 st [foi] with ⟨s', r'⟩
          cases r' with
          | error e => exact ⟨e, rfl⟩
          | ok u => exact ⟨_, hbad _ _⟩
    obtain ⟨e3, he3⟩ := this
    rw [he3]
    exact ⟨e3, rfl⟩

/-- **C68 is false for RHALE with `Fixed(cat_limit=0)`**: on a region where the feature is constant, `fit` succeeds and `eval` raises. -/
theorem C68_false_rhale_fixed_no_categories :
    aleHeter (mkRhale firstRows (List.map fun r => r 0) none) (0 : Fin 1) (.fixed 1 (some 0) 0 : BinMethod ℚ) 2 (.bool false)
      [![3], ![3], ![3]] (some [![1], ![2], ![1]]) = .error .assertionError := by decide +kernel

/-- The hypotheses of C68 are met: RHALE on four rows; the effects are 1, 3 / 2, 2 in two bins, whose standard deviations are 1 and 0. -/
example : aleHeter (mkRhale firstRows (List.map fun r => r 0) none) (0 : Fin 1) (.fixed 2 (some 2) 0 : BinMethod ℚ) 2 (.bool false)
      [![0], ![1], ![3], ![4]] (some [![1], ![3], ![2], ![2]]) = .ok 2 := by decide +kernel

/-- ALE of `x²` on four rows. -/
example : ∃ v, aleHeter (mkAle firstRows id (List.map fun r => r 0 * r 0)) (0 : Fin 1) (.fixed 1 (some 2) 0 : BinMethod ℚ) 2 (.bool false)
      [![0], ![1], ![3], ![4]] none = .ok v ∧ 0 ≤ v := by
  refine ⟨0, by decide +kernel, le_rfl⟩

/-- PDP of a product: the curves of the instances differ. -/
example : pdpHeter firstRows id (.pdp (List.map fun r : Row ℚ 2 => r 0 * r 1)) ![0, 0] ![2, 2] 0 2 (.bool false) (.str "all") 5 true
      [![0, 0], ![2, 2]] = .ok 1 := by decide +kernel

end Effector
