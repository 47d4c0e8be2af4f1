import Verif.Props.RegionUnitsTree
import Verif.Props.OutputUnits
import Verif.Props.RegionalApi
import Verif.Props.PlotPdp
import Verif.Props.RegionalApiTotal
import Mathlib.Tactic.FieldSimp

/-!
# C104: the regional classes, for a model in another unit
-/

set_option linter.unusedSectionVars false

namespace Effector

variable {K : Type} [Field K] [LinearOrder K] [IsStrictOrderedRing K] {D : ℕ}

open Spec

/-- What the two heterogeneity functions give for a set of instances: the penalty in both units, numbers in both, or exceptions in both. -/
def HeterIn (q : K) (m n : ℕ) (r r' : Py K) : Prop :=
  (r = .ok 100000000 ∧ r' = .ok 100000000) ∨ m ≤ n ∧ ((∃ v, 0 ≤ v ∧ r = .ok v ∧ r' = .ok (q * v)) ∨ (∃ e, r = .error e) ∧ ∃ e, r' = .error e)

theorem big_lit : (BIG_M : K) = 100000000 := by norm_num [BIG_M]

/-! ### PDP and d-PDP -/

theorem sqrt_sq_times [PySqrt K] [LawfulSqrt K] (k v : K) (hv : 0 ≤ v) : PySqrt.sqrt (k ^ 2 * v) = |k| * PySqrt.sqrt v := by
  have h1 : (0 : K) ≤ |k| * PySqrt.sqrt v := mul_nonneg (abs_nonneg k) (LawfulSqrt.sqrt_nonneg _)
  have h2 : (0 : K) ≤ k ^ 2 * v := mul_nonneg (sq_nonneg k) hv
  have h3 := LawfulSqrt.sqrt_mul_self _ h2
  have h4 := LawfulSqrt.sqrt_mul_self _ hv
  refine (mul_self_inj (LawfulSqrt.sqrt_nonneg _) h1).mp ?_
  rw [h3, mul_mul_mul_comm, h4, abs_mul_abs_self, sq]

/-- The second model gives `k` times the values of the first one, up to a constant. -/
def PdpIn (k b : K) (M M' : PdpModel K D) : Prop := ∀ s v r, M'.at s v r = k * M.at s v r + b

theorem pdpHeter_in [PySqrt K] [LawfulSqrt K] {k b : K} (choice : ℕ → ℕ → List ℕ) {M M' : PdpModel K D} (hM : PdpIn k b M M') (lo hi : Fin D → K) (foi : Fin D)
    (minPoints : ℕ) (hmin : 1 ≤ minPoints) (centering : PyVal) (nof : PyVal) (points : ℕ) (hp : 1 ≤ points) (vec : Bool) (x : List (Row K D)) :
    HeterIn |k| minPoints x.length (pdpHeter choice id M.kind lo hi foi minPoints centering nof points vec x)
      (pdpHeter choice id M'.kind lo hi foi minPoints centering nof points vec x) := by
  by_cases hfew : x.length < minPoints
  · unfold pdpHeter
    rw [if_pos hfew, if_pos hfew, big_lit]
    exact Or.inl ⟨rfl, rfl⟩
  cases hb : Base.init choice x nof (some (lo, hi)) with
  | error e =>
    refine Or.inr ⟨by omega, Or.inr ⟨⟨e, ?_⟩, ⟨e, ?_⟩⟩⟩ <;>
    · unfold pdpHeter
      rw [if_neg hfew, hb]
      rfl
  | ok B =>
    have hx : x ≠ [] := by
      rintro rfl
      simp only [List.length_nil] at hfew
      omega
    have hc : col x foi ≠ [] := by simpa [col] using hx
    obtain ⟨mn, hmn⟩ := listMin_ne hc
    obtain ⟨mx, hmx⟩ := listMax_ne hc
    obtain ⟨v, h1, h2, h3, h4⟩ := pdp_heter_value choice M lo hi foi minPoints centering nof points hp vec x B hb mn mx hmn hmx
    obtain ⟨v', h1', -, h3', h4'⟩ := pdp_heter_value choice M' lo hi foi minPoints centering nof points hp vec x B hb mn mx hmn hmx
    rw [h1, h1']
    by_cases hbad : x.length < minPoints ∨ (∃ e, prepCentering centering = .error e) ∨ hi foi ≤ lo foi
    · rw [h3 hbad, h3' hbad, big_lit]
      exact Or.inl ⟨rfl, rfl⟩
    · push Not at hbad
      obtain ⟨-, hcen, hlt⟩ := hbad
      cases hm : prepCentering centering with
      | error e => exact absurd hm (hcen e)
      | ok m =>
        refine Or.inr ⟨by omega, Or.inl ⟨v, h2, rfl, ?_⟩⟩
        rw [h4 m (by omega) hm hlt, h4' m (by omega) hm hlt]
        congr 1
        have : ∀ t, PySqrt.sqrt (popVar ((inLimits B.data lo hi foi).map fun r => M'.at foi t r)) =
            |k| * PySqrt.sqrt (popVar ((inLimits B.data lo hi foi).map fun r => M.at foi t r)) := by
          intro t
          rw [← sqrt_sq_times _ _ (popVar_nonneg _)]
          congr 1
          by_cases hne : inLimits B.data lo hi foi = []
          · rw [hne]; simp [popVar, avg]
          · rw [← popVar_affine (by simpa using hne) k b, List.map_map]
            congr 1
            exact List.map_congr_left fun r _ => hM foi t r
        simp only [this]
        have := mean_out (k := |k|) ((linspace mn mx 10).map fun t => PySqrt.sqrt (popVar ((inLimits B.data lo hi foi).map fun r => M.at foi t r)))
        rw [List.map_map] at this
        exact this

/-! ### ALE and RHALE -/

theorem aleHeter_in [PySqrt K] [LawfulSqrt K] {k : K} (hk : k ≠ 0) {mk mk' : List (Row K D) → Option (List (Row K D)) → Py (AleCfg K D)} {foi : Fin D} {bm : BinMethod K}
    {minPoints : ℕ} {centering : PyVal} {x : List (Row K D)} {e e' : Option (List (Row K D))} {cfg cfg' : AleCfg K D} (hmk : mk x e = .ok cfg) (hmk' : mk' x e' = .ok cfg')
    (hx : x ≠ []) (hlo : cfg'.axisLo = cfg.axisLo) (hhi : cfg'.axisHi = cfg.axisHi) (hal : cfg'.allowed = cfg.allowed)
    (hbad : ¬ cfg.axisLo foi < cfg.axisHi foi → (∃ er, cfg.fitF foi bm = .error er) ∧ ∃ er, cfg'.fitF foi bm = .error er)
    (hf : cfg.axisLo foi < cfg.axisHi foi → FitMix k 0 (cfg.fitF foi bm) (cfg.fitF foi bm) (cfg'.fitF foi bm) ∧ FitMix k⁻¹ 0 (cfg'.fitF foi bm) (cfg'.fitF foi bm) (cfg.fitF foi bm)) :
    HeterIn |k| minPoints x.length (aleHeter mk foi bm minPoints centering x e) (aleHeter mk' foi bm minPoints centering x e') := by
  by_cases hfew : x.length < minPoints
  · rw [aleHeter_few _ _ _ _ _ _ _ hfew, aleHeter_few _ _ _ _ _ _ _ hfew, big_lit]
    exact Or.inl ⟨rfl, rfl⟩
  have hc : col x foi ≠ [] := by simpa [col] using hx
  obtain ⟨mx, hmx⟩ := listMax_ne hc
  have hg : ∀ p, cfg.fitF foi bm = .ok p → GoodParams p ∧ cfg.axisLo foi < cfg.axisHi foi := by
    intro p hp
    by_cases hlt : cfg.axisLo foi < cfg.axisHi foi
    · rcases (hf hlt).1 with ⟨p', q', r', h1, h2, h3, h4⟩ | ⟨er, h1, -⟩
      · rw [h1] at hp; cases hp; exact ⟨h4.gp, hlt⟩
      · rw [h1] at hp; cases hp
    · obtain ⟨⟨er, h⟩, -⟩ := hbad hlt
      rw [h] at hp; cases hp
  have hg' : ∀ p, cfg'.fitF foi bm = .ok p → GoodParams p ∧ cfg'.axisLo foi < cfg'.axisHi foi := by
    intro p hp
    rw [hlo, hhi]
    by_cases hlt : cfg.axisLo foi < cfg.axisHi foi
    · rcases (hf hlt).2 with ⟨p', q', r', h1, h2, h3, h4⟩ | ⟨er, h1, -⟩
      · rw [h1] at hp; cases hp; exact ⟨h4.gp, hlt⟩
      · rw [h1] at hp; cases hp
    · obtain ⟨-, ⟨er, h⟩⟩ := hbad hlt
      rw [h] at hp; cases hp
  obtain ⟨v1, v2⟩ := aleHeter_value (minPoints := minPoints) (centering := centering) hmk hmx (by omega) hg
  obtain ⟨w1, w2⟩ := aleHeter_value (minPoints := minPoints) (centering := centering) hmk' hmx (by omega) hg'
  have both : ((cfg.allowed bm = false ∨ (∃ er, prepCentering centering = .error er) ∨ ∃ er, cfg.fitF foi bm = .error er)) →
      ((cfg'.allowed bm = false ∨ (∃ er, prepCentering centering = .error er) ∨ ∃ er, cfg'.fitF foi bm = .error er)) →
      HeterIn |k| minPoints x.length (aleHeter mk foi bm minPoints centering x e) (aleHeter mk' foi bm minPoints centering x e') := by
    intro h h'
    rw [v2 h, w2 h', big_lit]
    exact Or.inl ⟨rfl, rfl⟩
  cases ha : cfg.allowed bm with
  | false => exact both (Or.inl ha) (Or.inl (by rw [hal, ha]))
  | true =>
    cases hm : prepCentering centering with
    | error er => exact both (Or.inr (Or.inl ⟨er, hm⟩)) (Or.inr (Or.inl ⟨er, hm⟩))
    | ok m =>
      by_cases hlt : cfg.axisLo foi < cfg.axisHi foi
      · rcases (hf hlt).1 with ⟨p, q, r, h1, h2, h3, h4⟩ | ⟨er, h1, h2, h3⟩
        · rcases (hf hlt).2 with ⟨p', q', r', h1', h2', h3', h4'⟩ | ⟨er, h1', -, -⟩
          · rw [h3] at h1' h2'
            rw [h1] at h3'
            cases h1'; cases h2'; cases h3'
            rw [h1] at h2
            cases h2
            obtain ⟨-, -, P, Q, R, -, -, -, eP, eQ, eR, hle⟩ := h4.eval
            obtain ⟨-, -, P', Q', R', -, -, -, eP', eQ', eR', hle'⟩ := h4'.eval
            obtain ⟨H, b1, b2, b3⟩ := v1 p m ha hm h1
            obtain ⟨H', c1, c2, c3⟩ := w1 r m (by rw [hal, ha]) hm h3
            have i1 : H mx = P mx := by have := (b1 [mx]).symm.trans (eP [mx]); simpa using this
            have i2 : H' mx = R mx := by have := (c1 [mx]).symm.trans (eR [mx]); simpa using this
            have i3 : H mx = R' mx := by have := (b1 [mx]).symm.trans (eR' [mx]); simpa using this
            have i4 : H' mx = P' mx := by have := (c1 [mx]).symm.trans (eP' [mx]); simpa using this
            have j1 := hle mx
            have j2 := hle' mx
            rw [← i2, ← i1, abs_zero, zero_mul, add_zero] at j1
            rw [← i3, ← i4, abs_zero, zero_mul, add_zero, abs_inv] at j2
            have hkp : (0 : K) < |k| := abs_pos.mpr hk
            have j3 : |k| * H mx ≤ H' mx := by
              have := mul_le_mul_of_nonneg_left j2 hkp.le
              rwa [← mul_assoc, mul_inv_cancel₀ hkp.ne', one_mul] at this
            refine Or.inr ⟨by omega, Or.inl ⟨H mx, b2 mx, b3, ?_⟩⟩
            rw [c3, le_antisymm j1 j3]
          · rw [h3] at h1'; cases h1'
        · exact both (Or.inr (Or.inr ⟨er, h1⟩)) (Or.inr (Or.inr ⟨er, h3⟩))
      · exact both (Or.inr (Or.inr (hbad hlt).1)) (Or.inr (Or.inr (hbad hlt).2))

theorem aleHeter_ale_in [PySqrt K] [LawfulSqrt K] {k : K} (hk : k ≠ 0) (b : K) (choice : ℕ → ℕ → List ℕ) (cast : K → K) (f : Row K D → K) (foi : Fin D) (bm : BinMethod K)
    (hbins : ∀ m cl, bm ≠ .fixed 0 m cl) (hcl : ∀ n m, bm ≠ .fixed n m 0) (minPoints : ℕ) (hmin : 1 ≤ minPoints) (centering : PyVal) (x : List (Row K D))
    (e e' : Option (List (Row K D))) :
    HeterIn |k| minPoints x.length (aleHeter (mkAle choice cast (List.map f)) foi bm minPoints centering x e)
      (aleHeter (mkAle choice cast (List.map fun r => k * f r + b)) foi bm minPoints centering x e') := by
  by_cases hfew : x.length < minPoints
  · rw [aleHeter_few _ _ _ _ _ _ _ hfew, aleHeter_few _ _ _ _ _ _ _ hfew, big_lit]
    exact Or.inl ⟨rfl, rfl⟩
  have hx : x ≠ [] := by
    rintro rfl
    simp only [List.length_nil] at hfew
    omega
  have hinit := base_init_all choice x none
  cases hl : axisLimitsAll x with
  | error er =>
    simp only [limitsOr, hl, Except.bind] at hinit
    refine Or.inr ⟨by omega, Or.inr ⟨⟨er, ?_⟩, ⟨er, ?_⟩⟩⟩ <;>
    · unfold aleHeter mkAle
      rw [if_neg hfew, hinit]
      rfl
  | ok l =>
    simp only [limitsOr, hl, Except.bind] at hinit
    generalize hB : ({ data := x, indices := List.range x.length, axisLo := l.1, axisHi := l.2 } : Base K D) = B at hinit
    have hmk : ∀ g : Row K D → K, ∀ e, mkAle choice cast (List.map g) x e = .ok (aleCfg cast (List.map g) B) := by
      intro g e
      unfold mkAle
      rw [hinit]
      rfl
    have hlim : axisLimitsAll x = .ok (B.axisLo, B.axisHi) := by subst hB; exact hl
    have hdata : B.data = x := by subst hB; rfl
    have hshift : (aleCfg cast (List.map fun r => k * f r + b) B).fitF foi bm = (aleCfg cast (List.map fun r => k * f r) B).fitF foi bm :=
      C10_constant_shift cast (fun r => k * f r) b B.data B.axisLo B.axisHi foi bm
    have hconst : ∀ g : Row K D → K, ¬ B.axisLo foi < B.axisHi foi → ∃ er, (aleCfg cast (List.map g) B).fitF foi bm = .error er := by
      intro g hlt
      cases hp : (aleCfg cast (List.map g) B).fitF foi bm with
      | error er => exact ⟨er, rfl⟩
      | ok p =>
        obtain ⟨hfx, L, -, -, hL, -⟩ := aleFitFeature_ok hp
        refine absurd hL (findLimits_constant _ _ (by rw [hdata]; exact distinct_of_axis hlim hlt) ?_ L)
        intro n m h
        cases bm with
        | str s => cases h
        | fixed n' m' cl' => exact hcl _ _ h
        | greedy n' m' d' cl' => cases h
        | dp n' m' d' cl' => cases h
    refine aleHeter_in hk (hmk f e) (hmk _ e') hx rfl rfl rfl (fun hlt => ⟨hconst _ hlt, hconst _ hlt⟩) ?_
    intro hlt
    replace hlt : B.axisLo foi < B.axisHi foi := hlt
    rw [hshift]
    let B' : Base K D := { B with axisLo := fun _ => B.axisLo foi, axisHi := fun _ => B.axisHi foi }
    have hfit : ∀ g : Row K D → K, (aleCfg cast (List.map g) B').fitF foi = (aleCfg cast (List.map g) B).fitF foi := fun g => by
      funext bm
      simp only [aleCfg, aleFitFeature, B']
    have h1 := (ale_cfgMix k 0 cast f f B' (fun _ => hlt)).fit foi bm hbins
    have h2 := (ale_cfgMix k⁻¹ 0 cast (fun r => k * f r) (fun r => k * f r) B' (fun _ => hlt)).fit foi bm hbins
    have e1 : mixed k 0 f f = fun r => k * f r := by funext r; simp [mixed]
    have e2 : mixed k⁻¹ 0 (fun r : Row K D => k * f r) (fun r => k * f r) = f := by funext r; simp [mixed, hk]
    rw [e1] at h1
    rw [e2] at h2
    rw [hfit, hfit] at h1 h2
    exact ⟨h1, h2⟩

theorem rhale_fitScaled [PySqrt K] [LawfulSqrt K] {k : K} (hk : k ≠ 0) (x e : List (Row K D)) (hlen : e.length = x.length) (lo hi : Fin D → K) (s : Fin D) (hlt : lo s < hi s)
    (bm : BinMethod K) (hb : FixedOrGreedy bm ∨ ProperDp bm ∧ SmallSpread (k ^ 2) (hi s - lo s) (e.map fun u => u s)) :
    FitMix k 0 (rhaleFitFeature x e lo hi s bm) (rhaleFitFeature x e lo hi s bm) (rhaleFitFeature x (e.map fun u i => k * u i) lo hi s bm) ∧
      FitMix k⁻¹ 0 (rhaleFitFeature x (e.map fun u i => k * u i) lo hi s bm) (rhaleFitFeature x (e.map fun u i => k * u i) lo hi s bm) (rhaleFitFeature x e lo hi s bm) := by
  obtain ⟨T, hd, he⟩ : ∃ T : List (Row K D × Row K D), x = T.map (·.1) ∧ e = T.map (·.2) :=
    ⟨x.zip e, by rw [List.map_fst_zip]; omega, by rw [List.map_snd_zip]; omega⟩
  subst hd he
  rw [List.map_map] at hb ⊢
  refine ⟨rhale_fitOut hk T lo hi s hlt bm hb, ?_⟩
  have := rhale_fitOut (inv_ne_zero hk) (T.map fun t : Row K D × Row K D => ((t.1, fun i => k * t.2 i) : Row K D × Row K D)) lo hi s hlt bm (by
    rcases hb with hb | ⟨hb, R, hR, hs, hs'⟩
    · exact Or.inl hb
    · refine Or.inr ⟨hb, |k| * R, ?_, ?_, ?_⟩
      · intro x hx y hy
        rw [List.map_map] at hx hy
        obtain ⟨t, ht, rfl⟩ := List.mem_map.mp hx
        obtain ⟨u, hu, rfl⟩ := List.mem_map.mp hy
        simp only [Function.comp]
        rw [← mul_sub, abs_mul]
        exact mul_le_mul_of_nonneg_left (hR _ (List.mem_map_of_mem ht) _ (List.mem_map_of_mem hu)) (abs_nonneg k)
      · rw [mul_pow, sq_abs, mul_assoc]; exact hs'
      · rw [mul_pow, sq_abs, mul_assoc, ← mul_assoc, ← mul_pow, inv_mul_cancel₀ hk, one_pow, one_mul]; exact hs)
  simp only [List.map_map, Function.comp_def, ← mul_assoc, inv_mul_cancel₀ hk, one_mul] at this
  exact this

theorem SmallSpread.narrow {q w w' : K} {l : List K} (hq : 0 ≤ q) (h : SmallSpread q w l) (hw : w' ≤ w) : SmallSpread q w' l := by
  obtain ⟨R, hR, h1, h2⟩ := h
  have h3 : R ^ 2 * w' ≤ R ^ 2 * w := mul_le_mul_of_nonneg_left hw (sq_nonneg R)
  exact ⟨R, hR, lt_of_le_of_lt h3 h1, lt_of_le_of_lt (mul_le_mul_of_nonneg_left h3 hq) h2⟩

theorem aleHeter_rhale_in [PySqrt K] [LawfulSqrt K] {k : K} (hk : k ≠ 0) (choice : ℕ → ℕ → List ℕ) (model model' : List (Row K D) → List K)
    (jac jac' : Option (List (Row K D) → List (Row K D))) (foi : Fin D) (bm : BinMethod K) (hcl : ∀ n m, bm ≠ .fixed n m 0) (minPoints : ℕ) (hmin : 1 ≤ minPoints)
    (centering : PyVal) (x e : List (Row K D)) (hlen : e.length = x.length)
    (hb : FixedOrGreedy bm ∨ ProperDp bm ∧ ∀ l, axisLimitsAll x = .ok l → SmallSpread (k ^ 2) (l.2 foi - l.1 foi) (e.map fun u => u foi)) :
    HeterIn |k| minPoints x.length (aleHeter (mkRhale choice model jac) foi bm minPoints centering x (some e))
      (aleHeter (mkRhale choice model' jac') foi bm minPoints centering x (some (e.map fun u i => k * u i))) := by
  by_cases hfew : x.length < minPoints
  · rw [aleHeter_few _ _ _ _ _ _ _ hfew, aleHeter_few _ _ _ _ _ _ _ hfew, big_lit]
    exact Or.inl ⟨rfl, rfl⟩
  have hx : x ≠ [] := by
    rintro rfl
    simp only [List.length_nil] at hfew
    omega
  have hinit : ∀ (mo : List (Row K D) → List K) j (u : List (Row K D)), u.length = x.length → _ := fun mo j u hu =>
    rhaleInit_all choice mo j x (some u) (by intro v hv; cases hv; exact hu) none
  cases hl : axisLimitsAll x with
  | error er =>
    simp only [limitsOr, hl, Except.bind] at hinit
    have hlen' : (e.map fun u i => k * u i).length = x.length := by simpa using hlen
    have hmk : ∀ (mo : List (Row K D) → List K) j (u : List (Row K D)), u.length = x.length → mkRhale choice mo j x (some u) = .error er := by
      intro mo j u hu
      unfold mkRhale
      rw [hinit mo j u hu]
      rfl
    refine Or.inr ⟨by omega, Or.inr ⟨⟨er, ?_⟩, ⟨er, ?_⟩⟩⟩
    · unfold aleHeter
      rw [if_neg hfew, hmk _ _ e hlen]
      rfl
    · unfold aleHeter
      rw [if_neg hfew, hmk _ _ _ hlen']
      rfl
  | ok l =>
    simp only [limitsOr, hl, Except.bind] at hinit
    generalize hB : ({ data := x, indices := List.range x.length, axisLo := l.1, axisHi := l.2 } : Base K D) = B at hinit
    have hmk : ∀ (mo : List (Row K D) → List K) j (u : List (Row K D)), u.length = x.length → mkRhale choice mo j x (some u) = .ok (rhaleCfg u B) := by
      intro mo j u hu
      unfold mkRhale
      rw [hinit mo j u hu]
      rfl
    have hlim : axisLimitsAll x = .ok (B.axisLo, B.axisHi) := by subst hB; exact hl
    have hdata : B.data = x := by subst hB; rfl
    have hconst : ∀ u : List (Row K D), ¬ B.axisLo foi < B.axisHi foi → ∃ er, (rhaleCfg u B).fitF foi bm = .error er := by
      intro u hlt
      cases hp : (rhaleCfg u B).fitF foi bm with
      | error er => exact ⟨er, rfl⟩
      | ok p =>
        obtain ⟨-, L, hL, -⟩ := rhaleFitFeature_ok hp
        exact absurd hL (findLimits_constant _ _ (by rw [hdata]; exact distinct_of_axis hlim hlt) hcl L)
    refine aleHeter_in hk (hmk _ _ e hlen) (hmk _ _ _ (by simpa using hlen)) hx rfl rfl rfl (fun hlt => ⟨hconst _ hlt, hconst _ hlt⟩) ?_
    intro hlt
    have := rhale_fitScaled hk B.data e (by rw [hdata, hlen]) B.axisLo B.axisHi foi hlt bm (hb.imp id fun h => ⟨h.1, by have := h.2 _ hlim; exact this⟩)
    exact this

/-! ### Two objects -/

namespace Spec

/-- The same keyword arguments with `heter_small_enough` converted. -/
def kwIn (q : K) (kw : FitKw K D) : FitKw K D := { kw with smallEnough := q * kw.smallEnough }

/-- The cost of any bin stays below the penalty 1e8 of an invalid bin, in both units: the feature varies by at most `w`, the effects by at most `R`. -/
def DpSmall (k : K) (data effects : List (Row K D)) (s : Fin D) : Prop :=
  ∃ R w, (∀ r ∈ data, ∀ r' ∈ data, r s - r' s ≤ w) ∧ (∀ e ∈ effects, ∀ e' ∈ effects, |e s - e' s| ≤ R) ∧ R ^ 2 * w < 10 ^ 8 ∧ k ^ 2 * (R ^ 2 * w) < 10 ^ 8

/-- Binning arguments for which the unit does not matter. -/
def BinForUnits (small : Prop) : BinMethod K → Prop
  | .fixed n _ cl => 1 ≤ n ∧ 1 ≤ cl
  | .greedy _ _ _ _ => True
  | .dp n m d _ => (1 ≤ n ∧ 0 ≤ d ∧ d ≤ 1 ∧ ∀ m', m = some m' → 1 ≤ m') ∧ small
  | .str t => t ≠ "dp" ∨ small

/-- The heterogeneity of the root of the pruned tree, times the number of instances and of possible leaves, is at most the penalty 1e8. -/
def RootBelow (n depth : ℕ) (t : Option (List (Node K D))) : Prop := ∀ tree, t = some tree → ∀ nd, tree[0]? = some nd → nd.heterogeneity * ((n : K) + 2 ^ depth) ≤ 10 ^ 8

end Spec

theorem effects_times {k : K} (b : K) (f : Row K D → K) (data : List (Row K D)) {S S' : EffectsFrom K D} (hS : TimesSource k data S S') :
    (rhaleEffects (List.map f) (S.jacArg.map List.map) S.givenArg data).length = data.length ∧
      rhaleEffects (List.map f) (S.jacArg.map List.map) S.givenArg data = S.values f data ∧
      rhaleEffects (List.map fun r => k * f r + b) (S'.jacArg.map List.map) S'.givenArg data =
        (rhaleEffects (List.map f) (S.jacArg.map List.map) S.givenArg data).map fun u i => k * u i := by
  match S, S', hS with
  | .given e, .given e', ⟨h1, h2⟩ => exact ⟨h1, rfl, h2⟩
  | .jac j, .jac j', h =>
    have h : j' = fun r i => k * j r i := h
    exact ⟨by simp [EffectsFrom.jacArg, EffectsFrom.givenArg, rhaleEffects], rfl,
      by simp [EffectsFrom.jacArg, EffectsFrom.givenArg, rhaleEffects, Function.comp_def, h]⟩
  | .model, .model, _ =>
    refine ⟨?_, ?_, ?_⟩
    · simp only [EffectsFrom.jacArg, EffectsFrom.givenArg, rhaleEffects, Option.map_none, numerical_rowwise, List.length_map]
    · simp only [EffectsFrom.jacArg, EffectsFrom.givenArg, rhaleEffects, Option.map_none, numerical_rowwise, EffectsFrom.values]
      simp only [EPS]
    · simp only [EffectsFrom.jacArg, EffectsFrom.givenArg, rhaleEffects, Option.map_none, numerical_rowwise, List.map_map, Function.comp_def]
      refine List.map_congr_left fun r _ => ?_
      funext i
      ring

/-- Everything but the model and the effects is the same. -/
structure ObjIn (k : K) (o o' : RegionalObj K D) : Prop where
  data : o'.cfg.data = o.cfg.data
  effects : o'.cfg.instanceEffects = o.cfg.instanceEffects.map fun e => e.map fun u i => k * u i
  types : o'.cfg.types = o.cfg.types
  names : o'.cfg.names = o.cfg.names
  catLimit : o'.cfg.catLimit = o.cfg.catLimit
  fmt : o'.cfg.fmt = o.cfg.fmt
  axisLo : o'.axisLo = o.axisLo
  axisHi : o'.axisHi = o.axisHi

theorem regionalNew_in [PySqrt K] {k : K} (bb bb' : BlackBoxes K D) (hch : bb'.choice = bb.choice) (meth : String) (data : List (Row K D)) {given given' : Option (List (Row K D))}
    (hg : meth = "rhale" → rhaleEffects bb'.model bb'.jac given' data = (rhaleEffects bb.model bb.jac given data).map fun u i => k * u i)
    (nof : PyVal) (axisLimits : Option ((Fin D → K) × (Fin D → K))) (types : Option (Fin D → FeatType)) (catLimit : ℕ) (names : Option (Fin D → String)) (fmt : K → String) :
    PyRel (ObjIn k) (regionalNew bb meth data given nof axisLimits types catLimit names fmt) (regionalNew bb' meth data given' nof axisLimits types catLimit names fmt) := by
  unfold regionalNew regionalInit
  simp only [bind, Except.bind, pure, Except.pure, hch]
  cases prepNofInstances bb.choice nof data.length with
  | error e => exact rfl
  | ok p =>
    simp only []
    cases takeRows data p.2 with
    | error e => exact rfl
    | ok d =>
      simp only []
      by_cases hm : meth = "rhale"
      · simp only [if_pos hm, regionalRhaleEffects, hg hm, takeRows_mapList]
        cases takeRows (rhaleEffects bb.model bb.jac given data) p.2 with
        | error e => exact rfl
        | ok A =>
          simp only [Except.map]
          cases axisLimits with
          | some l => exact ⟨rfl, rfl, rfl, rfl, rfl, rfl, rfl, rfl⟩
          | none =>
            simp only []
            cases axisLimitsAll data with
            | error e => exact rfl
            | ok l => exact ⟨rfl, rfl, rfl, rfl, rfl, rfl, rfl, rfl⟩
      · simp only [if_neg hm]
        cases axisLimits with
        | some l => exact ⟨rfl, rfl, rfl, rfl, rfl, rfl, rfl, rfl⟩
        | none =>
          simp only []
          cases axisLimitsAll data with
          | error e => exact rfl
          | ok l => exact ⟨rfl, rfl, rfl, rfl, rfl, rfl, rfl, rfl⟩

theorem heterValues_in {q : K} {m n : ℕ} {H H' : HeterM K D} {x : List (Row K D)} {e e' : Option (List (Row K D))} (hn : n = x.length) (h : HeterIn q m n (H x e) (H' x e')) :
    (heterValues H x e = 100000000 ∧ heterValues H' x e' = 100000000) ∨ (0 ≤ heterValues H x e ∧ heterValues H' x e' = q * heterValues H x e ∧ m ≤ x.length) := by
  subst hn
  unfold heterValues
  rcases h with ⟨h1, h2⟩ | ⟨hm, ⟨v, hv, h1, h2⟩ | ⟨⟨e1, h1⟩, ⟨e2, h2⟩⟩⟩
  · rw [h1, h2]
    exact Or.inl ⟨rfl, rfl⟩
  · rw [h1, h2]
    exact Or.inr ⟨hv, rfl, hm⟩
  · rw [h1, h2]
    exact Or.inr ⟨le_refl _, (mul_zero q).symm, hm⟩

theorem sub_scaled (k : K) (data e : List (Row K D)) (P : Row K D → Bool) :
    ((data.zip (e.map fun u i => k * u i)).filter fun p => P p.1).map (·.2) = (((data.zip e).filter fun p => P p.1).map (·.2)).map fun u i => k * u i := by
  rw [List.zip_map_right, List.filter_map, List.map_map, List.map_map]
  rfl

theorem sub_len (data e : List (Row K D)) (P : Row K D → Bool) (h : e.length = data.length) : (((data.zip e).filter fun p => P p.1).map (·.2)).length = (data.filter P).length := by
  have : data.filter P = ((data.zip e).filter fun p => P p.1).map (·.1) := by
    conv_lhs => rw [← List.map_fst_zip (l₁ := data) (l₂ := e) (by omega)]
    rw [List.filter_map]
    rfl
  rw [this, List.length_map, List.length_map]

theorem otherUnit_obj [PySqrt K] {k : K} {o o' : RegionalObj K D} (ho : ObjIn k o o') (hal : Aligned o.cfg) (hal' : Aligned o'.cfg) (s : Fin D) {kw : FitKw K D}
    {H H' : HeterM K D} (hH : regionalHeter o kw s = .ok H) (hH' : regionalHeter o' (kwIn |k| kw) s = .ok H')
    (hin : ∀ P : Row K D → Bool, HeterIn |k| kw.minPoints (o.cfg.data.filter P).length
      (H (subRegion o.cfg.data o.cfg.instanceEffects P).1 (subRegion o.cfg.data o.cfg.instanceEffects P).2)
      (H' (subRegion o.cfg.data o'.cfg.instanceEffects P).1 (subRegion o.cfg.data o'.cfg.instanceEffects P).2)) :
    OtherUnit |k| (regionsOf o.cfg (kw.toArgs o) s) (regionsOf o'.cfg ((kwIn |k| kw).toArgs o') s) := by
  have h1 : (regionsOf o.cfg (kw.toArgs o) s).heter = heterValues H := by
    simp only [regionsOf, FitKw.toArgs, hH]
  have h2 : (regionsOf o'.cfg ((kwIn |k| kw).toArgs o') s).heter = heterValues H' := by
    simp only [regionsOf, FitKw.toArgs, hH']
  refine ⟨rfl, ho.data, ho.types, ho.names, ho.catLimit, rfl, rfl, rfl, rfl, rfl, rfl, rfl, fun e he => hal e he, fun e he => hal' e he, fun P => ?_⟩
  simp only [h1, h2]
  exact heterValues_in rfl (hin P)

theorem regionalHeter_in [PySqrt K] [LawfulSqrt K] {k : K} (hk : k ≠ 0) (b : K) (choice : ℕ → ℕ → List ℕ) (cast : K → K) (f : Row K D → K) (ext : ShapExt K D)
    (meth : String) (hmeth : meth ∈ ["rhale", "ale", "pdp", "d-pdp"]) (hcast : meth = "pdp" ∨ meth = "d-pdp" → cast = id) {S S' : EffectsFrom K D} {data : List (Row K D)}
    (hS : TimesSource k data S S') {o o' : RegionalObj K D} (ho : ObjIn k o o')
    (hbb : o.cfg.bb = rowBoxes choice cast f S.jacArg ext) (hbb' : o'.cfg.bb = rowBoxes choice cast (fun r => k * f r + b) S'.jacArg ext)
    (hm : o.cfg.methodName = meth) (hm' : o'.cfg.methodName = meth) (hal : Aligned o.cfg) (heff : meth = "rhale" → ∃ e, o.cfg.instanceEffects = some e)
    (s : Fin D) {kw : FitKw K D} (hmin : 1 ≤ kw.minPoints) (hp : 1 ≤ kw.points) (hbin : BinForUnits (meth = "rhale" → ∃ e, o.cfg.instanceEffects = some e ∧ DpSmall k o.cfg.data e s) kw.bin)
    {H H' : HeterM K D} (hH : regionalHeter o kw s = .ok H) (hH' : regionalHeter o' (kwIn |k| kw) s = .ok H') (P : Row K D → Bool) :
    HeterIn |k| kw.minPoints (o.cfg.data.filter P).length
      (H (subRegion o.cfg.data o.cfg.instanceEffects P).1 (subRegion o.cfg.data o.cfg.instanceEffects P).2)
      (H' (subRegion o.cfg.data o'.cfg.instanceEffects P).1 (subRegion o.cfg.data o'.cfg.instanceEffects P).2) := by
  have hcl : ∀ bm, prepBinningMethod kw.bin = .ok bm → (∀ m cl, bm ≠ .fixed 0 m cl) ∧ (∀ n m, bm ≠ .fixed n m 0) ∧
      (FixedOrGreedy bm ∨ ProperDp bm ∧ (meth = "rhale" → ∃ e, o.cfg.instanceEffects = some e ∧ DpSmall k o.cfg.data e s)) := by
    intro bm hb
    cases hkb : kw.bin with
    | fixed n m cl =>
      rw [hkb] at hb hbin
      cases hb
      obtain ⟨g1, g2⟩ := hbin
      refine ⟨fun m cl h => ?_, fun n m h => ?_, Or.inl g1⟩
      · cases h; omega
      · cases h; omega
    | greedy n m d cl =>
      rw [hkb] at hb
      cases hb
      exact ⟨(fun m cl h => by cases h), (fun n m h => by cases h), Or.inl trivial⟩
    | dp n m d cl =>
      rw [hkb] at hb hbin
      cases hb
      exact ⟨(fun m cl h => by cases h), (fun n m h => by cases h), Or.inr hbin⟩
    | str t =>
      rw [hkb] at hb hbin
      unfold prepBinningMethod at hb
      simp only at hb
      by_cases t1 : t = "greedy"
      · rw [if_pos t1] at hb
        cases hb
        exact ⟨(fun m cl h => by cases h), (fun n m h => by cases h), Or.inl trivial⟩
      rw [if_neg t1] at hb
      by_cases t2 : t = "dp"
      · rw [if_pos t2] at hb
        cases hb
        refine ⟨(fun m cl h => by cases h), (fun n m h => by cases h), Or.inr ⟨⟨by omega, by norm_num, by norm_num, fun m' h => (by cases h; omega)⟩, ?_⟩⟩
        rcases hbin with h | h
        · exact absurd t2 h
        · exact h
      rw [if_neg t2] at hb
      by_cases t3 : t = "fixed"
      · rw [if_pos t3] at hb
        cases hb
        refine ⟨(fun m cl h => by cases h), (fun n m h => by cases h), Or.inl ?_⟩
        show 1 ≤ 100
        omega
      rw [if_neg t3] at hb
      cases hb
  unfold regionalHeter at hH hH'
  simp only [hm, hm', hbb, hbb', rowBoxes, ho.axisLo, ho.axisHi, ho.data] at hH hH'
  rw [show (kwIn |k| kw).bin = kw.bin from rfl, show (kwIn |k| kw).minPoints = kw.minPoints from rfl, show (kwIn |k| kw).centering = kw.centering from rfl,
    show (kwIn |k| kw).nof = kw.nof from rfl, show (kwIn |k| kw).points = kw.points from rfl, show (kwIn |k| kw).vec = kw.vec from rfl] at hH'
  simp only [List.mem_cons, List.not_mem_nil, or_false] at hmeth
  rcases hmeth with rfl | rfl | rfl | rfl
  · -- RHALE
    simp only [reduceIte, bind, Except.bind, pure, Except.pure] at hH hH'
    cases hb : prepBinningMethod kw.bin with
    | error er => rw [hb] at hH; cases hH
    | ok bm =>
      rw [hb] at hH hH'
      cases hH
      cases hH'
      obtain ⟨e, he⟩ := heff rfl
      have hlen : e.length = o.cfg.data.length := (hal e he).symm
      simp only [subRegion, ho.effects, he, Option.map_some, sub_scaled]
      obtain ⟨-, c2, c3⟩ := hcl bm hb
      refine aleHeter_rhale_in hk choice _ _ _ _ s bm c2 kw.minPoints hmin kw.centering (o.cfg.data.filter P) _ (sub_len _ _ _ hlen) ?_
      refine c3.imp id fun h => ⟨h.1, fun l hl => ?_⟩
      obtain ⟨e', he', R, w, q1, q2, q3, q4⟩ := h.2 rfl
      rw [he] at he'
      cases he'
      obtain ⟨hmx, hmn, -⟩ := listMax_axis (lo := l.1) (hi := l.2) hl s
      obtain ⟨r1, hr1, e1⟩ := List.mem_map.mp (listMax_greatest hmx).1
      obtain ⟨r2, hr2, e2⟩ := List.mem_map.mp (listMin_least hmn).1
      have hw : l.2 s - l.1 s ≤ w := by
        rw [← e1, ← e2]
        exact q1 _ (List.mem_of_mem_filter hr1) _ (List.mem_of_mem_filter hr2)
      refine SmallSpread.narrow (sq_nonneg k) (w := w) ⟨R, ?_, q3, q4⟩ hw
      have hmem : ∀ u ∈ ((o.cfg.data.zip e).filter fun p => P p.1).map (·.2), u ∈ e := by
        intro u hu
        obtain ⟨p, hp, rfl⟩ := List.mem_map.mp hu
        exact (List.of_mem_zip (List.mem_of_mem_filter hp)).2
      intro x hx y hy
      obtain ⟨u, hu, rfl⟩ := List.mem_map.mp hx
      obtain ⟨v, hv, rfl⟩ := List.mem_map.mp hy
      exact q2 u (hmem u hu) v (hmem v hv)
  · -- ALE
    simp only [reduceIte, String.reduceEq, bind, Except.bind, pure, Except.pure] at hH hH'
    cases hb : prepBinningMethod kw.bin with
    | error er => rw [hb] at hH; cases hH
    | ok bm =>
      rw [hb] at hH hH'
      cases hH
      cases hH'
      obtain ⟨c1, c2, -⟩ := hcl bm hb
      exact aleHeter_ale_in hk b choice cast f s bm c1 c2 kw.minPoints hmin kw.centering (o.cfg.data.filter P) _ _
  · -- PDP
    simp only [reduceIte, String.reduceEq, pure, Except.pure] at hH hH'
    cases hH
    cases hH'
    rw [hcast (Or.inl rfl)]
    exact pdpHeter_in (k := k) (b := b) choice (M := .pdp f) (M' := .pdp fun r => k * f r + b) (fun _ _ _ => rfl) o.axisLo o.axisHi s kw.minPoints hmin kw.centering kw.nof kw.points hp
      kw.vec (o.cfg.data.filter P)
  · -- d-PDP
    simp only [reduceIte, String.reduceEq, pure, Except.pure] at hH hH'
    rw [hcast (Or.inr rfl)] at hH hH'
    match S, S', hS with
    | .jac j, .jac j', h =>
      have h : j' = fun r i => k * j r i := h
      cases hH
      cases hH'
      exact pdpHeter_in (k := k) (b := 0) choice (M := .derJac j) (M' := .derJac j') (fun _ _ _ => by simp [PdpModel.at, h]) o.axisLo o.axisHi s kw.minPoints hmin kw.centering kw.nof
        kw.points hp kw.vec (o.cfg.data.filter P)
    | .given _, .given _, _ =>
      cases hH
      cases hH'
      exact pdpHeter_in (k := k) (b := 0) choice (M := .derNum f) (M' := .derNum fun r => k * f r + b) (fun _ _ _ => by simp only [PdpModel.at]; ring) o.axisLo o.axisHi s kw.minPoints hmin
        kw.centering kw.nof kw.points hp kw.vec (o.cfg.data.filter P)
    | .model, .model, _ =>
      cases hH
      cases hH'
      exact pdpHeter_in (k := k) (b := 0) choice (M := .derNum f) (M' := .derNum fun r => k * f r + b) (fun _ _ _ => by simp only [PdpModel.at]; ring) o.axisLo o.axisHi s kw.minPoints hmin
        kw.centering kw.nof kw.points hp kw.vec (o.cfg.data.filter P)

theorem tree_in {q : K} {cfg cfg' : RegCfg K D} (hq : 0 < q) (h : OtherUnit q cfg cfg') {sp sp' : Option (Splits K D)} (hs : searchAllSplits cfg = .ok sp)
    (hs' : searchAllSplits cfg' = .ok sp') (hthr : 0 ≤ cfg.dropThres) (posText : Fin D → K → String) {t t' : Option (List (Node K D))}
    (ht : splitsToTree cfg posText sp true = .ok t) (ht' : splitsToTree cfg' posText sp' true = .ok t') (hb : RootBelow cfg.data.length cfg.maxLevels t)
    (hb' : RootBelow cfg.data.length cfg.maxLevels t') : TreeIn q t t' := by
  have root : ∀ {c : RegCfg K D} {sp : Option (Splits K D)} {t : Option (List (Node K D))}, EffAligned c → searchAllSplits c = .ok sp → splitsToTree c posText sp true = .ok t →
      c.data.length = cfg.data.length → c.maxLevels = cfg.maxLevels → sp ≠ none → RootBelow cfg.data.length cfg.maxLevels t →
      c.heter c.data c.dataEffect * ((cfg.data.length : K) + 2 ^ cfg.maxLevels) ≤ 100000000 := by
    intro c sp t heff hs ht _ _ hne hb
    cases sp with
    | none => exact absurd rfl hne
    | some s =>
      cases t with
      | none =>
        unfold splitsToTree at ht
        simp only [bind, Except.bind, pure, Except.pure] at ht
        split at ht
        · cases ht
        · cases ht
      | some tree =>
        have := hb tree rfl _ ((TreeOf.heap (imp := true) ⟨hs, ht⟩ heff).2.root)
        rw [show (rootNode c s).heterogeneity = s.heterInit from rfl, (searchAllSplits_ok c heff s hs).heterInit] at this
        norm_num at this
        exact this
  cases sp with
  | none =>
    cases sp' with
    | some s' => exact absurd hs' (search_none h hs)
    | none => cases ht; cases ht'; exact trivial
  | some s =>
    cases sp' with
    | none => exact absurd hs (search_none (h.symm hq) hs')
    | some s' =>
      exact C104_pruned_tree hq h hs hs' hthr (root h.aligned hs ht rfl rfl (by simp) hb)
        (root h.aligned' hs' ht' (by rw [h.data]) h.maxLevels (by simp) hb') posText ht ht'

/-- **C104, the regional classes.**  RegionalRHALE, RegionalALE, RegionalPDP and RegionalDerPDP objects built with the same arguments for `f` and for `k f + b` (gradients or
given effects multiplied by `k`), after any two histories whose last fits of feature `s` have the same keyword arguments, except that `heter_small_enough` is multiplied by `|k|`:
the pruned trees have the same nodes with the same names, conditions, instances and weights, and the heterogeneities multiplied by `|k|`.  (While the heterogeneity of all instances,
times the number of instances plus `2 ^ max_depth`, does not exceed the penalty 1e8; with dynamic programming, while the costs of bins stay below that penalty.) -/
theorem C104_regional_trees [PySqrt K] [LawfulSqrt K] (choice : ℕ → ℕ → List ℕ) (cast : K → K) (k b : K) (hk : k ≠ 0) (f : Row K D → K) (ext : ShapExt K D)
    (meth : String) (hmeth : meth ∈ ["rhale", "ale", "pdp", "d-pdp"]) (hcast : meth = "pdp" ∨ meth = "d-pdp" → cast = id) (data : List (Row K D)) (S S' : EffectsFrom K D)
    (hS : TimesSource k data S S') (nof : PyVal) (axisLimits : Option ((Fin D → K) × (Fin D → K))) (types : Option (Fin D → FeatType)) (catLimit : ℕ)
    (names : Option (Fin D → String)) (fmt : K → String) (o o' : RegionalObj K D)
    (ho : regionalNew (rowBoxes choice cast f S.jacArg ext) meth data S.givenArg nof axisLimits types catLimit names fmt = .ok o)
    (ho' : regionalNew (rowBoxes choice cast (fun r => k * f r + b) S'.jacArg ext) meth data S'.givenArg nof axisLimits types catLimit names fmt = .ok o')
    (calls calls' : List (RegCall K D)) (s : Fin D) (kw : FitKw K D) (hkw : lastKw o s calls = some kw) (hkw' : lastKw o' s calls' = some (kwIn |k| kw))
    (hthr : 0 ≤ kw.dropThres) (hp : 1 ≤ kw.points) (hbin : BinForUnits (DpSmall k data (S.values f data) s) kw.bin) :
    ∃ t t', (regRunM o calls).treePruned s = some t ∧ (regRunM o' calls').treePruned s = some t' ∧
      (RootBelow o.cfg.data.length kw.maxDepth t → RootBelow o.cfg.data.length kw.maxDepth t' → TreeIn |k| t t') := by
  obtain ⟨el, ev, et⟩ := effects_times b f data hS
  have hn := regionalNew_in (k := k) (rowBoxes choice cast f S.jacArg ext) (rowBoxes choice cast (fun r => k * f r + b) S'.jacArg ext) rfl meth data
    (given := S.givenArg) (given' := S'.givenArg) (fun _ => et) nof axisLimits types catLimit names fmt
  rw [ho, ho'] at hn
  replace hn : ObjIn k o o' := hn
  have hst : ∀ {bb : BlackBoxes K D} {g : Option (List (Row K D))}, (rhaleEffects bb.model bb.jac g data).length = data.length →
      ∀ e, startEffects bb meth data g = some e → e.length = data.length := by
    intro bb g hl e he
    unfold startEffects at he
    split at he
    · cases he; exact hl
    · cases he
  obtain ⟨c1, c2, c3, -, -, -, c7, -, -, -, idx, -, c11, -, c12⟩ := C81_constructor _ _ _ _ _ _ _ _ _ _ (hst el) o ho
  obtain ⟨d1, d2, d3, -⟩ := C81_constructor _ _ _ _ _ _ _ _ _ _ (hst (by
    show (rhaleEffects (List.map fun r => k * f r + b) (S'.jacArg.map List.map) S'.givenArg data).length = _
    rw [et, List.length_map, el])) o' ho'
  obtain ⟨-, h2, -⟩ := C81_trees_of_own_search o c1 calls s
  obtain ⟨-, h2', -⟩ := C81_trees_of_own_search o' d1 calls' s
  obtain ⟨sp, -, t, e1, -, e3, -, e5⟩ := h2 kw hkw
  obtain ⟨sp', -, t', e1', -, e3', -, e5'⟩ := h2' _ hkw'
  refine ⟨t, t', e5, e5', fun hb hb' => ?_⟩
  have hmin := (lastKw_fits o s calls kw hkw).2
  have heffs : meth = "rhale" → ∃ e, o.cfg.instanceEffects = some e ∧ ∀ u ∈ e, u ∈ S.values f data := by
    intro hm
    obtain ⟨e, he, ht⟩ := c12 (S.values f data) (by unfold startEffects; rw [if_pos hm, ← ev]; rfl)
    exact ⟨e, he, takeRows_mem ht⟩
  have hH : ∃ H, regionalHeter o kw s = .ok H := by
    unfold searchOf at e1
    cases hh : regionalHeter o kw s with
    | error e => rw [hh] at e1; cases e1
    | ok H => exact ⟨H, rfl⟩
  have hH' : ∃ H, regionalHeter o' (kwIn |k| kw) s = .ok H := by
    unfold searchOf at e1'
    cases hh : regionalHeter o' (kwIn |k| kw) s with
    | error e => rw [hh] at e1'; cases e1'
    | ok H => exact ⟨H, rfl⟩
  obtain ⟨H, hH⟩ := hH
  obtain ⟨H', hH'⟩ := hH'
  have hbin' : BinForUnits (meth = "rhale" → ∃ e, o.cfg.instanceEffects = some e ∧ DpSmall k o.cfg.data e s) kw.bin := by
    have himp : DpSmall k data (S.values f data) s → (meth = "rhale" → ∃ e, o.cfg.instanceEffects = some e ∧ DpSmall k o.cfg.data e s) := by
      rintro ⟨R, w, q1, q2, q3, q4⟩ hm
      obtain ⟨e, he, hmem⟩ := heffs hm
      exact ⟨e, he, R, w, fun r hr r' hr' => q1 r (c7 r hr) r' (c7 r' hr'), fun u hu v hv => q2 u (hmem u hu) v (hmem v hv), q3, q4⟩
    revert hbin
    generalize kw.bin = bm
    intro hbin
    cases bm with
    | fixed n m cl => exact hbin
    | greedy n m d cl => exact hbin
    | dp n m d cl => exact ⟨hbin.1, himp hbin.2⟩
    | str t => exact hbin.imp id himp
  have hU := otherUnit_obj hn c1.1 d1.1 s hH hH' (regionalHeter_in hk b choice cast f ext meth hmeth hcast hS hn c2 d2 c3 d3 c1.1
    (fun hm => (heffs hm).imp fun e h => h.1) s (by omega) hp hbin' hH hH')
  rw [hn.fmt] at e3'
  exact tree_in (abs_pos.mpr hk) hU (searchOf_ok e1) (searchOf_ok e1') hthr _ e3 e3' hb hb'

end Effector
