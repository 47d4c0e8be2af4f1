import Verif.Props.Superposition
import Verif.Props.Consulted
import Verif.Lemmas.DpScale

/-!
# C103: the unit of the model's output

Multiplying the model by `k ≠ 0` and adding a constant multiplies the curves of ALE and RHALE by `k` and their heterogeneity by `|k|`, although the
bins of RHALE depend on the effects.
-/

set_option linter.unusedSectionVars false

namespace Effector

variable {K : Type} [Field K] [LinearOrder K] [IsStrictOrderedRing K] {D : ℕ}

open Spec

namespace Spec

/-- A result of `eval` with the curve multiplied by `k` and the heterogeneity by `|k|`. -/
def timesResult (k : K) (q : List K × Option (List K)) : List K × Option (List K) := (q.1.map (k * ·), q.2.map fun h => h.map (|k| * ·))

/-- The second source of effects gives `k` times those of the first (nothing to require if both use the model). -/
def TimesSource (k : K) (data : List (Row K D)) : EffectsFrom K D → EffectsFrom K D → Prop
  | .given e, .given e' => e.length = data.length ∧ e' = e.map fun r i => k * r i
  | .jac j, .jac j' => j' = fun r i => k * j r i
  | .model, .model => True
  | _, _ => False

/-- The effects RHALE works with: as given, from the gradient function, or by finite differences of the model. -/
def EffectsFrom.values (f : Row K D → K) (data : List (Row K D)) : EffectsFrom K D → List (Row K D)
  | .given e => e
  | .jac j => data.map j
  | .model => data.map fun r t => (f (Function.update r t (r t + 1 / 10 ^ 8)) - f r) / (1 / 10 ^ 8)

end Spec

/-! ### Greedy binning -/

section

variable {k : K} (hk : k ≠ 0)

include hk

omit hk [LinearOrder K] [IsStrictOrderedRing K] in
theorem mean_out (l : List K) : mean (l.map (k * ·)) = k * mean l := by
  unfold mean
  have : (l.map (k * ·)).sum = k * l.sum := by
    induction l with
    | nil => simp
    | cons x t ih => simp only [List.map_cons, List.sum_cons, ih]; ring
  rw [this, List.length_map, mul_div_assoc]

omit hk [LinearOrder K] [IsStrictOrderedRing K] in
theorem variance_out (l : List K) : variance (l.map (k * ·)) = k ^ 2 * variance l := by
  unfold variance
  rw [mean_out, List.map_map]
  have : ((fun y => (y - k * mean l) ^ 2) ∘ fun x => k * x) = (k ^ 2 * ·) ∘ fun y => (y - mean l) ^ 2 := by
    funext y
    simp only [Function.comp_def]
    ring
  rw [this, ← List.map_map, mean_out]

omit hk [IsStrictOrderedRing K] in
theorem npVar_out (l : List K) : npVar (l.map (k * ·)) = (npVar l).map (k ^ 2 * ·) := by
  unfold npVar
  by_cases h : l = []
  · subst h; rfl
  · rw [if_neg h, if_neg (by simpa using h), variance_out]; rfl

omit hk in
theorem filterEff_out (xs eff : List K) (u v : K) : filterEff xs (eff.map (k * ·)) u v = (filterEff xs eff u v).map (k * ·) := by
  unfold filterEff
  induction xs generalizing eff with
  | nil => rfl
  | cons x t ih =>
    cases eff with
    | nil => rfl
    | cons e eff =>
      simp only [List.map_cons, List.zip_cons_cons, List.filter_cons]
      split_ifs
      · simp only [List.map_cons, ih]
      · exact ih eff

omit hk in
theorem binCost_out (xs eff : List K) (m : ℕ) (d u v : K) (hm : ¬ (filterEff xs eff u v).length < m) :
    binCost xs (eff.map (k * ·)) m d u v = (binCost xs eff m d u v).map (k ^ 2 * ·) := by
  unfold binCost
  simp only [filterEff_out, List.length_map, if_neg hm, npVar_out, Option.map_map]
  congr 1
  funext w
  simp only [Function.comp]
  ring

theorem nanEqZero_out (o : Option K) : nanEqZero (o.map (k ^ 2 * ·)) = nanEqZero o := by
  cases o with
  | none => rfl
  | some x => simp [nanEqZero, hk]

theorem nanPos_out (o : Option K) : nanPos (o.map (k ^ 2 * ·)) = nanPos o := by
  have : 0 < k ^ 2 := by positivity
  cases o with
  | none => rfl
  | some x => simp [nanPos, this]

theorem nanLe_out (o o' : Option K) : nanLe (o.map (k ^ 2 * ·)) (o'.map (k ^ 2 * ·)) = nanLe o o' := by
  have h2 : 0 < k ^ 2 := by positivity
  cases o with
  | none => cases o' <;> rfl
  | some x =>
    cases o' with
    | none => rfl
    | some y => simp only [nanLe, Option.map_some, mul_le_mul_iff_of_pos_left h2]

theorem closeDecision_out {xs eff : List K} (h : eff.length = xs.length) (m : ℕ) (d u v w : K) :
    closeDecision xs (eff.map (k * ·)) m d u v w = closeDecision xs eff m d u v w := by
  unfold closeDecision
  by_cases hv : (binValid xs m u v && binValid xs m u w) = true
  · rw [if_pos hv, if_pos hv]
    rw [Bool.and_eq_true] at hv
    unfold binValid at hv
    simp only [decide_eq_true_eq, ← filterEff_length (one_pos : (0 : K) < 1) h] at hv
    rw [binCost_out _ _ _ _ _ _ (by omega), binCost_out _ _ _ _ _ _ (by omega)]
    simp only [nanEqZero_out hk, nanPos_out hk, nanLe_out hk]
  · rw [if_neg hv, if_neg hv]

theorem greedyLoop_out {xs eff : List K} (h : eff.length = xs.length) (m : ℕ) (d left : K) (rest : List K) :
    greedyLoop xs (eff.map (k * ·)) m d left rest = greedyLoop xs eff m d left rest := by
  induction rest generalizing left with
  | nil => rfl
  | cons l1 t ih =>
    cases t with
    | nil => rfl
    | cons l2 t => simp only [greedyLoop, closeDecision_out hk h, ih]

theorem greedyFind_out {c c' : BinCtx K} {e : List K} (hx : c'.xs = c.xs) (hlo : c'.xmin = c.xmin) (hhi : c'.xmax = c.xmax) (he : c.eff = some e)
    (he' : c'.eff = some (e.map (k * ·))) (hlen : e.length = c.xs.length) (n : ℕ) (d : K) (mo : Option ℕ) (cl : ℕ) :
    greedyFind c' n d mo cl = greedyFind c n d mo cl := by
  unfold greedyFind onlyOneBinPossible BinCtx.getEff
  simp only [hx, hlo, hhi, he, he', bind, Except.bind, List.length_map, greedyLoop_out hk hlen]

omit hk in
theorem specBinCost_out (xs e : List K) (hlen : e.length = xs.length) (m : ℕ) (hm1 : 1 ≤ m) (d u v : K) (hm : ¬ closedCount xs u v < m) :
    Spec.binCost xs (e.map (k * ·)) m d u v = k ^ 2 * Spec.binCost xs e m d u v := by
  have h := binCost_out (k := k) xs e m d u v (by rw [filterEff_eq, closedEffects_length xs e hlen]; exact hm)
  rw [binCost_eq xs e hlen m d u v (Or.inl hm1), binCost_eq xs _ (by simpa using hlen) m d u v (Or.inl hm1)] at h
  exact Option.some.inj h

theorem dpFind_out {c c' : BinCtx K} {e : List K} (hx : c'.xs = c.xs) (hlo : c'.xmin = c.xmin) (hhi : c'.xmax = c.xmax) (he : c.eff = some e)
    (he' : c'.eff = some (e.map (k * ·))) (hlen : e.length = c.xs.length) (hin : ∀ x ∈ c.xs, c.xmin ≤ x ∧ x ≤ c.xmax) (hlt : c.xmin < c.xmax)
    (hsmall : SmallSpread (k ^ 2) (c.xmax - c.xmin) e) {n cl : ℕ} {d : K} {mo : Option ℕ} (hb : ProperDp (.dp n mo d cl)) :
    dpFind c' n mo d cl = dpFind c n mo d cl := by
  obtain ⟨hn, hd0, hd1, hm⟩ := hb
  obtain ⟨R, hR, h1, h2⟩ := hsmall
  unfold dpFind onlyOneBinPossible BinCtx.getEff
  simp only [hx, hlo, hhi, he, he', bind, Except.bind, List.length_map]
  cases mo with
  | none => rfl
  | some m =>
    rw [noneValid_eq]
    by_cases hdeg : distinct c.xs = 1 ∨ c.xs.length < m
    · rw [show (decide (distinct c.xs = 1) || decide (c.xs.length < m)) = true by simpa using hdeg]
      rfl
    · have hdeg' := hdeg
      push Not at hdeg'
      rw [show (decide (distinct c.xs = 1) || decide (c.xs.length < m)) = false by simp [hdeg'.1]; omega]
      have hI : dpIndices (costOfMove c' (e.map (k * ·)) m d n) n = dpIndices (costOfMove c e m d n) n := by
        refine dpIndices_scaled (q := k ^ 2) (by positivity) (hm m rfl) hn hd0 hd1 hlen (by rw [hx]; simpa using hlen) hlt (by rw [hlo, hhi]; exact hlt) hin hdeg'.2 hR h1 h2 ?_ ?_
        · intro i j; rw [hx, hlo, hhi]
        · intro i j _ h; rw [hx, hlo, hhi]; exact specBinCost_out _ _ hlen m (hm m rfl) _ _ _ h
      simp only [hI]

/-- The limits do not depend on the unit of the effects. -/
theorem findLimits_out {c c' : BinCtx K} {e : List K} (hx : c'.xs = c.xs) (hlo : c'.xmin = c.xmin) (hhi : c'.xmax = c.xmax) (he : c.eff = some e)
    (he' : c'.eff = some (e.map (k * ·))) (hlen : e.length = c.xs.length) (hin : ∀ x ∈ c.xs, c.xmin ≤ x ∧ x ≤ c.xmax) (hlt : c.xmin < c.xmax) {bm : BinMethod K}
    (hb : FixedOrGreedy bm ∨ ProperDp bm ∧ SmallSpread (k ^ 2) (c.xmax - c.xmin) e) :
    findLimits c' bm = findLimits c bm := by
  have hf : ∀ n m cl, fixedFind c' n m cl = fixedFind c n m cl := fun n m cl => by
    unfold fixedFind
    simp only [hx, hlo, hhi]
  have hg := greedyFind_out hk hx hlo hhi he he' hlen
  cases bm with
  | fixed n m cl => exact hf n m cl
  | greedy n m d cl => exact hg n d m cl
  | dp n m d cl =>
    rcases hb with hb | ⟨hb, hs⟩
    · exact hb.elim
    · exact dpFind_out hk hx hlo hhi he he' hlen hin hlt hs hb
  | str t =>
    have hb : t ≠ "dp" := hb.elim id fun h => h.1.elim
    unfold findLimits
    by_cases h1 : t = "fixed"
    · simp only [if_pos h1]; exact hf _ _ _
    · simp only [if_neg h1]
      by_cases h2 : t = "greedy"
      · simp only [if_pos h2]; exact hg _ _ _ _
      · simp only [if_neg h2, if_neg hb]

/-! ### The fit -/

theorem rhale_fitOut [PySqrt K] [LawfulSqrt K] (T : List (Row K D × Row K D)) (lo hi : Fin D → K) (s : Fin D) (hlt : lo s < hi s) (bm : BinMethod K)
    (hbm : FixedOrGreedy bm ∨ ProperDp bm ∧ SmallSpread (k ^ 2) (hi s - lo s) (T.map fun t => t.2 s)) :
    FitMix k 0 (rhaleFitFeature (T.map (·.1)) (T.map (·.2)) lo hi s bm) (rhaleFitFeature (T.map (·.1)) (T.map (·.2)) lo hi s bm)
      (rhaleFitFeature (T.map (·.1)) (T.map fun t i => k * t.2 i) lo hi s bm) := by
  rw [rhaleFitFeature_bind _ _ (by simp), rhaleFitFeature_bind _ _ (by simp)]
  have hx : ∀ e : List (Row K D), (rhaleCtx (T.map (·.1)) e lo hi s).xs = (T.filter fun t => inAxis (lo s) (hi s) s t.1).map fun t => t.1 s := by
    intro e
    show col ((T.map (·.1)).filter (inAxis (lo s) (hi s) s)) s = _
    unfold col
    rw [List.filter_map, List.map_map]
    rfl
  have he : ∀ E : Row K D × Row K D → Row K D, col ((((T.map (·.1)).zip (T.map E)).filter fun p => inAxis (lo s) (hi s) s p.1).map (·.2)) s =
      (T.filter fun t => inAxis (lo s) (hi s) s t.1).map fun t => E t s := by
    intro E
    unfold col
    rw [List.zip_map', List.filter_map, List.map_map, List.map_map]
    rfl
  have hbm' : FixedOrGreedy bm ∨ ProperDp bm ∧ SmallSpread (k ^ 2) (hi s - lo s) ((T.filter fun t => inAxis (lo s) (hi s) s t.1).map fun t => t.2 s) := by
    rcases hbm with h | ⟨h, R, hR, h1, h2⟩
    · exact Or.inl h
    · refine Or.inr ⟨h, R, fun x hx y hy => ?_, h1, h2⟩
      obtain ⟨t, ht, rfl⟩ := List.mem_map.mp hx
      obtain ⟨u, hu, rfl⟩ := List.mem_map.mp hy
      exact hR _ (List.mem_map_of_mem (List.mem_of_mem_filter ht)) _ (List.mem_map_of_mem (List.mem_of_mem_filter hu))
  have hctx : findLimits (rhaleCtx (T.map (·.1)) (T.map fun t i => k * t.2 i) lo hi s) bm = findLimits (rhaleCtx (T.map (·.1)) (T.map (·.2)) lo hi s) bm := by
    refine findLimits_out hk (c := rhaleCtx (T.map (·.1)) (T.map (·.2)) lo hi s) (c' := rhaleCtx (T.map (·.1)) (T.map fun t i => k * t.2 i) lo hi s)
      (e := (T.filter fun t => inAxis (lo s) (hi s) s t.1).map fun t => t.2 s) ((hx (T.map fun t i => k * t.2 i)).trans (hx (T.map (·.2))).symm) rfl rfl ?_ ?_ ?_
      (rhaleCtx_in _ _ lo hi s) hlt hbm'
    · show some _ = _
      rw [he]
    · show some _ = _
      rw [he, List.map_map]
      rfl
    · rw [hx]; simp
  rw [hctx]
  cases hL : findLimits (rhaleCtx (T.map (·.1)) (T.map (·.2)) lo hi s) bm with
  | error e => exact Or.inr ⟨e, rfl, rfl, rfl⟩
  | ok l =>
    cases l with
    | impossible => exact Or.inr ⟨_, rfl, rfl, rfl⟩
    | arr L =>
      simp only [Except.bind]
      obtain ⟨hinc, htwo, hwith⟩ := findLimits_good_small (q := k ^ 2) (e := (T.filter fun t => inAxis (lo s) (hi s) s t.1).map fun t => t.2 s)
        (show some _ = _ by rw [he]) (by rw [hx]; simp) (rhaleCtx_in _ _ lo hi s) hlt hbm' hL
      rw [hx] at hwith
      simp only [hx, he]
      have hm := params_mix k 0 (T.filter fun t => inAxis (lo s) (hi s) s t.1) (fun t => t.1 s) (fun t => t.2 s) (fun t => t.2 s) hinc htwo hwith
      simp only [zero_mul, add_zero] at hm
      rcases hm with h | h
      · exact Or.inl h
      · exact Or.inr ⟨_, h⟩

end

/-! ### eval -/

theorem evalMix_times {k : K} (hk : k ≠ 0) {r r' : Py (List K × Option (List K))} (h : EvalMix k 0 r r r') (h' : EvalMix k⁻¹ 0 r' r' r) :
    r' = r.map (timesResult k) := by
  have hmix : ∀ y : List K, mix k 0 y y = y.map (k * ·) := fun y => by
    unfold mix
    rw [List.zipWith_self]
    simp
  rcases h with ⟨e, rfl, -, rfl⟩ | ⟨y₁, y₂, rfl, h2, -, rfl⟩ | ⟨y₁, y₂, h₁, h₂, h, rfl, e2, rfl, -, l1, -, l, hle⟩
  · rfl
  · cases h2
    simp only [Except.map, timesResult, hmix, Option.map_none]
  · cases e2
    rcases h' with ⟨e, h0, -⟩ | ⟨_, _, h0, -⟩ | ⟨z₁, z₂, g₁, g₂, g, a1, a2, a3, -, -, -, -, hge⟩
    · cases h0
    · cases h0
    · cases a1
      cases a2
      simp only [Except.ok.injEq, Prod.mk.injEq, Option.some.injEq] at a3
      obtain ⟨-, rfl⟩ := a3
      simp only [Except.map, timesResult, hmix, Option.map_some, Except.ok.injEq, Prod.mk.injEq, Option.some.injEq, true_and]
      apply List.ext_getElem?
      intro i
      rw [List.getElem?_map]
      by_cases hi : i < y₁.length
      · obtain ⟨u, hu⟩ : ∃ u, h₁[i]? = some u := ⟨_, List.getElem?_eq_getElem (by omega)⟩
        obtain ⟨w, hw⟩ : ∃ w, h[i]? = some w := ⟨_, List.getElem?_eq_getElem (by omega)⟩
        have e1 := hle i u u w hu hu hw
        have e2 := hge i w w u hw hw hu
        simp only [abs_zero, zero_mul, add_zero, abs_inv] at e1 e2
        rw [hu, hw, Option.map_some]
        have hpos : 0 < |k| := abs_pos.mpr hk
        have e3 : |k| * u ≤ w := by
          have := mul_le_mul_of_nonneg_left e2 hpos.le
          rwa [← mul_assoc, mul_inv_cancel₀ hpos.ne', one_mul] at this
        exact congrArg some (le_antisymm e1 e3)
      · rw [List.getElem?_eq_none (by omega), List.getElem?_eq_none (by omega)]
        rfl

/-- The same object, able to fit feature `s` only. -/
def onlyFeature (s : Fin D) (cfg : AleCfg K D) : AleCfg K D :=
  { cfg with fitF := fun t bm => if t = s then cfg.fitF t bm else .error .typeError }

theorem onlyFeature_same (s : Fin D) (cfg : AleCfg K D) : CfgSame s (onlyFeature s cfg) cfg :=
  ⟨rfl, rfl, funext fun _ => if_pos rfl, rfl, rfl⟩

theorem aleEval_times [PySqrt K] [LawfulSqrt K] {k : K} (hk : k ≠ 0) {s : Fin D} {P : BinMethod K → Prop} {cfg cfg' : AleCfg K D} (lo : cfg'.axisLo = cfg.axisLo)
    (hi : cfg'.axisHi = cfg.axisHi) (hd : cfg'.defaultBin = cfg.defaultBin) (ha : cfg'.allowed = cfg.allowed)
    (hf : ∀ bm, P bm → FitMix k 0 (cfg.fitF s bm) (cfg.fitF s bm) (cfg'.fitF s bm))
    (hf' : ∀ bm, P bm → FitMix k⁻¹ 0 (cfg'.fitF s bm) (cfg'.fitF s bm) (cfg.fitF s bm)) (hdef : P cfg.defaultBin)
    (calls : List (AleOp K D)) (hc : ∀ op ∈ calls, OnlyOn s op) (hcalls : ∀ f bm c, AleOp.fit f bm c ∈ calls → P bm) (xs : List K) (het : Bool) (c : PyVal) :
    (aleEval cfg' (aleRun cfg' calls) s xs het c).2 = (aleEval cfg (aleRun cfg calls) s xs het c).2.map (timesResult k) := by
  have e : ∀ cfg : AleCfg K D, (aleEval (onlyFeature s cfg) (aleRun (onlyFeature s cfg) calls) s xs het c).2 = (aleEval cfg (aleRun cfg calls) s xs het c).2 := fun cfg =>
    (aleEval_same (onlyFeature_same s cfg) (aleRun_same (onlyFeature_same s cfg) calls hc) xs het c).2
  rw [← e cfg, ← e cfg']
  have key : ∀ {j : K} {c₁ c₂ : AleCfg K D}, c₂.axisLo = c₁.axisLo → c₂.axisHi = c₁.axisHi → c₂.defaultBin = c₁.defaultBin → c₂.allowed = c₁.allowed →
      (∀ bm, P bm → FitMix j 0 (c₁.fitF s bm) (c₁.fitF s bm) (c₂.fitF s bm)) → CfgMix j 0 P (onlyFeature s c₁) (onlyFeature s c₁) (onlyFeature s c₂) := by
    intro j c₁ c₂ lo hi hd ha hf
    refine ⟨rfl, lo, rfl, hi, rfl, hd, rfl, ha, fun t bm hb => ?_⟩
    by_cases ht : t = s
    · subst ht
      simp only [onlyFeature, if_true]
      exact hf bm hb
    · simp only [onlyFeature, if_neg ht]
      exact Or.inr ⟨_, rfl, rfl, rfl⟩
  exact evalMix_times hk (aleEval_mix (key lo hi hd ha hf) hdef calls hcalls s xs het c)
    (aleEval_mix (key lo.symm hi.symm hd.symm ha.symm hf') (show P cfg'.defaultBin from hd ▸ hdef) calls hcalls s xs het c)

/-- **C103, ALE.**  The model `k f + b`: curves times `k`, heterogeneity times `|k|`, the same exceptions - after any calls about the feature (any accepted binning
method except `Fixed(nof_bins=0)`). -/
theorem C103_ale [PySqrt K] [LawfulSqrt K] (choice : ℕ → ℕ → List ℕ) (cast : K → K) (k b : K) (hk : k ≠ 0) (f : Row K D → K) (data : List (Row K D))
    (axisLimits : Option ((Fin D → K) × (Fin D → K))) (s : Fin D) (hlt : ∀ l, limitsOr data axisLimits = .ok l → l.1 s < l.2 s)
    (calls : List (AleOp K D)) (hc : ∀ op ∈ calls, OnlyOn s op) (hcalls : ∀ fs bm c m cl, AleOp.fit fs bm c ∈ calls → bm ≠ .fixed 0 m cl) (xs : List K) (het : Bool)
    (c : PyVal) :
    aleSession choice cast (fun r => k * f r + b) data axisLimits calls s xs het c =
      (aleSession choice cast f data axisLimits calls s xs het c).map (timesResult k) := by
  rw [C98_ale choice cast (fun r => k * f r) (fun r => k * f r + b) ⟨fun _ => b, fun _ _ => rfl, fun _ => rfl⟩ data axisLimits calls hc xs het c]
  unfold aleSession
  rw [base_init_all]
  cases hl : limitsOr data axisLimits with
  | error e => simp only [Except.bind, Except.map]
  | ok l =>
    simp only [Except.bind]
    have hlt := hlt l hl
    generalize hB : ({ data := data, indices := List.range data.length, axisLo := l.1, axisHi := l.2 } : Base K D) = B
    have hB' : B.axisLo s < B.axisHi s := by subst hB; exact hlt
    -- limits that are proper for every feature, the same at `s`
    let B' : Base K D := { B with axisLo := fun _ => B.axisLo s, axisHi := fun _ => B.axisHi s }
    have hfit : ∀ g : Row K D → K, (aleCfg cast (List.map g) B').fitF s = (aleCfg cast (List.map g) B).fitF s := fun g => by
      funext bm
      simp only [aleCfg, aleFitFeature, B']
    have hmix : ∀ j : K, mixed j 0 f f = fun r => j * f r := fun j => by funext r; simp [mixed]
    have h1 := (ale_cfgMix k 0 cast f f B' (fun _ => hB')).fit s
    have h2 := (ale_cfgMix k⁻¹ 0 cast (fun r => k * f r) (fun r => k * f r) B' (fun _ => hB')).fit s
    have e1 : mixed k 0 f f = fun r => k * f r := by funext r; simp [mixed]
    have e2 : mixed k⁻¹ 0 (fun r : Row K D => k * f r) (fun r => k * f r) = f := by funext r; simp [mixed, hk]
    rw [e1] at h1
    rw [e2] at h2
    have h1' : ∀ bm : BinMethod K, (∀ m cl, bm ≠ .fixed 0 m cl) → FitMix k 0 ((aleCfg cast (List.map f) B).fitF s bm) ((aleCfg cast (List.map f) B).fitF s bm)
        ((aleCfg cast (List.map fun r => k * f r) B).fitF s bm) := by
      rw [← hfit f, ← hfit fun r => k * f r]
      exact h1
    have h2' : ∀ bm : BinMethod K, (∀ m cl, bm ≠ .fixed 0 m cl) → FitMix k⁻¹ 0 ((aleCfg cast (List.map fun r => k * f r) B).fitF s bm)
        ((aleCfg cast (List.map fun r => k * f r) B).fitF s bm) ((aleCfg cast (List.map f) B).fitF s bm) := by
      rw [← hfit f, ← hfit fun r => k * f r]
      exact h2
    exact aleEval_times (P := fun bm => ∀ m cl, bm ≠ .fixed 0 m cl) (cfg := aleCfg cast (List.map f) B) (cfg' := aleCfg cast (List.map fun r => k * f r) B) (s := s)
      hk rfl rfl rfl rfl h1' h2' (fun m cl h => by cases h) calls hc (fun fs bm c hm m cl => hcalls fs bm c m cl hm) xs het c

/-- **C103, RHALE.**  The model `k f + b` (with the gradient function, or the given effects, multiplied by `k`): curves times `k`, heterogeneity times `|k|`, the same
exceptions - after any calls about the feature with `Fixed` or `Greedy` binning, or with dynamic programming as long as the penalty 1e8 exceeds the costs of valid bins; although
the bins chosen by the last two depend on the effects. -/
theorem C103_rhale [PySqrt K] [LawfulSqrt K] (choice : ℕ → ℕ → List ℕ) (k b : K) (hk : k ≠ 0) (f : Row K D → K) (data : List (Row K D)) (S S' : EffectsFrom K D)
    (hS : TimesSource k data S S') (axisLimits : Option ((Fin D → K) × (Fin D → K))) (s : Fin D) (hlt : ∀ l, limitsOr data axisLimits = .ok l → l.1 s < l.2 s)
    (calls : List (AleOp K D)) (hc : ∀ op ∈ calls, OnlyOn s op) (hcalls : ∀ fs bm c, AleOp.fit fs bm c ∈ calls → FixedOrGreedy bm ∨ ProperDp bm ∧
      ∀ l, limitsOr data axisLimits = .ok l → SmallSpread (k ^ 2) (l.2 s - l.1 s) ((S.values f data).map fun e => e s)) (xs : List K) (het : Bool) (c : PyVal) :
    rhaleSession choice (fun r => k * f r + b) S'.jacArg data S'.givenArg axisLimits calls s xs het c =
      (rhaleSession choice f S.jacArg data S.givenArg axisLimits calls s xs het c).map (timesResult k) := by
  obtain ⟨T, hd, e1, e2⟩ : ∃ T : List (Row K D × Row K D), data = T.map (·.1) ∧ rhaleEffects (List.map f) (S.jacArg.map List.map) S.givenArg data = T.map (·.2) ∧
      rhaleEffects (List.map fun r => k * f r + b) (S'.jacArg.map List.map) S'.givenArg data = T.map fun t i => k * t.2 i := by
    match S, S', hS with
    | .given e, .given e', ⟨h1, h2⟩ =>
      refine ⟨data.zip e, by rw [List.map_fst_zip]; omega, ?_, ?_⟩
      · rw [List.map_snd_zip (by omega)]
        rfl
      · rw [show (fun t : Row K D × Row K D => fun i => k * t.2 i) = (fun u : Row K D => fun i => k * u i) ∘ Prod.snd from rfl, ← List.map_map, List.map_snd_zip (by omega)]
        exact h2
    | .jac j, .jac j', h =>
      have h : j' = fun r i => k * j r i := h
      exact ⟨data.map fun r => (r, j r), by simp [Function.comp_def], by simp [EffectsFrom.jacArg, EffectsFrom.givenArg, rhaleEffects, Function.comp_def],
        by simp [EffectsFrom.jacArg, EffectsFrom.givenArg, rhaleEffects, Function.comp_def, h]⟩
    | .model, .model, _ =>
      refine ⟨data.map fun r => (r, fun t => (f (Function.update r t (r t + EPS)) - f r) / EPS), by simp [Function.comp_def], ?_, ?_⟩
      · simp only [EffectsFrom.jacArg, EffectsFrom.givenArg, rhaleEffects, Option.map_none, numerical_rowwise, List.map_map, Function.comp_def]
      · simp only [EffectsFrom.jacArg, EffectsFrom.givenArg, rhaleEffects, Option.map_none, numerical_rowwise, List.map_map, Function.comp_def]
        refine List.map_congr_left fun r _ => ?_
        funext i
        ring
  have hvals : S.values f data = T.map (·.2) := by
    rw [← e1]
    cases S with
    | given e => rfl
    | jac j => rfl
    | model =>
      simp only [EffectsFrom.jacArg, EffectsFrom.givenArg, rhaleEffects, Option.map_none, numerical_rowwise, EffectsFrom.values]
      simp only [EPS]
  have hlen : ∀ e, S.givenArg = some e → e.length = data.length := by
    rintro e he
    rw [he] at e1
    replace e1 : e = T.map (·.2) := e1
    rw [e1, hd]; simp
  have hlen' : ∀ e, S'.givenArg = some e → e.length = data.length := by
    rintro e he
    rw [he] at e2
    replace e2 : e = T.map fun t i => k * t.2 i := e2
    rw [e2, hd]; simp
  unfold rhaleSession
  rw [rhaleInit_all _ _ _ _ _ hlen, rhaleInit_all _ _ _ _ _ hlen', e1, e2]
  cases hl : limitsOr data axisLimits with
  | error e => simp only [Except.bind, Except.map]
  | ok l =>
    simp only [Except.bind]
    have hlt := hlt l hl
    rw [hvals, List.map_map] at hcalls
    let P : BinMethod K → Prop := fun bm => FixedOrGreedy bm ∨ ProperDp bm ∧ SmallSpread (k ^ 2) (l.2 s - l.1 s) (T.map fun t => t.2 s)
    have h1 : ∀ bm, P bm → FitMix k 0 (rhaleFitFeature data (T.map (·.2)) l.1 l.2 s bm) (rhaleFitFeature data (T.map (·.2)) l.1 l.2 s bm)
        (rhaleFitFeature data (T.map fun t i => k * t.2 i) l.1 l.2 s bm) := fun bm hb => by
      rw [hd]
      exact rhale_fitOut hk T l.1 l.2 s hlt bm hb
    have h2 : ∀ bm, P bm → FitMix k⁻¹ 0 (rhaleFitFeature data (T.map fun t i => k * t.2 i) l.1 l.2 s bm)
        (rhaleFitFeature data (T.map fun t i => k * t.2 i) l.1 l.2 s bm) (rhaleFitFeature data (T.map (·.2)) l.1 l.2 s bm) := fun bm hb => by
      have := rhale_fitOut (inv_ne_zero hk) (T.map fun t : Row K D × Row K D => ((t.1, fun i => k * t.2 i) : Row K D × Row K D)) l.1 l.2 s hlt bm (by
        rcases hb with hb | ⟨hb, R, hR, hs, hs'⟩
        · exact Or.inl hb
        · refine Or.inr ⟨hb, |k| * R, ?_, ?_, ?_⟩
          · intro x hx y hy
            rw [List.map_map] at hx hy
            obtain ⟨t, ht, rfl⟩ := List.mem_map.mp hx
            obtain ⟨u, hu, rfl⟩ := List.mem_map.mp hy
            simp only [Function.comp]
            rw [← mul_sub, abs_mul]
            exact mul_le_mul_of_nonneg_left (hR _ (List.mem_map_of_mem ht) _ (List.mem_map_of_mem hu)) (abs_nonneg k)
          · rw [mul_pow, sq_abs, mul_assoc]; exact hs'
          · rw [mul_pow, sq_abs, mul_assoc, ← mul_assoc, ← mul_pow, inv_mul_cancel₀ hk, one_pow, one_mul]; exact hs)
      simp only [List.map_map, Function.comp_def, ← mul_assoc, inv_mul_cancel₀ hk, one_mul] at this
      rw [hd]
      exact this
    refine aleEval_times (P := P) (s := s) hk (cfg := rhaleCfg (T.map (·.2)) { data := data, indices := List.range data.length, axisLo := l.1, axisHi := l.2 })
      (cfg' := rhaleCfg (T.map fun (t : Row K D × Row K D) (i : Fin D) => k * t.2 i) { data := data, indices := List.range data.length, axisLo := l.1, axisHi := l.2 })
      rfl rfl rfl rfl h1 h2 (Or.inl (by show (("greedy" : String) ≠ "dp"); decide)) calls hc (fun fs bm c hm => ?_) xs het c
    exact (hcalls fs bm c hm).imp id fun h => ⟨h.1, h.2 l hl⟩

/-- **C103 fails for dynamic programming beyond that range.**  The penalty of an invalid bin is the absolute number 1e8.  At least two points per bin are asked for: with the effects 0, 0, 0, 1
one bin is made and the curve reaches 1/8 in the middle; with the same effects in a unit 100000 times smaller, two bins are made, the second with one point, and the
curve is 0 in the middle. -/
theorem C103_false_dp :
    rhaleSession (K := ℚ) (D := 1) (fun _ _ => []) (fun _ => 0) none [![0], ![1 / 10], ![1 / 5], ![1]] (some [![0], ![0], ![0], ![1]]) none
        [.fit (.int 0) (.dp 2 (some 2) 0 0) (.bool false)] 0 [1 / 2, 1] false (.bool false) = .ok ([1 / 8, 1 / 4], none) ∧
    rhaleSession (K := ℚ) (D := 1) (fun _ _ => []) (fun _ => 0) none [![0], ![1 / 10], ![1 / 5], ![1]] (some [![0], ![0], ![0], ![10 ^ 5]]) none
        [.fit (.int 0) (.dp 2 (some 2) 0 0) (.bool false)] 0 [1 / 2, 1] false (.bool false) = .ok ([0, 10 ^ 5 / 2], none) := by
  decide +kernel

/-! ### Non-vacuity -/

/-- Metres and centimetres (`k = -100` also reverses the sign), dynamic programming. -/
example :
    TimesSource (K := ℚ) (D := 1) (-100) [![0], ![1 / 10], ![1 / 5], ![1 / 2], ![3 / 4], ![1]] (.given [![0], ![0], ![0], ![1], ![1], ![1]])
      (.given [![0], ![0], ![0], ![-100], ![-100], ![-100]]) ∧
    ProperDp (.dp 2 (some 2) 0 0 : BinMethod ℚ) ∧ SmallSpread (K := ℚ) ((-100) ^ 2) (1 - 0) [0, 0, 0, 1, 1, 1] ∧
    rhaleSession (K := ℚ) (D := 1) (fun _ _ => []) (fun _ => 0) none [![0], ![1 / 10], ![1 / 5], ![3 / 5], ![3 / 4], ![1]] (some [![0], ![0], ![0], ![1], ![1], ![1]]) none
        [.fit (.int 0) (.dp 2 (some 2) 0 0) (.bool false)] 0 [1 / 2, 1] false (.bool false) = .ok ([0, 1 / 2], none) ∧
    rhaleSession (K := ℚ) (D := 1) (fun _ _ => []) (fun _ => 0) none [![0], ![1 / 10], ![1 / 5], ![3 / 5], ![3 / 4], ![1]]
        (some [![0], ![0], ![0], ![-100], ![-100], ![-100]]) none
        [.fit (.int 0) (.dp 2 (some 2) 0 0) (.bool false)] 0 [1 / 2, 1] false (.bool false) = .ok ([0, -100 / 2], none) := by
  refine ⟨⟨rfl, by decide +kernel⟩, ⟨by norm_num, by norm_num, by norm_num, by rintro _ ⟨⟩; norm_num⟩, ⟨1, by decide +kernel, by norm_num, by norm_num⟩, ?_⟩
  decide +kernel

/-- A model and three times the model plus seven, with the methods that have no effects given. -/
example :
    aleSession (K := ℚ) (D := 1) (fun _ _ => []) id (fun r => r 0 ^ 2) [![0], ![1], ![2]] none [.fit (.int 0) (.fixed 1 (some 2) 0) (.bool false)] 0 [1] false (.bool false) =
      .ok ([2 + 1 / 10 ^ 8], none) ∧
    aleSession (K := ℚ) (D := 1) (fun _ _ => []) id (fun r => 3 * r 0 ^ 2 + 7) [![0], ![1], ![2]] none [.fit (.int 0) (.fixed 1 (some 2) 0) (.bool false)] 0 [1] false (.bool false) =
      .ok ([3 * (2 + 1 / 10 ^ 8)], none) := by
  decide +kernel

end Effector
