import Verif.Props.AleHistory
import Verif.Props.PdpModels

/-!
# C73: the effect of a monotone feature is monotone, and no steeper than the model

If the model never decreases when the feature grows, neither does the effect; more precisely, if all local slopes lie between `g1` and `g2`, so do the slopes of
the curve.  For every history of calls and every centring.
-/

set_option linter.unusedSectionVars false

namespace Effector

open Spec

variable {K : Type} [Field K] [LinearOrder K] [IsStrictOrderedRing K] {D : ℕ}

namespace Spec

/-- Between any two evaluated points `a ≤ b` of `xs` that both lie in `[lo, hi]`, the slope of the returned values `y` is between `g1` and `g2`. -/
def SlopesIn (g1 g2 : K) (lo hi : K) (xs y : List K) : Prop :=
  ∀ (i j : ℕ) (a b u v : K), xs[i]? = some a → xs[j]? = some b → y[i]? = some u → y[j]? = some v → lo ≤ a → a ≤ b → b ≤ hi →
    g1 * (b - a) ≤ v - u ∧ v - u ≤ g2 * (b - a)

/-- The returned values never decrease from an evaluated point to a larger one. -/
def NeverDecreases (xs y : List K) : Prop :=
  ∀ (i j : ℕ) (a b u v : K), xs[i]? = some a → xs[j]? = some b → y[i]? = some u → y[j]? = some v → a ≤ b → u ≤ v

end Spec

/-! ### Bounds of the bin effects -/

theorem avg_bounds {l : List K} {g1 g2 : K} (h : ∀ y ∈ l, g1 ≤ y ∧ y ≤ g2) (hne : l ≠ []) : g1 ≤ avg l ∧ avg l ≤ g2 := by
  have hpos : (0 : K) < l.length := by
    have := List.length_pos_iff.mpr hne
    exact_mod_cast this
  have hs : ∀ l : List K, (∀ y ∈ l, g1 ≤ y ∧ y ≤ g2) → g1 * l.length ≤ l.sum ∧ l.sum ≤ g2 * l.length := by
    intro l
    induction l with
    | nil => intro _; simp
    | cons a t ih =>
      intro h
      obtain ⟨h1, h2⟩ := ih fun y hy => h y (by simp [hy])
      obtain ⟨h3, h4⟩ := h a (by simp)
      rw [List.sum_cons, List.length_cons]
      push_cast
      constructor <;> nlinarith
  obtain ⟨h1, h2⟩ := hs l h
  unfold avg
  exact ⟨(le_div_iff₀ hpos).mpr h1, (div_le_iff₀ hpos).mpr h2⟩

theorem fillNans_bounds {x : List (Option K)} {y : List K} {g1 g2 : K} (h : fillNans x = .ok y) (hx : ∀ v, some v ∈ x → g1 ≤ v ∧ v ≤ g2) :
    ∀ w ∈ y, g1 ≤ w ∧ w ≤ g2 := by
  have hne : ∃ o ∈ x, o ≠ none := by
    by_contra hc
    push Not at hc
    rw [(C05_raises_iff x).mpr hc] at h
    cases h
  obtain ⟨y', hy', -, -, -, -, -, hb⟩ := C05_fill_nans x hne
  rw [h] at hy'
  cases hy'
  exact hb g1 g2 hx

theorem computeAleParams_bounds {limits xs eff : List K} {p : AleParams K} {g1 g2 : K} (hinc : Increasing limits)
    (htwo : 2 ≤ limits.length) (hin : Within limits xs) (hlen : eff.length = xs.length)
    (h : computeAleParams xs eff limits = .ok p) (hc : ∀ e ∈ eff, g1 ≤ e ∧ e ≤ g2) : ∀ b ∈ p.binEffect, g1 ≤ b ∧ b ≤ g2 := by
  obtain ⟨-, -, ⟨be, hbe, h1⟩, -⟩ := computeAleParams_good hinc htwo hin hlen h
  refine fillNans_bounds hbe fun v hv => ?_
  obtain ⟨k, rfl, hne⟩ := h1 v hv
  exact avg_bounds (fun y hy => hc y (mem_binEffects hy)) hne

/-! ### Slopes of the accumulated curve -/

/-- The length of the part of `[a, b]` (`a ≤ b`) that lies in `[lo, hi]` is `inside lo hi b - inside lo hi a`. -/
def inside (lo hi x : K) : K := min x hi - min x lo

theorem stepIntegral_slope {limits es : List K} {g1 g2 lo hi : K} (hinc : Increasing limits) (hlen : es.length + 1 = limits.length)
    (hes : ∀ e ∈ es, g1 ≤ e ∧ e ≤ g2) (hlo : limits.head? = some lo) (hhi : limits.getLast? = some hi) {a b : K} (hab : a ≤ b) :
    g1 * (inside lo hi b - inside lo hi a) ≤ stepIntegral limits es b - stepIntegral limits es a ∧
    stepIntegral limits es b - stepIntegral limits es a ≤ g2 * (inside lo hi b - inside lo hi a) := by
  induction limits generalizing es lo with
  | nil => simp at hlo
  | cons l0 t ih =>
    simp only [List.head?_cons, Option.some.injEq] at hlo
    subst hlo
    cases t with
    | nil =>
      simp only [List.getLast?_singleton, Option.some.injEq] at hhi
      subst hhi
      cases es <;> simp [stepIntegral, inside]
    | cons l1 t =>
      cases es with
      | nil => simp at hlen
      | cons e es =>
        obtain ⟨i1, i2⟩ := ih (List.pairwise_cons.mp hinc).2 (by simpa using hlen) (fun e he => hes e (by simp [he])) rfl
          (by rwa [List.getLast?_cons_cons] at hhi)
        obtain ⟨e1, e2⟩ := hes e (by simp)
        have h01 : l0 ≤ l1 := ((List.pairwise_cons.mp hinc).1 l1 (by simp)).le
        have hw : 0 ≤ (min b l1 - min b l0) - (min a l1 - min a l0) := by
          rcases le_total a l0 with h | h
          · rw [min_eq_left h, min_eq_left (h.trans h01), sub_self, sub_zero]
            exact sub_nonneg.mpr (min_le_min_left b h01)
          · rw [min_eq_right h, min_eq_right (h.trans hab)]
            have := min_le_min_right l1 hab
            linarith
        unfold stepIntegral
        unfold inside at *
        have m1 := mul_le_mul_of_nonneg_right e1 hw
        have m2 := mul_le_mul_of_nonneg_right e2 hw
        constructor <;> nlinarith

theorem inside_of_mem {lo hi x : K} (h1 : lo ≤ x) (h2 : x ≤ hi) : inside lo hi x = x - lo := by
  unfold inside
  rw [min_eq_left h2, min_eq_right h1]

/-- The values of a fitted curve. -/
theorem GoodParams.slopes {p : AleParams K} (hp : GoodParams p) {g1 g2 : K} (hb : ∀ e ∈ p.binEffect, g1 ≤ e ∧ e ≤ g2) {lo hi : K}
    (hlo : p.limits.head? = some lo) (hhi : p.limits.getLast? = some hi) {xs u : List K} (hu : evalUnnorm p xs = .ok u) (z : K) :
    SlopesIn g1 g2 lo (min hi (10 ^ 8)) xs (u.map (· - z)) := by
  obtain ⟨el, hel, hacc⟩ := hp.acc p.binEffect xs hp.be
  unfold evalUnnorm at hu
  rw [hacc] at hu
  cases hu
  have h2 := hp.two
  intro i j a b u v ha hb' hu hv h1 hab hbh
  obtain ⟨h3, h4⟩ := le_min_iff.mp hbh
  simp only [List.getElem?_map, ha, hb', Option.map_some, Option.some.injEq] at hu hv
  rw [if_neg (by unfold BIG_M; intro hc; exact absurd hc.2 (not_lt.mpr (hab.trans h4)))] at hu
  rw [if_neg (by unfold BIG_M; intro hc; exact absurd hc.2 (not_lt.mpr h4))] at hv
  subst hu hv
  have := stepIntegral_slope (a := a) (b := b) hp.inc (by rw [hp.be]; omega) hb hlo hhi hab
  rw [inside_of_mem h1 (hab.trans h3), inside_of_mem (h1.trans hab) h3] at this
  constructor
  · have := this.1; nlinarith
  · have := this.2; nlinarith

theorem GoodParams.mono {p : AleParams K} (hp : GoodParams p) (hb : ∀ e ∈ p.binEffect, 0 ≤ e) {xs u : List K}
    (hu : evalUnnorm p xs = .ok u) (z : K) : NeverDecreases xs (u.map (· - z)) := by
  obtain ⟨el, hel, hacc⟩ := hp.acc p.binEffect xs hp.be
  unfold evalUnnorm at hu
  rw [hacc] at hu
  cases hu
  have hel0 : 0 ≤ el := hb el (List.mem_of_getLast? hel)
  intro i j a b u v ha hb' hu hv hab
  simp only [List.getElem?_map, ha, hb', Option.map_some, Option.some.injEq] at hu hv
  subst hu hv
  have h1 := C13_stepIntegral_mono p.limits p.binEffect hp.inc hb a b hab
  have h2 : (if (∀ l ∈ p.limits, l ≤ a) ∧ BIG_M < a then (a - BIG_M) * el else 0) ≤
      if (∀ l ∈ p.limits, l ≤ b) ∧ BIG_M < b then (b - BIG_M) * el else 0 := by
    by_cases hc : (∀ l ∈ p.limits, l ≤ a) ∧ BIG_M < a
    · rw [if_pos hc, if_pos ⟨fun l hl => (hc.1 l hl).trans hab, lt_of_lt_of_le hc.2 hab⟩]
      exact mul_le_mul_of_nonneg_right (by linarith) hel0
    · rw [if_neg hc]
      split_ifs with h'
      · exact mul_nonneg (by linarith [h'.2]) hel0
      · exact le_rfl
  linarith

theorem exists_upper (l : List K) : ∃ g, ∀ y ∈ l, y ≤ g := by
  induction l with
  | nil => exact ⟨0, fun y hy => by simp at hy⟩
  | cons a t ih =>
    obtain ⟨g, hg⟩ := ih
    refine ⟨max a g, fun y hy => ?_⟩
    rcases List.mem_cons.mp hy with rfl | hy
    · exact le_max_left _ _
    · exact (hg y hy).trans (le_max_right _ _)

/-! ### RHALE -/

/-- **C73, RHALE.**  If the derivative with respect to feature `s` lies between `g1` and `g2` on every instance then, after any history of calls and for any
centring, the slope of `eval` between two points of `[lo, hi]` (an interval that contains all instances within the axis limits; points up to 1e8) lies
between `g1` and `g2`. -/
theorem C73_rhale_slopes [PySqrt K] (eff : List (Row K D)) (b : Base K D) (hlt : ∀ s, b.axisLo s < b.axisHi s) (s : Fin D) (g1 g2 : K)
    (hg : ∀ e ∈ eff, g1 ≤ e s ∧ e s ≤ g2) (calls : List (AleOp K D))
    (hcalls : ∀ f bm c, AleOp.fit f bm c ∈ calls → ∀ t, SafeMethod (rhaleCtx b.data eff b.axisLo b.axisHi t) bm) (c : PyVal) (xs : List K) (het : Bool)
    (y : List K) (o : Option (List K)) (h : (aleEval (rhaleCfg eff b) (aleRun (rhaleCfg eff b) calls) s xs het c).2 = .ok (y, o)) :
    ∃ lo hi : K, lo < hi ∧ (∀ r ∈ b.data, b.axisLo s ≤ r s → r s ≤ b.axisHi s → lo ≤ r s ∧ r s ≤ hi) ∧
      SlopesIn g1 g2 lo (min hi (10 ^ 8)) xs y := by
  have hdefs : ∀ t, SafeMethod (rhaleCtx b.data eff b.axisLo b.axisHi t) (rhaleCfg eff b).defaultBin := fun t hc => absurd hc (by decide)
  have hgood := rhale_goodFor eff b hlt
  have he := usesEvaluable_of (rhaleCfg eff b) calls fun f bm c hm => (hgood bm (hcalls f bm c hm)).evaluable
  obtain ⟨m, p, u, z, hm, hp, hu, hz, rfl, -⟩ := eval_from_fit (hgood _ hdefs).evaluable he h
  have hsafe := effectiveBin_mem (rhaleCfg eff b) calls (fun bm => ∀ t, SafeMethod (rhaleCtx b.data eff b.axisLo b.axisHi t) bm) hdefs hcalls s m s
  obtain ⟨hgp, hwith, hpp⟩ := rhale_good (hlt s) hsafe hp
  obtain ⟨hlen, -⟩ := rhaleFitFeature_ok hp
  have hce : ∀ y ∈ col (((b.data.zip eff).filter fun p => inAxis (b.axisLo s) (b.axisHi s) s p.1).map (·.2)) s, g1 ≤ y ∧ y ≤ g2 := by
    intro y hy
    obtain ⟨r, hr, rfl⟩ := List.mem_map.mp hy
    obtain ⟨q, hq, rfl⟩ := List.mem_map.mp hr
    exact hg _ (List.of_mem_zip (List.mem_filter.mp hq).1).2
  have hb := computeAleParams_bounds hgp.inc hgp.two hwith (rhaleCtx_len b.data eff b.axisLo b.axisHi s hlen) hpp hce
  obtain ⟨lo, hi, hlo, hhi, hlh⟩ := head_getLast_lt hgp.inc hgp.two
  refine ⟨lo, hi, hlh, ?_, hgp.slopes hb hlo hhi hu z⟩
  intro r hr h1 h2
  obtain ⟨l, h, hl, hh, hall⟩ := hwith
  rw [hlo] at hl
  rw [hhi] at hh
  cases hl
  cases hh
  refine hall (r s) ?_
  simp only [rhaleCtx, col, List.mem_map]
  exact ⟨r, List.mem_filter.mpr ⟨hr, by simp [inAxis, h1, h2]⟩, rfl⟩

/-- **C73, RHALE, monotone models.**  If the derivative is never negative, `eval` never decreases, at any points. -/
theorem C73_rhale_monotone [PySqrt K] (eff : List (Row K D)) (b : Base K D) (hlt : ∀ s, b.axisLo s < b.axisHi s) (s : Fin D)
    (hg : ∀ e ∈ eff, 0 ≤ e s) (calls : List (AleOp K D))
    (hcalls : ∀ f bm c, AleOp.fit f bm c ∈ calls → ∀ t, SafeMethod (rhaleCtx b.data eff b.axisLo b.axisHi t) bm) (c : PyVal) (xs : List K) (het : Bool)
    (y : List K) (o : Option (List K)) (h : (aleEval (rhaleCfg eff b) (aleRun (rhaleCfg eff b) calls) s xs het c).2 = .ok (y, o)) :
    NeverDecreases xs y := by
  have hdefs : ∀ t, SafeMethod (rhaleCtx b.data eff b.axisLo b.axisHi t) (rhaleCfg eff b).defaultBin := fun t hc => absurd hc (by decide)
  have hgood := rhale_goodFor eff b hlt
  have he := usesEvaluable_of (rhaleCfg eff b) calls fun f bm c hm => (hgood bm (hcalls f bm c hm)).evaluable
  obtain ⟨m, p, u, z, hm, hp, hu, hz, rfl, -⟩ := eval_from_fit (hgood _ hdefs).evaluable he h
  have hsafe := effectiveBin_mem (rhaleCfg eff b) calls (fun bm => ∀ t, SafeMethod (rhaleCtx b.data eff b.axisLo b.axisHi t) bm) hdefs hcalls s m s
  obtain ⟨hgp, hwith, hpp⟩ := rhale_good (hlt s) hsafe hp
  obtain ⟨hlen, -⟩ := rhaleFitFeature_ok hp
  obtain ⟨g2, hg2⟩ : ∃ g2, ∀ y ∈ col (((b.data.zip eff).filter fun p => inAxis (b.axisLo s) (b.axisHi s) s p.1).map (·.2)) s, y ≤ g2 :=
    exists_upper _
  have hce : ∀ y ∈ col (((b.data.zip eff).filter fun p => inAxis (b.axisLo s) (b.axisHi s) s p.1).map (·.2)) s, 0 ≤ y ∧ y ≤ g2 := by
    intro y hy
    refine ⟨?_, hg2 y hy⟩
    obtain ⟨r, hr, rfl⟩ := List.mem_map.mp hy
    obtain ⟨q, hq, rfl⟩ := List.mem_map.mp hr
    exact hg _ (List.of_mem_zip (List.mem_filter.mp hq).1).2
  have hb := computeAleParams_bounds hgp.inc hgp.two hwith (rhaleCtx_len b.data eff b.axisLo b.axisHi s hlen) hpp hce
  exact hgp.mono (fun e he => (hb e he).1) hu z

/-! ### ALE -/

/-- **C73, ALE.**  If the model never decreases when feature `s` grows (all else equal), `eval` never decreases, at any points, after any history of calls
and for any centring; `cast` is the conversion to the dtype of the data (the identity for float data). -/
theorem C73_ale_monotone [PySqrt K] (cast : K → K) (hcast : Monotone cast) (f : Row K D → K) (b : Base K D) (hlt : ∀ s, b.axisLo s < b.axisHi s)
    (s : Fin D) (hf : ∀ r v w, v ≤ w → f (Function.update r s v) ≤ f (Function.update r s w)) (calls : List (AleOp K D))
    (hcalls : ∀ g bm c, AleOp.fit g bm c ∈ calls → ∀ m cl, bm ≠ .fixed 0 m cl) (xs : List K) (het : Bool) (c : PyVal) (y : List K) (o : Option (List K))
    (h : (aleEval (aleCfg cast (List.map f) b) (aleRun (aleCfg cast (List.map f) b) calls) s xs het c).2 = .ok (y, o)) :
    NeverDecreases xs y := by
  have hdef : ∀ m cl, (aleCfg cast (List.map f) b).defaultBin ≠ .fixed 0 m cl := by intro m cl hc; cases hc
  have hgood := ale_goodFor cast f b hlt
  have he := usesEvaluable_of (aleCfg cast (List.map f) b) calls fun g bm c hm => (hgood bm (hcalls g bm c hm)).evaluable
  obtain ⟨m, p, u, z, hm, hp, hu, hz, rfl, -⟩ := eval_from_fit (hgood _ hdef).evaluable he h
  have hbm := effectiveBin_mem (aleCfg cast (List.map f) b) calls (fun bm => ∀ m cl, bm ≠ .fixed 0 m cl) hdef hcalls s m
  have hp' : aleFitFeature cast (List.map f) b.data b.axisLo b.axisHi s _ = .ok p := hp
  obtain ⟨L, l0, l1, hL, hinc, htwo, hwith, -, -, h01, hpp, hg, -⟩ := ale_fit_cases (hlt s) (ale_safe (aleFitFeature_ok hp').1 hbm) hp'
  have hinc' := increasing_bumpLast (EPS_pos (K := K)).le hinc
  have hlen' : (bumpLast EPS L).length = L.length := length_bumpLast _ _
  obtain ⟨g2, hg2⟩ := exists_upper ((b.data.filter (inAxis (b.axisLo s) (b.axisHi s) s)).map fun r =>
          (f (Function.update r s (cast ((bumpLast EPS L).getD (binIdx L (r s)) 0))) -
            f (Function.update r s (cast ((bumpLast EPS L).getD (binIdx L (r s) - 1) 0)))) / (l1 - l0))
  have hb := computeAleParams_bounds (g1 := 0) hinc' (by rw [hlen']; exact htwo) (within_bump htwo hwith) (by simp [aleCtx, col]) hpp (by
    intro e he
    refine ⟨?_, hg2 e he⟩
    obtain ⟨r, hr, rfl⟩ := List.mem_map.mp he
    obtain ⟨lo, hi, hlo, hhi, hall⟩ := hwith
    obtain ⟨h1, h2⟩ := hall (r s) (List.mem_map_of_mem hr)
    obtain ⟨i1, i2⟩ := binIdx_lt hinc htwo hlo hhi h1 h2
    refine div_nonneg (sub_nonneg.mpr (hf r _ _ (hcast ?_))) (sub_pos.mpr h01).le
    have q1 : (bumpLast EPS L)[binIdx L (r s)]? = some ((bumpLast EPS L)[binIdx L (r s)]'(by omega)) := List.getElem?_eq_getElem (by omega)
    have q2 : (bumpLast EPS L)[binIdx L (r s) - 1]? = some ((bumpLast EPS L)[binIdx L (r s) - 1]'(by omega)) := List.getElem?_eq_getElem (by omega)
    simp only [List.getD_eq_getElem?_getD, q1, q2, Option.getD_some]
    exact increasing_getElem?_le hinc' q2 q1 (by omega))
  exact hg.mono (fun e he => (hb e he).1) hu z

/-! ### PDP -/

theorem avg_le_avg {α : Type} {l : List α} {g h : α → K} (hle : ∀ a ∈ l, g a ≤ h a) : avg (l.map g) ≤ avg (l.map h) := by
  unfold avg
  rw [List.length_map, List.length_map]
  exact div_le_div_of_nonneg_right (List.sum_le_sum hle) (Nat.cast_nonneg _)

theorem avg_sub {α : Type} (l : List α) (g h : α → K) : avg (l.map fun a => g a - h a) = avg (l.map g) - avg (l.map h) := by
  unfold avg
  rw [List.length_map, List.length_map, List.length_map, ← sub_div]
  congr 1
  induction l with
  | nil => simp
  | cons a t ih => simp only [List.map_cons, List.sum_cons, ih]; ring

/-- **C73, PDP.**  If the slope of the model in feature `s` lies between `g1` and `g2`, everything else being equal, so does the slope of the PDP between any two
points, after any non-interfering history of calls (C31) and for any centring.  With `g1 = 0`: the PDP of a monotone model is monotone. -/
theorem C73_pdp_slopes [PySqrt K] (f : Row K D → K) (lo hi : Fin D → K) (data : List (Row K D)) (s : Fin D) (g1 g2 : K)
    (hf : ∀ r v w, v ≤ w → g1 * (w - v) ≤ f (Function.update r s w) - f (Function.update r s v) ∧
      f (Function.update r s w) - f (Function.update r s v) ≤ g2 * (w - v))
    (calls : List (PdpOp K D)) (hcalls : ∀ op ∈ calls, PdpCallOk data lo hi s op) (xs : List K) (c : PyVal) (vec : Bool)
    (hin : ∃ r ∈ data, lo s ≤ r s ∧ r s ≤ hi s) (y : List K)
    (h : pdpEvalAfter (.pdp f) lo hi data calls s xs false c false vec = .ok (.meanOnly y)) (x0 x1 : K) : SlopesIn g1 g2 x0 x1 xs y := by
  unfold pdpEvalAfter at h
  rw [pdp_eval_spec (.pdp f) lo hi data s calls hcalls] at h
  cases hm : prepCentering c with
  | error e => rw [hm] at h; cases h
  | ok m =>
    rw [hm] at h
    simp only [] at h
    unfold PdpModel.value at h
    by_cases h1 : lo s < hi s
    swap
    · rw [if_pos h1] at h; cases h
    rw [if_neg (not_not.mpr h1)] at h
    by_cases h2 : vec = false ∧ xs = []
    · rw [if_pos h2] at h; cases h
    rw [if_neg h2] at h
    simp only [report, Bool.false_eq_true, if_false, Except.ok.injEq, PdpOut.meanOnly.injEq] at h
    subst h
    intro i j a b u v ha hb hu hv _ hab _
    have hne := used_ne hin
    unfold PdpModel.ice at hu hv
    simp only [List.map_map, List.getElem?_map, ha, hb, Option.map_some, Option.some.injEq, Function.comp_apply] at hu hv
    subst hu hv
    rw [← avg_sub]
    refine avg_bounds (fun y hy => ?_) (by simpa using hne)
    obtain ⟨r, -, rfl⟩ := List.mem_map.mp hy
    have := hf r a b hab
    simp only [PdpModel.at]
    rwa [sub_sub_sub_cancel_right]

/-- **C73, PDP, monotone models.** -/
theorem C73_pdp_monotone [PySqrt K] (f : Row K D → K) (lo hi : Fin D → K) (data : List (Row K D)) (s : Fin D)
    (hf : ∀ r v w, v ≤ w → f (Function.update r s v) ≤ f (Function.update r s w))
    (calls : List (PdpOp K D)) (hcalls : ∀ op ∈ calls, PdpCallOk data lo hi s op) (xs : List K) (c : PyVal) (vec : Bool) (y : List K)
    (h : pdpEvalAfter (.pdp f) lo hi data calls s xs false c false vec = .ok (.meanOnly y)) : NeverDecreases xs y := by
  unfold pdpEvalAfter at h
  rw [pdp_eval_spec (.pdp f) lo hi data s calls hcalls] at h
  cases hm : prepCentering c with
  | error e => rw [hm] at h; cases h
  | ok m =>
    rw [hm] at h
    simp only [] at h
    unfold PdpModel.value at h
    by_cases h1 : lo s < hi s
    swap
    · rw [if_pos h1] at h; cases h
    rw [if_neg (not_not.mpr h1)] at h
    by_cases h2 : vec = false ∧ xs = []
    · rw [if_pos h2] at h; cases h
    rw [if_neg h2] at h
    simp only [report, Bool.false_eq_true, if_false, Except.ok.injEq, PdpOut.meanOnly.injEq] at h
    subst h
    intro i j a b u v ha hb hu hv hab
    unfold PdpModel.ice at hu hv
    simp only [List.map_map, List.getElem?_map, ha, hb, Option.map_some, Option.some.injEq, Function.comp_apply] at hu hv
    subst hu hv
    refine avg_le_avg fun r _ => ?_
    have := hf r a b hab
    simp only [PdpModel.at]
    linarith

/-! ### The hypotheses are met -/

/-- RHALE of `x²` on `0 … 3`: the derivatives lie between 0 and 6, `eval` succeeds. -/
example : (∀ e ∈ exBase.data.map (fun r (j : Fin 1) => 2 * r j), (0 : ℚ) ≤ e 0 ∧ e 0 ≤ 6) ∧ (∀ s, exBase.axisLo s < exBase.axisHi s) ∧
    (aleEval exRhale (aleRun exRhale exCalls) 0 [0, 1, 2, 3] false (.str "zero_start")).2 = .ok ([0, 1, 4, 9], none) := by
  refine ⟨by decide +kernel, fun s => by show (0 : ℚ) < 3; norm_num, by decide +kernel⟩

/-- ALE of `x³`, which is monotone. -/
example : (∀ (r : Row ℚ 1) (v w : ℚ), v ≤ w → (Function.update r 0 v) 0 ^ 3 ≤ (Function.update r 0 w) 0 ^ 3) ∧
    (aleEval (aleCfg id (List.map fun r : Row ℚ 1 => r 0 ^ 3) exBase) (aleRun (aleCfg id (List.map fun r : Row ℚ 1 => r 0 ^ 3) exBase)
      [.fit (.int 0) (.fixed 3 (some 2) 0) (.bool false)]) 0 [0, 1, 2] false (.bool false)).2 = .ok ([0, 1, 8], none) := by
  refine ⟨fun r v w h => ?_, by decide +kernel⟩
  simp only [Function.update_self]
  exact (Odd.strictMono_pow (by decide : Odd 3)).monotone h

/-- PDP of `x_0 + x_1`, which is monotone in feature 0 with slope 1. -/
example : (∀ (r : Row ℚ 2) (v w : ℚ), v ≤ w →
      1 * (w - v) ≤ (Function.update r 0 w) 0 + (Function.update r 0 w) 1 - ((Function.update r 0 v) 0 + (Function.update r 0 v) 1) ∧
      (Function.update r 0 w) 0 + (Function.update r 0 w) 1 - ((Function.update r 0 v) 0 + (Function.update r 0 v) 1) ≤ 1 * (w - v)) ∧
    pdpEvalAfter (.pdp fun r : Row ℚ 2 => r 0 + r 1) ![0, 0] ![1, 10] [![0, 0], ![1, 10]] [] 0 [0, 1] false (.bool false) false true =
      .ok (.meanOnly [5, 6]) := by
  refine ⟨fun r v w _ => ?_, by decide +kernel⟩
  simp

end Effector
