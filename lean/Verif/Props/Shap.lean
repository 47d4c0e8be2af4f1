import Verif.Props.PdpHistory
import Mathlib.Algebra.BigOperators.Intervals

/-!
# C25-C28 for ShapDP

`shap.Explainer` and the spline fit are arbitrary functions (they may raise).
-/

set_option linter.unusedSectionVars false

namespace Effector

open Spec

variable {K : Type} [Field K] [LinearOrder K] [IsStrictOrderedRing K] {D : ℕ}

namespace Spec

/-- The trapezoid rule for the integral of `g` over `[a, b]` with `n` equidistant points `x_j = a + j (b - a) / (n - 1)`: every piece contributes its width times
the mean of the two end values. -/
def trapezoid (g : K → K) (a b : K) (n : ℕ) : K :=
  ∑ j ∈ Finset.range (n - 1), (b - a) / ((n - 1 : ℕ) : K) *
    ((g (a + (j : K) * ((b - a) / ((n - 1 : ℕ) : K))) + g (a + ((j : K) + 1) * ((b - a) / ((n - 1 : ℕ) : K)))) / 2)

/-- The constant that a centred ShapDP curve has to be shifted by: nothing; its value at the smallest used feature value `a`; its mean over `[a, b]` by
the trapezoid rule on `points` equidistant points. -/
def shapShift (curve : K → K) (a b : K) (points : ℕ) : Centering → K
  | .off => 0
  | .zeroStart => curve a
  | .zeroIntegral => trapezoid curve a b points / (b - a)

/-- `curve` (and `spread`) are what the external libraries give for the instances `used`: a spline through the SHAP values of feature `s`, sorted by the
feature value, which ranges from `a` to `b`. -/
structure ShapCurve (ext : ShapExt K D) (used : List (Row K D)) (s : Fin D) (curve spread : K → K) (a b : K) : Prop where
  fit : ∃ vals pairs, ext.explain used = .ok vals ∧ pairs.Perm ((used.map fun r => r s).zip (vals.map fun r => r s)) ∧
    pairs.Pairwise (fun p q => p.1 ≤ q.1) ∧ ext.spline pairs = .ok curve ∧
    ext.spline (pairs.map fun p => (p.1, |p.2 - curve p.1|)) = .ok spread ∧
    (∀ p, pairs.head? = some p → a = p.1) ∧ (∀ p, pairs.getLast? = some p → b = p.1)

end Spec

theorem trapz_range (g p : ℕ → K) (n : ℕ) :
    trapz ((List.range (n + 1)).map g) ((List.range (n + 1)).map p) = ∑ j ∈ Finset.range n, (p (j + 1) - p j) * ((g j + g (j + 1)) / 2) := by
  induction n generalizing g p with
  | zero => simp [trapz]
  | succ n ih =>
    have h1 : ∀ q : ℕ → K, (List.range (n + 1 + 1)).map q = q 0 :: (List.range (n + 1)).map fun i => q (i + 1) := by
      intro q
      rw [List.range_succ_eq_map, List.map_cons, List.map_map]
      rfl
    have h2 : ∀ q : ℕ → K, (List.range (n + 1)).map (fun i => q (i + 1)) = q 1 :: (List.range n).map fun i => q (i + 2) := by
      intro q
      rw [List.range_succ_eq_map, List.map_cons, List.map_map]
      rfl
    have := ih (fun i => g (i + 1)) (fun i => p (i + 1))
    rw [h1, h1, h2, h2, trapz, ← h2, ← h2, this, Finset.sum_range_succ' _ n]
    simp only [zero_add]
    ring

/-- `np.trapz` on a linspace is the trapezoid rule. -/
theorem trapz_linspace (g : K → K) (a b : K) (n : ℕ) (hn : 2 ≤ n) : trapz ((linspace a b n).map g) (linspace a b n) = trapezoid g a b n := by
  obtain ⟨k, rfl⟩ : ∃ k, n = k + 1 := ⟨n - 1, by omega⟩
  unfold linspace
  rw [List.map_map, trapz_range]
  unfold trapezoid
  refine Finset.sum_congr rfl fun j _ => ?_
  simp only [linspaceAt, Function.comp_apply, Nat.add_sub_cancel]
  push_cast
  ring

theorem sortPairs_spec (l : List (K × K)) : (sortPairs l).Perm l ∧ (sortPairs l).Pairwise (fun p q => p.1 ≤ q.1) := by
  unfold sortPairs
  have : Std.Total (fun a b : K × K => a.1 ≤ b.1) := ⟨fun a b => le_total a.1 b.1⟩
  have : IsTrans (K × K) (fun a b : K × K => a.1 ≤ b.1) := ⟨fun a b c h1 h2 => le_trans h1 h2⟩
  exact ⟨List.perm_insertionSort _ _, List.pairwise_insertionSort _ _⟩

/-- What is stored for feature `s` after a fit with mode `m` and `points` points. -/
structure ShapStored (cfg : ShapCfg K D) (data : List (Row K D)) (s : Fin D) (m : Centering) (points : ℕ) (fe : ShapFe K) : Prop where
  ex : ∃ used, used.Sublist data ∧ (∀ r ∈ used, cfg.axisLo s ≤ r s ∧ r s ≤ cfg.axisHi s) ∧ 2 ≤ points ∧
    (AllWithin data cfg.axisLo cfg.axisHi → used = data) ∧
    ∃ a b, ShapCurve cfg.ext used s fe.splineMean fe.splineStd a b ∧
      (m ≠ .off → fe.normConst = shapShift fe.splineMean a b points m) ∧
      ∃ (vals : List (Row K D)) (pairs : List (K × K)), cfg.ext.explain used = .ok vals ∧ pairs.Perm ((used.map fun r => r s).zip (vals.map fun r => r s)) ∧
        fe.xx = pairs.map (·.1) ∧ fe.yy = pairs.map (·.2)
  src : ∃ d, (AllWithin data cfg.axisLo cfg.axisHi → d = data) ∧ (shapFitFeature cfg.ext cfg.axisLo cfg.axisHi d s m points).2 = .ok fe

theorem shapFitFeature_stored {cfg : ShapCfg K D} {data d : List (Row K D)} (hd : d.Sublist data)
    (hw : AllWithin data cfg.axisLo cfg.axisHi → d = data) {s : Fin D} {m : Centering} {points : ℕ}
    (hp : 2 ≤ points) {fe : ShapFe K} (h : (shapFitFeature cfg.ext cfg.axisLo cfg.axisHi d s m points).2 = .ok fe) : ShapStored cfg data s m points fe := by
  refine ⟨?_, d, hw, h⟩
  unfold shapFitFeature at h
  simp only [bind, Except.bind] at h
  rw [dropOutside_eq] at h
  cases he : cfg.ext.explain (inLimits d cfg.axisLo cfg.axisHi s) with
  | error e => rw [he] at h; cases h
  | ok vals =>
    rw [he] at h
    simp only [] at h
    generalize hpairs : sortPairs ((col (inLimits d cfg.axisLo cfg.axisHi s) s).zip (col vals s)) = pairs at h
    cases hs : cfg.ext.spline pairs with
    | error e => rw [hs] at h; cases h
    | ok spl =>
      rw [hs] at h
      simp only [] at h
      cases hs2 : cfg.ext.spline (pairs.map fun p => (p.1, |p.2 - spl p.1|)) with
      | error e => rw [hs2] at h; cases h
      | ok std =>
        rw [hs2] at h
        simp only [] at h
        cases hn : shapNormConst spl (pairs.map (·.1)) m points with
        | error e => rw [hn] at h; cases h
        | ok nc =>
          rw [hn] at h
          cases h
          obtain ⟨hperm, hsort⟩ := sortPairs_spec ((col (inLimits d cfg.axisLo cfg.axisHi s) s).zip (col vals s))
          rw [hpairs] at hperm hsort
          refine ⟨inLimits d cfg.axisLo cfg.axisHi s, (List.filter_sublist).trans hd, ?_, hp, ?_, ?_⟩
          · intro r hr
            simpa using (List.mem_filter.mp hr).2
          · intro hw'
            have := hw hw'
            subst this
            unfold inLimits
            rw [List.filter_eq_self]
            intro r hr
            simpa using hw' r hr s
          · cases hh : pairs with
            | nil =>
              refine ⟨0, 0, ⟨vals, pairs, he, hperm, hsort, hs, hs2, by simp [hh], by simp [hh]⟩, fun hm => ?_, vals, pairs, he, hperm, by rw [hh], by rw [hh]⟩
              rw [hh] at hn
              cases m with
              | off => exact absurd rfl hm
              | zeroStart => cases hn
              | zeroIntegral => cases hn
            | cons p t =>
              have hne : pairs ≠ [] := by rw [hh]; simp
              refine ⟨p.1, (pairs.getLast hne).1, ⟨vals, pairs, he, hperm, hsort, hs, hs2, ?_, ?_⟩, fun hm => ?_, vals, pairs, he, hperm, by rw [hh], by rw [hh]⟩
              · rw [hh]; rintro q ⟨⟩; rfl
              · rw [List.getLast?_eq_some_getLast hne]; rintro q ⟨⟩; rfl
              · have h0 : pyIndex (pairs.map (·.1)) 0 = .ok p.1 := by
                  rw [hh]; rfl
                have h1 : pyIndex (pairs.map (·.1)) ((pairs.map (·.1)).length - 1) = .ok (pairs.getLast hne).1 := by
                  apply pyIndex_ok
                  rw [List.getElem?_map, List.length_map, ← List.getLast?_eq_getElem?, List.getLast?_eq_some_getLast hne]
                  rfl
                unfold shapNormConst at hn
                cases m with
                | off => exact absurd rfl hm
                | zeroStart =>
                  simp only [h0, bind, Except.bind, pure, Except.pure] at hn
                  cases hn; rfl
                | zeroIntegral =>
                  simp only [h0, h1, bind, Except.bind, pure, Except.pure] at hn
                  cases hn
                  show _ / _ = trapezoid spl _ _ points / _
                  rw [← trapz_linspace _ _ _ _ hp]

/-- Invariant of all histories. -/
structure ShapInv (cfg : ShapCfg K D) (data : List (Row K D)) (st : ShapState K D) : Prop where
  sub : st.data.Sublist data
  all : AllWithin data cfg.axisLo cfg.axisHi → st.data = data
  stored : ∀ s, st.fitted s = true → ∃ m fe points, st.args s = some m ∧ st.fe s = some fe ∧ ShapStored cfg data s m points fe

theorem shapFitLoop_inv {cfg : ShapCfg K D} {data : List (Row K D)} (m : Centering) {points : ℕ} (hp : 2 ≤ points) (l : List (Fin D))
    {st : ShapState K D} (h : ShapInv cfg data st) : ShapInv cfg data (shapFitLoop cfg m points st l).1 := by
  induction l generalizing st with
  | nil => exact h
  | cons t l ih =>
    unfold shapFitLoop
    have hd : (shapFitFeature cfg.ext cfg.axisLo cfg.axisHi st.data t m points).1 = dropOutside st.data (cfg.axisLo t) (cfg.axisHi t) t := rfl
    have hall : AllWithin data cfg.axisLo cfg.axisHi → dropOutside st.data (cfg.axisLo t) (cfg.axisHi t) t = data := by
      intro hw
      rw [h.all hw, dropOutside_within hw]
    have hsub : (dropOutside st.data (cfg.axisLo t) (cfg.axisHi t) t).Sublist data := by
      rw [dropOutside_eq]
      exact (List.filter_sublist).trans h.sub
    have hst := fun fe => shapFitFeature_stored (m := m) (s := t) (fe := fe) h.sub h.all hp
    rcases e : shapFitFeature cfg.ext cfg.axisLo cfg.axisHi st.data t m points with ⟨d, r⟩
    rw [e] at hd hst
    obtain rfl : d = _ := hd
    cases r with
    | error e => exact ⟨hsub, hall, h.stored⟩
    | ok fe =>
      refine ih ⟨hsub, hall, fun s hs => ?_⟩
      by_cases hst' : s = t
      · subst hst'
        exact ⟨m, fe, points, by simp, by simp, hst fe rfl⟩
      · simp only [Function.update_of_ne hst'] at hs ⊢
        exact h.stored s hs

theorem shapEval_inv {cfg : ShapCfg K D} {data : List (Row K D)} {st : ShapState K D} (h : ShapInv cfg data st) (s : Fin D) (xs : List K) (het : Bool)
    (c : PyVal) : ShapInv cfg data (shapEval cfg st s xs het c).1 := by
  unfold shapEval
  cases prepCentering c with
  | error e => exact h
  | ok m =>
    simp only []
    cases needsRefit (st.fitted s) (st.args s) m with
    | error e => exact h
    | ok b =>
      cases b with
      | false => exact h
      | true =>
        have h1 := shapFitLoop_inv m (points := 100) (by norm_num) [s] h
        simp only []
        rcases e : shapFitLoop cfg m 100 st [s] with ⟨q, r⟩
        rw [e] at h1
        cases r <;> exact h1

theorem shapRun_inv (cfg : ShapCfg K D) (data : List (Row K D)) (calls : List (ShapOp K D))
    (hp : ∀ f c p, ShapOp.fit f c p ∈ calls → 2 ≤ p) : ShapInv cfg data (shapRun cfg data calls) := by
  unfold shapRun
  have h0 : ShapInv cfg data (ShapState.init data) := ⟨List.Sublist.refl _, fun _ => rfl, fun s h => by cases h⟩
  generalize ShapState.init data = st at h0
  induction calls generalizing st with
  | nil => exact h0
  | cons op t ih =>
    refine ih (fun f c p h => hp f c p (List.mem_cons_of_mem _ h)) _ ?_
    cases op with
    | eval s xs het c => exact shapEval_inv h0 s xs het c
    | fit f c p =>
      have hp' := hp f c p List.mem_cons_self
      show ShapInv cfg data (shapFit cfg st f c p).1
      unfold shapFit
      cases (do let c ← prepCentering c
                let f ← prepFeatures f D
                let l ← resolveFeatures D f
                return (l, c) : Py (List (Fin D) × Centering)) with
      | error e => exact h0
      | ok q => exact shapFitLoop_inv q.2 hp' q.1 h0

theorem shapFitLoop_one {cfg : ShapCfg K D} {m : Centering} {points : ℕ} {st st' : ShapState K D} {s : Fin D}
    (h : shapFitLoop cfg m points st [s] = (st', .ok ())) : st'.fitted s = true ∧ st'.args s = some m := by
  unfold shapFitLoop at h
  rcases e : shapFitFeature cfg.ext cfg.axisLo cfg.axisHi st.data s m points with ⟨d, r⟩
  rw [e] at h
  cases r with
  | error e => cases h
  | ok fe =>
    simp only [shapFitLoop] at h
    cases h
    simp

theorem shapEvalFitted_spec {cfg : ShapCfg K D} {data : List (Row K D)} {st : ShapState K D} (h : ShapInv cfg data st) {s : Fin D}
    (hfit : st.fitted s = true) {m : Centering} (hm : m = .off ∨ st.args s = some m) {xs : List K} {het : Bool} {y : List K} {o : Option (List K)}
    (he : shapEvalFitted cfg st s xs het m = .ok (y, o)) :
    ∃ used points curve spread a b, used.Sublist data ∧ (∀ r ∈ used, cfg.axisLo s ≤ r s ∧ r s ≤ cfg.axisHi s) ∧ 2 ≤ points ∧
      (AllWithin data cfg.axisLo cfg.axisHi → used = data) ∧ ShapCurve cfg.ext used s curve spread a b ∧
      st.fe s = some ⟨curve, spread, (st.fe s).elim [] (·.xx), (st.fe s).elim [] (·.yy), (st.fe s).elim 0 (·.normConst)⟩ ∧
      y = (xs.map fun v => curve v - shapShift curve a b points m) ∧ o = if het then some (xs.map spread) else none := by
  obtain ⟨m', fe, points, hargs, hfe, hst⟩ := h.stored s hfit
  obtain ⟨used, h1, h2, h3, h4, a, b, h5, h6, -⟩ := hst.ex
  unfold shapEvalFitted pyAssert at he
  by_cases hlt : cfg.axisLo s < cfg.axisHi s
  · simp only [hlt, decide_true, if_true, bind, Except.bind, hfe, pure, Except.pure] at he
    cases he
    refine ⟨used, points, fe.splineMean, fe.splineStd, a, b, h1, h2, h3, h4, h5, by rw [hfe]; rfl, ?_, rfl⟩
    by_cases hoff : m = .off
    · simp [hoff, shapShift]
    · have hm' := hm.resolve_left hoff
      rw [hargs] at hm'
      cases hm'
      simp only [if_neg hoff, List.map_map]
      rw [h6 hoff]
      rfl
  · simp [hlt, bind, Except.bind] at he

/-- **C27 for ShapDP.**  After any history of `fit` and `eval` calls (centring grids with at least 2 points), a successful `eval` with centring mode `m`
returns the spline curve of the fitted instances minus the constant that belongs to `m` and to that curve; never the 1e8 placeholder nor the constant of
another mode.  The curve comes from instances within the axis limits of the feature; all of them, if no instance is outside of any limits. -/
theorem C27_shap_eval_uses_right_constant (cfg : ShapCfg K D) (data : List (Row K D)) (calls : List (ShapOp K D))
    (hp : ∀ f c p, ShapOp.fit f c p ∈ calls → 2 ≤ p) (s : Fin D) (xs : List K) (het : Bool) (c : PyVal) (y : List K) (o : Option (List K))
    (h : (shapEval cfg (shapRun cfg data calls) s xs het c).2 = .ok (y, o)) :
    ∃ m used points curve spread a b, prepCentering c = .ok m ∧ used.Sublist data ∧ (∀ r ∈ used, cfg.axisLo s ≤ r s ∧ r s ≤ cfg.axisHi s) ∧
      2 ≤ points ∧ (AllWithin data cfg.axisLo cfg.axisHi → used = data) ∧ ShapCurve cfg.ext used s curve spread a b ∧
      y = (xs.map fun v => curve v - shapShift curve a b points m) ∧ o = if het then some (xs.map spread) else none := by
  have hinv := shapRun_inv cfg data calls hp
  generalize shapRun cfg data calls = st at *
  unfold shapEval at h
  cases hc : prepCentering c with
  | error e => rw [hc] at h; cases h
  | ok m =>
    rw [hc] at h
    simp only [] at h
    refine ⟨m, ?_⟩
    cases hr : needsRefit (st.fitted s) (st.args s) m with
    | error e => rw [hr] at h; cases h
    | ok b =>
      rw [hr] at h
      cases b with
      | false =>
        obtain ⟨h1, h2⟩ := needsRefit_false hr
        obtain ⟨used, points, curve, spread, a, b, i1, i2, i3, i4, i5, -, i6, i7⟩ := shapEvalFitted_spec hinv h1 h2 h
        exact ⟨used, points, curve, spread, a, b, rfl, i1, i2, i3, i4, i5, i6, i7⟩
      | true =>
        simp only [] at h
        have h1 := shapFitLoop_inv m (points := 100) (by norm_num) [s] hinv
        rcases e : shapFitLoop cfg m 100 st [s] with ⟨q, r⟩
        rw [e] at h h1
        cases r with
        | error e => cases h
        | ok u =>
          obtain ⟨j1, j2⟩ := shapFitLoop_one e
          obtain ⟨used, points, curve, spread, a, b, i1, i2, i3, i4, i5, -, i6, i7⟩ := shapEvalFitted_spec h1 j1 (Or.inr j2) h
          exact ⟨used, points, curve, spread, a, b, rfl, i1, i2, i3, i4, i5, i6, i7⟩

theorem trapz_shift (g : K → K) (z : K) (x0 : K) (t : List K) :
    trapz ((x0 :: t).map fun v => g v - z) (x0 :: t) = trapz ((x0 :: t).map g) (x0 :: t) - z * ((x0 :: t).getLast (by simp) - x0) := by
  induction t generalizing x0 with
  | nil => simp [trapz]
  | cons x1 t ih =>
    simp only [List.map_cons, trapz]
    have := ih x1
    simp only [List.map_cons] at this
    rw [this, List.getLast_cons_cons]
    ring

/-- Subtracting the trapezoid mean makes the trapezoid integral 0. -/
theorem trapezoid_centred (g : K → K) (a b : K) (n : ℕ) (hn : 2 ≤ n) (hab : a ≠ b) :
    trapezoid (fun v => g v - shapShift g a b n .zeroIntegral) a b n = 0 := by
  rw [← trapz_linspace _ _ _ _ hn]
  unfold shapShift
  rw [← trapz_linspace g _ _ _ hn]
  obtain ⟨k, rfl⟩ : ∃ k, n = k + 2 := ⟨n - 2, by omega⟩
  cases hl : linspace a b (k + 2) with
  | nil =>
    have := congrArg List.length hl
    rw [length_linspace] at this
    simp at this
  | cons x0 t =>
    have h0 : x0 = a := by
      have := getElem?_linspace a b (k + 1) 0 (by omega)
      rw [hl] at this
      simpa using this
    have h1 : (x0 :: t).getLast (by simp) = b := by
      have := getElem?_linspace a b (k + 1) (k + 1) (by omega)
      have hlen : (x0 :: t).length = k + 2 := by rw [← hl, length_linspace]
      rw [hl] at this
      have hg : (x0 :: t).getLast? = some ((x0 :: t).getLast (by simp)) := List.getLast?_eq_some_getLast _
      rw [List.getLast?_eq_getElem?, hlen, show k + 2 - 1 = k + 1 from rfl, this] at hg
      have := Option.some.inj hg
      rw [← this]
      have hk : ((k + 1 : ℕ) : K) ≠ 0 := by positivity
      field_simp
      ring
    rw [trapz_shift, h1, h0]
    have : b - a ≠ 0 := sub_ne_zero.mpr (Ne.symm hab)
    field_simp
    ring

/-- **C26 for ShapDP.**  After any history, the centred curve has trapezoid integral 0 over the range `[a, b]` of the used feature values, on the
centring grid (`points` equidistant points).  (If all used values are equal there is no range.) -/
theorem C26_shap_zero_integral (cfg : ShapCfg K D) (data : List (Row K D)) (calls : List (ShapOp K D))
    (hp : ∀ f c p, ShapOp.fit f c p ∈ calls → 2 ≤ p) (s : Fin D) (c : PyVal) (hc : c = .bool true ∨ c = .str "zero_integral")
    (xs : List K) (het : Bool) (y : List K) (o : Option (List K))
    (h : (shapEval cfg (shapRun cfg data calls) s xs het c).2 = .ok (y, o)) :
    ∃ used curve spread a b points z, used.Sublist data ∧ ShapCurve cfg.ext used s curve spread a b ∧ y = xs.map (fun v => curve v - z) ∧ 2 ≤ points ∧
      (a ≠ b → trapezoid (fun v => curve v - z) a b points = 0) := by
  obtain ⟨m, used, points, curve, spread, a, b, hm, h1, -, h3, -, h5, h6, -⟩ :=
    C27_shap_eval_uses_right_constant cfg data calls hp s xs het c y o h
  have : m = .zeroIntegral := by
    rcases hc with rfl | rfl <;> cases hm <;> rfl
  subst this
  exact ⟨used, curve, spread, a, b, points, _, h1, h5, h6, h3, fun hab => trapezoid_centred curve a b points h3 hab⟩

/-- **C25 for ShapDP**: with `zero_start` the curve is 0 at the smallest used feature value. -/
theorem C25_shap_zero_start (cfg : ShapCfg K D) (data : List (Row K D)) (calls : List (ShapOp K D))
    (hp : ∀ f c p, ShapOp.fit f c p ∈ calls → 2 ≤ p) (s : Fin D) (xs : List K) (het : Bool) (y : List K) (o : Option (List K))
    (h : (shapEval cfg (shapRun cfg data calls) s xs het (.str "zero_start")).2 = .ok (y, o)) :
    ∃ used curve spread a b, used.Sublist data ∧ ShapCurve cfg.ext used s curve spread a b ∧ ∀ (t : ℕ), xs[t]? = some a → y[t]? = some (0 : K) := by
  obtain ⟨m, used, points, curve, spread, a, b, hm, h1, -, h3, -, h5, h6, -⟩ :=
    C27_shap_eval_uses_right_constant cfg data calls hp s xs het _ y o h
  have : m = .zeroStart := by cases hm; rfl
  subst this
  refine ⟨used, curve, spread, a, b, h1, h5, fun t ht => ?_⟩
  rw [h6, List.getElem?_map, ht]
  simp [shapShift]

/-- What is stored after a successful loop over features. -/
theorem shapFitLoop_stored {cfg : ShapCfg K D} {data : List (Row K D)} (m : Centering) {points : ℕ} (hp : 2 ≤ points) (l : List (Fin D))
    {st : ShapState K D} (h : ShapInv cfg data st) (hok : (shapFitLoop cfg m points st l).2 = .ok ()) (s : Fin D)
    (hs : s ∈ l ∨ (st.fitted s = true ∧ st.args s = some m ∧ ∃ fe, st.fe s = some fe ∧ ShapStored cfg data s m points fe)) :
    (shapFitLoop cfg m points st l).1.fitted s = true ∧ (shapFitLoop cfg m points st l).1.args s = some m ∧
      ∃ fe, (shapFitLoop cfg m points st l).1.fe s = some fe ∧ ShapStored cfg data s m points fe := by
  induction l generalizing st with
  | nil =>
    rcases hs with hs | hs
    · cases hs
    · exact hs
  | cons t l ih =>
    have h1 := shapFitLoop_inv m hp [t] h
    have hst := fun fe => shapFitFeature_stored (m := m) (s := t) (fe := fe) h.sub h.all hp
    unfold shapFitLoop at hok ⊢
    unfold shapFitLoop at h1
    rcases e : shapFitFeature cfg.ext cfg.axisLo cfg.axisHi st.data t m points with ⟨d, r⟩
    rw [e] at hok h1 hst
    cases r with
    | error e => cases hok
    | ok fe =>
      simp only [shapFitLoop] at hok h1 ⊢
      refine ih h1 hok ?_
      by_cases hst' : s = t
      · subst hst'
        exact Or.inr ⟨by simp, by simp, fe, by simp, hst fe rfl⟩
      · rcases hs with hs | hs
        · exact Or.inl ((List.mem_cons.mp hs).resolve_left hst')
        · refine Or.inr ?_
          simp only [Function.update_of_ne hst']
          exact hs

/-- **C27 for ShapDP, the centring grid.**  Right after a successful `fit` of feature `s` (among others) with a centring mode and `points_for_centering = p`, `eval`
without centring or with the same mode returns the curve minus the constant of that mode computed with these `p` points. -/
theorem C27_shap_after_fit (cfg : ShapCfg K D) (data : List (Row K D)) (calls : List (ShapOp K D)) (hp : ∀ f c p, ShapOp.fit f c p ∈ calls → 2 ≤ p)
    (features c : PyVal) (p : ℕ) (hp2 : 2 ≤ p) (m : Centering) (hm : prepCentering c = .ok m) (l : List (Fin D))
    (hl : (prepFeatures features D).bind (resolveFeatures D) = .ok l) (s : Fin D) (hs : s ∈ l)
    (hok : (shapFit cfg (shapRun cfg data calls) features c p).2 = .ok ())
    (c' : PyVal) (m' : Centering) (hm' : prepCentering c' = .ok m') (hmm : m' = m ∨ m' = .off) (xs : List K) (het : Bool) (y : List K) (o : Option (List K))
    (h : (shapEval cfg (shapRun cfg data (calls ++ [.fit features c p])) s xs het c').2 = .ok (y, o)) :
    ∃ used curve spread a b, used.Sublist data ∧ (∀ r ∈ used, cfg.axisLo s ≤ r s ∧ r s ≤ cfg.axisHi s) ∧ (AllWithin data cfg.axisLo cfg.axisHi → used = data) ∧
      ShapCurve cfg.ext used s curve spread a b ∧ y = (xs.map fun v => curve v - shapShift curve a b p m') ∧ o = if het then some (xs.map spread) else none := by
  have hinv := shapRun_inv cfg data calls hp
  have hrun : shapRun cfg data (calls ++ [.fit features c p]) = (shapFit cfg (shapRun cfg data calls) features c p).1 := by
    unfold shapRun
    rw [List.foldl_append]
    rfl
  rw [hrun] at h
  have hl' : ∀ q, (do let f ← prepFeatures features D
                      let l ← resolveFeatures D f
                      return (l, q) : Py (List (Fin D) × Centering)) = .ok (l, q) := by
    intro q
    simp only [bind, Except.bind, pure, Except.pure] at hl ⊢
    cases hf : prepFeatures features D with
    | error e => rw [hf] at hl; cases hl
    | ok f =>
      rw [hf] at hl
      simp only at hl ⊢
      rw [hl]
  have hfit : shapFit cfg (shapRun cfg data calls) features c p = shapFitLoop cfg m p (shapRun cfg data calls) l := by
    unfold shapFit
    rw [hm]
    have := hl' m
    simp only [bind, Except.bind, pure, Except.pure] at this ⊢
    rw [this]
  rw [hfit] at h hok
  obtain ⟨g1, g2, fe, g3, g4⟩ := shapFitLoop_stored m hp2 l hinv hok s (Or.inl hs)
  generalize (shapFitLoop cfg m p (shapRun cfg data calls) l).1 = st at *
  unfold shapEval at h
  rw [hm'] at h
  have hnr : needsRefit (st.fitted s) (st.args s) m' = .ok false := by
    rw [g1, g2]
    unfold needsRefit
    rcases hmm with rfl | rfl <;> simp
  simp only [hnr] at h
  obtain ⟨used, h1, h2, -, h4, a, b, h5, h6, -⟩ := g4.ex
  unfold shapEvalFitted pyAssert at h
  by_cases hlt : cfg.axisLo s < cfg.axisHi s
  · simp only [hlt, decide_true, if_true, bind, Except.bind, g3, pure, Except.pure] at h
    cases h
    refine ⟨used, fe.splineMean, fe.splineStd, a, b, h1, h2, h4, h5, ?_, rfl⟩
    by_cases hoff : m' = .off
    · simp [hoff, shapShift]
    · have := hmm.resolve_right hoff
      subst this
      simp only [if_neg hoff, List.map_map]
      rw [h6 hoff]
      rfl
  · simp [hlt, bind, Except.bind] at h

/-- Non-vacuity: a SHAP explainer that returns the feature values and a "spline" that is the square; a history and a centred evaluation. -/
def exShap : ShapCfg ℚ 1 :=
  { ext := { explain := fun d => .ok d, spline := fun _ => .ok fun x => x ^ 2 }, axisLo := ![0], axisHi := ![4] }

example : (shapEval exShap (shapRun exShap [![1], ![3]] [.fit (.int 0) (.bool false) 100, .eval 0 [2] false (.str "zero_start")])
    0 [1, 2, 3] false (.str "zero_start")).2 = .ok ([0, 3, 8], none) := by
  decide +kernel

/-- The centring grid of `fit` is used: three points on `[1, 3]` give the mean 9/2 of `x^2` (two pieces of areas 5/2 and 13/2), two points give 5; and centring only shifts. -/
example :
    (shapEval exShap (shapRun exShap [![1], ![3]] [.fit (.int 0) (.bool true) 3]) 0 [1, 2, 3] true (.bool true)).2 = .ok ([-7 / 2, -1 / 2, 9 / 2], some [1, 4, 9]) ∧
    (shapEval exShap (shapRun exShap [![1], ![3]] [.fit (.int 0) (.bool true) 2]) 0 [1, 2, 3] true (.bool true)).2 = .ok ([-4, -1, 4], some [1, 4, 9]) ∧
    (shapEval exShap (shapRun exShap [![1], ![3]] [.fit (.int 0) (.bool true) 3]) 0 [1, 2, 3] true (.bool false)).2 = .ok ([1, 4, 9], some [1, 4, 9]) ∧
    AllWithin [![(1 : ℚ)], ![3]] exShap.axisLo exShap.axisHi := by
  refine ⟨by decide +kernel, by decide +kernel, by decide +kernel, ?_⟩
  intro r hr t
  fin_cases t
  simp at hr
  rcases hr with rfl | rfl <;> simp [exShap]
  norm_num

end Effector
