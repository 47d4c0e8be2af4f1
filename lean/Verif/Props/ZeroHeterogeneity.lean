import Verif.Props.ShapeRhale
import Verif.Props.Superposition
import Verif.Props.RegionUnitsApi
import Verif.Lemmas.RealSqrt

/-!
# C123: what a heterogeneity of zero says
-/

namespace Effector

set_option linter.unusedSectionVars false

open Spec

variable {K : Type} [Field K] [LinearOrder K] [IsStrictOrderedRing K] {D : ℕ}

namespace Spec

/-- Any two instances whose value of feature `s` lies in the same bin (and below `x`) have the same effect, for the effects given by `g k r` (bin, instance). -/
def BinsAgree {α : Type} (limits : List K) (value : α → K) (effect : ℕ → α → K) (used : List α) (below : K → Prop) : Prop :=
  ∀ p ∈ used, ∀ q ∈ used, ∀ k, InBin limits k (value p) → InBin limits k (value q) → below (value p) → effect k p = effect k q

end Spec

/-! ### Variance zero -/

theorem sum_sq_zero {α : Type} (l : List α) (f : α → K) (h : (l.map fun a => f a ^ 2).sum = 0) : ∀ a ∈ l, f a = 0 := by
  induction l with
  | nil => simp
  | cons a t ih =>
    simp only [List.map_cons, List.sum_cons] at h
    have h1 : 0 ≤ f a ^ 2 := sq_nonneg _
    have h2 : 0 ≤ (t.map fun a => f a ^ 2).sum := sum_nonneg' _ _ fun _ _ => sq_nonneg _
    intro b hb
    rcases List.mem_cons.mp hb with rfl | hb
    · exact pow_eq_zero_iff (two_ne_zero) |>.mp (le_antisymm (by linarith) h1)
    · exact ih (le_antisymm (by linarith) h2) b hb

theorem popVar_zero_iff (l : List K) : popVar l = 0 ↔ ∀ y ∈ l, ∀ y' ∈ l, y = y' := by
  constructor
  · intro h y hy y' hy'
    have hl : (l.length : K) ≠ 0 := by
      have := List.length_pos_of_mem hy
      exact_mod_cast this.ne'
    unfold popVar at h
    have := sum_sq_zero l (fun y => y - avg l) ((div_eq_zero_iff.mp h).resolve_right hl)
    rw [sub_eq_zero.mp (this y hy), sub_eq_zero.mp (this y' hy')]
  · intro h
    cases l with
    | nil => simp [popVar]
    | cons a t => exact popVar_const (c := a) fun y hy => h y hy a (by simp)

theorem sqrt_zero_iff [PySqrt K] [LawfulSqrt K] {v : K} (h : 0 ≤ v) : PySqrt.sqrt v = 0 ↔ v = 0 := by
  constructor
  · intro h0
    rw [← LawfulSqrt.sqrt_mul_self v h, h0, mul_zero]
  · rintro rfl
    exact sqrt_zero

/-! ### PDP, d-PDP -/

/-- **C123.**  After any calls that respect the axis limits: the band of the PDP (or d-PDP) has no width at an evaluated position exactly if all instances in use have the same (centred) output there. -/
theorem C123_pdp [PySqrt K] [LawfulSqrt K] (M : PdpModel K D) (lo hi : Fin D → K) (data : List (Row K D)) (s : Fin D) (calls : List (PdpOp K D))
    (hcalls : ∀ op ∈ calls, PdpCallOk data lo hi s op) (xs : List K) (vec : Bool) (ha : EvalArgsOk data lo hi s xs vec) (c : PyVal) (m : Centering)
    (hc : prepCentering c = .ok m) :
    ∃ mu std, pdpEvalAfter M lo hi data calls s xs true c false vec = .ok (.meanStd mu std) ∧
      ∀ (i : ℕ) (x : K), xs[i]? = some x → (std[i]? = some 0 ↔
        ∀ r ∈ inLimits data lo hi s, ∀ r' ∈ inLimits data lo hi s, M.at s x r - M.shift lo hi s r m = M.at s x r' - M.shift lo hi s r' m) := by
  refine ⟨_, _, evalAfter_ok M lo hi data s calls hcalls xs true hc false vec ha, ?_⟩
  intro i x hx
  simp only [PdpModel.ice, List.getElem?_map, hx, Option.map_some, Option.some.injEq]
  rw [sqrt_zero_iff (popVar_nonneg _), popVar_zero_iff]
  simp only [List.forall_mem_map]

/-- **C123, no interaction along the curve**: where the band has no width at two positions, going from one to the other changes the output of every instance in use by the same amount, and this amount
is the change of the curve.  So if the band has no width anywhere, the curve is, up to its level, the effect of the feature for every single instance. -/
theorem C123_pdp_no_interaction [PySqrt K] [LawfulSqrt K] (M : PdpModel K D) (lo hi : Fin D → K) (data : List (Row K D)) (s : Fin D) (calls : List (PdpOp K D))
    (hcalls : ∀ op ∈ calls, PdpCallOk data lo hi s op) (xs : List K) (vec : Bool) (ha : EvalArgsOk data lo hi s xs vec) (c : PyVal) (m : Centering)
    (hc : prepCentering c = .ok m) :
    ∃ mu std, pdpEvalAfter M lo hi data calls s xs true c false vec = .ok (.meanStd mu std) ∧
      ∀ (i j : ℕ) (x y : K), xs[i]? = some x → xs[j]? = some y → std[i]? = some 0 → std[j]? = some 0 →
        ∃ u v, mu[i]? = some u ∧ mu[j]? = some v ∧ ∀ r ∈ data, lo s ≤ r s → r s ≤ hi s → M.at s y r - M.at s x r = v - u := by
  obtain ⟨mu, std, h, h0⟩ := C123_pdp M lo hi data s calls hcalls xs vec ha c m hc
  have hev := evalAfter_ok M lo hi data s calls hcalls xs true hc false vec ha
  rw [hev] at h
  cases h
  refine ⟨_, _, hev, ?_⟩
  intro i j x y hx hy hi' hj
  have key : ∀ (i : ℕ) (x : K), xs[i]? = some x → ((M.ice lo hi (inLimits data lo hi s) s m xs).map fun row => PySqrt.sqrt (popVar row))[i]? = some 0 →
      ∃ u, ((M.ice lo hi (inLimits data lo hi s) s m xs).map avg)[i]? = some u ∧ ∀ r ∈ inLimits data lo hi s, M.at s x r - M.shift lo hi s r m = u := by
    intro i x hx hi'
    have := (h0 i x hx).mp hi'
    refine ⟨_, by simp [PdpModel.ice, List.getElem?_map, hx]; rfl, ?_⟩
    intro r hr
    refine (avg_const (c := M.at s x r - M.shift lo hi s r m) ?_ ?_).symm
    · intro z hz
      obtain ⟨r', hr', rfl⟩ := List.mem_map.mp hz
      exact this r' hr' r hr
    · simpa using List.ne_nil_of_mem hr
  obtain ⟨u, hu, eu⟩ := key i x hx hi'
  obtain ⟨v, hv, ev⟩ := key j y hy hj
  refine ⟨u, v, hu, hv, fun r hr h1 h2 => ?_⟩
  have hr' : r ∈ inLimits data lo hi s := List.mem_filter.mpr ⟨hr, by simp [h1, h2]⟩
  rw [← eu r hr', ← ev r hr']
  ring

/-! ### The accumulated deviation -/

theorem stepIntegral_zero_iff {limits es : List K} (hinc : Increasing limits) (hlen : es.length + 1 = limits.length) (hes : ∀ e ∈ es, 0 ≤ e) (x : K) :
    stepIntegral limits es x = 0 ↔ ∀ (k : ℕ) (l e : K), limits[k]? = some l → es[k]? = some e → l < x → e = 0 := by
  induction limits generalizing es with
  | nil => simp at hlen
  | cons l0 t ih =>
    cases t with
    | nil =>
      have : es = [] := List.length_eq_zero_iff.mp (by simpa using hlen)
      subst this
      simp [stepIntegral]
    | cons l1 t =>
      cases es with
      | nil => simp at hlen
      | cons e es =>
        have h01 : l0 < l1 := (List.pairwise_cons.mp hinc).1 l1 (by simp)
        have h1 : 0 ≤ e * (min x l1 - min x l0) := mul_nonneg (hes e (by simp)) (sub_nonneg.mpr (min_le_min_left _ h01.le))
        have h2 : 0 ≤ stepIntegral (l1 :: t) es x := by
          have := C13_stepIntegral_mono (l1 :: t) es (List.pairwise_cons.mp hinc).2 (fun e he => hes e (by simp [he])) (min x l1) x (min_le_left _ _)
          rwa [C01_spec_zero_left (l1 :: t) es (List.pairwise_cons.mp hinc).2 l1 (min x l1) rfl (min_le_right _ _)] at this
        have hd : (min x l1 - min x l0 = 0) ↔ ¬ l0 < x := by
          rw [sub_eq_zero]
          constructor
          · intro h hlt
            rw [min_eq_right hlt.le] at h
            rcases min_choice x l1 with h3 | h3 <;> rw [h3] at h
            · exact absurd h hlt.ne'
            · exact absurd h h01.ne'
          · intro h
            have := not_lt.mp h
            rw [min_eq_left this, min_eq_left (this.trans h01.le)]
        have hih := ih (es := es) (List.pairwise_cons.mp hinc).2 (by simpa using hlen) fun e he => hes e (by simp [he])
        have e0 : stepIntegral (l0 :: l1 :: t) (e :: es) x = e * (min x l1 - min x l0) + stepIntegral (l1 :: t) es x := rfl
        rw [e0]
        constructor
        · intro h k l e' hl he' hlx
          cases k with
          | zero =>
            simp only [List.getElem?_cons_zero, Option.some.injEq] at hl he'
            subst hl he'
            have : e * (min x l1 - min x l0) = 0 := le_antisymm (by linarith) h1
            exact (mul_eq_zero.mp this).resolve_right fun hc => hd.mp hc hlx
          | succ k => exact hih.mp (le_antisymm (by linarith) h2) k l e' (by simpa using hl) (by simpa using he') hlx
        · intro h
          rw [hih.mpr fun k l e' hl he' hlx => h (k + 1) l e' (by simpa using hl) (by simpa using he') hlx, add_zero]
          by_cases hx : l0 < x
          · rw [h 0 l0 e rfl rfl hx, zero_mul]
          · rw [hd.mpr hx, mul_zero]

theorem computeAleParams_kept {limits xs eff : List K} {p : AleParams K} (hinc : Increasing limits)
    (htwo : 2 ≤ limits.length) (hin : Within limits xs) (hlen : eff.length = xs.length)
    (h : computeAleParams xs eff limits = .ok p) (k : ℕ) (hk : k < limits.length - 1) (h2 : 2 ≤ (binEffects limits xs eff k).length) :
    p.binVariance[k]? = some (popVar (binEffects limits xs eff k)) := by
  have hset : BinSetting limits xs eff := ⟨hinc, htwo, hin, hlen⟩
  have hbe := computeBinEffect_eq hset
  have hbv := computeBinVariance_eq hset hbe
  unfold computeAleParams at h
  rw [hbe] at h
  simp only [bind, Except.bind] at h
  rw [hbv] at h
  simp only [] at h
  split at h
  · cases h
  · split at h
    · cases h
    · rename_i bv' hbv'
      split at h
      · cases h
      cases h
      dsimp only
      have hkn : ((List.range (limits.length - 1)).map fun k =>
            if 2 ≤ (binEffects limits xs eff k).length then some (popVar (binEffects limits xs eff k)) else none)[k]? = some (some (popVar (binEffects limits xs eff k))) := by
        rw [List.getElem?_map, List.getElem?_range hk, Option.map_some, if_pos h2]
      obtain ⟨y, hy, -, hkeep, -⟩ := C05_fill_nans _ ⟨_, List.mem_of_getElem? hkn, by simp⟩
      rw [hbv'] at hy
      cases hy
      exact hkeep _ _ hkn

theorem GoodParams.hetZeroAt [PySqrt K] [LawfulSqrt K] {p : AleParams K} (hp : GoodParams p) (hv : ∀ v ∈ p.binVariance, 0 ≤ v) {xs h : List K} (he : evalHet p xs = .ok h)
    {i : ℕ} {x : K} (hx : xs[i]? = some x) (hi : h[i]? = some 0) (hxb : x ≤ 10 ^ 8) :
    ∀ (k : ℕ) (l v : K), p.limits[k]? = some l → p.binVariance[k]? = some v → l < x → v = 0 := by
  obtain ⟨el, hel, hacc⟩ := hp.acc (p.binVariance.map PySqrt.sqrt) xs (by rw [List.length_map]; exact hp.bv)
  unfold evalHet at he
  rw [hacc] at he
  cases he
  simp only [List.getElem?_map, hx, Option.map_some, Option.some.injEq] at hi
  rw [if_neg (by unfold BIG_M; intro hc; exact absurd hc.2 (not_lt.mpr hxb)), add_zero] at hi
  have h2 := hp.two
  have := (stepIntegral_zero_iff hp.inc (by rw [List.length_map, hp.bv]; omega) (by
    intro e he
    obtain ⟨v, -, rfl⟩ := List.mem_map.mp he
    exact LawfulSqrt.sqrt_nonneg v) x).mp hi
  intro k l v hl hv' hlx
  exact (sqrt_zero_iff (hv v (List.mem_of_getElem? hv'))).mp (this k l (PySqrt.sqrt v) hl (by rw [List.getElem?_map, hv', Option.map_some]) hlx)

/-- What both methods need: parameters made from (value, effect) pairs. -/
theorem computeAleParams_hetZero [PySqrt K] [LawfulSqrt K] {α : Type} {limits : List K} (used : List α) (value effect : α → K) {p : AleParams K} (hp : GoodParams p) (hl : p.limits = limits)
    (hin : Within limits (used.map value)) (h : computeAleParams (used.map value) (used.map effect) limits = .ok p) {xs het : List K} (he : evalHet p xs = .ok het) :
    (∀ (i : ℕ) (x : K), xs[i]? = some x → het[i]? = some 0 → x ≤ 10 ^ 8 → BinsAgree limits value (fun _ => effect) used fun v => v < x) ∧
    (BinsAgree limits value (fun _ => effect) used (fun _ => True) → het = xs.map fun _ => 0) := by
  subst hl
  have hlen : (used.map effect).length = (used.map value).length := by simp
  obtain ⟨-, -, -, ⟨bv, hbv, hbvk⟩, -⟩ := computeAleParams_good hp.inc hp.two hin hlen h
  have hbin : ∀ k, binEffects p.limits (used.map value) (used.map effect) k = (used.filter fun z => InBin p.limits k (value z)).map effect := fun k => binEffects_map _ _ _ _ _
  have hnn : ∀ v ∈ p.binVariance, 0 ≤ v := by
    obtain ⟨g, hg⟩ := exists_upper (bv.filterMap id)
    intro v hv
    exact (fillNans_bounds hbv (g1 := 0) (g2 := g) (fun v hv' => ⟨by
      obtain ⟨k, rfl⟩ := hbvk v hv'
      exact popVar_nonneg _, hg v (List.mem_filterMap.mpr ⟨_, hv', rfl⟩)⟩) v hv).1
  constructor
  · intro i x hx hi hxb p1 hp1 q hq k hk1 hk2 hlt
    by_contra hne
    have hm1 : p1 ∈ used.filter fun z => InBin p.limits k (value z) := List.mem_filter.mpr ⟨hp1, by simpa using hk1⟩
    have hm2 : q ∈ used.filter fun z => InBin p.limits k (value z) := List.mem_filter.mpr ⟨hq, by simpa using hk2⟩
    have h2 : 2 ≤ (binEffects p.limits (used.map value) (used.map effect) k).length := by
      rw [hbin, List.length_map]
      by_contra hc
      have : (used.filter fun z => InBin p.limits k (value z)).length = 1 := by
        have := List.length_pos_of_mem hm1
        omega
      obtain ⟨z, hz⟩ := List.length_eq_one_iff.mp this
      rw [hz, List.mem_singleton] at hm1 hm2
      exact hne (by rw [hm1, hm2])
    obtain ⟨a, ha, b, hb, h3, -⟩ := hk1
    have hk : k < p.limits.length - 1 := by
      simp only [Option.mem_def] at hb
      have := (List.getElem?_eq_some_iff.mp hb).1
      omega
    have hv := computeAleParams_kept hp.inc hp.two hin hlen h k hk h2
    have h0 := hp.hetZeroAt hnn he hx hi hxb k a _ ha hv (lt_of_le_of_lt h3 hlt)
    rw [popVar_zero_iff, hbin] at h0
    exact hne (h0 _ (List.mem_map.mpr ⟨_, hm1, rfl⟩) _ (List.mem_map.mpr ⟨_, hm2, rfl⟩))
  · intro hag
    have hz : ∀ v ∈ p.binVariance, v = 0 := by
      refine fillNans_const hbv ?_
      intro v hv
      obtain ⟨k, rfl⟩ := hbvk v hv
      rw [popVar_zero_iff, hbin]
      intro y hy y' hy'
      obtain ⟨a, ha, rfl⟩ := List.mem_map.mp hy
      obtain ⟨b, hb, rfl⟩ := List.mem_map.mp hy'
      obtain ⟨a1, a2⟩ := List.mem_filter.mp ha
      obtain ⟨b1, b2⟩ := List.mem_filter.mp hb
      exact hag a a1 b b1 k (by simpa using a2) (by simpa using b2) trivial
    rw [hp.het_zero hz] at he
    cases he
    rfl

/-! ### After any calls -/

/-- After a successful `eval`, the stored parameters of the feature come from a fit with a method of the calls (or the default) and gave the result. -/
theorem eval_stored [PySqrt K] {cfg : AleCfg K D} {calls : List (AleOp K D)} (P : BinMethod K → Prop) (hdef : P cfg.defaultBin) (hev : ∀ bm, P bm → Evaluable cfg bm)
    (hP : ∀ f bm c, AleOp.fit f bm c ∈ calls → P bm) {s : Fin D} {c : PyVal} {xs : List K} {y : List K} {o : Option (List K)}
    (h : (aleEval cfg (aleRun cfg calls) s xs true c).2 = .ok (y, o)) :
    ∃ bm p z het, P bm ∧ cfg.fitF s bm = .ok p ∧ (aleEval cfg (aleRun cfg calls) s xs true c).1.fe s = some (p, z) ∧ evalHet p xs = .ok het ∧ o = some het := by
  have he := usesEvaluable_of cfg calls fun f bm c hm => hev bm (hP f bm c hm)
  obtain ⟨m, p, u, z, hm, hp, -, -, -, hcase⟩ := eval_from_fit (hev _ hdef) he h
  have hbm := effectiveBin_mem cfg calls P hdef hP s m
  have ht := aleEval_tracks (hev _ hdef) (aleRun_tracks (hev _ hdef) calls he) s xs true c m hm s
  have hL : ∃ m0, afterEval cfg (lastFit cfg calls) s m s = some (effectiveBin cfg (lastFit cfg calls s) m, m0) := by
    unfold afterEval effectiveBin
    unfold effectiveBin at hp
    cases hL : lastFit cfg calls s with
    | none =>
      rw [hL] at hp
      simp only [] at hp
      simp only [afterFit, hp, Function.update_self]
      exact ⟨m, rfl⟩
    | some q =>
      obtain ⟨bm, m0⟩ := q
      rw [hL] at hp
      simp only [] at hp ⊢
      by_cases hc : m = .off ∨ m = m0
      · rw [if_pos hc] at hp ⊢
        rw [if_pos hc, hL]
        exact ⟨m0, rfl⟩
      · rw [if_neg hc] at hp ⊢
        rw [if_neg hc]
        simp only [afterFit, hp, Function.update_self]
        exact ⟨m, rfl⟩
  obtain ⟨m0, hL⟩ := hL
  rw [hL] at ht
  obtain ⟨q, z', hq, -, hfe, -⟩ := ht
  rw [hp] at hq
  cases hq
  rcases hcase with ⟨h1, -⟩ | ⟨-, v, hv, rfl⟩
  · cases h1
  · exact ⟨_, p, _, v, hbm, hp, hfe, hv, rfl⟩

/-- **C123, RHALE.**  After any calls, with the bins that the object then stores for the feature: where the heterogeneity is 0 at a position (up to 1e8), any two instances in the same bin to the left of it have the same
derivative; and if any two instances in the same bin have the same derivative, the heterogeneity is 0 everywhere. -/
theorem C123_rhale [PySqrt K] [LawfulSqrt K] (eff : List (Row K D)) (b : Base K D) (hlt : ∀ s, b.axisLo s < b.axisHi s) (s : Fin D) (calls : List (AleOp K D))
    (hcalls : ∀ f bm c, AleOp.fit f bm c ∈ calls → ∀ t, SafeMethod (rhaleCtx b.data eff b.axisLo b.axisHi t) bm) (c : PyVal) (xs : List K)
    (y : List K) (o : Option (List K)) (st : AleState K D) (h : aleEval (rhaleCfg eff b) (aleRun (rhaleCfg eff b) calls) s xs true c = (st, .ok (y, o))) :
    ∃ p z het, st.fe s = some (p, z) ∧ o = some het ∧
      (∀ (i : ℕ) (x : K), xs[i]? = some x → het[i]? = some 0 → x ≤ 10 ^ 8 →
        BinsAgree p.limits (fun q : Row K D × Row K D => q.1 s) (fun _ q => q.2 s) ((b.data.zip eff).filter fun q => inAxis (b.axisLo s) (b.axisHi s) s q.1) fun v => v < x) ∧
      (BinsAgree p.limits (fun q : Row K D × Row K D => q.1 s) (fun _ q => q.2 s) ((b.data.zip eff).filter fun q => inAxis (b.axisLo s) (b.axisHi s) s q.1) (fun _ => True) →
        het = xs.map fun _ => 0) := by
  have hdefs : ∀ t, SafeMethod (rhaleCtx b.data eff b.axisLo b.axisHi t) (rhaleCfg eff b).defaultBin := fun t hc => absurd hc (by decide)
  obtain ⟨bm, p, z, het, hsafe, hp, hfe, hv, ho⟩ := eval_stored (fun bm => ∀ t, SafeMethod (rhaleCtx b.data eff b.axisLo b.axisHi t) bm) hdefs
    (fun bm hbm => (rhale_goodFor eff b hlt bm hbm).evaluable) hcalls (by rw [h])
  rw [h] at hfe
  refine ⟨p, z, het, hfe, ho, ?_⟩
  obtain ⟨hgp, hwith, hpp⟩ := rhale_good (hlt s) (hsafe s) hp
  obtain ⟨hlen, -⟩ := rhaleFitFeature_ok hp
  have e1 : (rhaleCtx b.data eff b.axisLo b.axisHi s).xs = ((b.data.zip eff).filter fun q => inAxis (b.axisLo s) (b.axisHi s) s q.1).map fun q => q.1 s := by
    show col (b.data.filter (inAxis (b.axisLo s) (b.axisHi s) s)) s = _
    rw [← filter_zip_fst' b.data eff hlen.symm (inAxis (b.axisLo s) (b.axisHi s) s)]
    simp [col]
  have e2 : col (((b.data.zip eff).filter fun p => inAxis (b.axisLo s) (b.axisHi s) s p.1).map (·.2)) s =
      ((b.data.zip eff).filter fun q => inAxis (b.axisLo s) (b.axisHi s) s q.1).map fun q => q.2 s := by
    simp [col]
  rw [e1, e2] at hpp
  rw [e1] at hwith
  exact computeAleParams_hetZero _ _ _ hgp rfl hwith hpp hv

/-- **C123, ALE.**  The same, where the effect of an instance is the change of the output from the left to the right limit of its bin (for `int` columns: of the limits cut to integers, `cast`). -/
theorem C123_ale [PySqrt K] [LawfulSqrt K] (cast : K → K) (f : Row K D → K) (b : Base K D) (hlt : ∀ s, b.axisLo s < b.axisHi s) (s : Fin D) (calls : List (AleOp K D))
    (hcalls : ∀ g bm c, AleOp.fit g bm c ∈ calls → ∀ m cl, bm ≠ .fixed 0 m cl) (c : PyVal) (xs : List K)
    (y : List K) (o : Option (List K)) (st : AleState K D) (h : aleEval (aleCfg cast (List.map f) b) (aleRun (aleCfg cast (List.map f) b) calls) s xs true c = (st, .ok (y, o))) :
    ∃ p z het, st.fe s = some (p, z) ∧ o = some het ∧
      (∀ (i : ℕ) (x : K), xs[i]? = some x → het[i]? = some 0 → x ≤ 10 ^ 8 →
        BinsAgree p.limits (fun r : Row K D => r s) (fun k r => f (Function.update r s (cast (p.limits.getD (k + 1) 0))) - f (Function.update r s (cast (p.limits.getD k 0))))
          (b.data.filter (inAxis (b.axisLo s) (b.axisHi s) s)) fun v => v < x) ∧
      (BinsAgree p.limits (fun r : Row K D => r s) (fun k r => f (Function.update r s (cast (p.limits.getD (k + 1) 0))) - f (Function.update r s (cast (p.limits.getD k 0))))
          (b.data.filter (inAxis (b.axisLo s) (b.axisHi s) s)) (fun _ => True) → het = xs.map fun _ => 0) := by
  have hdef : ∀ m cl, (aleCfg cast (List.map f) b).defaultBin ≠ .fixed 0 m cl := by intro m cl hc; cases hc
  obtain ⟨bm, p, z, het, hbm, hp, hfe, hv, ho⟩ := eval_stored (fun bm => ∀ m cl, bm ≠ .fixed 0 m cl) hdef
    (fun bm hbm => (ale_goodFor cast f b hlt bm hbm).evaluable) hcalls (by rw [h])
  rw [h] at hfe
  refine ⟨p, z, het, hfe, ho, ?_⟩
  obtain ⟨L, l0, l1, -, hinc, htwo, hwith, -, -, hl, hpp, hgp, hpl⟩ := ale_fit_cases (hlt s) (ale_safe (aleFitFeature_ok hp).1 hbm) hp
  have hd : l1 - l0 ≠ 0 := (sub_pos.mpr hl).ne'
  have e1 : (aleCtx b.data b.axisLo b.axisHi s).xs = (b.data.filter (inAxis (b.axisLo s) (b.axisHi s) s)).map fun r => r s := rfl
  rw [e1] at hpp hwith
  have hwb := within_bump htwo hwith
  have key := computeAleParams_hetZero _ _ _ hgp hpl hwb hpp hv
  -- the two ways to say which effect an instance has in its bin
  have heq : ∀ r ∈ b.data.filter (inAxis (b.axisLo s) (b.axisHi s) s), ∀ k, InBin (bumpLast EPS L) k (r s) →
      (f (Function.update r s (cast ((bumpLast EPS L).getD (binIdx L (r s)) 0))) - f (Function.update r s (cast ((bumpLast EPS L).getD (binIdx L (r s) - 1) 0)))) / (l1 - l0) =
        (f (Function.update r s (cast ((bumpLast EPS L).getD (k + 1) 0))) - f (Function.update r s (cast ((bumpLast EPS L).getD k 0)))) / (l1 - l0) := by
    intro r hr k hk
    obtain ⟨a, a', ha, ha', hall⟩ := hwith
    have hb := hall (r s) (List.mem_map.mpr ⟨r, hr, rfl⟩)
    rw [inBin_bump ha' hb.2 k, inBin_iff hinc htwo ha ha' hb.1 hb.2 k] at hk
    rw [hk, Nat.add_sub_cancel]
  rw [hpl]
  refine ⟨fun i x hx hi hxb r hr r' hr' k hk hk' hlt' => ?_, fun hag => key.2 fun r hr r' hr' k hk hk' _ => ?_⟩
  · have := key.1 i x hx hi hxb r hr r' hr' k hk hk' hlt'
    dsimp only at this
    rw [heq r hr k hk, heq r' hr' k hk'] at this
    exact (div_left_inj' hd).mp this
  · dsimp only
    rw [heq r hr k hk, heq r' hr' k hk']
    exact congrArg (· / (l1 - l0)) (hag r hr r' hr' k hk hk' trivial)

/-! ### Regions -/

/-- **C123, regions of RegionalPDP and RegionalDerPDP**: a region is given the heterogeneity 0 exactly if it has enough instances, the limits and `centering` are accepted, and at ten evenly spaced points from its smallest to its
largest value all its instances in use have the same output (not only: the same change of the output). -/
theorem C123_region_pdp [PySqrt K] [LawfulSqrt K] (choice : ℕ → ℕ → List ℕ) (M : PdpModel K D) (lo hi : Fin D → K) (foi : Fin D) (minPoints : ℕ) (centering : PyVal) (nof : PyVal) (points : ℕ) (hp : 1 ≤ points)
    (vec : Bool) (x : List (Row K D)) (B : Base K D) (hb : Base.init choice x nof (some (lo, hi)) = .ok B) (mn mx : K) (hmn : listMin (col x foi) = .ok mn) (hmx : listMax (col x foi) = .ok mx) :
    pdpHeter choice id M.kind lo hi foi minPoints centering nof points vec x = .ok 0 ↔
      (minPoints ≤ x.length ∧ (∃ m, prepCentering centering = .ok m) ∧ lo foi < hi foi ∧
        ∀ t ∈ linspace mn mx 10, ∀ r ∈ inLimits B.data lo hi foi, ∀ r' ∈ inLimits B.data lo hi foi, M.at foi t r = M.at foi t r') := by
  obtain ⟨v, h1, h2, h3, h4⟩ := pdp_heter_value choice M lo hi foi minPoints centering nof points hp vec x B hb mn mx hmn hmx
  rw [h1]
  by_cases hbad : x.length < minPoints ∨ (∃ e, prepCentering centering = .error e) ∨ hi foi ≤ lo foi
  · rw [h3 hbad]
    constructor
    · intro h
      have := Except.ok.inj h
      unfold BIG_M at this
      norm_num at this
    · rintro ⟨k1, ⟨m, k2⟩, k3, -⟩
      rcases hbad with h | ⟨e, h⟩ | h
      · omega
      · rw [k2] at h; cases h
      · exact absurd k3 (not_lt.mpr h)
  · push Not at hbad
    obtain ⟨hfew, hcen, hlt⟩ := hbad
    cases hm : prepCentering centering with
    | error e => exact absurd hm (hcen e)
    | ok m =>
      rw [h4 m (by omega) hm hlt]
      have hz : ∀ l : List K, (∀ y ∈ l, 0 ≤ y) → l ≠ [] → (mean l = 0 ↔ ∀ y ∈ l, y = 0) := by
        intro l hl hne
        have hpos : (l.length : K) ≠ 0 := by exact_mod_cast (List.length_pos_of_ne_nil hne).ne'
        unfold mean
        rw [div_eq_zero_iff, or_iff_left hpos]
        clear hpos hne
        induction l with
        | nil => simp
        | cons y t ih =>
          have a1 := hl y (by simp)
          have a2 : 0 ≤ t.sum := List.sum_nonneg fun z hz => hl z (by simp [hz])
          simp only [List.sum_cons, List.mem_cons, forall_eq_or_imp]
          have ih' := ih (fun z hz => hl z (List.mem_cons_of_mem _ hz))
          constructor
          · intro h; exact ⟨le_antisymm (by linarith) a1, ih'.mp (le_antisymm (by linarith) a2)⟩
          · rintro ⟨b1, b2⟩; rw [b1, ih'.mpr b2, add_zero]
      have hiff := hz ((linspace mn mx 10).map fun t => PySqrt.sqrt (popVar ((inLimits B.data lo hi foi).map fun r => M.at foi t r))) (by
        intro y hy
        obtain ⟨t, -, rfl⟩ := List.mem_map.mp hy
        exact LawfulSqrt.sqrt_nonneg _) (by simp [linspace])
      constructor
      · intro h
        refine ⟨hfew, ⟨m, rfl⟩, hlt, fun t ht r hr r' hr' => ?_⟩
        have := hiff.mp (Except.ok.inj h) _ (List.mem_map.mpr ⟨t, ht, rfl⟩)
        rw [sqrt_zero_iff (popVar_nonneg _), popVar_zero_iff] at this
        exact this _ (List.mem_map.mpr ⟨r, hr, rfl⟩) _ (List.mem_map.mpr ⟨r', hr', rfl⟩)
      · rintro ⟨-, -, -, h⟩
        refine congrArg Except.ok (hiff.mpr ?_)
        intro y hy
        obtain ⟨t, ht, rfl⟩ := List.mem_map.mp hy
        rw [sqrt_zero_iff (popVar_nonneg _), popVar_zero_iff]
        simp only [List.forall_mem_map]
        exact fun r hr r' hr' => h t ht r hr r' hr'

/-! ### Concrete cases -/

/-- `x_0 ^ 2 + 3 x_1`: no interaction, but the outputs differ, so the uncentred band has a width; the band of the curve centred at the lower limit has none. -/
example (c : PyVal) (hc : prepCentering c = .ok .zeroStart) : ∃ mu std, pdpEvalAfter (.pdp fun r : Row ℝ 2 => r 0 ^ 2 + 3 * r 1) (fun _ => 0) (fun _ => 4) [![0, 1], ![2, 3], ![4, 0]] [] 0 [1, 3] true c false false =
    .ok (.meanStd mu std) ∧ std[0]? = some 0 := by
  obtain ⟨mu, std, h, h0⟩ := C123_pdp (.pdp fun r : Row ℝ 2 => r 0 ^ 2 + 3 * r 1) (fun _ => 0) (fun _ => 4) [![0, 1], ![2, 3], ![4, 0]] 0 [] (by simp) [1, 3] false
    ⟨by norm_num, .inr (by simp), ![0, 1], by simp, by simp, by simp⟩ c _ hc
  refine ⟨mu, std, h, (h0 0 1 rfl).mpr ?_⟩
  intro r _ r' _
  simp [PdpModel.at, PdpModel.shift]

/-- Of `squareData`, the instances 0, 1/4, 1/2 lie in the first bin, 3 and 4 (if the bins are 0 to 2.5 and 2.5 to 8) in the second: for `x_0 x_1`, with derivative `x_1`, the bins do not agree; for `10 x_1 + 3 x_0` they do. -/
example : ¬ BinsAgree [0, 5 / 2, 8] (fun q : Row ℚ 2 × Row ℚ 2 => q.1 0) (fun _ q => q.2 0) (squareData.zip (squareData.map fun r => ![r 1, r 0])) (fun _ => True) ∧
    BinsAgree [0, 5 / 2, 8] (fun q : Row ℚ 2 × Row ℚ 2 => q.1 0) (fun _ q => q.2 0) (squareData.zip (squareData.map fun _ => ![3, 10])) (fun _ => True) := by
  constructor
  · intro h
    have := h (![0, 5], ![5, 0]) (by simp [squareData]) (![1 / 4, 7], ![7, 1 / 4]) (by simp [squareData]) 0
      ⟨0, rfl, 5 / 2, rfl, by norm_num [InBin]⟩ ⟨0, rfl, 5 / 2, rfl, by norm_num [InBin]⟩ trivial
    norm_num at this
  · intro p hp q hq k _ _ _
    have e : ∀ p ∈ squareData.zip (squareData.map fun _ => (![3, 10] : Row ℚ 2)), p.2 0 = 3 := by
      intro p hp
      simp only [squareData, List.map_cons, List.map_nil, List.zip_cons_cons, List.zip_nil_right, List.mem_cons, List.not_mem_nil, or_false] at hp
      rcases hp with rfl | rfl | rfl | rfl | rfl <;> rfl
    exact (e p hp).trans (e q hq).symm

/-- The call of the theorem for RHALE answers: sixteen bins of width 1/2, of which the first has two instances, with the derivatives 1 and 3 (standard deviation 1, which is used for the bins with one instance too). -/
example : (aleEval (rhaleCfg (squareData.map fun r => ![if r 0 = 0 then 1 else if r 0 = 1 / 4 then 3 else 5, 10]) squareBase)
    (aleRun (rhaleCfg (squareData.map fun r => ![if r 0 = 0 then 1 else if r 0 = 1 / 4 then 3 else 5, 10]) squareBase) [.fit (.int 0) (.fixed 16 (some 0) 0) (.bool false)]) 0 [0, 1 / 2, 8] true (.bool false)).2 =
    .ok ([0, 1, 77 / 2], some [0, 1 / 2, 8]) := by
  decide +kernel

/-- With the derivatives 2 and 2 in the first bin: no heterogeneity anywhere. -/
example : (aleEval (rhaleCfg (squareData.map fun r => ![if r 0 = 0 then 2 else if r 0 = 1 / 4 then 2 else 5, 10]) squareBase)
    (aleRun (rhaleCfg (squareData.map fun r => ![if r 0 = 0 then 2 else if r 0 = 1 / 4 then 2 else 5, 10]) squareBase) [.fit (.int 0) (.fixed 16 (some 0) 0) (.bool false)]) 0 [0, 1 / 2, 8] true (.bool false)).2 =
    .ok ([0, 1, 77 / 2], some [0, 0, 0]) := by
  decide +kernel

end Effector
