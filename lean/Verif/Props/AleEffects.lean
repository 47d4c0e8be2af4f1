import Verif.Lemmas.AleFit
import Verif.Lemmas.RealSqrt

/-!
# C07 – C10, C13: what fitted ALE and RHALE effects are
-/

namespace Effector

set_option linter.unusedSectionVars false

open Spec

variable {K : Type} [Field K] [LinearOrder K] [IsStrictOrderedRing K] {D : ℕ}

theorem sqrt_zero [PySqrt K] [LawfulSqrt K] : PySqrt.sqrt (0 : K) = 0 :=
  mul_self_eq_zero.mp (LawfulSqrt.sqrt_mul_self (0 : K) le_rfl)

/-! ### Constant effects -/

theorem avg_const {l : List K} {c : K} (h : ∀ y ∈ l, y = c) (hne : l ≠ []) : avg l = c := by
  rw [List.eq_replicate_of_mem h]
  unfold avg
  rw [List.sum_replicate, nsmul_eq_mul, List.length_replicate, mul_div_cancel_left₀]
  simpa using hne

theorem popVar_const {l : List K} {c : K} (h : ∀ y ∈ l, y = c) : popVar l = 0 := by
  by_cases hne : l = []
  · simp [hne, popVar]
  · unfold popVar
    rw [avg_const h hne, show (l.map fun y => (y - c) ^ 2) = l.map fun _ => (0 : K) from
      List.map_congr_left fun y hy => by rw [h y hy]; ring]
    simp

theorem fillNans_const {x : List (Option K)} {y : List K} {c : K} (h : fillNans x = .ok y) (hx : ∀ v, some v ∈ x → v = c) :
    ∀ w ∈ y, w = c := by
  have hne : ∃ o ∈ x, o ≠ none := by
    by_contra hc
    push Not at hc
    rw [(C05_raises_iff x).mpr hc] at h
    cases h
  obtain ⟨y', hy', -, -, -, -, -, hb⟩ := C05_fill_nans x hne
  rw [h] at hy'
  cases hy'
  intro w hw
  have := hb c c (fun v hv => by rw [hx v hv]; exact ⟨le_rfl, le_rfl⟩) w hw
  exact le_antisymm this.2 this.1

theorem mem_binEffects {limits xs eff : List K} {k : ℕ} {y : K} (h : y ∈ binEffects limits xs eff k) : y ∈ eff := by
  obtain ⟨p, hp, rfl⟩ := List.mem_map.mp h
  exact (List.of_mem_zip (List.mem_filter.mp hp).1).2

/-- Constant effects give constant bin effects and zero variances. -/
theorem computeAleParams_const {limits xs eff : List K} {p : AleParams K} {c : K} (hinc : Increasing limits)
    (htwo : 2 ≤ limits.length) (hin : Within limits xs) (hlen : eff.length = xs.length)
    (h : computeAleParams xs eff limits = .ok p) (hc : ∀ e ∈ eff, e = c) :
    (∀ b ∈ p.binEffect, b = c) ∧ ∀ v ∈ p.binVariance, v = 0 := by
  obtain ⟨-, -, ⟨be, hbe, h1⟩, ⟨bv, hbv, h2⟩, -⟩ := computeAleParams_good hinc htwo hin hlen h
  constructor
  · apply fillNans_const hbe
    intro v hv
    obtain ⟨k, rfl, hne⟩ := h1 v hv
    exact avg_const (fun y hy => hc y (mem_binEffects hy)) hne
  · apply fillNans_const hbv
    intro v hv
    obtain ⟨k, rfl⟩ := h2 v hv
    exact popVar_const (fun y hy => hc y (mem_binEffects hy))

theorem stepIntegral_const {limits es : List K} {c lo hi : K} (hinc : Increasing limits) (hlen : es.length + 1 = limits.length)
    (hes : ∀ e ∈ es, e = c) (hlo : limits.head? = some lo) (hhi : limits.getLast? = some hi) (x : K) :
    stepIntegral limits es x = c * (min x hi - min x lo) := by
  induction limits generalizing es lo with
  | nil => simp at hlo
  | cons l0 t ih =>
    simp only [List.head?_cons, Option.some.injEq] at hlo
    subst hlo
    cases t with
    | nil =>
      simp only [List.getLast?_singleton, Option.some.injEq] at hhi
      subst hhi
      cases es <;> simp [stepIntegral]
    | cons l1 t =>
      cases es with
      | nil => simp at hlen
      | cons e es =>
        unfold stepIntegral
        rw [ih (List.pairwise_cons.mp hinc).2 (by simpa using hlen) (fun e he => hes e (by simp [he])) rfl
          (by rwa [List.getLast?_cons_cons] at hhi), hes e (by simp)]
        ring

theorem head_getLast_lt {l : List K} (hinc : Increasing l) (htwo : 2 ≤ l.length) :
    ∃ lo hi, l.head? = some lo ∧ l.getLast? = some hi ∧ lo < hi := by
  have h0 : l[0]? = some l[0] := List.getElem?_eq_getElem (by omega)
  have h1 : l[l.length - 1]? = some (l[l.length - 1]'(by omega)) := List.getElem?_eq_getElem (by omega)
  exact ⟨_, _, by rw [List.head?_eq_getElem?]; exact h0, by rw [List.getLast?_eq_getElem?]; exact h1,
    increasing_getElem?_lt hinc h0 h1 (by omega)⟩

theorem le_getLast {l : List K} (hinc : Increasing l) {hi : K} (hhi : l.getLast? = some hi) : ∀ x ∈ l, x ≤ hi := by
  intro x hx
  obtain ⟨i, hi', rfl⟩ := List.mem_iff_getElem.mp hx
  rw [List.getLast?_eq_getElem?] at hhi
  exact increasing_getElem?_le hinc (List.getElem?_eq_getElem hi') hhi (by omega)

/-- The heterogeneity curve for zero variances. -/
theorem GoodParams.het_zero [PySqrt K] [LawfulSqrt K] {p : AleParams K} (hp : GoodParams p)
    (h0 : ∀ v ∈ p.binVariance, v = 0) (xs : List K) : evalHet p xs = .ok (xs.map fun _ => 0) := by
  have hs : ∀ e ∈ p.binVariance.map PySqrt.sqrt, e = (0 : K) := by
    intro e he
    obtain ⟨v, hv, rfl⟩ := List.mem_map.mp he
    rw [h0 v hv, sqrt_zero]
  obtain ⟨el, hel, hacc⟩ := hp.acc (p.binVariance.map PySqrt.sqrt) xs (by rw [List.length_map]; exact hp.bv)
  obtain ⟨lo, hi, hlo, hhi, -⟩ := head_getLast_lt hp.inc hp.two
  unfold evalHet
  rw [hacc]
  congr 1
  apply List.map_congr_left
  intro x _
  have h2 := hp.two
  rw [stepIntegral_const hp.inc (by rw [List.length_map, hp.bv]; omega) hs hlo hhi, hs el (List.mem_of_getLast? hel)]
  simp

/-- The curve for constant bin effects. -/
theorem GoodParams.eval_const {p : AleParams K} (hp : GoodParams p) {c : K} (hc : ∀ b ∈ p.binEffect, b = c) :
    ∃ lo hi, p.limits.head? = some lo ∧ p.limits.getLast? = some hi ∧ lo < hi ∧
      ∀ xs, evalUnnorm p xs = .ok (xs.map fun x => c * (min x hi - min x lo) +
        if hi ≤ x ∧ BIG_M < x then (x - BIG_M) * c else 0) := by
  obtain ⟨lo, hi, hlo, hhi, hlt⟩ := head_getLast_lt hp.inc hp.two
  refine ⟨lo, hi, hlo, hhi, hlt, fun xs => ?_⟩
  obtain ⟨el, hel, hacc⟩ := hp.acc p.binEffect xs hp.be
  unfold evalUnnorm
  rw [hacc]
  congr 1
  apply List.map_congr_left
  intro x _
  have h2 := hp.two
  rw [stepIntegral_const hp.inc (by rw [hp.be]; omega) hc hlo hhi, hc el (List.mem_of_getLast? hel)]
  congr 1
  have : (∀ l ∈ p.limits, l ≤ x) ↔ hi ≤ x :=
    ⟨fun h => h hi (List.mem_of_getLast? hhi), fun h l hl => (le_getLast hp.inc hhi l hl).trans h⟩
  simp only [this]

/-! ### C08 -/

/-- Parameters for which the binning methods are proved to work: at least one bin, and for DP a discount of at most 1 and either
`min_points ≥ 1` or no empty grid cell (with `min_points = 0` an empty cell makes the cost NaN). -/
def Spec.SoundMethod (xs : List K) (lo hi : K) : BinMethod K → Prop
  | .fixed n _ _ => 1 ≤ n
  | .greedy _ _ _ _ => True
  | .dp k m d _ => 1 ≤ k ∧ d ≤ 1 ∧ ∀ m', m = some m' → 1 ≤ m' ∨ CellsNonempty xs lo hi k
  | .str s => s = "dp" → CellsNonempty xs lo hi 20

theorem closedEffects_mem {xs eff : List K} {a b y : K} (h : y ∈ closedEffects xs eff a b) : y ∈ eff := by
  obtain ⟨p, hp, rfl⟩ := List.mem_map.mp h
  exact (List.of_mem_zip (List.mem_filter.mp hp).1).2

theorem dpSafe_const {c : BinCtx K} {e : List K} {v : K} (he : c.eff = some e) (hlen : e.length = c.xs.length)
    (hv : ∀ y ∈ e, y = v) (hlt : c.xmin < c.xmax) (hin : ∀ x ∈ c.xs, c.xmin ≤ x ∧ x ≤ c.xmax) {k m : ℕ} {d : K} (hk : 1 ≤ k) (hd : d ≤ 1)
    (hm : m ≤ c.xs.length) (hcell : 1 ≤ m ∨ CellsNonempty c.xs c.xmin c.xmax k) : DpSafe c k m d := by
  refine ⟨e, he, hlen, hd, hcell, [c.xmin, c.xmax], ⟨spans_pair hlt, onGrid_pair _ _ _ hk⟩, ?_⟩
  have : binningCost c.xs e m d [c.xmin, c.xmax] = 0 := by
    unfold binningCost
    unfold Spec.binCost
    rw [closedCount_all hin, if_neg (by omega), popVar_const (c := v) fun y hy => hv y (closedEffects_mem hy)]
    simp [binningCost]
  rw [this]
  positivity

theorem safe_of_sound {c : BinCtx K} {e : List K} {v : K} (he : c.eff = some e) (hlen : e.length = c.xs.length)
    (hv : ∀ y ∈ e, y = v) (hlt : c.xmin < c.xmax) (hin : ∀ x ∈ c.xs, c.xmin ≤ x ∧ x ≤ c.xmax) {bm : BinMethod K}
    (hs : SoundMethod c.xs c.xmin c.xmax bm) {L : List K} (h : findLimits c bm = .ok (.arr L)) : SafeMethod c bm := by
  cases bm with
  | fixed n m cl => exact hs
  | greedy n m d cl => trivial
  | dp k m d cl =>
    rintro m' rfl
    obtain ⟨h1, h2, h3⟩ := hs
    by_cases hm : m' ≤ c.xs.length
    · exact dpSafe_const he hlen hv hlt hin h1 h2 hm (h3 m' rfl)
    · exfalso
      rw [(C22_greedy_dp_impossible_partial c k m' cl d (Or.inr (by omega))).2] at h
      cases h
  | str s =>
    intro h1
    exact dpSafe_const he hlen hv hlt hin (by omega) (by norm_num) (by omega) (Or.inr (hs h1))

/-- **C08.**  If the derivative with respect to feature `s` is the constant `c` on every instance, then whenever RHALE can be fitted (any
binning method), all bin effects are `c`, the uncentred effect between the first limit `a` and the last limit `b` is `c * (x - a)`, and
the heterogeneity is 0 at every point. -/
theorem C08_constant_gradient [PySqrt K] [LawfulSqrt K] (data eff : List (Row K D)) (lo hi : Fin D → K) (s : Fin D)
    (bm : BinMethod K) (p : AleParams K) (c : K) (hlt : lo s < hi s)
    (hs : SoundMethod (col (data.filter (inAxis (lo s) (hi s) s)) s) (lo s) (hi s) bm)
    (hc : ∀ e ∈ eff, e s = c) (h : rhaleFitFeature data eff lo hi s bm = .ok p) :
    (∀ v ∈ p.binEffect, v = c) ∧
    (∃ a b, p.limits.head? = some a ∧ p.limits.getLast? = some b ∧ a < b ∧
      ∀ xs, (∀ x ∈ xs, a ≤ x ∧ x ≤ b ∧ x ≤ 10 ^ 8) → evalUnnorm p xs = .ok (xs.map fun x => c * (x - a))) ∧
    ∀ xs, evalHet p xs = .ok (xs.map fun _ => 0) := by
  obtain ⟨hlen, L, hL, hp⟩ := rhaleFitFeature_ok h
  have hce : ∀ y ∈ col (((data.zip eff).filter fun p => inAxis (lo s) (hi s) s p.1).map (·.2)) s, y = c := by
    intro y hy
    obtain ⟨r, hr, rfl⟩ := List.mem_map.mp hy
    obtain ⟨q, hq, rfl⟩ := List.mem_map.mp hr
    exact hc _ (List.of_mem_zip (List.mem_filter.mp hq).1).2
  have hclen := rhaleCtx_len data eff lo hi s hlen
  have hin := rhaleCtx_in data eff lo hi s
  have hsafe := safe_of_sound (c := rhaleCtx data eff lo hi s) rfl hclen hce hlt hin hs hL
  obtain ⟨hinc, htwo, hwith, -⟩ := findLimits_good _ _ hin hlt hsafe L hL
  obtain ⟨hg, -⟩ := computeAleParams_good hinc htwo hwith hclen hp
  obtain ⟨hb, hv⟩ := computeAleParams_const hinc htwo hwith hclen hp hce
  refine ⟨hb, ?_, hg.het_zero hv⟩
  obtain ⟨a, b, ha, hb', hab, hev⟩ := hg.eval_const hb
  refine ⟨a, b, ha, hb', hab, fun xs hxs => ?_⟩
  rw [hev]
  congr 1
  apply List.map_congr_left
  intro x hx
  obtain ⟨h1, h2, h3⟩ := hxs x hx
  rw [min_eq_left h2, min_eq_right h1, if_neg (by unfold BIG_M; intro hcon; exact absurd hcon.2 (not_lt.mpr h3)), add_zero]

/-! ### C09 -/

/-- ALE's method is safe whenever it asks for at least one bin. -/
theorem ale_safe {data : List (Row K D)} {lo hi : Fin D → K} {s : Fin D} {bm : BinMethod K}
    (hf : isFixedMethod bm = true) (hn : ∀ m cl, bm ≠ .fixed 0 m cl) : SafeMethod (aleCtx data lo hi s) (aleMethod bm) := by
  cases bm with
  | fixed n mo cl =>
    rcases Nat.eq_zero_or_pos n with rfl | h
    · exact absurd rfl (hn mo cl)
    · exact h
  | str t => exact (by omega : 1 ≤ 20)
  | greedy n mo d cl => simp [isFixedMethod] at hf
  | dp n mo d cl => simp [isFixedMethod] at hf

/-- **C09.**  If the output of the model does not depend on feature `s`, then whenever ALE can be fitted for `s`, its bin effects are 0, the
uncentred effect is 0 everywhere and the heterogeneity is 0 everywhere. -/
theorem C09_ignored_feature [PySqrt K] [LawfulSqrt K] (cast : K → K) (f : Row K D → K) (data : List (Row K D)) (lo hi : Fin D → K)
    (s : Fin D) (bm : BinMethod K) (p : AleParams K) (hlt : lo s < hi s) (hn : ∀ m cl, bm ≠ .fixed 0 m cl)
    (hf : ∀ r v, f (Function.update r s v) = f r)
    (h : aleFitFeature cast (List.map f) data lo hi s bm = .ok p) :
    (∀ v ∈ p.binEffect, v = 0) ∧ ∀ xs, evalUnnorm p xs = .ok (xs.map fun _ => 0) ∧ evalHet p xs = .ok (xs.map fun _ => 0) := by
  obtain ⟨L, l0, l1, hL, hinc, htwo, hwith, -, -, -, hp, hg, -⟩ := ale_fit_cases hlt (ale_safe (aleFitFeature_ok h).1 hn) h
  obtain ⟨hb, hv⟩ := computeAleParams_const (c := 0) (increasing_bumpLast (EPS_pos (K := K)).le hinc)
    (by rw [length_bumpLast]; exact htwo) (within_bump htwo hwith) (by simp [aleCtx, col]) hp (by
      intro e he
      obtain ⟨r, -, rfl⟩ := List.mem_map.mp he
      rw [hf, hf, sub_self, zero_div])
  refine ⟨hb, fun xs => ⟨?_, hg.het_zero hv xs⟩⟩
  obtain ⟨a, b, -, -, -, hev⟩ := hg.eval_const hb
  rw [hev]
  congr 1
  apply List.map_congr_left
  intro x _
  simp

/-! ### C13 -/

/-- Variances of fitted parameters are not negative. -/
theorem computeAleParams_var_nonneg {limits xs eff : List K} {p : AleParams K} (hinc : Increasing limits)
    (htwo : 2 ≤ limits.length) (hin : Within limits xs) (hlen : eff.length = xs.length)
    (h : computeAleParams xs eff limits = .ok p) : ∀ v ∈ p.binVariance, 0 ≤ v := by
  obtain ⟨h1, h2⟩ := C06_ale_params limits xs eff hinc htwo hin hlen
  by_cases hc : ∃ k, k < limits.length - 1 ∧ 2 ≤ xs.countP (fun x => InBin limits k x)
  · obtain ⟨q, hq, -, -, -, -, -, -, -, -, -, -, hv, -⟩ := h2 hc
    rw [h] at hq
    cases hq
    exact hv
  · push Not at hc
    rw [h1 hc] at h
    cases h

/-- What C13 says about a heterogeneity curve `H`. -/
structure Spec.GrowsFromZero (limits : List K) (H : K → K) : Prop where
  nonneg : ∀ x, 0 ≤ H x
  zero : ∀ a, limits.head? = some a → ∀ x ≤ a, H x = 0
  mono : ∀ x y, x ≤ y → H x ≤ H y

theorem GoodParams.het_grows [PySqrt K] [LawfulSqrt K] {p : AleParams K} (hp : GoodParams p) :
    ∃ H : K → K, (∀ xs, evalHet p xs = .ok (xs.map H)) ∧ GrowsFromZero p.limits H := by
  have h2 := hp.two
  have hlen : (p.binVariance.map PySqrt.sqrt).length = p.limits.length - 1 := by rw [List.length_map]; exact hp.bv
  have hs : ∀ e ∈ p.binVariance.map PySqrt.sqrt, (0 : K) ≤ e := by
    intro e he
    obtain ⟨v, hv, rfl⟩ := List.mem_map.mp he
    exact LawfulSqrt.sqrt_nonneg v
  obtain ⟨el, hel, -⟩ := hp.acc (p.binVariance.map PySqrt.sqrt) [] hlen
  refine ⟨fun x => stepIntegral p.limits (p.binVariance.map PySqrt.sqrt) x +
        (if (∀ l ∈ p.limits, l ≤ x) ∧ BIG_M < x then (x - BIG_M) * el else 0), fun xs => ?_, ?_⟩
  · obtain ⟨el', hel', hacc⟩ := hp.acc (p.binVariance.map PySqrt.sqrt) xs hlen
    rw [hel] at hel'
    cases hel'
    exact hacc
  · have hel0 : 0 ≤ el := hs el (List.mem_of_getLast? hel)
    obtain ⟨lo, hi, hlo, hhi, hlt⟩ := head_getLast_lt hp.inc hp.two
    have hzero : ∀ a, p.limits.head? = some a → ∀ x ≤ a, stepIntegral p.limits (p.binVariance.map PySqrt.sqrt) x +
        (if (∀ l ∈ p.limits, l ≤ x) ∧ BIG_M < x then (x - BIG_M) * el else 0) = 0 := by
      intro a ha x hx
      obtain rfl : a = lo := by rw [ha] at hlo; exact Option.some.inj hlo
      rw [C01_spec_zero_left p.limits _ hp.inc a x (by rw [← List.head?_eq_getElem?]; exact ha) hx, if_neg, add_zero]
      rintro ⟨hc, -⟩
      exact absurd (hc hi (List.mem_of_getLast? hhi)) (not_le.mpr (lt_of_le_of_lt hx hlt))
    have hmono : ∀ x y : K, x ≤ y → stepIntegral p.limits (p.binVariance.map PySqrt.sqrt) x +
        (if (∀ l ∈ p.limits, l ≤ x) ∧ BIG_M < x then (x - BIG_M) * el else 0) ≤
        stepIntegral p.limits (p.binVariance.map PySqrt.sqrt) y +
        (if (∀ l ∈ p.limits, l ≤ y) ∧ BIG_M < y then (y - BIG_M) * el else 0) := by
      intro x y hxy
      refine add_le_add (C13_stepIntegral_mono _ _ hp.inc hs x y hxy) ?_
      by_cases hc : (∀ l ∈ p.limits, l ≤ x) ∧ BIG_M < x
      · rw [if_pos hc, if_pos ⟨fun l hl => (hc.1 l hl).trans hxy, lt_of_lt_of_le hc.2 hxy⟩]
        exact mul_le_mul_of_nonneg_right (by linarith) hel0
      · rw [if_neg hc]
        split_ifs with h'
        · exact mul_nonneg (by linarith [h'.2]) hel0
        · exact le_rfl
    refine ⟨fun x => ?_, hzero, hmono⟩
    rcases le_total x lo with h | h
    · exact (hzero lo hlo x h).ge
    · exact (hzero lo hlo lo le_rfl).ge.trans (hmono lo x h)

/-- **C13** for RHALE. -/
theorem C13_rhale_heterogeneity [PySqrt K] [LawfulSqrt K] (data eff : List (Row K D)) (lo hi : Fin D → K) (s : Fin D)
    (bm : BinMethod K) (p : AleParams K) (hlt : lo s < hi s) (hsafe : SafeMethod (rhaleCtx data eff lo hi s) bm)
    (h : rhaleFitFeature data eff lo hi s bm = .ok p) :
    ∃ H : K → K, (∀ xs, evalHet p xs = .ok (xs.map H)) ∧ GrowsFromZero p.limits H :=
  (rhale_good hlt hsafe h).1.het_grows

/-- **C13** for ALE. -/
theorem C13_ale_heterogeneity [PySqrt K] [LawfulSqrt K] (cast : K → K) (f : Row K D → K) (data : List (Row K D)) (lo hi : Fin D → K)
    (s : Fin D) (bm : BinMethod K) (p : AleParams K) (hlt : lo s < hi s) (hn : ∀ m cl, bm ≠ .fixed 0 m cl)
    (h : aleFitFeature cast (List.map f) data lo hi s bm = .ok p) :
    ∃ H : K → K, (∀ xs, evalHet p xs = .ok (xs.map H)) ∧ GrowsFromZero p.limits H := by
  obtain ⟨-, -, -, -, -, -, -, -, -, -, -, hg, -⟩ := ale_fit_cases hlt (ale_safe (aleFitFeature_ok h).1 hn) h
  exact hg.het_grows

end Effector
