import Verif.Props.Derivative
import Verif.Props.Monotone
import Verif.Props.AleModels

/-!
# C76: how close RHALE is to the effect of an additive model

Over the real numbers.  For a model `g(x_s) + h(other features)` whose derivative `g'` is Lipschitz, RHALE with `n` equal bins, each holding an instance,
follows `g`: between two points at distance `d` the error is at most `L * w * d` where `w` is the width of a bin.
-/

set_option linter.unusedSectionVars false

namespace Effector

open Spec

variable {D : ℕ}

/-- `x` moved into `[lo, hi]`. -/
def clampTo (lo hi x : ℝ) : ℝ := max lo (min x hi)

theorem inside_clamp {lo hi x : ℝ} (h : lo ≤ hi) : inside lo hi x = clampTo lo hi x - lo := by
  unfold inside clampTo
  rcases le_total x lo with h1 | h1
  · rw [min_eq_left h1, min_eq_left (h1.trans h), max_eq_left h1]; ring
  · rw [min_eq_right h1, max_eq_right (le_min h1 h)]

theorem clamp_split (g : ℝ → ℝ) {l0 l1 hi : ℝ} (h01 : l0 ≤ l1) (h1 : l1 ≤ hi) (x : ℝ) :
    g (clampTo l0 hi x) = g (clampTo l0 l1 x) + g (clampTo l1 hi x) - g l1 := by
  unfold clampTo
  rcases le_total x l1 with h | h
  · rw [min_eq_left h, min_eq_left (h.trans h1), max_eq_left h]; ring
  · rw [min_eq_right h, max_eq_right h01, max_eq_right (le_min h h1), max_eq_right (le_min (h01.trans h) (h01.trans h1))]; ring

/-- A step function whose steps are everywhere within `δ` of `g'` accumulates to `g`, up to `δ` times the distance. -/
theorem stepIntegral_near {limits es : List ℝ} {g g' : ℝ → ℝ} {δ lo hi : ℝ} (hg : ∀ x, HasDerivAt g (g' x) x) (hinc : Increasing limits)
    (hlen : es.length + 1 = limits.length) (hlo : limits.head? = some lo) (hhi : limits.getLast? = some hi)
    (hes : ∀ (k : ℕ) (a b e : ℝ), limits[k]? = some a → limits[k + 1]? = some b → es[k]? = some e → ∀ t, a ≤ t → t ≤ b → |e - g' t| ≤ δ) {x y : ℝ} (hxy : x ≤ y) :
    |stepIntegral limits es y - stepIntegral limits es x - (g (clampTo lo hi y) - g (clampTo lo hi x))| ≤ δ * (inside lo hi y - inside lo hi x) := by
  induction limits generalizing es lo with
  | nil => simp at hlo
  | cons l0 t ih =>
    simp only [List.head?_cons, Option.some.injEq] at hlo
    subst hlo
    cases t with
    | nil =>
      simp only [List.getLast?_singleton, Option.some.injEq] at hhi
      subst hhi
      have : ∀ z : ℝ, clampTo l0 l0 z = l0 := fun z => by unfold clampTo; exact max_eq_left (min_le_right _ _)
      cases es <;> simp [stepIntegral, inside, this]
    | cons l1 t =>
      cases es with
      | nil => simp at hlen
      | cons e es =>
        have hi1 := ih (List.pairwise_cons.mp hinc).2 (by simpa using hlen) rfl (by rwa [List.getLast?_cons_cons] at hhi)
          (fun k a b e ha hb he => hes (k + 1) a b e (by simpa using ha) (by simpa using hb) (by simpa using he))
        have h01 : l0 ≤ l1 := ((List.pairwise_cons.mp hinc).1 l1 (by simp)).le
        have hl1 : l1 ≤ hi := by
          rw [List.getLast?_cons_cons] at hhi
          have hm := List.mem_of_getLast? hhi
          rcases List.mem_cons.mp hm with rfl | hm
          · exact le_rfl
          · exact ((List.pairwise_cons.mp (List.pairwise_cons.mp hinc).2).1 hi hm).le
        have hstep := hes 0 l0 l1 e rfl rfl rfl
        -- the first bin
        have hb : |e * (inside l0 l1 y - inside l0 l1 x) - (g (clampTo l0 l1 y) - g (clampTo l0 l1 x))| ≤ δ * (inside l0 l1 y - inside l0 l1 x) := by
          rw [inside_clamp h01, inside_clamp h01]
          have c1 : l0 ≤ clampTo l0 l1 x := le_max_left _ _
          have c2 : clampTo l0 l1 y ≤ l1 := max_le h01 (min_le_right _ _)
          have c3 : clampTo l0 l1 x ≤ clampTo l0 l1 y := max_le_max_left _ (min_le_min_right _ hxy)
          generalize clampTo l0 l1 x = a at *
          generalize clampTo l0 l1 y = b at *
          rcases eq_or_lt_of_le c3 with rfl | c3
          · simp
          · obtain ⟨c, ⟨hc1, hc2⟩, hc⟩ := exists_hasDerivAt_eq_slope g g' c3 (fun x _ => (hg x).continuousAt.continuousWithinAt) fun x _ => hg x
            have hd : 0 < b - a := by linarith
            have he : g b - g a = g' c * (b - a) := by rw [hc]; field_simp
            rw [he, show e * (b - l0 - (a - l0)) - g' c * (b - a) = (e - g' c) * (b - a) by ring, abs_mul, abs_of_pos hd,
              show b - l0 - (a - l0) = b - a by ring]
            exact mul_le_mul_of_nonneg_right (hstep c (c1.trans hc1.le) (hc2.le.trans c2)) hd.le
        have hs : ∀ z, stepIntegral (l0 :: l1 :: t) (e :: es) z = e * inside l0 l1 z + stepIntegral (l1 :: t) es z := fun z => rfl
        have hins : ∀ z : ℝ, inside l0 hi z = inside l0 l1 z + inside l1 hi z := fun z => by unfold inside; ring
        rw [hs, hs, hins, hins, clamp_split g h01 hl1, clamp_split g h01 hl1]
        calc _ = |(e * (inside l0 l1 y - inside l0 l1 x) - (g (clampTo l0 l1 y) - g (clampTo l0 l1 x))) +
              (stepIntegral (l1 :: t) es y - stepIntegral (l1 :: t) es x - (g (clampTo l1 hi y) - g (clampTo l1 hi x)))| := by congr 1; ring
          _ ≤ _ := (abs_add_le _ _).trans (by linarith)

theorem clampTo_of_mem {lo hi x : ℝ} (h1 : lo ≤ x) (h2 : x ≤ hi) : clampTo lo hi x = x := by
  unfold clampTo
  rw [min_eq_left h2, max_eq_right h1]

theorem avg_abs_sub_const_le (l : List ℝ) (c e : ℝ) (hne : l ≠ []) (h : ∀ y ∈ l, |y - c| ≤ e) : |avg l - c| ≤ e := by
  have := avg_bounds (l := l) (g1 := c - e) (g2 := c + e) (fun y hy => by
    have := abs_le.mp (h y hy)
    constructor <;> linarith [this.1, this.2]) hne
  rw [abs_le]
  constructor <;> linarith [this.1, this.2]

/-- **C76.**  RHALE for a model that is additive in feature `s` with effect `g`: every entry of the Jacobian for that feature is `g'` of the feature value.  If the fit in
force is `Fixed(n)` and every bin holds an instance, then the difference of the returned values at two points `a ≤ b` within the axis limits (up to 1e8) is
`g b - g a` up to `L * w * (b - a)`, `w = (hi - lo) / n`. -/
theorem C76_rhale_accuracy (g g' : ℝ → ℝ) (hg : ∀ x, HasDerivAt g (g' x) x) (L : ℝ) (hL : ∀ x y, |g' x - g' y| ≤ L * |x - y|)
    (eff : List (Row ℝ D)) (b : Base ℝ D) (hlt : ∀ s, b.axisLo s < b.axisHi s) (s : Fin D) (heff : ∀ q ∈ b.data.zip eff, q.2 s = g' (q.1 s))
    (calls : List (AleOp ℝ D)) (hcalls : ∀ f bm c, AleOp.fit f bm c ∈ calls → ∀ t, SafeMethod (rhaleCtx b.data eff b.axisLo b.axisHi t) bm)
    (n : ℕ) (hn : 1 ≤ n) (mp : Option ℕ) (cl : ℕ) (m0 : Centering) (hlast : lastFit (rhaleCfg eff b) calls s = some (.fixed n mp cl, m0))
    (hcat : cl < distinct ((b.data.filter fun r => b.axisLo s ≤ r s ∧ r s ≤ b.axisHi s).map fun r => r s))
    (hcov : ∀ i, i < n → ∃ r ∈ b.data, gridPoint (b.axisLo s) (b.axisHi s) n i ≤ r s ∧
      (r s < gridPoint (b.axisLo s) (b.axisHi s) n (i + 1) ∨ (i + 1 = n ∧ r s ≤ b.axisHi s)))
    (c : PyVal) (hc : prepCentering c = .ok .off ∨ prepCentering c = .ok m0) (xs : List ℝ) (het : Bool)
    (y : List ℝ) (o : Option (List ℝ)) (h : (aleEval (rhaleCfg eff b) (aleRun (rhaleCfg eff b) calls) s xs het c).2 = .ok (y, o)) :
    ∀ (i j : ℕ) (p q u v : ℝ), xs[i]? = some p → xs[j]? = some q → y[i]? = some u → y[j]? = some v →
      b.axisLo s ≤ p → p ≤ q → q ≤ b.axisHi s → q ≤ 10 ^ 8 → |(v - u) - (g q - g p)| ≤ L * ((b.axisHi s - b.axisLo s) / n) * (q - p) := by
  have hdefs : ∀ t, SafeMethod (rhaleCtx b.data eff b.axisLo b.axisHi t) (rhaleCfg eff b).defaultBin := fun t hc => absurd hc (by decide)
  have hgood := rhale_goodFor eff b hlt
  have he := usesEvaluable_of (rhaleCfg eff b) calls fun f bm c hm => (hgood bm (hcalls f bm c hm)).evaluable
  obtain ⟨m, p, u, z, hm, hp, hu, hz, rfl, -⟩ := eval_from_fit (hgood _ hdefs).evaluable he h
  have hsafe := effectiveBin_mem (rhaleCfg eff b) calls (fun bm => ∀ t, SafeMethod (rhaleCtx b.data eff b.axisLo b.axisHi t) bm) hdefs hcalls s m s
  obtain ⟨hgp, hwith, hpp⟩ := rhale_good (hlt s) hsafe hp
  have hbm : effectiveBin (rhaleCfg eff b) (lastFit (rhaleCfg eff b) calls s) m = .fixed n mp cl := by
    rw [hlast]
    unfold effectiveBin
    simp only []
    rw [if_pos]
    rcases hc with hc | hc <;> rw [hc] at hm <;> cases hm
    · exact Or.inl rfl
    · exact Or.inr rfl
  rw [hbm] at hp
  obtain ⟨hlen, Lm, hLm, hpp2⟩ := rhaleFitFeature_ok hp
  have hL0 : 0 ≤ L := by
    have := (abs_nonneg _).trans (hL 1 0)
    simpa using this
  have hw : (0 : ℝ) < (b.axisHi s - b.axisLo s) / n := div_pos (sub_pos.mpr (hlt s)) (by exact_mod_cast hn)
  have hcat' : cl < distinct (rhaleCtx b.data eff b.axisLo b.axisHi s).xs := by
    refine lt_of_lt_of_le hcat (le_of_eq ?_)
    show distinct _ = distinct (col (b.data.filter (inAxis (b.axisLo s) (b.axisHi s) s)) s)
    unfold col
    congr 2
    apply List.filter_congr
    intro r _
    simp [inAxis]
  have hLe : Lm = linspace (b.axisLo s) (b.axisHi s) (n + 1) := by
    have hLm' : fixedFind (rhaleCtx b.data eff b.axisLo b.axisHi s) n mp cl = .ok (.arr Lm) := hLm
    unfold fixedFind at hLm'
    rw [isCategorical_not _ _ _ hcat'] at hLm'
    simp only [bind, Except.bind, pure, Except.pure] at hLm'
    cases hnv : noneValidBinning (rhaleCtx b.data eff b.axisLo b.axisHi s).xs mp with
    | error e => rw [hnv] at hLm'; cases hLm'
    | ok t =>
      rw [hnv] at hLm'
      simp only [] at hLm'
      cases mp with
      | none => cases hLm'; rfl
      | some k =>
        simp only [Except.ok.injEq] at hLm'
        split_ifs at hLm'
        cases hLm'; rfl
  have hlim : p.limits = linspace (b.axisLo s) (b.axisHi s) (n + 1) := by
    have hsp := spans_linspace (K := ℝ) (hlt s) hn
    rw [hLe] at hpp2
    exact (computeAleParams_good hsp.1 hsp.2 ⟨_, _, hsp.3, hsp.4, rhaleCtx_in b.data eff b.axisLo b.axisHi s⟩
      (rhaleCtx_len b.data eff b.axisLo b.axisHi s hlen) hpp2).2.1
  obtain ⟨-, -, -, -, hbe⟩ := computeAleParams_good hgp.inc hgp.two hwith (rhaleCtx_len b.data eff b.axisLo b.axisHi s hlen) hpp
  have hlo : p.limits.head? = some (b.axisLo s) := by rw [hlim]; exact linspace_head _ _ n
  have hhi : p.limits.getLast? = some (b.axisHi s) := by rw [hlim]; exact linspace_last _ _ n hn
  have hll : p.limits.length = n + 1 := by rw [hlim, length_linspace]
  have hpt : ∀ i, i ≤ n → p.limits[i]? = some (gridPoint (b.axisLo s) (b.axisHi s) n i) := fun i hi => by
    rw [hlim]; exact getElem?_linspace _ _ _ _ (by omega)
  have hpairs := rhale_pairs b.data eff (b.axisLo s) (b.axisHi s) s hlen
  -- every bin effect is close to the derivative in its bin
  have hnear : ∀ (k : ℕ) (a a' e : ℝ), p.limits[k]? = some a → p.limits[k + 1]? = some a' → p.binEffect[k]? = some e →
      ∀ t, a ≤ t → t ≤ a' → |e - g' t| ≤ L * ((b.axisHi s - b.axisLo s) / n) := by
    intro k a a' e ha ha' hek t ht1 ht2
    have hk : k < n := by
      by_contra hk
      rw [List.getElem?_eq_none (by omega)] at ha'
      cases ha'
    rw [hpt k hk.le] at ha
    rw [hpt (k + 1) hk] at ha'
    cases ha
    cases ha'
    have hwid : gridPoint (b.axisLo s) (b.axisHi s) n (k + 1) - gridPoint (b.axisLo s) (b.axisHi s) n k = (b.axisHi s - b.axisLo s) / n := by
      unfold gridPoint
      push_cast
      ring
    have hne : binEffects p.limits (rhaleCtx b.data eff b.axisLo b.axisHi s).xs
        (col (((b.data.zip eff).filter fun p => inAxis (b.axisLo s) (b.axisHi s) s p.1).map (·.2)) s) k ≠ [] := by
      obtain ⟨r, hr, hr1, hr2⟩ := hcov k hk
      have hin : inAxis (b.axisLo s) (b.axisHi s) s r = true := by
        have e1 : b.axisLo s ≤ gridPoint (b.axisLo s) (b.axisHi s) n k := by
          unfold gridPoint
          have := mul_nonneg (Nat.cast_nonneg (α := ℝ) k) hw.le
          linarith
        have e2 : gridPoint (b.axisLo s) (b.axisHi s) n (k + 1) ≤ b.axisHi s := by
          have hkn : ((k + 1 : ℕ) : ℝ) ≤ n := by exact_mod_cast hk
          have e3 : (n : ℝ) * ((b.axisHi s - b.axisLo s) / n) = b.axisHi s - b.axisLo s := by
            rw [mul_div_cancel₀]
            have : (0 : ℝ) < n := by exact_mod_cast hn
            exact this.ne'
          have := mul_le_mul_of_nonneg_right hkn hw.le
          unfold gridPoint
          linarith
        have e4 : r s ≤ b.axisHi s := by
          rcases hr2 with h | h
          · exact h.le.trans e2
          · exact h.2
        simp [inAxis, e1.trans hr1, e4]
      obtain ⟨idx, hidx, hget⟩ := List.mem_iff_getElem.mp hr
      have hz : (r, eff[idx]'(by omega)) ∈ b.data.zip eff := by
        rw [List.mem_iff_getElem]
        exact ⟨idx, by rw [List.length_zip]; omega, by rw [List.getElem_zip, hget]⟩
      refine List.ne_nil_of_mem (a := (eff[idx]'(by omega)) s) (List.mem_map.mpr ⟨(r s, (eff[idx]'(by omega)) s), List.mem_filter.mpr ⟨?_, decide_eq_true ?_⟩, rfl⟩)
      · rw [show (rhaleCtx b.data eff b.axisLo b.axisHi s).xs = col (b.data.filter (inAxis (b.axisLo s) (b.axisHi s) s)) s from rfl, hpairs]
        exact List.mem_map.mpr ⟨_, List.mem_filter.mpr ⟨hz, hin⟩, rfl⟩
      · refine ⟨_, hpt k hk.le, _, hpt (k + 1) hk, hr1, ?_⟩
        have e5 : gridPoint (b.axisLo s) (b.axisHi s) n n = b.axisHi s := by
          have := hpt n le_rfl
          rw [List.getLast?_eq_getElem?, hll] at hhi
          rw [show n + 1 - 1 = n from rfl, this] at hhi
          exact Option.some.inj hhi
        rcases hr2 with h | ⟨h, h'⟩
        · split_ifs
          · exact h.le
          · exact h
        · rw [if_pos (by omega), h, e5]
          exact h'
    have := hbe k (by omega) hne
    rw [hek] at this
    simp only [Option.some.injEq] at this
    rw [this]
    refine avg_abs_sub_const_le _ _ _ hne fun v hv => ?_
    obtain ⟨q, hq, rfl⟩ := List.mem_map.mp hv
    obtain ⟨hq1, hq2⟩ := List.mem_filter.mp hq
    rw [show (rhaleCtx b.data eff b.axisLo b.axisHi s).xs = col (b.data.filter (inAxis (b.axisLo s) (b.axisHi s) s)) s from rfl, hpairs] at hq1
    obtain ⟨pr, hpr, rfl⟩ := List.mem_map.mp hq1
    simp only [heff pr (List.mem_filter.mp hpr).1]
    obtain ⟨a, ha, a', ha', h1, h2⟩ := of_decide_eq_true hq2
    rw [hpt k hk.le] at ha
    rw [hpt (k + 1) hk] at ha'
    cases ha
    cases ha'
    have h3 : pr.1 s ≤ gridPoint (b.axisLo s) (b.axisHi s) n (k + 1) := by
      split_ifs at h2
      · exact h2
      · exact h2.le
    refine (hL _ _).trans (mul_le_mul_of_nonneg_left ?_ hL0)
    rw [abs_le]
    constructor <;> linarith
  intro i j x y u' v' hi hj hu' hv' h1 h12 h2 h3
  have h4 : x ≤ 10 ^ 8 := h12.trans h3
  obtain ⟨el, hel, hacc⟩ := hgp.acc p.binEffect xs hgp.be
  unfold evalUnnorm at hu
  rw [hacc] at hu
  cases hu
  simp only [List.getElem?_map, hi, hj, Option.map_some, Option.some.injEq] at hu' hv'
  rw [if_neg (by unfold BIG_M; intro hc; exact absurd hc.2 (not_lt.mpr h4))] at hu'
  rw [if_neg (by unfold BIG_M; intro hc; exact absurd hc.2 (not_lt.mpr h3))] at hv'
  subst hu' hv'
  have key := stepIntegral_near hg hgp.inc (by rw [hgp.be]; omega) hlo hhi hnear h12
  rw [inside_of_mem h1 (h12.trans h2), inside_of_mem (h1.trans h12) h2, clampTo_of_mem h1 (h12.trans h2), clampTo_of_mem (h1.trans h12) h2] at key
  have e : ∀ a b : ℝ, a + 0 - z - (b + 0 - z) = a - b := fun a b => by ring
  rw [e]
  refine key.trans (le_of_eq (by ring))

/-- **C76, ALE.**  For `f(x) = g(x_s) + h(other features)`: if the fit in force is `Fixed(n)` and every bin holds an instance, the difference of the returned values at two
points `a ≤ b` within the axis limits is `g b - g a` up to `(L (w + 1e-8) + G 1e-8 / w) (b - a)`, where `w` is the width of a bin and `G` bounds `|g'|`.  (The terms
with 1e-8 come from the right end of the last bin, which the code moves by 1e-8; see C63.) -/
theorem C76_ale_accuracy (g g' : ℝ → ℝ) (hg : ∀ x, HasDerivAt g (g' x) x) (L G : ℝ) (hL : ∀ x y, |g' x - g' y| ≤ L * |x - y|) (hG : ∀ x, |g' x| ≤ G)
    (f : Row ℝ D → ℝ) (rest : Row ℝ D → ℝ) (b : Base ℝ D) (hlt : ∀ s, b.axisLo s < b.axisHi s) (s : Fin D)
    (hf : ∀ r, f r = g (r s) + rest r) (hrest : ∀ r v, rest (Function.update r s v) = rest r)
    (calls : List (AleOp ℝ D)) (hcalls : ∀ f bm c, AleOp.fit f bm c ∈ calls → ∀ m cl, bm ≠ .fixed 0 m cl)
    (n : ℕ) (hn : 1 ≤ n) (mp : Option ℕ) (cl : ℕ) (m0 : Centering) (hlast : lastFit (aleCfg id (List.map f) b) calls s = some (.fixed n mp cl, m0))
    (hcat : cl < distinct ((b.data.filter fun r => b.axisLo s ≤ r s ∧ r s ≤ b.axisHi s).map fun r => r s))
    (hcov : ∀ i, i < n → FixedBinNonempty (b.data.map fun r => r s) (b.axisLo s) (b.axisHi s) n i)
    (c : PyVal) (hc : prepCentering c = .ok .off ∨ prepCentering c = .ok m0) (xs : List ℝ) (het : Bool)
    (y : List ℝ) (o : Option (List ℝ)) (h : (aleEval (aleCfg id (List.map f) b) (aleRun (aleCfg id (List.map f) b) calls) s xs het c).2 = .ok (y, o)) :
    let w := (b.axisHi s - b.axisLo s) / n
    ∀ (i j : ℕ) (p q u v : ℝ), xs[i]? = some p → xs[j]? = some q → y[i]? = some u → y[j]? = some v →
      b.axisLo s ≤ p → p ≤ q → q ≤ b.axisHi s → q ≤ 10 ^ 8 → |(v - u) - (g q - g p)| ≤ (L * (w + 1 / 10 ^ 8) + G * (1 / 10 ^ 8) / w) * (q - p) := by
  intro w
  have hdef : ∀ m cl, (aleCfg id (List.map f) b).defaultBin ≠ .fixed 0 m cl := by intro m cl hc; cases hc
  have hgood := ale_goodFor id f b hlt
  have he := usesEvaluable_of (aleCfg id (List.map f) b) calls fun g bm c hm => (hgood bm (hcalls g bm c hm)).evaluable
  obtain ⟨m, p, u, z, hm, hp, hu, hz, rfl, -⟩ := eval_from_fit (hgood _ hdef).evaluable he h
  have hbm : effectiveBin (aleCfg id (List.map f) b) (lastFit (aleCfg id (List.map f) b) calls s) m = .fixed n mp cl := by
    rw [hlast]
    unfold effectiveBin
    simp only []
    rw [if_pos]
    rcases hc with hc | hc <;> rw [hc] at hm <;> cases hm
    · exact Or.inl rfl
    · exact Or.inr rfl
  rw [hbm] at hp
  have hfe : f = fun r => g (r s) + rest r := funext hf
  subst hfe
  have hp' : aleFitFeature id (List.map fun r => g (r s) + rest r) b.data b.axisLo b.axisHi s (.fixed n mp cl) = .ok p := hp
  have hcat' : cl < distinct (col (b.data.filter (inAxis (b.axisLo s) (b.axisHi s) s)) s) := by
    refine lt_of_lt_of_le hcat (le_of_eq ?_)
    unfold col
    congr 2
    apply List.filter_congr
    intro r _
    simp [inAxis]
  have hlim := ale_fixed_limits hcat' hp'
  obtain ⟨hgp, l0, l1, h0, h1, h01, hbe⟩ := ale_additive_binEffect hrest (hlt s) (by intro m c hc; cases hc; omega) hp'
  have hL0 : 0 ≤ L := by
    have := (abs_nonneg _).trans (hL 1 0)
    simpa using this
  have hG0 : 0 ≤ G := (abs_nonneg _).trans (hG 0)
  have hw : 0 < w := div_pos (sub_pos.mpr (hlt s)) (by exact_mod_cast hn)
  have hE : (EPS : ℝ) = 1 / 10 ^ 8 := by norm_num [EPS]
  have hEpos := EPS_pos (K := ℝ)
  have hll : p.limits.length = n + 1 := by rw [hlim, length_bumpLast, length_linspace]
  have hpt : ∀ i, i ≤ n → p.limits[i]? = some (gridPoint (b.axisLo s) (b.axisHi s) n i + if i = n then EPS else 0) := fun i hi => by
    rw [hlim]; exact getElem?_fixed _ _ _ _ hi
  have hlo : p.limits.head? = some (b.axisLo s) := by
    rw [List.head?_eq_getElem?, hpt 0 (by omega), if_neg (by omega), gridPoint_zero, add_zero]
  have hhi : p.limits.getLast? = some (b.axisHi s + EPS) := by
    rw [List.getLast?_eq_getElem?, hll, show n + 1 - 1 = n from rfl, hpt n le_rfl, if_pos rfl, gridPoint_last _ _ _ hn]
  have hl10 : l1 - l0 = w + if n = 1 then EPS else 0 := by
    rw [hpt 0 (by omega)] at h0
    rw [hpt 1 hn] at h1
    rw [← Option.some.inj h1, ← Option.some.inj h0, if_neg (show ¬ 0 = n by omega)]
    have := gridPoint_succ (b.axisLo s) (b.axisHi s) n 0
    rw [zero_add] at this
    by_cases hc : n = 1
    · rw [if_pos hc, if_pos hc.symm]; linarith
    · rw [if_neg hc, if_neg (Ne.symm hc)]; linarith
  have hnear : ∀ (k : ℕ) (a a' e : ℝ), p.limits[k]? = some a → p.limits[k + 1]? = some a' → p.binEffect[k]? = some e →
      ∀ t, a ≤ t → t ≤ a' → |e - g' t| ≤ L * (w + EPS) + G * EPS / w := by
    intro k a a' e ha ha' hek t ht1 ht2
    have hk : k < n := by
      by_contra hk
      rw [List.getElem?_eq_none (by omega)] at ha'
      cases ha'
    have haa : a < a' := increasing_getElem?_lt hgp.inc ha ha' (by omega)
    have := hbe k a a' ha ha' (by
      obtain ⟨x, hx, hx1, hx2⟩ := hcov k hk
      obtain ⟨r, hr, rfl⟩ := List.mem_map.mp hx
      refine ⟨r, hr, ?_, ?_, by rw [hlim]; exact inBin_fixed hn hk hx1 hx2⟩
      · refine le_trans ?_ hx1
        unfold gridPoint
        have := mul_nonneg (Nat.cast_nonneg (α := ℝ) k) hw.le
        linarith
      · split_ifs at hx2 with hc
        · exact hx2
        · refine hx2.le.trans (le_of_le_of_eq ?_ (gridPoint_last (b.axisLo s) (b.axisHi s) n hn))
          exact (gridPoint_lt (hlt s) hn (by omega)).le)
    rw [hek] at this
    simp only [Option.some.injEq] at this
    rw [this]
    obtain ⟨ξ, ⟨hξ1, hξ2⟩, hξ⟩ := exists_hasDerivAt_eq_slope g g' haa (fun x _ => (hg x).continuousAt.continuousWithinAt) fun x _ => hg x
    have hd : 0 < a' - a := sub_pos.mpr haa
    have hgd : g a' - g a = g' ξ * (a' - a) := by rw [hξ]; field_simp
    rw [hpt k hk.le, if_neg (by omega)] at ha
    rw [hpt (k + 1) hk] at ha'
    have hwid : a' - a = w + if k + 1 = n then EPS else 0 := by
      rw [← Option.some.inj ha, ← Option.some.inj ha']
      have := gridPoint_succ (b.axisLo s) (b.axisHi s) n k
      linarith
    have hwid' : a' - a ≤ w + EPS := by
      rw [hwid]
      split_ifs
      · exact le_rfl
      · linarith
    have hdist : |g' ξ - g' t| ≤ L * (w + EPS) := by
      refine (hL _ _).trans (mul_le_mul_of_nonneg_left ?_ hL0)
      rw [abs_le]
      constructor <;> linarith
    have hGE : 0 ≤ G * EPS / w := div_nonneg (mul_nonneg hG0 hEpos.le) hw.le
    rw [hgd, hl10, hwid]
    by_cases hc : k + 1 = n
    · by_cases h1n : n = 1
      · rw [if_pos hc, if_pos h1n, mul_div_cancel_right₀ _ (add_pos hw hEpos).ne']
        linarith
      · rw [if_pos hc, if_neg h1n, add_zero]
        have e1 : g' ξ * (w + EPS) / w - g' t = (g' ξ - g' t) + g' ξ * EPS / w := by field_simp; ring
        rw [e1]
        refine (abs_add_le _ _).trans (add_le_add hdist ?_)
        rw [abs_div, abs_mul, abs_of_pos hEpos, abs_of_pos hw]
        exact div_le_div_of_nonneg_right (mul_le_mul_of_nonneg_right (hG ξ) hEpos.le) hw.le
    · have h1n : ¬ n = 1 := by omega
      rw [if_neg hc, if_neg h1n, add_zero, mul_div_cancel_right₀ _ hw.ne']
      linarith
  intro i j x y u' v' hi hj hu' hv' h1 h12 h2 h3
  have h4 : x ≤ 10 ^ 8 := h12.trans h3
  obtain ⟨el, hel, hacc⟩ := hgp.acc p.binEffect xs hgp.be
  unfold evalUnnorm at hu
  rw [hacc] at hu
  cases hu
  simp only [List.getElem?_map, hi, hj, Option.map_some, Option.some.injEq] at hu' hv'
  rw [if_neg (by unfold BIG_M; intro hc; exact absurd hc.2 (not_lt.mpr h4))] at hu'
  rw [if_neg (by unfold BIG_M; intro hc; exact absurd hc.2 (not_lt.mpr h3))] at hv'
  subst hu' hv'
  have hy2 : y ≤ b.axisHi s + EPS := by linarith
  have key := stepIntegral_near hg hgp.inc (by rw [hgp.be]; omega) hlo hhi hnear h12
  rw [inside_of_mem h1 (h12.trans hy2), inside_of_mem (h1.trans h12) hy2, clampTo_of_mem h1 (h12.trans hy2), clampTo_of_mem (h1.trans h12) hy2] at key
  have e : ∀ a b : ℝ, a + 0 - z - (b + 0 - z) = a - b := fun a b => by ring
  rw [e, ← hE]
  refine key.trans (le_of_eq (by ring))

/-- The hypotheses are met: the effect `x²` (derivative `2 x`, Lipschitz constant 2) on the instances 0, 1, 2, 3 with two bins on [0, 3]. -/
example : (∀ x : ℝ, HasDerivAt (fun t => t ^ 2) (2 * x) x) ∧ (∀ x y : ℝ, |2 * x - 2 * y| ≤ 2 * |x - y|) ∧
    (∀ i, i < 2 → FixedBinNonempty [(0 : ℝ), 1, 2, 3] 0 3 2 i) := by
  refine ⟨fun x => by simpa using hasDerivAt_pow 2 x, fun x y => by rw [← mul_sub, abs_mul]; norm_num, ?_⟩
  intro i hi
  have : i = 0 ∨ i = 1 := by omega
  rcases this with rfl | rfl
  · exact ⟨0, by simp, by norm_num [gridPoint], by norm_num [gridPoint]⟩
  · exact ⟨2, by simp, by norm_num [gridPoint], by norm_num [gridPoint]⟩

end Effector
