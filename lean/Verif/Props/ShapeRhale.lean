import Verif.Props.Monotone
import Verif.Props.Shape

/-!
# C122 for RHALE: the curve of a convex main effect is convex
-/

namespace Effector

set_option linter.unusedSectionVars false

open Spec

variable {K : Type} [Field K] [LinearOrder K] [IsStrictOrderedRing K] {D : ℕ}

namespace Spec

/-- On any three of the points `xs` in `[lo, hi]`, the values `y` lie as those of a convex function: the middle one not above the chord. -/
def ConvexWithin (lo hi : K) (xs y : List K) : Prop :=
  ∀ (i j k : ℕ) (a b c u v z : K), xs[i]? = some a → xs[j]? = some b → xs[k]? = some c → y[i]? = some u → y[j]? = some v → y[k]? = some z → lo ≤ a → a ≤ b → b ≤ c → c ≤ hi →
    (c - a) * v ≤ (c - b) * u + (b - a) * z

/-- From an instance to one with a larger (or equal) value of the feature, the derivative with respect to the feature does not decrease: the main effect is convex and there is no interaction. -/
def EffectsGrow (s : Fin D) (data eff : List (Row K D)) : Prop := ∀ p ∈ data.zip eff, ∀ q ∈ data.zip eff, p.1 s ≤ q.1 s → p.2 s ≤ q.2 s

end Spec

/-! ### Filling gaps keeps the order -/

theorem last_known {P : ℕ → Prop} (i : ℕ) : (∃ p ≤ i, P p ∧ ∀ j, p < j → j ≤ i → ¬ P j) ∨ ∀ j ≤ i, ¬ P j := by
  induction i with
  | zero =>
    by_cases h : P 0
    · exact .inl ⟨0, le_rfl, h, fun j h1 h2 => by omega⟩
    · exact .inr fun j hj => by
        obtain rfl : j = 0 := by omega
        exact h
  | succ i ih =>
    by_cases h : P (i + 1)
    · exact .inl ⟨i + 1, le_rfl, h, fun j h1 h2 => by omega⟩
    · rcases ih with ⟨p, h1, h2, h3⟩ | h1
      · refine .inl ⟨p, by omega, h2, fun j h4 h5 => ?_⟩
        by_cases h6 : j = i + 1
        · subst h6; exact h
        · exact h3 j h4 (by omega)
      · refine .inr fun j hj => ?_
        by_cases h6 : j = i + 1
        · subst h6; exact h
        · exact h1 j (by omega)

theorem first_known {P : ℕ → Prop} (i : ℕ) : (∃ q, i ≤ q ∧ P q ∧ ∀ j, i ≤ j → j < q → ¬ P j) ∨ ∀ j, i ≤ j → ¬ P j := by
  classical
  by_cases h : ∃ q, i ≤ q ∧ P q
  · refine .inl ⟨Nat.find h, (Nat.find_spec h).1, (Nat.find_spec h).2, fun j h1 h2 h3 => ?_⟩
    exact Nat.find_min h h2 ⟨h1, h3⟩
  · push Not at h
    exact .inr h

theorem fillNans_grows {x : List (Option K)} {y : List K} (h : fillNans x = .ok y)
    (hx : ∀ (i j : ℕ) (v w : K), i ≤ j → x[i]? = some (some v) → x[j]? = some (some w) → v ≤ w) : y.Pairwise (· ≤ ·) := by
  have hne : ∃ o ∈ x, o ≠ none := by
    by_contra hc
    push Not at hc
    rw [(C05_raises_iff x).mpr hc] at h
    cases h
  obtain ⟨y', hy', hl, hkn, hmid, hleft, hright, -⟩ := C05_fill_nans x hne
  rw [h] at hy'
  cases hy'
  have hnone : ∀ j, j < x.length → ¬ (∃ v, x[j]? = some (some v)) → x[j]? = some none := by
    intro j hj hn
    rw [List.getElem?_eq_getElem hj] at hn ⊢
    cases hv : x[j] with
    | none => rfl
    | some v => exact absurd ⟨v, by rw [hv]⟩ hn
  have hlt : ∀ {j : ℕ} {o : Option K}, x[j]? = some o → j < x.length := fun h => (List.getElem?_eq_some_iff.mp h).1
  rw [← List.isChain_iff_pairwise, List.isChain_iff_getElem]
  intro i hi
  -- the last known bin up to `i`, the first known bin from `i + 1`
  have hyi : y[i]? = some y[i] := List.getElem?_eq_getElem (by omega)
  have hyi1 : y[i + 1]? = some y[i + 1] := List.getElem?_eq_getElem hi
  have put : ∀ {j : ℕ} {v w : K}, y[j]? = some v → y[j]? = some w → v = w := fun h1 h2 => Option.some.inj (h1.symm.trans h2)
  rcases last_known (P := fun j => ∃ v, x[j]? = some (some v)) i with ⟨p, hp, ⟨vp, hvp⟩, hpn⟩ | hp
  · rcases first_known (P := fun j => ∃ v, x[j]? = some (some v)) (i + 1) with ⟨q, hq, ⟨vq, hvq⟩, hqn⟩ | hq
    · have hbetween : ∀ j, p < j → j < q → x[j]? = some none := by
        intro j h1 h2
        refine hnone j (lt_trans h2 (hlt hvq)) ?_
        rcases Nat.lt_or_ge i j with h3 | h3
        · exact hqn j h3 h2
        · exact hpn j h1 h3
      have hpq : (0 : K) < (q : K) - p := sub_pos.mpr (by exact_mod_cast (by omega : p < q))
      have hle := hx p q vp vq (by omega) hvp hvq
      have hs : 0 ≤ (vq - vp) / ((q : K) - p) := div_nonneg (by linarith) hpq.le
      have e1 : y[i] = vp + ((i : K) - p) * ((vq - vp) / ((q : K) - p)) := by
        rcases Nat.eq_or_lt_of_le hp with h1 | h1
        · subst h1
          rw [sub_self, zero_mul, add_zero]
          exact put hyi (hkn _ _ hvp)
        · exact put hyi (hmid p i q vp vq h1 (by omega) hvp hvq hbetween)
      have e2 : y[i + 1] = vp + (((i + 1 : ℕ) : K) - p) * ((vq - vp) / ((q : K) - p)) := by
        rcases Nat.eq_or_lt_of_le hq with h1 | h1
        · subst h1
          have e : vp + (((i + 1 : ℕ) : K) - p) * ((vq - vp) / (((i + 1 : ℕ) : K) - p)) = vq := by
            rw [mul_div_cancel₀ _ hpq.ne']
            ring
          rw [e]
          exact put hyi1 (hkn _ _ hvq)
        · exact put hyi1 (hmid p (i + 1) q vp vq (by omega) h1 hvp hvq hbetween)
      rw [e1, e2]
      push_cast
      nlinarith
    · have hafter : ∀ j, p < j → j < x.length → x[j]? = some none := by
        intro j h1 h2
        refine hnone j h2 ?_
        rcases Nat.lt_or_ge i j with h3 | h3
        · exact hq j h3
        · exact hpn j h1 h3
      have e1 : y[i] = vp := by
        rcases Nat.eq_or_lt_of_le hp with h1 | h1
        · subst h1
          exact put hyi (hkn _ _ hvp)
        · exact put hyi (hright p i vp h1 (by omega) hvp hafter)
      have e2 : y[i + 1] = vp := put hyi1 (hright p (i + 1) vp (by omega) (by omega) hvp hafter)
      rw [e1, e2]
  · rcases first_known (P := fun j => ∃ v, x[j]? = some (some v)) (i + 1) with ⟨q, hq, ⟨vq, hvq⟩, hqn⟩ | hq
    · have hbefore : ∀ j, j < q → x[j]? = some none := by
        intro j h2
        refine hnone j (lt_trans h2 (hlt hvq)) ?_
        rcases Nat.lt_or_ge i j with h3 | h3
        · exact hqn j h3 h2
        · exact hp j h3
      have e1 : y[i] = vq := put hyi (hleft i q vq (by omega) hvq hbefore)
      have e2 : y[i + 1] = vq := by
        rcases Nat.eq_or_lt_of_le hq with h1 | h1
        · subst h1
          exact put hyi1 (hkn _ _ hvq)
        · exact put hyi1 (hleft (i + 1) q vq h1 hvq hbefore)
      rw [e1, e2]
    · exfalso
      obtain ⟨o, ho, hon⟩ := hne
      obtain ⟨j, hj, rfl⟩ := List.getElem_of_mem ho
      have hjn : ∃ v, x[j]? = some (some v) := by
        cases hv : x[j] with
        | none => exact absurd hv hon
        | some v => exact ⟨v, by rw [List.getElem?_eq_getElem hj, hv]⟩
      rcases Nat.lt_or_ge i j with h3 | h3
      · exact hq j h3 hjn
      · exact hp j h3 hjn

/-! ### The effects of the bins grow -/

theorem avg_le_of_all {l l' : List K} (hl : l ≠ []) (hl' : l' ≠ []) (h : ∀ y ∈ l, ∀ y' ∈ l', y ≤ y') : avg l ≤ avg l' := by
  obtain ⟨g, hg⟩ := exists_upper l'
  obtain ⟨g0, hg0⟩ := exists_upper (l.map fun y => -y)
  refine (avg_bounds (g1 := avg l) (g2 := g) (fun y' hy' => ⟨?_, hg y' hy'⟩) hl').1
  refine (avg_bounds (g1 := -g0) (g2 := y') (fun y hy => ⟨?_, h y hy y' hy'⟩) hl).2
  have := hg0 (-y) (List.mem_map.mpr ⟨y, hy, rfl⟩)
  linarith

theorem inBin_le {limits : List K} (hinc : Increasing limits) {k l : ℕ} (hkl : k < l) {x x' : K} (h : InBin limits k x) (h' : InBin limits l x') : x ≤ x' := by
  obtain ⟨a, ha, b, hb, -, h2⟩ := h
  obtain ⟨a', ha', b', hb', h1', -⟩ := h'
  have hxb : x ≤ b := by
    split_ifs at h2
    · exact h2
    · exact h2.le
  simp only [Option.mem_def] at hb ha'
  obtain ⟨i1, rfl⟩ := List.getElem?_eq_some_iff.mp hb
  obtain ⟨i2, rfl⟩ := List.getElem?_eq_some_iff.mp ha'
  have : limits[k + 1] ≤ limits[l] := by
    rcases Nat.eq_or_lt_of_le (Nat.succ_le_of_lt hkl) with h | h
    · simp only [Nat.succ_eq_add_one] at h
      simp only [h]
      exact le_rfl
    · exact (List.pairwise_iff_getElem.mp hinc _ _ i1 i2 h).le
  exact hxb.trans (this.trans h1')

theorem computeAleParams_grows {limits xs eff : List K} {p : AleParams K} (hinc : Increasing limits)
    (htwo : 2 ≤ limits.length) (hin : Within limits xs) (hlen : eff.length = xs.length)
    (h : computeAleParams xs eff limits = .ok p) (hg : ∀ q ∈ xs.zip eff, ∀ q' ∈ xs.zip eff, q.1 ≤ q'.1 → q.2 ≤ q'.2) : p.binEffect.Pairwise (· ≤ ·) := by
  have hset : BinSetting limits xs eff := ⟨hinc, htwo, hin, hlen⟩
  have hbe := computeBinEffect_eq hset
  unfold computeAleParams at h
  rw [hbe] at h
  simp only [bind, Except.bind] at h
  split at h
  · cases h
  · split at h
    · cases h
    · rename_i be' hbe'
      split at h
      · cases h
      · split at h
        · cases h
        · cases h
          refine fillNans_grows hbe' ?_
          intro i j v w hij hv hw
          rw [List.getElem?_map, Option.map_eq_some_iff] at hv hw
          obtain ⟨i', hi', hv⟩ := hv
          obtain ⟨j', hj', hw⟩ := hw
          obtain ⟨hi1, hi2⟩ := List.getElem?_eq_some_iff.mp hi'
          obtain ⟨hj1, hj2⟩ := List.getElem?_eq_some_iff.mp hj'
          rw [List.getElem_range] at hi2 hj2
          subst hi2 hj2
          split_ifs at hv hw with n1 n2
          simp only [Option.some.injEq] at hv hw
          subst hv hw
          rcases Nat.eq_or_lt_of_le hij with rfl | hlt
          · exact le_rfl
          · refine avg_le_of_all n1 n2 fun y hy y' hy' => ?_
            obtain ⟨q, hq, rfl⟩ := List.mem_map.mp hy
            obtain ⟨q', hq', rfl⟩ := List.mem_map.mp hy'
            obtain ⟨m1, b1⟩ := List.mem_filter.mp hq
            obtain ⟨m2, b2⟩ := List.mem_filter.mp hq'
            exact hg q m1 q' m2 (inBin_le hinc hlt (by simpa using b1) (by simpa using b2))

/-! ### The accumulated curve -/

theorem stepIntegral_convex {limits es : List K} {lo hi : K} (hinc : Increasing limits) (hlen : es.length + 1 = limits.length)
    (hes : es.Pairwise (· ≤ ·)) (hlo : limits.head? = some lo) (hhi : limits.getLast? = some hi) {a b c : K} (h0 : lo ≤ a) (hab : a ≤ b) (hbc : b ≤ c) (hc : c ≤ hi) (hlt : lo < hi) :
    ∃ g ∈ es, stepIntegral limits es b - stepIntegral limits es a ≤ g * (b - a) ∧ g * (c - b) ≤ stepIntegral limits es c - stepIntegral limits es b := by
  induction limits generalizing es lo a with
  | nil => simp at hlo
  | cons l0 t ih =>
    simp only [List.head?_cons, Option.some.injEq] at hlo
    subst hlo
    cases t with
    | nil =>
      simp only [List.getLast?_singleton, Option.some.injEq] at hhi
      exact absurd hlt (by rw [hhi]; exact lt_irrefl _)
    | cons l1 t =>
      cases es with
      | nil => simp at hlen
      | cons e es =>
        have h01 : l0 < l1 := (List.pairwise_cons.mp hinc).1 l1 (by simp)
        have hmin := (List.pairwise_cons.mp hes).1
        by_cases hb : b ≤ l1
        · refine ⟨e, by simp, le_of_eq ?_, ?_⟩
          · exact C01_spec_linear_inside (l0 :: l1 :: t) (e :: es) hinc 0 l0 l1 e a b rfl rfl rfl h0 (hab.trans hb) (h0.trans hab) hb
          · obtain ⟨g2, hg2⟩ := exists_upper (e :: es)
            have := (stepIntegral_slope (g1 := e) (g2 := g2) (a := b) (b := c) hinc hlen (fun y hy => ⟨by
              rcases List.mem_cons.mp hy with rfl | hy
              · exact le_rfl
              · exact hmin y hy, hg2 y hy⟩) rfl hhi hbc).1
            rw [inside_of_mem (h0.trans hab) (hbc.trans hc), inside_of_mem ((h0.trans hab).trans hbc) hc] at this
            linarith
        · have hb' := not_le.mp hb
          have hhi' : (l1 :: t).getLast? = some hi := by rwa [List.getLast?_cons_cons] at hhi
          obtain ⟨g, hg, i1, i2⟩ := ih (a := max a l1) (List.pairwise_cons.mp hinc).2 (by simpa using hlen) (List.pairwise_cons.mp hes).2 rfl hhi' (le_max_right _ _)
            (max_le hab hb'.le) (lt_of_lt_of_le hb' (hbc.trans hc))
          refine ⟨g, by simp [hg], ?_, ?_⟩
          · have e1 : stepIntegral (l1 :: t) es (max a l1) = stepIntegral (l1 :: t) es a := by
              rcases le_total a l1 with h | h
              · rw [max_eq_right h, C01_spec_zero_left (l1 :: t) es (List.pairwise_cons.mp hinc).2 l1 l1 rfl le_rfl, C01_spec_zero_left (l1 :: t) es (List.pairwise_cons.mp hinc).2 l1 a rfl h]
              · rw [max_eq_left h]
            rw [e1] at i1
            have hge : e ≤ g := hmin g hg
            unfold stepIntegral
            rw [min_eq_right hb'.le, min_eq_right (h01.le.trans hb'.le), min_eq_right h0]
            have e2 : max a l1 = a + l1 - min a l1 := by rw [← max_add_min a l1]; ring
            rw [e2] at i1
            have := mul_le_mul_of_nonneg_right hge (sub_nonneg.mpr (min_le_right a l1))
            nlinarith
          · unfold stepIntegral
            rw [min_eq_right hb'.le, min_eq_right (h01.le.trans hb'.le), min_eq_right (hb'.le.trans hbc), min_eq_right (h01.le.trans (hb'.le.trans hbc))]
            linarith

theorem GoodParams.convex {p : AleParams K} (hp : GoodParams p) (hb : p.binEffect.Pairwise (· ≤ ·)) {lo hi : K}
    (hlo : p.limits.head? = some lo) (hhi : p.limits.getLast? = some hi) (hlt : lo < hi) {xs u : List K} (hu : evalUnnorm p xs = .ok u) (z : K) :
    ConvexWithin lo (min hi (10 ^ 8)) xs (u.map (· - z)) := by
  obtain ⟨el, hel, hacc⟩ := hp.acc p.binEffect xs hp.be
  unfold evalUnnorm at hu
  rw [hacc] at hu
  cases hu
  have h2 := hp.two
  intro i j k a b c u v w ha hb' hc' hu hv hw h1 hab hbc hch
  obtain ⟨h3, h4⟩ := le_min_iff.mp hch
  simp only [List.getElem?_map, ha, hb', hc', Option.map_some, Option.some.injEq] at hu hv hw
  rw [if_neg (by unfold BIG_M; intro hc; exact absurd hc.2 (not_lt.mpr (hab.trans (hbc.trans h4))))] at hu
  rw [if_neg (by unfold BIG_M; intro hc; exact absurd hc.2 (not_lt.mpr (hbc.trans h4)))] at hv
  rw [if_neg (by unfold BIG_M; intro hc; exact absurd hc.2 (not_lt.mpr h4))] at hw
  subst hu hv hw
  obtain ⟨g, -, g1, g2⟩ := stepIntegral_convex hp.inc (by rw [hp.be]; omega) hb hlo hhi h1 hab hbc h3 hlt
  have m1 := mul_le_mul_of_nonneg_right g1 (sub_nonneg.mpr hbc)
  have m2 := mul_le_mul_of_nonneg_right g2 (sub_nonneg.mpr hab)
  nlinarith

theorem zip_kept (P : Row K D → Bool) (s : Fin D) : ∀ (data eff : List (Row K D)), eff.length = data.length →
    (col (data.filter P) s).zip (col (((data.zip eff).filter fun p => P p.1).map (·.2)) s) = ((data.zip eff).filter fun p => P p.1).map fun p => (p.1 s, p.2 s) := by
  intro data
  induction data with
  | nil => intro eff _; simp [col]
  | cons r data ih =>
    intro eff h
    cases eff with
    | nil => simp at h
    | cons e eff =>
      have := ih eff (by simpa using h)
      cases hP : P r with
      | true => simp [col, hP] at this ⊢; exact this
      | false => simp [col, hP] at this ⊢; exact this

/-- **C122, RHALE.**  If the derivative with respect to feature `s` does not decrease from an instance to one with a larger value (a convex main effect without interaction) then, after any
history of calls and for any centring, the curve is convex on an interval that contains all instances within the axis limits (points up to 1e8). -/
theorem C122_rhale_convex [PySqrt K] (eff : List (Row K D)) (b : Base K D) (hlt : ∀ s, b.axisLo s < b.axisHi s) (s : Fin D) (hg : EffectsGrow s b.data eff) (calls : List (AleOp K D))
    (hcalls : ∀ f bm c, AleOp.fit f bm c ∈ calls → ∀ t, SafeMethod (rhaleCtx b.data eff b.axisLo b.axisHi t) bm) (c : PyVal) (xs : List K) (het : Bool)
    (y : List K) (o : Option (List K)) (h : (aleEval (rhaleCfg eff b) (aleRun (rhaleCfg eff b) calls) s xs het c).2 = .ok (y, o)) :
    ∃ lo hi : K, lo < hi ∧ (∀ r ∈ b.data, b.axisLo s ≤ r s → r s ≤ b.axisHi s → lo ≤ r s ∧ r s ≤ hi) ∧ ConvexWithin lo (min hi (10 ^ 8)) xs y := by
  have hdefs : ∀ t, SafeMethod (rhaleCtx b.data eff b.axisLo b.axisHi t) (rhaleCfg eff b).defaultBin := fun t hc => absurd hc (by decide)
  have hgood := rhale_goodFor eff b hlt
  have he := usesEvaluable_of (rhaleCfg eff b) calls fun f bm c hm => (hgood bm (hcalls f bm c hm)).evaluable
  obtain ⟨m, p, u, z, hm, hp, hu, hz, rfl, -⟩ := eval_from_fit (hgood _ hdefs).evaluable he h
  have hsafe := effectiveBin_mem (rhaleCfg eff b) calls (fun bm => ∀ t, SafeMethod (rhaleCtx b.data eff b.axisLo b.axisHi t) bm) hdefs hcalls s m s
  obtain ⟨hgp, hwith, hpp⟩ := rhale_good (hlt s) hsafe hp
  obtain ⟨hlen, -⟩ := rhaleFitFeature_ok hp
  have hgrow : p.binEffect.Pairwise (· ≤ ·) := by
    refine computeAleParams_grows hgp.inc hgp.two hwith (rhaleCtx_len b.data eff b.axisLo b.axisHi s hlen) hpp ?_
    show ∀ q ∈ (col (b.data.filter (inAxis (b.axisLo s) (b.axisHi s) s)) s).zip (col (((b.data.zip eff).filter fun p => inAxis (b.axisLo s) (b.axisHi s) s p.1).map (·.2)) s),
      ∀ q' ∈ (col (b.data.filter (inAxis (b.axisLo s) (b.axisHi s) s)) s).zip (col (((b.data.zip eff).filter fun p => inAxis (b.axisLo s) (b.axisHi s) s p.1).map (·.2)) s), q.1 ≤ q'.1 → q.2 ≤ q'.2
    rw [zip_kept _ s b.data eff hlen]
    intro q hq q' hq' hle
    obtain ⟨r, hr, rfl⟩ := List.mem_map.mp hq
    obtain ⟨r', hr', rfl⟩ := List.mem_map.mp hq'
    exact hg r (List.mem_filter.mp hr).1 r' (List.mem_filter.mp hr').1 hle
  obtain ⟨lo, hi, hlo, hhi, hlh⟩ := head_getLast_lt hgp.inc hgp.two
  refine ⟨lo, hi, hlh, ?_, hgp.convex hgrow hlo hhi hlh hu z⟩
  intro r hr h1 h2
  obtain ⟨l, h, hl, hh, hall⟩ := hwith
  rw [hlo] at hl
  rw [hhi] at hh
  cases hl
  cases hh
  refine hall (r s) ?_
  simp only [rhaleCtx, col, List.mem_map]
  exact ⟨r, List.mem_filter.mpr ⟨hr, by simp [inAxis, h1, h2]⟩, rfl⟩

/-! ### A concrete case -/

/-- Five instances with a gap between 1 and 3 (an empty bin). -/
def squareData : List (Row ℚ 2) := [![3, 1], ![0, 5], ![1 / 2, 2], ![4, 0], ![1 / 4, 7]]

/-- The gradients of `x_0 ^ 2 + 10 x_1`. -/
def squareEff : List (Row ℚ 2) := squareData.map fun r => ![2 * r 0, 10]

def squareBase : Base ℚ 2 := { data := squareData, indices := [0, 1, 2, 3, 4], axisLo := fun _ => 0, axisHi := fun _ => 8 }

example : EffectsGrow 0 squareBase.data squareEff := by
  intro p hp q hq h
  have e : ∀ p ∈ squareData.zip squareEff, p.2 0 = 2 * p.1 0 := by
    intro p hp
    simp only [squareEff, squareData, List.map_cons, List.map_nil, List.zip_cons_cons, List.zip_nil_right, List.mem_cons, List.not_mem_nil, or_false] at hp
    rcases hp with rfl | rfl | rfl | rfl | rfl <;> rfl
  rw [e p hp, e q hq]
  linarith

/-- Eight bins of width 1, of which those at 1, 2 (filled in between) and 5 to 7 (continued) have no instance: the slopes 1/2, 7/3, 25/6, 6, 8, 8 ... grow. -/
example : (aleEval (rhaleCfg squareEff squareBase) (aleRun (rhaleCfg squareEff squareBase) [.fit (.int 0) (.fixed 8 (some 0) 0) (.bool false)]) 0 [0, 1, 2, 3, 4, 5] false (.bool false)).2 =
    .ok ([0, 1 / 2, 17 / 6, 7, 13, 21], none) := by decide +kernel

end Effector
