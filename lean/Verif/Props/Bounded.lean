import Verif.Props.PerfectRegional
import Mathlib.Tactic.FieldSimp

/-!
# Bounded effects: dynamic programming is well behaved, heterogeneity is bounded, `RegionalRHALE.fit` raises nothing
-/

set_option linter.unusedSectionVars false

namespace Effector

open Spec

variable {K : Type} [Field K] [LinearOrder K] [IsStrictOrderedRing K] {D : ℕ}

/-! ### The first limit -/

theorem isCategorical_first {xs L : List K} {m cl : ℕ} {lo hi : K} (h : isCategorical xs (some m) cl = .ok (some (.arr L)))
    (hin : ∀ x ∈ xs, lo ≤ x ∧ x ≤ hi) : ∃ l0, L.head? = some l0 ∧ lo - (hi - lo) / 2 ≤ l0 := by
  unfold isCategorical at h
  split_ifs at h with hcl
  · match hu : npUnique xs with
    | [] => rw [hu] at h; cases h
    | [a] => rw [hu] at h; cases h
    | a :: b :: t =>
      rw [hu] at h
      simp only [catLimits, bind, Except.bind, pure, Except.pure, Except.ok.injEq, Option.some.injEq] at h
      split_ifs at h
      cases h
      refine ⟨_, rfl, ?_⟩
      have ha := hin a ((mem_npUnique a xs).mp (by rw [hu]; simp))
      have hb := hin b ((mem_npUnique b xs).mp (by rw [hu]; simp))
      linarith [ha.1, ha.2, hb.1, hb.2]
  · cases h

theorem spans_first {L : List K} {lo hi : K} (h : Spans L lo hi) (hlt : lo < hi) : ∃ l0, L.head? = some l0 ∧ lo - (hi - lo) / 2 ≤ l0 :=
  ⟨lo, h.first, by linarith⟩

theorem greedyFind_first (c : BinCtx K) (n m cl : ℕ) (d : K) (hin : ∀ x ∈ c.xs, c.xmin ≤ x ∧ x ≤ c.xmax)
    (hlt : c.xmin < c.xmax) (L : List K) (h : greedyFind c n d (some m) cl = .ok (.arr L)) :
    ∃ l0, L.head? = some l0 ∧ c.xmin - (c.xmax - c.xmin) / 2 ≤ l0 := by
  by_cases hdeg : distinct c.xs = 1 ∨ c.xs.length < m
  · exfalso
    unfold greedyFind at h
    rw [noneValid_eq, show (decide (distinct c.xs = 1) || decide (c.xs.length < m)) = true by simpa using hdeg] at h
    cases h
  · push Not at hdeg
    have hnv : noneValidBinning c.xs (some m) = .ok false := by
      rw [noneValid_eq]
      simp [hdeg.1]
      omega
    by_cases hcat : cl < distinct c.xs
    · have hhead := h
      unfold greedyFind at hhead
      rw [hnv, isCategorical_not _ _ _ hcat] at hhead
      simp only [bind, Except.bind, Bool.false_eq_true, if_false, pure, Except.pure] at hhead
      cases he : c.eff with
      | none =>
        simp only [onlyOneBinPossible, BinCtx.getEff, he, bind, Except.bind] at hhead
        cases hhead
      | some e =>
        rcases Nat.eq_zero_or_pos n with hn | hn
        · subst hn
          have hl : linspace c.xmin c.xmax (0 + 1) = [c.xmin] := by simp [linspace, linspaceAt]
          rw [hl] at hhead
          simp only [onlyOneBinPossible, BinCtx.getEff, he, bind, Except.bind, pure, Except.pure] at hhead
          split_ifs at hhead with h1
          · cases hhead
            exact spans_first (spans_pair hlt) hlt
          · cases hhead
        · obtain ⟨L', h2, h3, -, -, h5⟩ := greedyFind_core c e n m cl d he hcat hdeg.1 hdeg.2 hlt hin hn
          rw [h] at h2
          cases h2
          exact spans_first h3 hlt
    · unfold greedyFind at h
      rw [hnv] at h
      simp only [bind, Except.bind, Bool.false_eq_true, if_false, pure, Except.pure] at h
      cases hc : isCategorical c.xs (some m) cl with
      | error e => rw [hc] at h; cases h
      | ok o =>
        obtain ⟨l, rfl⟩ := isCategorical_ok (by omega) o hc
        rw [hc] at h
        simp only [Except.ok.injEq] at h
        subst h
        exact isCategorical_first hc hin

theorem fixedFind_first (c : BinCtx K) (n m cl : ℕ) (hin : ∀ x ∈ c.xs, c.xmin ≤ x ∧ x ≤ c.xmax)
    (hlt : c.xmin < c.xmax) (hn : 1 ≤ n) (L : List K) (h : fixedFind c n (some m) cl = .ok (.arr L)) :
    ∃ l0, L.head? = some l0 ∧ c.xmin - (c.xmax - c.xmin) / 2 ≤ l0 := by
  by_cases hcat : cl < distinct c.xs
  · obtain ⟨L', -, -, h3, h4, h5⟩ := C14_fixed_equal_width c n m cl hcat hlt hn
    by_cases hmp : MinPoints c.xs m L'
    · have h6 := h4 hmp
      rw [h] at h6
      cases h6
      exact spans_first h3 hlt
    · have h6 := h5 hmp
      rw [h] at h6
      cases h6
  · unfold fixedFind at h
    rw [noneValid_eq] at h
    simp only [bind, Except.bind, pure, Except.pure] at h
    cases hc : isCategorical c.xs (some m) cl with
    | error e => rw [hc] at h; cases h
    | ok o =>
      obtain ⟨l, rfl⟩ := isCategorical_ok (by omega) o hc
      rw [hc] at h
      simp only [Except.ok.injEq] at h
      subst h
      exact isCategorical_first hc hin

theorem dpFind_first (c : BinCtx K) (k m cl : ℕ) (d : K) (hin : ∀ x ∈ c.xs, c.xmin ≤ x ∧ x ≤ c.xmax)
    (hlt : c.xmin < c.xmax) (hsafe : DpSafe c k m d) (L : List K) (h : dpFind c k (some m) d cl = .ok (.arr L)) :
    ∃ l0, L.head? = some l0 ∧ c.xmin - (c.xmax - c.xmin) / 2 ≤ l0 := by
  obtain ⟨e, he, hlen, hd, hnan, hcheap⟩ := hsafe
  by_cases hdeg : distinct c.xs = 1 ∨ c.xs.length < m
  · exfalso
    unfold dpFind at h
    rw [noneValid_eq, show (decide (distinct c.xs = 1) || decide (c.xs.length < m)) = true by simpa using hdeg] at h
    cases h
  · push Not at hdeg
    have hnv : noneValidBinning c.xs (some m) = .ok false := by
      rw [noneValid_eq]
      simp [hdeg.1]
      omega
    have hpair := spans_first (spans_pair hlt) hlt
    by_cases hcat : cl < distinct c.xs
    · by_cases hk : 2 ≤ k
      · rw [dpFind_eq c e k m cl d he hcat hdeg.1 hdeg.2 hk] at h
        split_ifs at h
        · cases h
          exact hpair
        · cases h
          obtain ⟨h2, -, h3, -⟩ := dp_core c e k m d hlen hlt hk hd hnan hcheap
          exact spans_first h2.1 hlt
      · unfold dpFind at h
        rw [hnv, isCategorical_not _ _ _ hcat] at h
        simp only [bind, Except.bind, Bool.false_eq_true, if_false, pure, Except.pure, onlyOneBinPossible, BinCtx.getEff, he] at h
        split_ifs at h with h1 h2 h3
        · cases h; exact hpair
        · cases h; exact hpair
        · omega
    · unfold dpFind at h
      rw [hnv] at h
      simp only [bind, Except.bind, Bool.false_eq_true, if_false, pure, Except.pure] at h
      cases hc : isCategorical c.xs (some m) cl with
      | error e => rw [hc] at h; cases h
      | ok o =>
        obtain ⟨l, rfl⟩ := isCategorical_ok (by omega) o hc
        rw [hc] at h
        simp only [Except.ok.injEq] at h
        subst h
        exact isCategorical_first hc hin

/-- The first limit lies at most half the axis left of the axis (for categorical features it is left of it, otherwise it is its left end). -/
theorem findLimits_first (c : BinCtx K) (bm : BinMethod K) (hin : ∀ x ∈ c.xs, c.xmin ≤ x ∧ x ≤ c.xmax)
    (hlt : c.xmin < c.xmax) (hsafe : SafeMethod c bm) (L : List K) (h : findLimits c bm = .ok (.arr L)) :
    ∃ l0, L.head? = some l0 ∧ c.xmin - (c.xmax - c.xmin) / 2 ≤ l0 := by
  have hnone := C23_false_min_points_none c
  cases bm with
  | fixed n mo cl =>
    cases mo with
    | none => rw [(hnone n cl 0).1] at h; cases h
    | some m => exact fixedFind_first c n m cl hin hlt hsafe L h
  | greedy n mo d cl =>
    cases mo with
    | none => rw [(hnone n cl d).2.1] at h; cases h
    | some m => exact greedyFind_first c n m cl d hin hlt L h
  | dp n mo d cl =>
    cases mo with
    | none => rw [(hnone n cl d).2.2] at h; cases h
    | some m => exact dpFind_first c n m cl d hin hlt (hsafe m rfl) L h
  | str s =>
    unfold findLimits at h
    simp only at h
    split_ifs at h with h1 h2 h3
    · exact fixedFind_first c 20 0 15 hin hlt (by omega) L h
    · exact greedyFind_first c 100 0 15 (3 / 10) hin hlt L h
    · exact dpFind_first c 20 0 15 (3 / 10) hin hlt (hsafe h3) L h

/-! ### Dynamic programming -/

theorem popVar_le {l : List K} {a C : K} (_hC : 0 ≤ C) (h : ∀ y ∈ l, a ≤ y ∧ y ≤ a + C) : popVar l ≤ C ^ 2 := by
  by_cases hne : l = []
  · rw [hne]; simp [popVar]; positivity
  · obtain ⟨m1, m2⟩ := avg_bounds h hne
    have := (avg_bounds (l := l.map fun y => (y - avg l) ^ 2) (g1 := 0) (g2 := C ^ 2) ?_ (by simpa using hne)).2
    · unfold avg at this
      rw [List.length_map] at this
      exact this
    · intro z hz
      obtain ⟨y, hy, rfl⟩ := List.mem_map.mp hz
      obtain ⟨y1, y2⟩ := h y hy
      exact ⟨sq_nonneg _, sq_le_sq' (by linarith) (by linarith)⟩

/-- Effects between `a` and `a + C` with `C² (xmax - xmin) (1 - discount) < 1e8`: the single bin is a binning that costs less than the penalty. -/
theorem dpSafe_bounded {c : BinCtx K} {e : List K} {a C : K} (he : c.eff = some e) (hlen : e.length = c.xs.length) (hC : 0 ≤ C)
    (hv : ∀ y ∈ e, a ≤ y ∧ y ≤ a + C) (hlt : c.xmin < c.xmax) (hin : ∀ x ∈ c.xs, c.xmin ≤ x ∧ x ≤ c.xmax) {k m : ℕ} {d : K} (hk : 1 ≤ k) (hd : d ≤ 1)
    (hm : m ≤ c.xs.length) (hcell : 1 ≤ m ∨ CellsNonempty c.xs c.xmin c.xmax k) (hcost : C ^ 2 * (c.xmax - c.xmin) * (1 - d) < 10 ^ 8) : DpSafe c k m d := by
  refine ⟨e, he, hlen, hd, hcell, [c.xmin, c.xmax], ⟨spans_pair hlt, onGrid_pair _ _ _ hk⟩, ?_⟩
  unfold binningCost Spec.binCost
  rw [closedCount_all hin, if_neg (by omega)]
  simp only [binningCost, add_zero]
  have h1 := popVar_le hC fun y hy => hv y (closedEffects_mem (xs := c.xs) (a := c.xmin) (b := c.xmax) hy)
  have hw : 0 ≤ c.xmax - c.xmin := by linarith
  by_cases hx : c.xs = []
  · have : closedEffects c.xs e c.xmin c.xmax = [] := by rw [hx]; simp [closedEffects]
    rw [this]
    simp [popVar]
  · have hl : (c.xs.length : K) ≠ 0 := by
      have := List.length_pos_of_ne_nil hx
      positivity
    rw [div_self hl, mul_one]
    refine lt_of_le_of_lt ?_ hcost
    have := mul_le_mul_of_nonneg_right h1 hw
    exact mul_le_mul_of_nonneg_right this (by linarith)

/-- **C18, C19, C20 with bounded effects.**  If all effects lie in an interval of length `C` and `C² · (xmax - xmin) · (1 - discount) < 1e8`, dynamic programming
returns a binning on its grid with at least `min_points` instances in every bin; and it is the cheapest one unless the one-bin shortcut applies. -/
theorem C18_dp_bounded (c : BinCtx K) (e : List K) (k m cl : ℕ) (d a C : K) (he : c.eff = some e)
    (hlen : e.length = c.xs.length) (hcat : cl < distinct c.xs) (h1 : distinct c.xs ≠ 1) (hm : m ≤ c.xs.length)
    (hin : ∀ x ∈ c.xs, c.xmin ≤ x ∧ x ≤ c.xmax)
    (hlt : c.xmin < c.xmax) (hk : 2 ≤ k) (hd : d ≤ 1) (hnan : 1 ≤ m ∨ CellsNonempty c.xs c.xmin c.xmax k)
    (hC : 0 ≤ C) (hv : ∀ y ∈ e, a ≤ y ∧ y ≤ a + C) (hcost : C ^ 2 * (c.xmax - c.xmin) * (1 - d) < 10 ^ 8) :
    ∃ L, dpFind c k (some m) d cl = .ok (.arr L) ∧ GridBinning c.xmin c.xmax k L ∧ L.length - 1 ≤ k ∧ MinPoints c.xs m L ∧
      (2 * m ≤ c.xs.length → ¬ |c.xmin - c.xmax| ≤ 1 / 10 ^ 8 + 1 / 10 ^ 5 * |c.xmax| →
        ∀ L', GridBinning c.xmin c.xmax k L' → binningCost c.xs e m d L ≤ binningCost c.xs e m d L') := by
  obtain ⟨e', he', -, -, -, hcheap⟩ := dpSafe_bounded (k := k) (m := m) he hlen hC hv hlt hin (by omega) hd hm hnan hcost
  rw [he] at he'
  cases he'
  obtain ⟨L, hL, h2, h3⟩ := C18_dp_increasing_partial c e k m cl d he hlen hcat h1 hm hlt hk hd hnan hcheap
  obtain ⟨L1, hL1, h4⟩ := C19_dp_min_points_partial c e k m cl d he hlen hcat h1 hm hin hlt hk hd hnan hcheap
  rw [hL] at hL1
  cases hL1
  refine ⟨L, hL, h2, h3, h4, fun hm2 hclose => ?_⟩
  obtain ⟨L2, hL2, -, h5⟩ := C20_dp_optimal_partial c e k m cl d he hlen hcat h1 hm2 hclose hlt hk hd hnan hcheap
  rw [hL] at hL2
  cases hL2
  exact h5

/-! ### The heterogeneity of a region -/

theorem sqrt_le_of_sq [PySqrt K] [LawfulSqrt K] {v C : K} (hC : 0 ≤ C) (h0 : 0 ≤ v) (h : v ≤ C ^ 2) : PySqrt.sqrt v ≤ C := by
  have h2 := LawfulSqrt.sqrt_mul_self v h0
  have h3 := LawfulSqrt.sqrt_nonneg v
  nlinarith

/-- The accumulated standard deviation is at most `C` times the distance from the first limit. -/
theorem het_bound [PySqrt K] [LawfulSqrt K] {limits xs eff : List K} {p : AleParams K} {a C : K} (hC : 0 ≤ C) (hinc : Increasing limits)
    (htwo : 2 ≤ limits.length) (hin : Within limits xs) (hlen : eff.length = xs.length) (h : computeAleParams xs eff limits = .ok p)
    (hv : ∀ y ∈ eff, a ≤ y ∧ y ≤ a + C) {l0 x : K} (hl0 : limits.head? = some l0) (hx : l0 ≤ x) :
    stepIntegral p.limits (p.binVariance.map PySqrt.sqrt) x ≤ C * (x - l0) := by
  obtain ⟨hg, hl, -, ⟨bv, hbv, h2⟩, -⟩ := computeAleParams_good hinc htwo hin hlen h
  have hb : ∀ v ∈ p.binVariance, 0 ≤ v ∧ v ≤ C ^ 2 := by
    refine fillNans_bounds hbv fun v hvv => ?_
    obtain ⟨k, rfl⟩ := h2 v hvv
    exact ⟨popVar_nonneg _, popVar_le hC fun y hy => hv y (mem_binEffects hy)⟩
  have hne : limits ≠ [] := by intro h0; rw [h0] at htwo; simp at htwo
  have hlast := List.getLast?_eq_some_getLast hne
  rw [hl]
  have hs := (stepIntegral_slope (es := p.binVariance.map PySqrt.sqrt) (g1 := 0) (g2 := C) hinc
    (by rw [List.length_map, hg.bv, hl]; omega) (by
      intro e he
      obtain ⟨v, hvm, rfl⟩ := List.mem_map.mp he
      obtain ⟨b1, b2⟩ := hb v hvm
      exact ⟨LawfulSqrt.sqrt_nonneg _, sqrt_le_of_sq hC b1 b2⟩) hl0 hlast hx).2
  have hz : stepIntegral limits (p.binVariance.map PySqrt.sqrt) l0 = 0 := by
    refine stepIntegral_left fun b hb => ?_
    obtain ⟨i, hi⟩ := List.mem_iff_getElem?.mp hb
    rw [List.head?_eq_getElem?] at hl0
    exact increasing_getElem?_le hinc hl0 hi (by omega)
  rw [hz, sub_zero] at hs
  refine hs.trans (mul_le_mul_of_nonneg_left ?_ hC)
  unfold inside
  have hll : l0 ≤ limits.getLast hne := by
    rw [List.head?_eq_getElem?] at hl0
    rw [List.getLast?_eq_getElem?] at hlast
    exact increasing_getElem?_le hinc hl0 hlast (by omega)
  rw [min_eq_right hx, min_eq_left hll, min_self]
  have := min_le_left x (limits.getLast hne)
  linarith

/-- Binning methods for which `RegionalRHALE.fit` is proved to succeed on effects in an interval of length `C` of a feature of width `w`: Greedy with any
parameters, Fixed with at least one bin and `cat_limit ≥ 1`, dynamic programming with `min_points ≥ 1` and a bounded cost; and the names RHALE accepts. -/
def Spec.BoundedMethod (C w : K) : BinMethod K → Prop
  | .greedy _ _ _ _ => True
  | .fixed n _ cl => 1 ≤ n ∧ 1 ≤ cl
  | .dp k m d _ => 1 ≤ k ∧ d ≤ 1 ∧ (∀ m', m = some m' → 1 ≤ m') ∧ C ^ 2 * w * (1 - d) < 10 ^ 8
  | .str s => s ≠ "dp"

theorem bounded_safe {C w a : K} {bm : BinMethod K} (hbm : BoundedMethod C w bm) {c : BinCtx K} {e : List K} (he : c.eff = some e) (hlen : e.length = c.xs.length)
    (hC : 0 ≤ C) (hv : ∀ y ∈ e, a ≤ y ∧ y ≤ a + C) (hlt : c.xmin < c.xmax) (hw : c.xmax - c.xmin ≤ w) (hin : ∀ x ∈ c.xs, c.xmin ≤ x ∧ x ≤ c.xmax) {L : List K}
    (h : findLimits c bm = .ok (.arr L)) : SafeMethod c bm := by
  cases bm with
  | greedy n m d cl => trivial
  | fixed n m cl => exact hbm.1
  | str s => exact fun h1 => absurd h1 hbm
  | dp k m d cl =>
    rintro m' rfl
    obtain ⟨h1, h2, h3, h4⟩ := hbm
    by_cases hm : m' ≤ c.xs.length
    · refine dpSafe_bounded he hlen hC hv hlt hin h1 h2 hm (Or.inl (h3 m' rfl)) (lt_of_le_of_lt ?_ h4)
      exact mul_le_mul_of_nonneg_right (mul_le_mul_of_nonneg_left hw (sq_nonneg C)) (by linarith)
    · exfalso
      rw [(C22_greedy_dp_impossible_partial c k m' cl d (Or.inr (by omega))).2] at h
      cases h

/-- **C68, RHALE, upper bound.**  If the effects of the region lie in an interval of length `C`, the heterogeneity is 1e8 (too few rows, or no fit possible) or at
most `3/2 · C` times the width of the region. -/
theorem C68_rhale_heterogeneity_bounded [PySqrt K] [LawfulSqrt K] (choice : ℕ → ℕ → List ℕ) (model : List (Row K D) → List K)
    (jac : Option (List (Row K D) → List (Row K D))) (foi : Fin D) (bm : BinMethod K) (minPoints : ℕ) (centering : PyVal)
    (data : List (Row K D)) (eff : List (Row K D)) (lo hi : Fin D → K) (hlim : axisLimitsAll data = .ok (lo, hi))
    (heff : eff.length = data.length) (a C : K) (hC : 0 ≤ C) (hv : ∀ r ∈ eff, a ≤ r foi ∧ r foi ≤ a + C) (w : K) (hw : hi foi - lo foi ≤ w)
    (hbig : hi foi ≤ 100000000) (hbm : BoundedMethod C w bm) :
    ∃ v, aleHeter (mkRhale choice model jac) foi bm minPoints centering data (some eff) = .ok v ∧ 0 ≤ v ∧ (v = 100000000 ∨ v ≤ 3 / 2 * C * w) := by
  have hcl : ∀ n m, bm ≠ .fixed n m 0 := by
    rintro n m rfl
    exact absurd hbm.2 (by omega)
  have hin := rhaleCtx_in data eff lo hi foi
  have hlenc := rhaleCtx_len data eff lo hi foi heff
  have hve : ∀ y ∈ col (((data.zip eff).filter fun p => inAxis (lo foi) (hi foi) foi p.1).map (·.2)) foi, a ≤ y ∧ y ≤ a + C := by
    intro y hy
    obtain ⟨r, hr, rfl⟩ := List.mem_map.mp hy
    obtain ⟨q, hq, rfl⟩ := List.mem_map.mp hr
    exact hv _ (List.of_mem_zip (List.mem_filter.mp hq).1).2
  have hsafe : lo foi < hi foi → ∀ L, findLimits (rhaleCtx data eff lo hi foi) bm = .ok (.arr L) → SafeMethod (rhaleCtx data eff lo hi foi) bm :=
    fun hlt L hL => bounded_safe hbm (c := rhaleCtx data eff lo hi foi) rfl hlenc hC hve hlt hw hin hL
  obtain ⟨v, h1, h2, h3, h4, h5⟩ := C68_rhale_heterogeneity choice model jac foi bm minPoints centering data (some eff) lo hi hlim
    (by rintro e ⟨⟩; exact heff) hsafe hcl
  refine ⟨v, h1, h2, ?_⟩
  have hB : (10 ^ 8 : K) = 100000000 := by norm_num
  rw [hB] at h3 h4 h5
  by_cases hfew : data.length < minPoints
  · exact Or.inl (h3 hfew)
  by_cases hal : rhaleAllowed bm = true
  swap
  · exact Or.inl (h4 (Or.inl (by simpa using hal)))
  rcases prepCentering_ok_or centering with ⟨m, hm⟩ | hm
  swap
  · exact Or.inl (h4 (Or.inr (Or.inl hm)))
  cases hfit : rhaleFitFeature data (rhaleEffects model jac (some eff) data) lo hi foi bm with
  | error e => exact Or.inl (h4 (Or.inr (Or.inr ⟨e, hfit⟩)))
  | ok p =>
    right
    rw [h5 p m (by omega) hal hm hfit hbig]
    have hfit' : rhaleFitFeature data eff lo hi foi bm = .ok p := hfit
    obtain ⟨-, L, hL, hp⟩ := rhaleFitFeature_ok hfit'
    have hlt : lo foi < hi foi := by
      by_contra hlt
      exact findLimits_constant _ _ (distinct_of_axis hlim hlt) hcl L hL
    obtain ⟨hinc, htwo, hwith, -⟩ := findLimits_good (rhaleCtx data eff lo hi foi) bm hin hlt (hsafe hlt L hL) L hL
    obtain ⟨l0, hl0, hb⟩ := findLimits_first (rhaleCtx data eff lo hi foi) bm hin hlt (hsafe hlt L hL) L hL
    have hb' : lo foi - (hi foi - lo foi) / 2 ≤ l0 := hb
    have hl0x : l0 ≤ hi foi := by
      obtain ⟨-, -, hnd⟩ := listMax_axis hlim foi
      obtain ⟨b0, b1, hb0, -, hbw⟩ := hwith
      rw [hl0] at hb0
      cases hb0
      obtain ⟨y, hy⟩ : ∃ y, y ∈ (rhaleCtx data eff lo hi foi).xs := by
        obtain ⟨r, hr⟩ := List.exists_mem_of_ne_nil _ hnd
        have hw := axisLimits_within hlim r hr foi
        refine ⟨r foi, ?_⟩
        unfold rhaleCtx
        refine List.mem_map.mpr ⟨r, List.mem_filter.mpr ⟨hr, ?_⟩, rfl⟩
        unfold inAxis
        simpa using hw
      exact (hbw y hy).1.trans (hin y hy).2
    refine (het_bound hC hinc htwo hwith hlenc hp hve hl0 hl0x).trans ?_
    have : hi foi - l0 ≤ 3 / 2 * w := by linarith
    calc C * (hi foi - l0) ≤ C * (3 / 2 * w) := mul_le_mul_of_nonneg_left this hC
      _ = 3 / 2 * C * w := by ring

/-- **C71, RegionalRHALE with bounded effects.**  Any model, any Jacobian, any centring argument (even an invalid one), Greedy, Fixed or dynamic-programming
binning: if the effects lie in an interval of length `C`, the values of the feature in one of length `w` (and are at most 1e8), and `3/2 · C · w ≤ 1e8`, then
`fit` raises nothing. -/
theorem C71_rhale_bounded [PySqrt K] [LawfulSqrt K] (cfg : RegCfg K D) (heff : EffAligned cfg) (hne : cfg.data ≠ []) (hspl : 0 < cfg.nofSplits)
    (hcat : ∀ f ∈ cfg.foc, cfg.types f = .cat → distinct (cfg.data.map (· f)) ≤ max cfg.nofSplits cfg.catLimit)
    (hdep : cfg.maxLevels ≤ cfg.foc.length) (hmin : 1 ≤ cfg.minPoints) (choice : ℕ → ℕ → List ℕ) (model : List (Row K D) → List K)
    (jac : Option (List (Row K D) → List (Row K D))) (bm : BinMethod K) (centering : PyVal) (E : List (Row K D)) (hE : cfg.dataEffect = some E)
    (a C u w : K) (hC : 0 ≤ C) (hv : ∀ r ∈ E, a ≤ r cfg.feature ∧ r cfg.feature ≤ a + C)
    (hu : ∀ r ∈ cfg.data, u ≤ r cfg.feature ∧ r cfg.feature ≤ u + w) (hbig : u + w ≤ 100000000) (hCw : 3 / 2 * C * w ≤ 100000000) (hbm : BoundedMethod C w bm) :
    ∃ r, searchAllSplitsM cfg (aleHeter (mkRhale choice model jac) cfg.feature bm cfg.minPoints centering) = .ok r := by
  refine C71_search_never_raises cfg heff hne hspl hcat hdep _ fun x e hx => ?_
  obtain ⟨hx1, hx2, hx3⟩ := hx
  cases e with
  | none => rw [hE] at hx2; cases hx2
  | some e =>
    obtain ⟨hl, E', hE', hsub⟩ := hx3 e rfl
    rw [hE] at hE'
    cases hE'
    by_cases hxe : x = []
    · refine ⟨BIG_M, aleHeter_few _ _ _ _ _ _ _ ?_, big_pos.le, by norm_num [BIG_M]⟩
      rw [hxe]; exact hmin
    · obtain ⟨lo, hi, hlim⟩ := axisLimits_ok hxe
      obtain ⟨hmx, hmn, -⟩ := listMax_axis hlim cfg.feature
      have hlo : u ≤ lo cfg.feature ∧ hi cfg.feature ≤ u + w := by
        obtain ⟨r, hr, h1⟩ := List.mem_map.mp (listMin_least hmn).1
        obtain ⟨r', hr', h2⟩ := List.mem_map.mp (listMax_greatest hmx).1
        rw [← h1, ← h2]
        exact ⟨(hu r (hx1.subset hr)).1, (hu r' (hx1.subset hr')).2⟩
      have hve : ∀ r ∈ e, a ≤ r cfg.feature ∧ r cfg.feature ≤ a + C := by
        intro r hr
        have hmap : (x.zip e).map (·.2) = e := List.map_snd_zip (by omega)
        rw [← hmap] at hr
        obtain ⟨q, hq, rfl⟩ := List.mem_map.mp hr
        exact hv _ (List.of_mem_zip (hsub.subset hq)).2
      obtain ⟨v, h1, h2, h3⟩ := C68_rhale_heterogeneity_bounded choice model jac cfg.feature bm cfg.minPoints centering x e lo hi hlim hl a C hC hve w
        (by linarith [hlo.1, hlo.2]) (hlo.2.trans hbig) hbm
      refine ⟨v, h1, h2, ?_⟩
      rcases h3 with h3 | h3
      · rw [h3]
      · exact h3.trans hCw

/-! ### ALE -/

/-- The first bin of a `Fixed` binning: the axis is at most `n` times as wide, or the bin is as wide as the distance of two different values. -/
theorem fixedFind_width (c : BinCtx K) (n m cl : ℕ) (hlt : c.xmin < c.xmax) (hn : 1 ≤ n) (L : List K)
    (h : fixedFind c n (some m) cl = .ok (.arr L)) {l0 l1 : K} (h0 : (bumpLast EPS L)[0]? = some l0) (h1 : (bumpLast EPS L)[1]? = some l1) :
    (l0 = c.xmin ∧ c.xmax - l0 ≤ (n : K) * (l1 - l0)) ∨ ∃ a b, a ∈ c.xs ∧ b ∈ c.xs ∧ a < b ∧ l1 - l0 = b - a ∧ l0 = a - (b - a) / 2 := by
  by_cases hcat : cl < distinct c.xs
  · left
    obtain ⟨L', hlen, hpts, h3, h4, h5⟩ := C14_fixed_equal_width c n m cl hcat hlt hn
    have hLL : L = L' := by
      by_cases hmp : MinPoints c.xs m L'
      · have h6 := h4 hmp
        rw [h] at h6
        cases h6
        rfl
      · have h6 := h5 hmp
        rw [h] at h6
        cases h6
    subst hLL
    have hE := EPS_pos (K := K)
    rw [getElem?_bumpLast, hpts 0 (by omega)] at h0
    rw [getElem?_bumpLast, hpts 1 hn] at h1
    simp only [Option.map_some, Option.some.injEq, gridPoint] at h0 h1
    rw [if_neg (by omega)] at h0
    simp only [Nat.cast_zero, zero_mul, add_zero, Nat.cast_one, one_mul] at h0 h1
    have hn0 : (0 : K) < n := by positivity
    have hle : (c.xmax - c.xmin) / n ≤ l1 - l0 := by
      rw [← h0, ← h1]
      split_ifs <;> linarith
    refine ⟨h0.symm, ?_⟩
    rw [← h0] at hle ⊢
    have := mul_le_mul_of_nonneg_left hle hn0.le
    rw [mul_div_cancel₀ _ hn0.ne'] at this
    exact this
  · right
    unfold fixedFind at h
    rw [noneValid_eq] at h
    simp only [bind, Except.bind, pure, Except.pure] at h
    cases hc : isCategorical c.xs (some m) cl with
    | error e => rw [hc] at h; cases h
    | ok o =>
      obtain ⟨l, rfl⟩ := isCategorical_ok (by omega) o hc
      rw [hc] at h
      simp only [Except.ok.injEq] at h
      subst h
      unfold isCategorical at hc
      split_ifs at hc with hcl
      · have hsort := npUnique_sorted c.xs
        match hu : npUnique c.xs with
        | [] => rw [hu] at hc; cases hc
        | [a] => rw [hu] at hc; cases hc
        | a :: b :: t =>
          rw [hu] at hc hsort
          simp only [catLimits, bind, Except.bind, pure, Except.pure, Except.ok.injEq, Option.some.injEq] at hc
          split_ifs at hc
          cases hc
          have hab : a < b := (List.pairwise_cons.mp hsort).1 b (by simp)
          refine ⟨a, b, (mem_npUnique a c.xs).mp (by rw [hu]; simp), (mem_npUnique b c.xs).mp (by rw [hu]; simp), hab, ?_⟩
          have e0 : l0 = a - (b - a) / 2 := by
            cases t <;> simpa [catLimitsTail, bumpLast] using h0.symm
          have e1 : l1 = a + (b - a) / 2 := by
            cases t <;> simpa [catLimitsTail, bumpLast] using h1.symm
          exact ⟨by rw [e0, e1]; ring, e0⟩
      · cases hc

/-- **C68, ALE, upper bound.**  A row-wise model whose outputs lie in an interval of length `B`, `n` fixed bins, and a feature of width `w` whose different values are
at least `δ` apart: the heterogeneity is 1e8 (too few rows, or no fit possible) or at most `2 B max(n, 3/2 w / δ)`. -/
theorem C68_ale_heterogeneity_bounded [PySqrt K] [LawfulSqrt K] (choice : ℕ → ℕ → List ℕ) (cast : K → K) (f : Row K D → K) (foi : Fin D)
    (n m cl : ℕ) (hn : 1 ≤ n) (hcl : 1 ≤ cl) (minPoints : ℕ) (centering : PyVal)
    (data : List (Row K D)) (eff : Option (List (Row K D))) (lo hi : Fin D → K) (hlim : axisLimitsAll data = .ok (lo, hi))
    (a B : K) (hB : 0 ≤ B) (hf : ∀ r, a ≤ f r ∧ f r ≤ a + B) (w δ N : K) (hw : hi foi - lo foi ≤ w) (_hδ : 0 < δ)
    (hgap : ∀ r ∈ data, ∀ r' ∈ data, r foi < r' foi → δ ≤ r' foi - r foi) (hN1 : (n : K) ≤ N) (hN2 : 3 / 2 * w ≤ N * δ) (hbig : hi foi ≤ 100000000) :
    ∃ v, aleHeter (mkAle choice cast (List.map f)) foi (.fixed n (some m) cl) minPoints centering data eff = .ok v ∧ 0 ≤ v ∧
      (v = 100000000 ∨ v ≤ 2 * B * N) := by
  have hb1 : ∀ m' cl', (.fixed n (some m) cl : BinMethod K) ≠ .fixed 0 m' cl' := by
    intro m' cl' h; cases h; omega
  have hb2 : ∀ n' m', (.fixed n (some m) cl : BinMethod K) ≠ .fixed n' m' 0 := by
    intro n' m' h; cases h; omega
  obtain ⟨v, h1, h2, h3, h4, h5⟩ := C68_ale_heterogeneity choice cast f foi (.fixed n (some m) cl) minPoints centering data eff lo hi hlim hb1 hb2
  refine ⟨v, h1, h2, ?_⟩
  have hBM : (10 ^ 8 : K) = 100000000 := by norm_num
  rw [hBM] at h3 h4 h5
  by_cases hfew : data.length < minPoints
  · exact Or.inl (h3 hfew)
  rcases prepCentering_ok_or centering with ⟨c, hm⟩ | hm
  swap
  · exact Or.inl (h4 (Or.inr (Or.inl hm)))
  cases hfit : aleFitFeature cast (List.map f) data lo hi foi (.fixed n (some m) cl) with
  | error e => exact Or.inl (h4 (Or.inr (Or.inr ⟨e, hfit⟩)))
  | ok p =>
    right
    rw [h5 p c (by omega) rfl hm hfit hbig]
    have hlt : lo foi < hi foi := by
      by_contra hlt
      obtain ⟨-, L, -, -, hL, -⟩ := aleFitFeature_ok hfit
      exact findLimits_constant _ _ (distinct_of_axis hlim hlt) hb2 L hL
    obtain ⟨L, l0, l1, hL, hinc, htwo, hwith, h0, h1', h01, hp, hg, hpl⟩ := ale_fit_cases hlt (ale_safe (aleFitFeature_ok hfit).1 hb1) hfit
    have hd : 0 < l1 - l0 := by linarith
    have heffb : ∀ y ∈ (data.filter (inAxis (lo foi) (hi foi) foi)).map (fun r =>
          (f (Function.update r foi (cast ((bumpLast EPS L).getD (binIdx L (r foi)) 0))) -
            f (Function.update r foi (cast ((bumpLast EPS L).getD (binIdx L (r foi) - 1) 0)))) / (l1 - l0)),
        -B / (l1 - l0) ≤ y ∧ y ≤ -B / (l1 - l0) + 2 * B / (l1 - l0) := by
      intro y hy
      obtain ⟨r, -, rfl⟩ := List.mem_map.mp hy
      rw [← add_div, div_le_div_iff_of_pos_right hd, div_le_div_iff_of_pos_right hd]
      obtain ⟨q1, q2⟩ := hf (Function.update r foi (cast ((bumpLast EPS L).getD (binIdx L (r foi)) 0)))
      obtain ⟨q3, q4⟩ := hf (Function.update r foi (cast ((bumpLast EPS L).getD (binIdx L (r foi) - 1) 0)))
      constructor <;> linarith
    have hhead : (bumpLast EPS L).head? = some l0 := by rw [List.head?_eq_getElem?]; exact h0
    have hwidth := fixedFind_width (aleCtx data lo hi foi) n m cl hlt hn L hL h0 h1'
    have hax : ∀ r ∈ data.filter (inAxis (lo foi) (hi foi) foi), r ∈ data := fun r hr => (List.mem_filter.mp hr).1
    have hR : l0 ≤ hi foi ∧ hi foi - l0 ≤ N * (l1 - l0) := by
      rcases hwidth with ⟨e1, e2⟩ | ⟨u, v', hu, hv', huv, e1, e2⟩
      · refine ⟨by rw [e1]; exact hlt.le, e2.trans (mul_le_mul_of_nonneg_right hN1 hd.le)⟩
      · obtain ⟨r, hr, rfl⟩ := List.mem_map.mp hu
        obtain ⟨r', hr', rfl⟩ := List.mem_map.mp hv'
        have i1 := aleCtx_in data lo hi foi _ hu
        have i2 := aleCtx_in data lo hi foi _ hv'
        have i3 := hgap r (hax r hr) r' (hax r' hr') huv
        refine ⟨by rw [e2]; linarith [i1.2], ?_⟩
        have hNn : 0 ≤ N := le_trans (by positivity) hN1
        have := mul_le_mul_of_nonneg_left i3 hNn
        rw [e1, e2]
        linarith [i1.1, i1.2, i2.1, i2.2]
    refine (het_bound (div_nonneg (by linarith) hd.le) (increasing_bumpLast (EPS_pos (K := K)).le hinc) (by rw [length_bumpLast]; exact htwo)
      (within_bump htwo hwith) (by simp [aleCtx, col]) hp heffb hhead hR.1).trans ?_
    calc 2 * B / (l1 - l0) * (hi foi - l0) ≤ 2 * B / (l1 - l0) * (N * (l1 - l0)) :=
          mul_le_mul_of_nonneg_left hR.2 (div_nonneg (by linarith) hd.le)
      _ = 2 * B * N := by field_simp

/-- **C71, RegionalALE with a bounded model.**  A row-wise model whose outputs lie in an interval of length `B`, a fixed binning with `n` bins, values of the feature
in an interval of length `w` (and at most 1e8), different values at least `δ` apart: if `2 B max(n, 3/2 w / δ) ≤ 1e8`, `fit` raises nothing. -/
theorem C71_ale_bounded [PySqrt K] [LawfulSqrt K] (cfg : RegCfg K D) (heff : EffAligned cfg) (hne : cfg.data ≠ []) (hspl : 0 < cfg.nofSplits)
    (hcat : ∀ f ∈ cfg.foc, cfg.types f = .cat → distinct (cfg.data.map (· f)) ≤ max cfg.nofSplits cfg.catLimit)
    (hdep : cfg.maxLevels ≤ cfg.foc.length) (hmin : 1 ≤ cfg.minPoints) (choice : ℕ → ℕ → List ℕ) (cast : K → K) (f : Row K D → K)
    (n m cl : ℕ) (hn : 1 ≤ n) (hcl : 1 ≤ cl) (centering : PyVal)
    (a B : K) (hB : 0 ≤ B) (hf : ∀ r, a ≤ f r ∧ f r ≤ a + B) (u w δ N : K) (hu : ∀ r ∈ cfg.data, u ≤ r cfg.feature ∧ r cfg.feature ≤ u + w) (hδ : 0 < δ)
    (hgap : ∀ r ∈ cfg.data, ∀ r' ∈ cfg.data, r cfg.feature < r' cfg.feature → δ ≤ r' cfg.feature - r cfg.feature)
    (hN1 : (n : K) ≤ N) (hN2 : 3 / 2 * w ≤ N * δ) (hbig : u + w ≤ 100000000) (hBN : 2 * B * N ≤ 100000000) :
    ∃ r, searchAllSplitsM cfg (aleHeter (mkAle choice cast (List.map f)) cfg.feature (.fixed n (some m) cl) cfg.minPoints centering) = .ok r := by
  refine C71_search_never_raises cfg heff hne hspl hcat hdep _ fun x e hx => ?_
  obtain ⟨hx1, hx2, hx3⟩ := hx
  by_cases hxe : x = []
  · refine ⟨BIG_M, aleHeter_few _ _ _ _ _ _ _ ?_, big_pos.le, by norm_num [BIG_M]⟩
    rw [hxe]; exact hmin
  · obtain ⟨lo, hi, hlim⟩ := axisLimits_ok hxe
    obtain ⟨hmx, hmn, -⟩ := listMax_axis hlim cfg.feature
    have hlo : u ≤ lo cfg.feature ∧ hi cfg.feature ≤ u + w := by
      obtain ⟨r, hr, h1⟩ := List.mem_map.mp (listMin_least hmn).1
      obtain ⟨r', hr', h2⟩ := List.mem_map.mp (listMax_greatest hmx).1
      rw [← h1, ← h2]
      exact ⟨(hu r (hx1.subset hr)).1, (hu r' (hx1.subset hr')).2⟩
    obtain ⟨v, h1, h2, h3⟩ := C68_ale_heterogeneity_bounded choice cast f cfg.feature n m cl hn hcl cfg.minPoints centering x e lo hi hlim a B hB hf w δ N
      (by linarith [hlo.1, hlo.2]) hδ (fun r hr r' hr' => hgap r (hx1.subset hr) r' (hx1.subset hr')) hN1 hN2 (hlo.2.trans hbig)
    refine ⟨v, h1, h2, ?_⟩
    rcases h3 with h3 | h3
    · rw [h3]
    · exact h3.trans hBN

/-! ### The hypotheses are met -/

/-- Six rows, one categorical conditioning feature, and the gradients of `x_0 + 2 x_0 x_1`, over the reals. -/
noncomputable def boundedCfg (eff : Option (List (Row ℝ 2))) : RegCfg ℝ 2 :=
  { feature := 0, heter := fun _ _ => 0, data := [![0, 0], ![1, 0], ![2, 0], ![0, 1], ![1, 1], ![2, 1]], dataEffect := eff,
    types := ![.cont, .cat], names := fun _ => "", catLimit := 3, foc := [1], minPoints := 2, nofSplits := 2, maxLevels := 1, dropThres := 1 / 10,
    smallEnough := 1 / 10, splitCat := false }

theorem boundedCfg_range (eff : Option (List (Row ℝ 2))) : ∀ r ∈ (boundedCfg eff).data, (0 : ℝ) ≤ r 0 ∧ r 0 ≤ 0 + 2 := by
  intro r hr
  simp only [boundedCfg, List.mem_cons, List.not_mem_nil, or_false] at hr
  rcases hr with rfl | rfl | rfl | rfl | rfl | rfl <;> norm_num

theorem boundedCfg_cats (eff : Option (List (Row ℝ 2))) : ∀ f ∈ (boundedCfg eff).foc, (boundedCfg eff).types f = .cat →
    distinct ((boundedCfg eff).data.map (· f)) ≤ max (boundedCfg eff).nofSplits (boundedCfg eff).catLimit := by
  intro f hf _
  simp [boundedCfg] at hf
  subst hf
  simp [boundedCfg, distinct]

/-- `RegionalRHALE.fit` with dynamic programming raises nothing on the example. -/
example (choice : ℕ → ℕ → List ℕ) (model : List (Row ℝ 2) → List ℝ) (centering : PyVal) :
    let E : List (Row ℝ 2) := [![1, 0], ![1, 0], ![1, 0], ![3, 0], ![3, 0], ![3, 0]]
    ∃ r, searchAllSplitsM (boundedCfg (some E)) (aleHeter (mkRhale choice model none) 0 (.dp 5 (some 2) (1 / 2) 1) 2 centering) = .ok r := by
  intro E
  refine C71_rhale_bounded (boundedCfg (some E)) ?_ (by simp [boundedCfg]) (by simp [boundedCfg]) (boundedCfg_cats _) (by simp [boundedCfg])
    (by simp [boundedCfg]) choice model none _ centering E rfl 1 2 0 2 (by norm_num) ?_ (boundedCfg_range _) (by norm_num) (by norm_num) ?_
  · intro e he
    simp [boundedCfg] at he
    subst he
    rfl
  · intro r hr
    simp only [E, List.mem_cons, List.not_mem_nil, or_false] at hr
    rcases hr with rfl | rfl | rfl | rfl | rfl | rfl <;> norm_num [boundedCfg]
  · exact ⟨by norm_num, by norm_num, fun m' h => by cases h; norm_num, by norm_num⟩

/-- `RegionalALE.fit` with a bounded model raises nothing on the example. -/
example (choice : ℕ → ℕ → List ℕ) (centering : PyVal) :
    ∃ r, searchAllSplitsM (boundedCfg none) (aleHeter (mkAle choice id (List.map fun r : Row ℝ 2 => min 1 (max 0 (r 0 * r 1)))) 0
      (.fixed 3 (some 2) 1) 2 centering) = .ok r := by
  refine C71_ale_bounded (boundedCfg none) ?_ (by simp [boundedCfg]) (by simp [boundedCfg]) (boundedCfg_cats _) (by simp [boundedCfg])
    (by simp [boundedCfg]) choice id _ 3 2 1 (by norm_num) (by norm_num) centering 0 1 (by norm_num) ?_ 0 2 1 3 (boundedCfg_range _) (by norm_num) ?_
    (by norm_num) (by norm_num) (by norm_num) (by norm_num)
  · intro e he
    cases he
  · intro r
    exact ⟨le_min (by norm_num) (le_max_left _ _), by simp⟩
  · intro r hr r' hr' hlt
    simp only [boundedCfg, List.mem_cons, List.not_mem_nil, or_false] at hr hr'
    rcases hr with rfl | rfl | rfl | rfl | rfl | rfl <;> rcases hr' with rfl | rfl | rfl | rfl | rfl | rfl <;>
      first | (norm_num [boundedCfg] at hlt; done) | norm_num [boundedCfg] at hlt ⊢

/-- The hypotheses of `C18_dp_bounded` on the example of C18. -/
example : (∀ y ∈ [1, 1, 1, 5, 5, (5 : ℚ)], (1 : ℚ) ≤ y ∧ y ≤ 1 + 4) ∧ (4 : ℚ) ^ 2 * (dpDemo.xmax - dpDemo.xmin) * (1 - 0) < 10 ^ 8 ∧
    0 < distinct dpDemo.xs ∧ (∀ x ∈ dpDemo.xs, dpDemo.xmin ≤ x ∧ x ≤ dpDemo.xmax) ∧ dpFind dpDemo 3 (some 2) 0 0 = .ok (.arr [0, 1, 3]) := by
  refine ⟨by norm_num, by norm_num [dpDemo], by decide +kernel, by decide +kernel, by decide +kernel⟩

end Effector
