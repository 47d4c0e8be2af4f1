import Verif.Props.AleEffects
import Verif.Lemmas.AleFit
import Mathlib.Data.Fin.VecNotation

/-!
# C78: exactly when `RHALE.fit` and `ALE.fit` succeed
-/

set_option linter.unusedSectionVars false

namespace Effector

open Spec

variable {K : Type} [Field K] [LinearOrder K] [IsStrictOrderedRing K] {D : ℕ}

/-- The values of feature `s` that lie within the axis limits, one per instance. -/
def Spec.usedValues (data : List (Row K D)) (lo hi : Fin D → K) (s : Fin D) : List K :=
  (data.map (· s)).filter fun x => lo s ≤ x ∧ x ≤ hi s

theorem rhaleCtx_xs (data eff : List (Row K D)) (lo hi : Fin D → K) (s : Fin D) : (rhaleCtx data eff lo hi s).xs = usedValues data lo hi s := by
  unfold rhaleCtx usedValues col inAxis
  simp only [List.filter_map]
  congr 1
  apply List.filter_congr
  intro r _
  simp

theorem last_bin_full {L xs : List K} {m : ℕ} (htwo : 2 ≤ L.length) (hmp : MinPoints xs m L) :
    ∃ k, k < L.length - 1 ∧ m ≤ xs.countP (fun x => InBin L k x) := by
  have h1 : L[L.length - 2]? = some (L[L.length - 2]'(by omega)) := List.getElem?_eq_getElem _
  have h2 : L[L.length - 2 + 1]? = some (L[L.length - 2 + 1]'(by omega)) := List.getElem?_eq_getElem _
  refine ⟨L.length - 2, by omega, (hmp _ _ _ h1 h2).trans (le_of_eq ?_)⟩
  unfold closedCount
  apply List.countP_congr
  intro x _
  rw [decide_eq_true_eq, decide_eq_true_eq]
  unfold InBin
  rw [h1, h2]
  simp only [Option.mem_def, Option.some.injEq, exists_eq_left']
  rw [if_pos (by omega)]

theorem distinct_one_or {xs : List K} (h : ¬ 2 ≤ distinct xs) : xs = [] ∨ distinct xs = 1 := by
  have : distinct xs = 0 ∨ distinct xs = 1 := by omega
  rcases this with h | h
  · left
    unfold distinct at h
    have h := List.eq_nil_of_length_eq_zero h
    cases xs with
    | nil => rfl
    | cons a t => exact absurd (h ▸ List.mem_dedup.mpr (List.mem_cons_self (a := a) (l := t))) (by simp)
  · exact Or.inr h

/-- A fit is a search for limits, then the bin parameters. -/
theorem rhaleFit_iff {data eff : List (Row K D)} {lo hi : Fin D → K} {s : Fin D} {bm : BinMethod K} (hlen : eff.length = data.length) :
    (∃ p, rhaleFitFeature data eff lo hi s bm = .ok p) ↔ ∃ L, findLimits (rhaleCtx data eff lo hi s) bm = .ok (.arr L) ∧
      ∃ p, computeAleParams (rhaleCtx data eff lo hi s).xs
        (col (((data.zip eff).filter fun p => inAxis (lo s) (hi s) s p.1).map (·.2)) s) L = .ok p := by
  constructor
  · rintro ⟨p, hp⟩
    obtain ⟨-, L, h1, h2⟩ := rhaleFitFeature_ok hp
    exact ⟨L, h1, p, h2⟩
  · rintro ⟨L, h1, p, h2⟩
    refine ⟨p, ?_⟩
    unfold rhaleFitFeature
    unfold rhaleCtx at h1 h2
    simp only [hlen, ne_eq, not_true_eq_false, if_false, bind, Except.bind, h1, h2]

/-- From limits whose bins hold at least two instances, the bin parameters can be computed. -/
theorem params_of_limits {c : BinCtx K} {eff L : List K} {m : ℕ} (hm : 2 ≤ m) (hinc : Increasing L) (htwo : 2 ≤ L.length) (hwith : Within L c.xs)
    (hmp : MinPoints c.xs m L) (hlen : eff.length = c.xs.length) : ∃ p, computeAleParams c.xs eff L = .ok p := by
  obtain ⟨k, hk, hc⟩ := last_bin_full htwo hmp
  obtain ⟨p, hp, -⟩ := (C06_ale_params L c.xs eff hinc htwo hwith hlen).2 ⟨k, hk, by omega⟩
  exact ⟨p, hp⟩

/-- **C78, RHALE with the greedy method** (the default one), with at least one initial bin and `min_points_per_bin` at least 2: `fit` of a feature
succeeds exactly when the feature takes at least two different values within the axis limits, there are at least `min_points_per_bin` instances and, if there
are so few different values that the feature is treated as categorical, every value occurs at least `min_points_per_bin` times. -/
theorem C78_rhale_greedy (data eff : List (Row K D)) (lo hi : Fin D → K) (s : Fin D) (n m cl : ℕ) (d : K) (hlen : eff.length = data.length)
    (hlt : lo s < hi s) (hn : 1 ≤ n) (hm : 2 ≤ m) :
    (∃ p, rhaleFitFeature data eff lo hi s (.greedy n (some m) d cl) = .ok p) ↔
      2 ≤ distinct (usedValues data lo hi s) ∧ m ≤ (usedValues data lo hi s).length ∧
      (distinct (usedValues data lo hi s) ≤ cl → ∀ x ∈ usedValues data lo hi s, m ≤ (usedValues data lo hi s).count x) := by
  rw [rhaleFit_iff hlen, ← rhaleCtx_xs data eff]
  have hin := rhaleCtx_in data eff lo hi s
  have hcl := rhaleCtx_len data eff lo hi s hlen
  constructor
  · rintro ⟨L, hL, -⟩
    have hno : ¬ (distinct (rhaleCtx data eff lo hi s).xs = 1 ∨ (rhaleCtx data eff lo hi s).xs.length < m) := by
      intro h
      rw [(C22_greedy_dp_impossible_partial _ n m cl d h).1] at hL
      cases hL
    have h2 : 2 ≤ distinct (rhaleCtx data eff lo hi s).xs := by
      by_contra hc
      rcases distinct_one_or hc with h | h
      · exact hno (Or.inr (by rw [h, List.length_nil]; omega))
      · exact hno (Or.inl h)
    refine ⟨h2, by by_contra hc; exact hno (Or.inr (by omega)), ?_⟩
    intro hc x hx
    by_contra hcon
    obtain ⟨vs, L', -, -, -, -, -, -, h9⟩ := C21_categorical_bins (rhaleCtx data eff lo hi s) (.greedy n (some m) d cl) m cl rfl h2 hc
    have := h9 ⟨x, hx, by omega⟩ (by by_contra hc; exact hno (Or.inr (by omega)))
    rw [this] at hL
    cases hL
  · rintro ⟨h2, hmn, hcat⟩
    have key : ∃ L, findLimits (rhaleCtx data eff lo hi s) (.greedy n (some m) d cl) = .ok (.arr L) := by
      by_cases hc : distinct (rhaleCtx data eff lo hi s).xs ≤ cl
      · obtain ⟨vs, L', -, -, -, -, -, h8, -⟩ := C21_categorical_bins (rhaleCtx data eff lo hi s) (.greedy n (some m) d cl) m cl rfl h2 hc
        exact ⟨L', h8 (hcat hc)⟩
      · obtain ⟨L, hL, -⟩ := greedyFind_core (rhaleCtx data eff lo hi s) _ n m cl d rfl (by omega) (by omega) hmn hlt hin hn
        exact ⟨L, hL⟩
    obtain ⟨L, hL⟩ := key
    obtain ⟨g1, g2, g3, g4⟩ := greedyFind_good (rhaleCtx data eff lo hi s) n m cl d hin hlt L hL
    exact ⟨L, hL, params_of_limits hm g1 g2 g3 g4 hcl⟩

/-- What `Fixed` asks for: at least two different values; with few different values at least `m` instances of each, otherwise at least `m` instances in each
of the `n` bins of equal width. -/
def Spec.FixedPossible (vs : List K) (lo hi : K) (n m cl : ℕ) : Prop :=
  2 ≤ distinct vs ∧ if distinct vs ≤ cl then ∀ x ∈ vs, m ≤ vs.count x
    else ∀ i < n, m ≤ closedCount vs (gridPoint lo hi n i) (gridPoint lo hi n (i + 1))

/-- `Fixed.find` returns limits exactly when this is possible. -/
theorem fixed_iff (c : BinCtx K) (n m cl : ℕ) (hlt : c.xmin < c.xmax) (hn : 1 ≤ n) (hc1 : 1 ≤ cl) :
    (∃ L, findLimits c (.fixed n (some m) cl) = .ok (.arr L)) ↔ FixedPossible c.xs c.xmin c.xmax n m cl := by
  constructor
  · rintro ⟨L, hL⟩
    have h2 : 2 ≤ distinct c.xs := by
      by_contra hc
      rcases distinct_one_or hc with h | h
      · simp only [findLimits, fixedFind, noneValid_eq, h] at hL
        have : isCategorical ([] : List K) (some m) cl = .error .indexError := by
          unfold isCategorical
          rw [if_pos (by simp [npUnique])]
          rfl
        simp only [bind, Except.bind, this] at hL
        cases hL
      · rw [C22_false_fixed_constant_raises c n m cl h hc1] at hL
        cases hL
    refine ⟨h2, ?_⟩
    by_cases hc : distinct c.xs ≤ cl
    · rw [if_pos hc]
      intro x hx
      by_contra hcon
      obtain ⟨vs, L', -, -, -, -, -, -, h9⟩ := isCategorical_spec c.xs m cl h2 hc
      have := h9 ⟨x, hx, by omega⟩
      simp only [findLimits, fixedFind, noneValid_eq, bind, Except.bind, this] at hL
      cases hL
    · rw [if_neg hc]
      obtain ⟨L', hl, hg, -, h4, h5⟩ := C14_fixed_equal_width c n m cl (by omega) hlt hn
      by_cases hmp : MinPoints c.xs m L'
      · intro i hi
        exact hmp i _ _ (hg i (by omega)) (hg (i + 1) (by omega))
      · have := h5 hmp
        simp only [findLimits] at hL
        rw [this] at hL
        cases hL
  · rintro ⟨h2, hrest⟩
    by_cases hc : distinct c.xs ≤ cl
    · rw [if_pos hc] at hrest
      obtain ⟨vs, L', -, -, -, -, -, h8, -⟩ := isCategorical_spec c.xs m cl h2 hc
      refine ⟨L', ?_⟩
      simp only [findLimits, fixedFind, noneValid_eq, bind, Except.bind, h8 hrest]
      rfl
    · rw [if_neg hc] at hrest
      obtain ⟨L', hl, hg, -, h4, -⟩ := C14_fixed_equal_width c n m cl (by omega) hlt hn
      refine ⟨L', h4 ?_⟩
      intro k a b ha hb
      have hk := (List.getElem?_eq_some_iff.mp hb).1
      rw [hg k (by omega)] at ha
      rw [hg (k + 1) (by omega)] at hb
      cases ha; cases hb
      exact hrest k (by omega)

/-- **C78, RHALE with the fixed method.** -/
theorem C78_rhale_fixed (data eff : List (Row K D)) (lo hi : Fin D → K) (s : Fin D) (n m cl : ℕ) (hlen : eff.length = data.length)
    (hlt : lo s < hi s) (hn : 1 ≤ n) (hm : 2 ≤ m) (hc1 : 1 ≤ cl) :
    (∃ p, rhaleFitFeature data eff lo hi s (.fixed n (some m) cl) = .ok p) ↔ FixedPossible (usedValues data lo hi s) (lo s) (hi s) n m cl := by
  rw [rhaleFit_iff hlen, ← rhaleCtx_xs data eff]
  have hin := rhaleCtx_in data eff lo hi s
  have hcl := rhaleCtx_len data eff lo hi s hlen
  have := fixed_iff (rhaleCtx data eff lo hi s) n m cl hlt hn hc1
  refine Iff.trans ?_ this
  constructor
  · rintro ⟨L, hL, -⟩; exact ⟨L, hL⟩
  · rintro ⟨L, hL⟩
    obtain ⟨g1, g2, g3, g4⟩ := fixedFind_good (rhaleCtx data eff lo hi s) n m cl hin hlt hn L hL
    exact ⟨L, hL, params_of_limits hm g1 g2 g3 g4 hcl⟩

/-! ### ALE -/

theorem aleCtx_xs (data : List (Row K D)) (lo hi : Fin D → K) (s : Fin D) : (aleCtx data lo hi s).xs = usedValues data lo hi s := rhaleCtx_xs data [] lo hi s

theorem countP_bump {L xs : List K} (hwith : Within L xs) (k : ℕ) :
    xs.countP (fun x => InBin (bumpLast EPS L) k x) = xs.countP (fun x => InBin L k x) := by
  have := congrArg List.length (binEffects_bump (eff := xs) hwith k)
  unfold binEffects at this
  rwa [List.length_map, List.length_map, filter_zip_fst xs xs rfl fun x => decide (InBin (bumpLast EPS L) k x),
    filter_zip_fst xs xs rfl fun x => decide (InBin L k x)] at this

/-- An ALE fit, for a model that works row by row: limits, then some bin with at least two instances. -/
theorem aleFit_iff {cast : K → K} {f : Row K D → K} {data : List (Row K D)} {lo hi : Fin D → K} {s : Fin D} {bm : BinMethod K} (hlt : lo s < hi s)
    (hfix : isFixedMethod bm = true) (hn : ∀ m cl, bm ≠ .fixed 0 m cl) :
    (∃ p, aleFitFeature cast (List.map f) data lo hi s bm = .ok p) ↔ ∃ L, findLimits (aleCtx data lo hi s) (aleMethod bm) = .ok (.arr L) ∧
      ∃ k, k < L.length - 1 ∧ 2 ≤ (aleCtx data lo hi s).xs.countP (fun x => InBin L k x) := by
  have hin := aleCtx_in data lo hi s
  constructor
  · rintro ⟨p, hp⟩
    obtain ⟨L, l0, l1, h1, h2, h3, h4, -, -, -, h8, -⟩ := ale_fit_cases hlt (ale_safe hfix hn) hp
    refine ⟨L, h1, ?_⟩
    by_contra hc
    push Not at hc
    have := (C06_ale_params (bumpLast EPS L) (aleCtx data lo hi s).xs ((data.filter (inAxis (lo s) (hi s) s)).map (fun r =>
        (f (Function.update r s (cast ((bumpLast EPS L).getD (binIdx L (r s)) 0))) -
          f (Function.update r s (cast ((bumpLast EPS L).getD (binIdx L (r s) - 1) 0)))) / (l1 - l0))) (increasing_bumpLast (EPS_pos (K := K)).le h2) (by rw [length_bumpLast]; exact h3)
      (within_bump h3 h4) (by simp [aleCtx, col])).1 (by
        intro k hk
        rw [length_bumpLast] at hk
        rw [countP_bump h4]
        exact hc k hk)
    rw [this] at h8
    cases h8
  · rintro ⟨L, hL, k, hk, hc⟩
    obtain ⟨g1, g2, g3, -⟩ := findLimits_good _ _ hin hlt (ale_safe hfix hn) L hL
    have hne : data.filter (inAxis (lo s) (hi s) s) ≠ [] := by
      intro h0
      have : (aleCtx data lo hi s).xs = [] := by unfold aleCtx; rw [h0]; rfl
      rw [this] at hc
      simp at hc
    obtain ⟨l0, l1, h0, h1, h01, hce⟩ := computeLocalEffects_eq (cast := cast) (f := f) g1 g2 g3 hne
    obtain ⟨p, hp, -⟩ := (C06_ale_params (bumpLast EPS L) (aleCtx data lo hi s).xs ((data.filter (inAxis (lo s) (hi s) s)).map (fun r =>
        (f (Function.update r s (cast ((bumpLast EPS L).getD (binIdx L (r s)) 0))) -
          f (Function.update r s (cast ((bumpLast EPS L).getD (binIdx L (r s) - 1) 0)))) / (l1 - l0)))
      (increasing_bumpLast (EPS_pos (K := K)).le g1) (by rw [length_bumpLast]; exact g2)
      (within_bump g2 g3) (by simp [aleCtx, col])).2 ⟨k, by rw [length_bumpLast]; exact hk, by rw [countP_bump g3]; exact hc⟩
    refine ⟨p, ?_⟩
    rw [aleFitFeature_eq, if_pos hfix, hL]
    simp only [Except.bind, hce, hp]

/-- **C78, ALE with `Fixed`**, for a model that works row by row. -/
theorem C78_ale_fixed (cast : K → K) (f : Row K D → K) (data : List (Row K D)) (lo hi : Fin D → K) (s : Fin D) (n m cl : ℕ)
    (hlt : lo s < hi s) (hn : 1 ≤ n) (hm : 2 ≤ m) (hc1 : 1 ≤ cl) :
    (∃ p, aleFitFeature cast (List.map f) data lo hi s (.fixed n (some m) cl) = .ok p) ↔ FixedPossible (usedValues data lo hi s) (lo s) (hi s) n m cl := by
  have h0 : ∀ m' cl', (BinMethod.fixed n (some m) cl : BinMethod K) ≠ .fixed 0 m' cl' := by
    intro m' cl' h
    simp only [BinMethod.fixed.injEq] at h
    omega
  rw [aleFit_iff hlt rfl h0, ← aleCtx_xs data]
  refine Iff.trans ?_ (fixed_iff (aleCtx data lo hi s) n m cl hlt hn hc1)
  constructor
  · rintro ⟨L, hL, -⟩; exact ⟨L, hL⟩
  · rintro ⟨L, hL⟩
    obtain ⟨g1, g2, g3, g4⟩ := fixedFind_good (aleCtx data lo hi s) n m cl (aleCtx_in data lo hi s) hlt hn L hL
    obtain ⟨k, hk, hc⟩ := last_bin_full g2 g4
    exact ⟨L, hL, k, hk, by omega⟩

/-! ### The default arguments -/

/-- With more instances than bins, some bin has two. -/
theorem pigeonhole_bin {L xs : List K} (hinc : Increasing L) (htwo : 2 ≤ L.length) (hwith : Within L xs) (h : L.length - 1 < xs.length) :
    ∃ k, k < L.length - 1 ∧ 2 ≤ xs.countP (fun x => InBin L k x) := by
  by_contra hc
  push Not at hc
  obtain ⟨-, be, ppb, -, h1, h2, h3⟩ := C02_each_instance_in_exactly_one_bin L xs xs hinc htwo hwith rfl
  have : ∀ n ∈ ppb, n ≤ 1 := by
    intro n hn
    obtain ⟨i, hi⟩ := List.getElem?_of_mem hn
    have hlt := (List.getElem?_eq_some_iff.mp hi).1
    rw [h2 i (by omega)] at hi
    have := hc i (by omega)
    cases hi
    omega
  have := List.sum_le_card_nsmul ppb 1 this
  simp only [smul_eq_mul, mul_one] at this
  omega

/-- **C78, `ALE.fit` with its default arguments** (`binning_method="fixed"`) succeeds for every feature that takes at least two values, whenever at least 21
instances are within the axis limits. -/
theorem C78_ale_default (cast : K → K) (f : Row K D → K) (data : List (Row K D)) (lo hi : Fin D → K) (s : Fin D) (hlt : lo s < hi s)
    (h2 : 2 ≤ distinct (usedValues data lo hi s)) (hmany : 21 ≤ (usedValues data lo hi s).length) :
    ∃ p, aleFitFeature cast (List.map f) data lo hi s (.str "fixed") = .ok p := by
  rw [aleFit_iff hlt (by simp [isFixedMethod]) (by intro m cl h; cases h)]
  rw [← aleCtx_xs data] at h2 hmany
  obtain ⟨L, hL⟩ := (fixed_iff (aleCtx data lo hi s) 20 0 15 hlt (by omega) (by omega)).mpr ⟨h2, by split_ifs <;> simp⟩
  obtain ⟨g1, g2, g3, -⟩ := findLimits_good _ _ (aleCtx_in data lo hi s) hlt (show SafeMethod _ (.fixed 20 (some 0) 15) from (by omega : 1 ≤ 20)) L hL
  refine ⟨L, hL, pigeonhole_bin g1 g2 g3 ?_⟩
  have hlen : L.length ≤ 21 := by
    by_cases hc : distinct (aleCtx data lo hi s).xs ≤ 15
    · obtain ⟨vs, L', hv, hvm, -, hl, -, h8, -⟩ := C21_categorical_bins (aleCtx data lo hi s) (.fixed 20 (some 0) 15) 0 15 rfl h2 hc
      rw [h8 (by simp)] at hL
      simp only [Except.ok.injEq, Lim.arr.injEq] at hL
      subst hL
      have : vs.length ≤ distinct (aleCtx data lo hi s).xs := by
        unfold distinct
        exact (List.subperm_of_subset (hv.imp ne_of_lt) (fun x hx => List.mem_dedup.mpr ((hvm x).mp hx))).length_le
      omega
    · obtain ⟨L', hl, -, -, h4, -⟩ := C14_fixed_equal_width (aleCtx data lo hi s) 20 0 15 (by omega) hlt (by omega)
      have h5 := h4 (by intro k a b _ _; exact Nat.zero_le _)
      simp only [findLimits] at hL
      rw [h5] at hL
      simp only [Except.ok.injEq, Lim.arr.injEq] at hL
      subst hL
      omega
  omega

/-- **C78, `RHALE.fit` with its default arguments** (`binning_method="greedy"`) succeeds for every feature that takes at least two values, whenever at least 101
instances are within the axis limits. -/
theorem C78_rhale_default (data eff : List (Row K D)) (lo hi : Fin D → K) (s : Fin D) (hlen : eff.length = data.length) (hlt : lo s < hi s)
    (h2 : 2 ≤ distinct (usedValues data lo hi s)) (hmany : 101 ≤ (usedValues data lo hi s).length) :
    ∃ p, rhaleFitFeature data eff lo hi s (.str "greedy") = .ok p := by
  rw [rhaleFit_iff hlen]
  rw [← rhaleCtx_xs data eff] at h2 hmany
  have hin := rhaleCtx_in data eff lo hi s
  have key : ∃ L, findLimits (rhaleCtx data eff lo hi s) (.str "greedy") = .ok (.arr L) ∧ L.length ≤ 101 := by
    have he : findLimits (rhaleCtx data eff lo hi s) (.str "greedy") = findLimits (rhaleCtx data eff lo hi s) (.greedy 100 (some 0) (3 / 10) 15) := by
      simp [findLimits]
    rw [he]
    by_cases hc : distinct (rhaleCtx data eff lo hi s).xs ≤ 15
    · obtain ⟨vs, L', hv, hvm, -, hl, -, h8, -⟩ := C21_categorical_bins (rhaleCtx data eff lo hi s) (.greedy 100 (some 0) (3 / 10) 15) 0 15 rfl h2 hc
      refine ⟨L', h8 (by simp), ?_⟩
      have : vs.length ≤ distinct (rhaleCtx data eff lo hi s).xs := by
        unfold distinct
        exact (List.subperm_of_subset (hv.imp ne_of_lt) (fun x hx => List.mem_dedup.mpr ((hvm x).mp hx))).length_le
      omega
    · obtain ⟨L, hL, -, -, hl, -⟩ := greedyFind_core (rhaleCtx data eff lo hi s) _ 100 0 15 (3 / 10) rfl (by omega) (by omega) (by omega) hlt hin (by omega)
      exact ⟨L, hL, hl⟩
  obtain ⟨L, hL, hl⟩ := key
  obtain ⟨g1, g2, g3, -⟩ := findLimits_good _ _ hin hlt (show SafeMethod _ (.str "greedy") from by
    intro h; exact absurd h (by decide)) L hL
  obtain ⟨k, hk, hc⟩ := pigeonhole_bin g1 g2 g3 (by omega)
  obtain ⟨p, hp, -⟩ := (C06_ale_params L _ _ g1 g2 g3 (rhaleCtx_len data eff lo hi s hlen)).2 ⟨k, hk, hc⟩
  exact ⟨L, hL, p, hp⟩

/-- The conditions of C78 hold for a concrete data set and fail for another: three and two different values, at least two instances each; one value with a
single instance. -/
example :
    let data : List (Row ℚ 1) := [![0], ![0], ![1], ![1], ![3], ![3]]
    (match rhaleFitFeature data data (fun _ => 0) (fun _ => 3) 0 (.greedy 10 (some 2) 0 5) with | .ok _ => true | _ => false) = true ∧
    (match rhaleFitFeature (![5 / 2] :: data) (![0] :: data) (fun _ => 0) (fun _ => 3) 0 (.greedy 10 (some 2) 0 5) with | .ok _ => true | _ => false) = false ∧
    (match rhaleFitFeature data data (fun _ => 0) (fun _ => 3) 0 (.fixed 3 (some 2) 1) with | .ok _ => true | _ => false) = true := by
  decide +kernel

end Effector
