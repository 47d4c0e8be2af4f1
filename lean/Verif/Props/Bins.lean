import Verif.Lemmas.Bins

/-!
# C02 – C06: what is computed per bin
-/

namespace Effector

open Spec

set_option linter.unusedSectionVars false

variable {K : Type} [Field K] [LinearOrder K] [IsStrictOrderedRing K]

/-- **C02.**  For strictly increasing limits (at least one bin) and instances inside them, every instance falls in exactly one
bin, `points_per_bin[k]` is the number of instances in bin `k`, there is one entry per bin, and the entries add up to
the number of instances. -/
theorem C02_each_instance_in_exactly_one_bin (limits xs eff : List K) (hinc : Increasing limits)
    (htwo : 2 ≤ limits.length) (hin : Within limits xs) (hlen : eff.length = xs.length) :
    (∀ x ∈ xs, ∃! k, InBin limits k x) ∧
    ∃ be ppb, computeBinEffect xs eff limits = .ok (be, ppb) ∧
      ppb.length = limits.length - 1 ∧
      (∀ k, k < limits.length - 1 → ppb[k]? = some (xs.countP fun x => InBin limits k x)) ∧
      ppb.sum = xs.length := by
  have h : BinSetting limits xs eff := ⟨hinc, htwo, hin, hlen⟩
  refine ⟨fun x hx => ?_, _, _, computeBinEffect_eq h, by simp, fun k hk => ?_, h.sum_count⟩
  · obtain ⟨lo, hi, h1, h2, h3⟩ := hin
    exact exists_unique_bin hinc htwo h1 h2 (h3 x hx).1 (h3 x hx).2
  · rw [List.getElem?_map, List.getElem?_range hk, Option.map_some]
    unfold binEffects
    rw [List.length_map, filter_zip_fst xs eff hlen fun x => decide (InBin limits k x)]

/-- **C02, the two boundary rules**: an instance equal to an inner limit belongs to the bin on its right, an instance
equal to the last limit to the last bin. -/
theorem C02_boundary_rules (limits : List K) (hinc : Increasing limits) (k : ℕ) (a : K)
    (ha : limits[k]? = some a) :
    (k + 1 < limits.length → InBin limits k a) ∧ (0 < k → k + 1 = limits.length → InBin limits (k - 1) a) := by
  constructor
  · intro hk
    have hlt : a < limits[k + 1] := by
      have := List.pairwise_iff_getElem.mp hinc k (k + 1) (by omega) hk (by omega)
      rw [List.getElem?_eq_getElem (by omega)] at ha
      simp only [Option.some.injEq] at ha
      rw [← ha]
      exact this
    refine ⟨a, ha, limits[k + 1], by simp, le_rfl, ?_⟩
    split_ifs
    · exact hlt.le
    · exact hlt
  · intro hk hk'
    have hlt : limits[k - 1] < a := by
      have := List.pairwise_iff_getElem.mp hinc (k - 1) k (by omega) (by omega) (by omega)
      rw [List.getElem?_eq_getElem (by omega)] at ha
      simp only [Option.some.injEq] at ha
      rw [← ha]
      exact this
    refine ⟨limits[k - 1], by simp, a, by rw [show k - 1 + 1 = k by omega]; exact ha, hlt.le, ?_⟩
    rw [if_pos (by omega)]

/-- **C03.**  `compute_bin_effect` returns for bin `k` the arithmetic mean of the effects of exactly the instances in bin
`k`, and NaN if and only if there is none. -/
theorem C03_bin_effect_is_mean (limits xs eff : List K) (hinc : Increasing limits)
    (htwo : 2 ≤ limits.length) (hin : Within limits xs) (hlen : eff.length = xs.length) :
    ∃ be ppb, computeBinEffect xs eff limits = .ok (be, ppb) ∧ be.length = limits.length - 1 ∧
      ∀ k, k < limits.length - 1 →
        ((∃ x ∈ xs, InBin limits k x) → be[k]? = some (some (avg (binEffects limits xs eff k)))) ∧
        (be[k]? = some none ↔ ¬ ∃ x ∈ xs, InBin limits k x) := by
  have h : BinSetting limits xs eff := ⟨hinc, htwo, hin, hlen⟩
  refine ⟨_, _, computeBinEffect_eq h, by simp, fun k hk => ?_⟩
  rw [List.getElem?_map, List.getElem?_range hk, Option.map_some]
  have hiff : binEffects limits xs eff k = [] ↔ ¬ ∃ x ∈ xs, InBin limits k x := by
    rw [← List.length_eq_zero_iff, binEffects, List.length_map,
      filter_zip_fst xs eff hlen fun x => decide (InBin limits k x), List.countP_eq_zero]
    simp
  constructor
  · intro hx
    rw [if_neg (by rw [hiff]; exact not_not.mpr hx)]
  · rw [← hiff]
    split_ifs with h0 <;> simp [h0]

/-- **C04.**  `compute_bin_variance`, called with the means of `compute_bin_effect`, returns for bin `k` the population
variance of the effects in bin `k` (never negative) and, as estimator variance, that divided by the number of points;
both are NaN if and only if the bin holds fewer than two instances. -/
theorem C04_bin_variance_is_population_variance (limits xs eff : List K) (hinc : Increasing limits)
    (htwo : 2 ≤ limits.length) (hin : Within limits xs) (hlen : eff.length = xs.length)
    (be : List (Option K)) (ppb : List ℕ) (hbe : computeBinEffect xs eff limits = .ok (be, ppb)) :
    ∃ var est, computeBinVariance xs eff limits be = .ok (var, est) ∧
      var.length = limits.length - 1 ∧ est.length = limits.length - 1 ∧
      ∀ k, k < limits.length - 1 →
        (2 ≤ xs.countP (fun x => InBin limits k x) →
          var[k]? = some (some (popVar (binEffects limits xs eff k))) ∧
          est[k]? = some (some (popVar (binEffects limits xs eff k) / (xs.countP fun x => InBin limits k x : ℕ))) ∧
          0 ≤ popVar (binEffects limits xs eff k)) ∧
        (var[k]? = some none ↔ xs.countP (fun x => InBin limits k x) < 2) ∧
        (est[k]? = some none ↔ xs.countP (fun x => InBin limits k x) < 2) := by
  have h : BinSetting limits xs eff := ⟨hinc, htwo, hin, hlen⟩
  refine ⟨_, _, computeBinVariance_eq h hbe, by simp, by simp, fun k hk => ?_⟩
  have hl : (binEffects limits xs eff k).length = xs.countP fun x => InBin limits k x := by
    unfold binEffects
    rw [List.length_map, filter_zip_fst xs eff hlen fun x => decide (InBin limits k x)]
  simp only [List.getElem?_map, List.getElem?_range hk, Option.map_some, hl]
  refine ⟨fun h2 => ⟨by rw [if_pos h2], by rw [if_pos h2], popVar_nonneg _⟩, ?_, ?_⟩ <;>
  · split_ifs with h2
    · simpa using h2
    · simpa using h2

/-! ### C05 -/

/-- **C05 (errors).**  `fill_nans` raises (`ValueError`) exactly when there is no non-NaN entry. -/
theorem C05_raises_iff (x : List (Option K)) :
    fillNans x = .error .valueError ↔ ∀ o ∈ x, o = none := by
  rw [fillNans_eq]
  split_ifs with h
  · exact ⟨fun _ => h, fun _ => rfl⟩
  · exact ⟨fun hc => (by cases hc), fun hc => absurd hc h⟩

/-- **C05.**  Whenever at least one entry is not NaN, `fill_nans` returns a vector of the same length without NaN in which
every known entry is unchanged, a gap between the neighbouring known entries at `p < i < q` is filled by linear
interpolation, a gap before the first known entry by that entry, a gap after the last known entry by that one, and
every value lies between any lower and upper bound of the known entries. -/
theorem C05_fill_nans (x : List (Option K)) (hx : ∃ o ∈ x, o ≠ none) :
    ∃ y : List K, fillNans x = .ok y ∧ y.length = x.length ∧
      (∀ (i : ℕ) (v : K), x[i]? = some (some v) → y[i]? = some v) ∧
      (∀ (p i q : ℕ) (vp vq : K), p < i → i < q → x[p]? = some (some vp) → x[q]? = some (some vq) →
        (∀ j, p < j → j < q → x[j]? = some none) →
        y[i]? = some (vp + ((i : K) - p) * ((vq - vp) / ((q : K) - p)))) ∧
      (∀ (i q : ℕ) (vq : K), i < q → x[q]? = some (some vq) → (∀ j, j < q → x[j]? = some none) → y[i]? = some vq) ∧
      (∀ (p i : ℕ) (vp : K), p < i → i < x.length → x[p]? = some (some vp) →
        (∀ j, p < j → j < x.length → x[j]? = some none) → y[i]? = some vp) ∧
      (∀ lo hi, (∀ v, some v ∈ x → lo ≤ v ∧ v ≤ hi) → ∀ w ∈ y, lo ≤ w ∧ w ≤ hi) := by
  have hne : ¬ ∀ o ∈ x, o = none := by
    obtain ⟨o, ho, hn⟩ := hx
    exact fun h => hn (h o ho)
  refine ⟨_, by rw [fillNans_eq, if_neg hne], length_fillFrom _ _ _, ?_, ?_, ?_, ?_, ?_⟩
  · intro i v hi
    rw [getElem?_fillFrom, hi]
    rfl
  · intro p i q vp vq hpi hiq hp hq hgap
    have hql : q < x.length := by
      by_contra hc
      rw [List.getElem?_eq_none (by omega)] at hq
      cases hq
    have hdec : x = x.take p ++ some vp :: ((x.drop (p + 1)).take (q - p - 1) ++ some vq :: x.drop (q + 1)) := by
      have e1 : x.drop p = some vp :: x.drop (p + 1) := by
        rw [List.drop_eq_getElem_cons (by omega)]
        rw [List.getElem?_eq_getElem (by omega)] at hp
        simp only [Option.some.injEq] at hp
        rw [hp]
      have e2 : x.drop q = some vq :: x.drop (q + 1) := by
        rw [List.drop_eq_getElem_cons (by omega)]
        rw [List.getElem?_eq_getElem (by omega)] at hq
        simp only [Option.some.injEq] at hq
        rw [hq]
      have e3 : (x.drop (p + 1)).drop (q - p - 1) = x.drop q := by rw [List.drop_drop]; congr 1; omega
      rw [← e2, ← e3, List.take_append_drop, ← e1, List.take_append_drop]
    have hmid : ∀ o ∈ (x.drop (p + 1)).take (q - p - 1), o = none := by
      intro o ho
      obtain ⟨j, hj, rfl⟩ := List.mem_iff_getElem.mp ho
      rw [List.length_take, List.length_drop] at hj
      have := hgap (p + 1 + j) (by omega) (by omega)
      rw [List.getElem?_eq_getElem (by omega)] at this
      simpa using this
    have hkn : knownFrom 0 x = knownFrom 0 (x.take p) ++ ((p : K), vp) :: ((q : K), vq) :: knownFrom (q + 1) (x.drop (q + 1)) := by
      conv_lhs => rw [hdec]
      rw [knownFrom_append]
      simp only [knownFrom, List.length_take]
      rw [knownFrom_append, knownFrom_none _ _ hmid]
      simp only [knownFrom, List.length_take, List.length_drop, List.nil_append]
      rw [show 0 + min p x.length = p by omega, show p + 1 + min (q - p - 1) (x.length - (p + 1)) = q by omega]
    have hsort := knownFrom_sorted (K := K) 0 x
    rw [getElem?_fillFrom, hgap i hpi hiq]
    simp only [Option.map_some, Option.getD_none, zero_add, Option.some.injEq]
    rw [hkn] at hsort ⊢
    exact interp_between _ _ _ _ _ _ _ hsort (by exact_mod_cast hpi) (by exact_mod_cast hiq)
  · intro i q vq hiq hq hgap
    have hql : q < x.length := by
      by_contra hc
      rw [List.getElem?_eq_none (by omega)] at hq
      cases hq
    have hdec : x = x.take q ++ some vq :: x.drop (q + 1) := by
      have e2 : x.drop q = some vq :: x.drop (q + 1) := by
        rw [List.drop_eq_getElem_cons (by omega)]
        rw [List.getElem?_eq_getElem (by omega)] at hq
        simp only [Option.some.injEq] at hq
        rw [hq]
      rw [← e2, List.take_append_drop]
    have hmid : ∀ o ∈ x.take q, o = none := by
      intro o ho
      obtain ⟨j, hj, rfl⟩ := List.mem_iff_getElem.mp ho
      rw [List.length_take] at hj
      have := hgap j (by omega)
      rw [List.getElem?_eq_getElem (by omega)] at this
      simpa using this
    have hkn : knownFrom 0 x = ((q : K), vq) :: knownFrom (q + 1) (x.drop (q + 1)) := by
      conv_lhs => rw [hdec]
      rw [knownFrom_append, knownFrom_none _ _ hmid]
      simp only [knownFrom, List.length_take, List.nil_append]
      rw [show 0 + min q x.length = q by omega]
    rw [getElem?_fillFrom, hgap i hiq, hkn]
    simp only [Option.map_some, Option.getD_none, zero_add, Option.some.injEq]
    exact interp_left _ _ _ _ (by exact_mod_cast hiq.le)
  · intro p i vp hpi hil hp hgap
    have hpl : p < x.length := by omega
    have hdec : x = x.take p ++ some vp :: x.drop (p + 1) := by
      have e2 : x.drop p = some vp :: x.drop (p + 1) := by
        rw [List.drop_eq_getElem_cons (by omega)]
        rw [List.getElem?_eq_getElem (by omega)] at hp
        simp only [Option.some.injEq] at hp
        rw [hp]
      rw [← e2, List.take_append_drop]
    have hmid : ∀ o ∈ x.drop (p + 1), o = none := by
      intro o ho
      obtain ⟨j, hj, rfl⟩ := List.mem_iff_getElem.mp ho
      rw [List.length_drop] at hj
      have := hgap (p + 1 + j) (by omega) (by omega)
      rw [List.getElem?_eq_getElem (by omega)] at this
      simpa using this
    have hkn : knownFrom 0 x = knownFrom 0 (x.take p) ++ [((p : K), vp)] := by
      conv_lhs => rw [hdec]
      rw [knownFrom_append]
      simp only [knownFrom, List.length_take]
      rw [knownFrom_none _ _ hmid, show 0 + min p x.length = p by omega]
    have hsort := knownFrom_sorted (K := K) 0 x
    rw [getElem?_fillFrom, hgap i hpi hil]
    simp only [Option.map_some, Option.getD_none, zero_add, Option.some.injEq]
    rw [hkn] at hsort ⊢
    exact interp_right _ _ _ _ hsort (by exact_mod_cast hpi)
  · intro lo hi hb w hw
    obtain ⟨j, hj⟩ := List.mem_iff_getElem?.mp hw
    rw [getElem?_fillFrom] at hj
    cases hxj : x[j]? with
    | none => rw [hxj] at hj; cases hj
    | some o =>
      rw [hxj] at hj
      simp only [Option.map_some, Option.some.injEq] at hj
      cases o with
      | some v =>
        simp only [Option.getD_some] at hj
        rw [← hj]
        exact hb v (List.mem_of_getElem? hxj)
      | none =>
        simp only [Option.getD_none] at hj
        rw [← hj]
        apply interp_mem
        · exact fun h => hne ((knownFrom_eq_nil_iff 0 x).mp h)
        · exact knownFrom_sorted 0 x
        · intro p hp
          obtain ⟨k, v, hk, rfl⟩ := (mem_knownFrom 0 x p).mp hp
          exact hb v (List.mem_of_getElem? hk)

/-! ### C06 -/

/-- **C06.**  For increasing limits and instances inside them, `compute_ale_params` raises exactly when no bin holds two
or more instances; otherwise all entries of the result have one value per bin, `dx[k]` is the width of bin `k`, the counts
are those of C02, the bin effect of a non-empty bin and the variances of a bin with at least two instances are those of C03
and C04, and no variance is negative. -/
theorem C06_ale_params (limits xs eff : List K) (hinc : Increasing limits)
    (htwo : 2 ≤ limits.length) (hin : Within limits xs) (hlen : eff.length = xs.length) :
    ((∀ k, k < limits.length - 1 → xs.countP (fun x => InBin limits k x) < 2) →
      computeAleParams xs eff limits = .error .valueError) ∧
    ((∃ k, k < limits.length - 1 ∧ 2 ≤ xs.countP (fun x => InBin limits k x)) →
      ∃ p, computeAleParams xs eff limits = .ok p ∧ p.limits = limits ∧
        p.dx.length = limits.length - 1 ∧ p.pointsPerBin.length = limits.length - 1 ∧
        p.binEffect.length = limits.length - 1 ∧ p.binVariance.length = limits.length - 1 ∧
        p.binEstimatorVariance.length = limits.length - 1 ∧
        (∀ k a b, limits[k]? = some a → limits[k + 1]? = some b → p.dx[k]? = some (b - a)) ∧
        (∀ k, k < limits.length - 1 → p.pointsPerBin[k]? = some (xs.countP fun x => InBin limits k x)) ∧
        (∀ k, k < limits.length - 1 → 1 ≤ xs.countP (fun x => InBin limits k x) →
          p.binEffect[k]? = some (avg (binEffects limits xs eff k))) ∧
        (∀ k, k < limits.length - 1 → 2 ≤ xs.countP (fun x => InBin limits k x) →
          p.binVariance[k]? = some (popVar (binEffects limits xs eff k)) ∧
          p.binEstimatorVariance[k]? =
            some (popVar (binEffects limits xs eff k) / (xs.countP fun x => InBin limits k x : ℕ))) ∧
        (∀ v ∈ p.binVariance, 0 ≤ v) ∧ (∀ v ∈ p.binEstimatorVariance, 0 ≤ v)) := by
  obtain ⟨-, be, ppb, hbe, hppblen, hppb, -⟩ := C02_each_instance_in_exactly_one_bin limits xs eff hinc htwo hin hlen
  obtain ⟨be', ppb', hbe', hbelen, hmean⟩ := C03_bin_effect_is_mean limits xs eff hinc htwo hin hlen
  rw [hbe] at hbe'
  simp only [Except.ok.injEq, Prod.mk.injEq] at hbe'
  obtain ⟨rfl, rfl⟩ := hbe'
  obtain ⟨var, est, hvar, hvlen, helen, hv⟩ :=
    C04_bin_variance_is_population_variance limits xs eff hinc htwo hin hlen be ppb hbe
  have hbin : ∀ k, 1 ≤ xs.countP (fun x => InBin limits k x) ↔ ∃ x ∈ xs, InBin limits k x := by
    intro k
    rw [Nat.one_le_iff_ne_zero, ← Nat.pos_iff_ne_zero, List.countP_pos_iff]
    simp
  constructor
  · intro hall
    have hn : ∀ o ∈ var, o = none := by
      intro o ho
      obtain ⟨k, hk, rfl⟩ := List.mem_iff_getElem.mp ho
      have := (hv k (by omega)).2.1.mpr (hall k (by omega))
      rw [List.getElem?_eq_getElem hk] at this
      simpa using this
    unfold computeAleParams
    rw [hbe]
    simp only [bind, Except.bind]
    rw [hvar]
    simp only []
    rw [(C05_raises_iff var).mpr hn]
    by_cases hb : ∀ o ∈ be, o = none
    · rw [(C05_raises_iff be).mpr hb]
    · rw [fillNans_eq, if_neg hb]
  · rintro ⟨k, hk, h2⟩
    have hk1 : 1 ≤ xs.countP (fun x => InBin limits k x) := by omega
    have hbek := (hmean k hk).1 ((hbin k).mp hk1)
    have hvk := (hv k hk).1 h2
    obtain ⟨y, hy, hylen, hyk, -⟩ := C05_fill_nans be ⟨_, List.mem_of_getElem? hbek, by simp⟩
    obtain ⟨yv, hyv, hyvlen, hyvk, -, -, -, hyvb⟩ := C05_fill_nans var ⟨_, List.mem_of_getElem? hvk.1, by simp⟩
    obtain ⟨ye, hye, hyelen, hyek, -, -, -, hyeb⟩ := C05_fill_nans est ⟨_, List.mem_of_getElem? hvk.2.1, by simp⟩
    have hbound : ∀ (l y : List (Option K)) (z : List K), (∀ v, some v ∈ l → 0 ≤ v) →
        (∀ lo hi, (∀ v, some v ∈ l → lo ≤ v ∧ v ≤ hi) → ∀ w ∈ z, lo ≤ w ∧ w ≤ hi) → ∀ w ∈ z, 0 ≤ w := by
      intro l y z hl hz w hw
      have hfin : ∀ l : List (Option K), ∃ hi : K, ∀ v, some v ∈ l → v ≤ hi := by
        intro l
        induction l with
        | nil => exact ⟨0, by simp⟩
        | cons o t ih =>
          obtain ⟨hi, h⟩ := ih
          refine ⟨max hi (o.getD 0), fun v hv => ?_⟩
          rcases List.mem_cons.mp hv with rfl | hv
          · exact le_max_right _ _
          · exact le_trans (h v hv) (le_max_left _ _)
      obtain ⟨hi, hhi⟩ := hfin l
      exact (hz 0 hi (fun v hv => ⟨hl v hv, hhi v hv⟩) w hw).1
    refine ⟨{ limits := limits, dx := diffs limits, pointsPerBin := ppb, binEffect := y, binVariance := yv,
              binEstimatorVariance := ye }, ?_, rfl, length_diffs _, hppblen, by rw [hylen, hbelen], by rw [hyvlen, hvlen],
              by rw [hyelen, helen], getElem?_diffs limits, hppb, ?_, ?_, ?_, ?_⟩
    · unfold computeAleParams
      rw [hbe]
      simp only [bind, Except.bind]
      rw [hvar]
      simp only []
      rw [hy]
      simp only []
      rw [hyv]
      simp only []
      rw [hye]
      rfl
    · intro j hj h1
      exact hyk j _ ((hmean j hj).1 ((hbin j).mp h1))
    · intro j hj h1
      exact ⟨hyvk j _ ((hv j hj).1 h1).1, hyek j _ ((hv j hj).1 h1).2.1⟩
    · refine hbound var var yv (fun v hmem => ?_) hyvb
      obtain ⟨j, hj, hje⟩ := List.mem_iff_getElem.mp hmem
      have h3 := hv j (by omega)
      rw [List.getElem?_eq_getElem hj, hje] at h3
      by_cases hc : 2 ≤ xs.countP fun x => InBin limits j x
      · have := (h3.1 hc).1
        simp only [Option.some.injEq] at this
        rw [this]
        exact popVar_nonneg _
      · have := h3.2.1.mpr (by omega)
        simp at this
    · refine hbound est est ye (fun v hmem => ?_) hyeb
      obtain ⟨j, hj, hje⟩ := List.mem_iff_getElem.mp hmem
      have h3 := hv j (by omega)
      rw [List.getElem?_eq_getElem (l := est) hj, hje] at h3
      by_cases hc : 2 ≤ xs.countP fun x => InBin limits j x
      · have := (h3.1 hc).2.1
        simp only [Option.some.injEq] at this
        rw [this]
        exact div_nonneg (popVar_nonneg _) (Nat.cast_nonneg _)
      · have := h3.2.2.mpr (by omega)
        simp at this

/-! ### Concrete instances -/

/-- Three bins, one of them empty, one instance on an inner limit and one on the last limit. -/
example : Increasing [(0 : ℚ), 1, 2, 3] ∧ Within [(0 : ℚ), 1, 2, 3] [0, 1 / 2, 2, 3, 5 / 2] ∧
    computeBinEffect [0, 1 / 2, 2, 3, 5 / 2] [1, 2, 3, 4, 5] [(0 : ℚ), 1, 2, 3] =
      .ok ([some (3 / 2), none, some 4], [2, 0, 3]) := by
  refine ⟨by unfold Increasing; decide +kernel, ⟨0, 3, rfl, rfl, by decide +kernel⟩, by decide +kernel⟩

example : fillNans [none, some (1 : ℚ), none, none, some 7, none] = .ok [1, 1, 3, 5, 7, 7] := by decide +kernel

example : fillNans ([none, none] : List (Option ℚ)) = .error .valueError := by decide +kernel

example : computeAleParams [0, 1 / 2, 2, 3, 5 / 2] [1, 2, 3, 4, 5] [(0 : ℚ), 1, 2, 3] =
    .ok { limits := [0, 1, 2, 3], dx := [1, 1, 1], pointsPerBin := [2, 0, 3], binEffect := [3 / 2, 11 / 4, 4],
          binVariance := [1 / 4, 11 / 24, 2 / 3], binEstimatorVariance := [1 / 8, 25 / 144, 2 / 9] } := by
  decide +kernel

/-- One instance per bin: the error case of C06. -/
example : computeAleParams [0, 1] [1, 2] [(0 : ℚ), 1 / 2, 1] = .error .valueError := by decide +kernel

end Effector
