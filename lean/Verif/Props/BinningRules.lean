import Verif.Props.Dp
import Verif.Props.Bins

/-!
# C17, C21 – C24: min_points in the fitted parameters, categorical features, impossible binnings, documented arguments
-/

namespace Effector

open Spec

set_option linter.unusedSectionVars false

variable {K : Type} [Field K] [LinearOrder K] [IsStrictOrderedRing K] {D : ℕ}

/-- The `min_points` and `cat_limit` a binning method works with (`none` for strings that are not method names). -/
def Spec.methodParams : BinMethod K → Option (Option ℕ × ℕ)
  | .fixed _ m cl => some (m, cl)
  | .greedy _ m _ cl => some (m, cl)
  | .dp _ m _ cl => some (m, cl)
  | .str s => if s = "fixed" ∨ s = "greedy" ∨ s = "dp" then some (some 0, 15) else none

/-! ### C21 -/

/-- `_is_categorical` on a categorical feature, completely. -/
theorem isCategorical_spec (xs : List K) (m cl : ℕ) (h2 : 2 ≤ distinct xs) (hcl : distinct xs ≤ cl) :
    ∃ vs L : List K, Increasing vs ∧ (∀ x, x ∈ vs ↔ x ∈ xs) ∧ Increasing L ∧ L.length = vs.length + 1 ∧
      (∀ (k : ℕ) (v : K), vs[k]? = some v → ∃ a b, L[k]? = some a ∧ L[k + 1]? = some b ∧ a < v ∧ v < b) ∧
      ((∀ x ∈ xs, m ≤ xs.count x) → isCategorical xs (some m) cl = .ok (some (.arr L))) ∧
      ((∃ x ∈ xs, xs.count x < m) → isCategorical xs (some m) cl = .ok (some .impossible)) := by
  have hlen : (npUnique xs).length = distinct xs := npUnique_length xs
  obtain ⟨L, hL, hLinc, hLlen, hLspec⟩ := catLimits_spec (npUnique xs) (npUnique_sorted xs) (by omega)
  have hcat : isCategorical xs (some m) cl =
      .ok (some (if (bins L).all (fun b => binValid xs m b.1 b.2) then .arr L else .impossible)) := by
    unfold isCategorical
    rw [if_pos (by omega), hL]
    rfl
  refine ⟨npUnique xs, L, npUnique_sorted xs, fun x => mem_npUnique x xs, hLinc, hLlen, hLspec, ?_, ?_⟩
  · intro hall
    rw [hcat, if_pos]
    rw [minPoints_iff]
    intro k a b ha hb
    have hk : k < (npUnique xs).length := by
      by_contra hc
      rw [List.getElem?_eq_none (by omega)] at hb
      cases hb
    have hv : (npUnique xs)[k]? = some (npUnique xs)[k] := List.getElem?_eq_getElem hk
    unfold closedCount
    rw [cat_count xs L hLinc hLspec k _ a b hv ha hb]
    exact hall _ ((mem_npUnique _ xs).mp (List.getElem_mem hk))
  · rintro ⟨x, hx, hlt⟩
    rw [hcat, if_neg]
    rw [minPoints_iff]
    intro hmp
    obtain ⟨k, hk⟩ := List.mem_iff_getElem?.mp ((mem_npUnique x xs).mpr hx)
    obtain ⟨a, b, ha, hb, -, -⟩ := hLspec k x hk
    have := hmp k a b ha hb
    unfold closedCount at this
    rw [cat_count xs L hLinc hLspec k x a b hk ha hb] at this
    omega

theorem length_of_counts {xs : List K} {m : ℕ} (h2 : 2 ≤ distinct xs) (h : ∀ x ∈ xs, m ≤ xs.count x) : m ≤ xs.length := by
  have hne : xs ≠ [] := by
    intro h0
    rw [h0] at h2
    simp [distinct] at h2
  obtain ⟨x, hx⟩ := List.exists_mem_of_ne_nil _ hne
  exact (h x hx).trans List.count_le_length

/-- All binning methods treat categorical features alike. -/
theorem findLimits_categorical (c : BinCtx K) (bm : BinMethod K) (m cl : ℕ) (hbm : methodParams bm = some (some m, cl))
    (h2 : distinct c.xs ≠ 1) (hm : m ≤ c.xs.length) (l : Lim K) (hc : isCategorical c.xs (some m) cl = .ok (some l)) :
    findLimits c bm = .ok l := by
  have hnv : noneValidBinning c.xs (some m) = .ok false := by
    rw [noneValid_eq]
    simp [h2]
    omega
  have hf : ∀ n, fixedFind c n (some m) cl = .ok l := fun n => by unfold fixedFind; rw [hnv, hc]; rfl
  have hg : ∀ n d, greedyFind c n d (some m) cl = .ok l := fun n d => by unfold greedyFind; rw [hnv, hc]; rfl
  have hd : ∀ n d, dpFind c n (some m) d cl = .ok l := fun n d => by unfold dpFind; rw [hnv, hc]; rfl
  cases bm with
  | fixed n mo cl' =>
    simp only [methodParams, Option.some.injEq, Prod.mk.injEq] at hbm
    obtain ⟨rfl, rfl⟩ := hbm
    exact hf n
  | greedy n mo d cl' =>
    simp only [methodParams, Option.some.injEq, Prod.mk.injEq] at hbm
    obtain ⟨rfl, rfl⟩ := hbm
    exact hg n d
  | dp n mo d cl' =>
    simp only [methodParams, Option.some.injEq, Prod.mk.injEq] at hbm
    obtain ⟨rfl, rfl⟩ := hbm
    exact hd n d
  | str s =>
    simp only [methodParams] at hbm
    split_ifs at hbm with hs
    simp only [Option.some.injEq, Prod.mk.injEq] at hbm
    obtain ⟨rfl, rfl⟩ := hbm
    unfold findLimits
    rcases hs with rfl | rfl | rfl
    · simpa using hf 20
    · simpa using hg 100 (3 / 10)
    · simpa using hd 20 (3 / 10)

/-- **C21.**  When a feature has between 2 and `cat_limit` distinct values, every binning method returns the same answer: if every
value has at least `min_points` instances, strictly increasing limits with exactly one bin per distinct value, the `k`-th smallest
value lying strictly inside bin `k`; otherwise `False`. -/
theorem C21_categorical_bins (c : BinCtx K) (bm : BinMethod K) (m cl : ℕ) (hbm : methodParams bm = some (some m, cl))
    (h2 : 2 ≤ distinct c.xs) (hcl : distinct c.xs ≤ cl) :
    ∃ vs L : List K, Increasing vs ∧ (∀ x, x ∈ vs ↔ x ∈ c.xs) ∧ Increasing L ∧ L.length = vs.length + 1 ∧
      (∀ (k : ℕ) (v : K), vs[k]? = some v → ∃ a b, L[k]? = some a ∧ L[k + 1]? = some b ∧ a < v ∧ v < b) ∧
      ((∀ x ∈ c.xs, m ≤ c.xs.count x) → findLimits c bm = .ok (.arr L)) ∧
      ((∃ x ∈ c.xs, c.xs.count x < m) → m ≤ c.xs.length → findLimits c bm = .ok .impossible) := by
  obtain ⟨vs, L, h3, h4, h5, h6, h7, h8, h9⟩ := isCategorical_spec c.xs m cl h2 hcl
  exact ⟨vs, L, h3, h4, h5, h6, h7,
    fun h => findLimits_categorical c bm m cl hbm (by omega) (length_of_counts h2 h) _ (h8 h),
    fun h hm => findLimits_categorical c bm m cl hbm (by omega) hm _ (h9 h)⟩

/-! ### C22 -/

/-- **C22, Greedy and DP.**  On a degenerate feature (one distinct value, or fewer instances than `min_points`) `Greedy.find` and
`DP.find` return `False`. -/
theorem C22_greedy_dp_impossible_partial (c : BinCtx K) (n m cl : ℕ) (d : K) (h : distinct c.xs = 1 ∨ c.xs.length < m) :
    findLimits c (.greedy n (some m) d cl) = .ok .impossible ∧ findLimits c (.dp n (some m) d cl) = .ok .impossible := by
  have hnv : noneValidBinning c.xs (some m) = .ok true := by
    rw [noneValid_eq]
    simpa using h
  constructor
  · simp only [findLimits]
    unfold greedyFind
    rw [hnv]
    rfl
  · simp only [findLimits]
    unfold dpFind
    rw [hnv]
    rfl

/-- **C22, Fixed.**  With fewer instances than `min_points` (and at least two distinct values) `Fixed.find` returns `False`. -/
theorem C22_fixed_too_few_points_partial (c : BinCtx K) (n m cl : ℕ) (h2 : 2 ≤ distinct c.xs) (hm : c.xs.length < m) (hn : 1 ≤ n) :
    findLimits c (.fixed n (some m) cl) = .ok .impossible := by
  simp only [findLimits]
  by_cases hcl : distinct c.xs ≤ cl
  · obtain ⟨-, -, -, -, -, -, -, -, h9⟩ := isCategorical_spec c.xs m cl h2 hcl
    have hne : c.xs ≠ [] := by
      intro h0
      rw [h0] at h2
      simp [distinct] at h2
    obtain ⟨x, hx⟩ := List.exists_mem_of_ne_nil _ hne
    have := h9 ⟨x, hx, lt_of_le_of_lt List.count_le_length hm⟩
    unfold fixedFind
    rw [noneValid_eq, this]
    rfl
  · unfold fixedFind
    rw [noneValid_eq, isCategorical_not _ _ _ (by omega)]
    simp only [bind, Except.bind, pure, Except.pure]
    rw [if_neg]
    rw [minPoints_iff]
    intro hmp
    have h0 := getElem?_linspace c.xmin c.xmax n 0 (by omega)
    have h1 := getElem?_linspace c.xmin c.xmax n 1 (by omega)
    have := hmp 0 _ _ h0 h1
    have h3 : closedCount c.xs (c.xmin + ((0 : ℕ) : K) * ((c.xmax - c.xmin) / (n : K)))
      (c.xmin + ((1 : ℕ) : K) * ((c.xmax - c.xmin) / (n : K))) ≤ c.xs.length := List.countP_le_length
    omega

/-- **C22 is false for Fixed** on a constant feature: with `cat_limit ≥ 1` (the default is 15) it raises `IndexError` … -/
theorem C22_false_fixed_constant_raises (c : BinCtx K) (n m cl : ℕ) (h1 : distinct c.xs = 1) (hcl : 1 ≤ cl) :
    findLimits c (.fixed n (some m) cl) = .error .indexError := by
  simp only [findLimits]
  unfold fixedFind
  rw [noneValid_eq]
  have hl : (npUnique c.xs).length = 1 := by rw [npUnique_length]; exact h1
  have : isCategorical c.xs (some m) cl = .error .indexError := by
    unfold isCategorical
    rw [if_pos (by omega)]
    obtain ⟨a, ha⟩ := List.length_eq_one_iff.mp hl
    rw [ha]
    rfl
  rw [this]
  rfl

/-- … and with `cat_limit = 0` it returns limits as if the feature were not constant. -/
theorem C22_false_fixed_constant_returns_limits (c : BinCtx K) (n : ℕ) (h1 : distinct c.xs = 1) :
    findLimits c (.fixed n (some 0) 0) = .ok (.arr (evenly c.xmin c.xmax (n + 1))) := by
  simp only [findLimits]
  unfold fixedFind
  rw [noneValid_eq, isCategorical_not _ _ _ (by omega)]
  simp only [bind, Except.bind, pure, Except.pure]
  rw [if_pos, linspace_evenly]
  rw [minPoints_iff]
  intro k a b _ _
  exact Nat.zero_le _

/-- **C22, at the level of `fit`.**  If the binning method answers `False`, `RHALE._fit_feature` raises the assertion "Impossible to
compute bins" and stores nothing. -/
theorem C22_rhale_fit_raises (data eff : List (Row K D)) (lo hi : Fin D → K) (s : Fin D) (bm : BinMethod K)
    (hlen : eff.length = data.length)
    (h : ∀ e, findLimits { xs := col (data.filter (inAxis (lo s) (hi s) s)) s, eff := some e, xmin := lo s, xmax := hi s } bm =
      .ok .impossible) :
    rhaleFitFeature data eff lo hi s bm = .error .assertionError := by
  unfold rhaleFitFeature
  simp only [hlen, ne_eq, not_true_eq_false, if_false, h]
  rfl

/-! ### C23 -/

/-- **C23 is false**: the documented value `min_points_per_bin=None` never works, for any data and any binning class. -/
theorem C23_false_min_points_none (c : BinCtx K) (n cl : ℕ) (d : K) :
    findLimits c (.fixed n none cl) = .error .typeError ∧ findLimits c (.greedy n none d cl) = .error .typeError ∧
    findLimits c (.dp n none d cl) = .error .typeError := ⟨rfl, rfl, rfl⟩

/-! ### C24 -/

/-- **C24, accepted names.**  `RHALE.fit` with `"greedy"` / `"fixed"` does exactly what it does with
`Greedy(100, min_points_per_bin=0, discount=0.3, cat_limit=15)` / `Fixed(20, min_points_per_bin=0, cat_limit=15)`. -/
theorem C24_names_partial (eff : List (Row K D)) (b : Base K D) (st : AleState K D) (features centering : PyVal) :
    aleFit (rhaleCfg eff b) st features (.str "greedy") centering =
      aleFit (rhaleCfg eff b) st features (.greedy 100 (some 0) (3 / 10) 15) centering ∧
    aleFit (rhaleCfg eff b) st features (.str "fixed") centering =
      aleFit (rhaleCfg eff b) st features (.fixed 20 (some 0) 15) centering := by
  have hloop : ∀ (bm bm' : BinMethod K), (∀ s, (rhaleCfg eff b).fitF s bm = (rhaleCfg eff b).fitF s bm') →
      ∀ c l st, fitLoop (rhaleCfg eff b) bm c st l = fitLoop (rhaleCfg eff b) bm' c st l := by
    intro bm bm' h c l
    induction l with
    | nil => intro st; rfl
    | cons s t ih =>
      intro st
      have h1 : fitOne (rhaleCfg eff b) st s bm c = fitOne (rhaleCfg eff b) st s bm' c := by
        unfold fitOne
        rw [h s]
      unfold fitLoop
      rw [h1]
      split
      · exact ih _
      · rfl
  have hg : ∀ s, (rhaleCfg eff b).fitF s (.str "greedy") = (rhaleCfg eff b).fitF s (.greedy 100 (some 0) (3 / 10) 15) := by
    intro s
    rfl
  have hf : ∀ s, (rhaleCfg eff b).fitF s (.str "fixed") = (rhaleCfg eff b).fitF s (.fixed 20 (some 0) 15) := by
    intro s
    rfl
  constructor
  · unfold aleFit
    have ha : (rhaleCfg eff b).allowed (.str "greedy") = true := by simp [rhaleCfg, rhaleAllowed]
    have ha' : (rhaleCfg eff b).allowed (.greedy 100 (some 0) (3 / 10) 15) = true := rfl
    rw [ha, ha']
    simp only [hloop _ _ hg]
  · unfold aleFit
    have ha : (rhaleCfg eff b).allowed (.str "fixed") = true := by simp [rhaleCfg, rhaleAllowed]
    have ha' : (rhaleCfg eff b).allowed (.fixed 20 (some 0) 15) = true := rfl
    rw [ha, ha']
    simp only [hloop _ _ hf]

/-- **C24, rejected strings.**  Every string other than `"greedy"`, `"fixed"` and `"dynamic"` is rejected with an `AssertionError`
before anything is changed.  This includes the documented name `"dp"`, so the full claim is false. -/
theorem C24_other_strings_rejected_partial (eff : List (Row K D)) (b : Base K D) (st : AleState K D) (features centering : PyVal)
    (s : String) (h1 : s ≠ "greedy") (h2 : s ≠ "fixed") (h3 : s ≠ "dynamic") :
    aleFit (rhaleCfg eff b) st features (.str s) centering = (st, .error .assertionError) := by
  unfold aleFit
  have : (rhaleCfg eff b).allowed (.str s) = false := by simp [rhaleCfg, rhaleAllowed, h1, h2, h3]
  rw [this]
  rfl

/-- The documented name `"dp"` is always rejected. -/
theorem C24_false_dp_rejected (eff : List (Row K D)) (b : Base K D) (st : AleState K D) (features centering : PyVal) :
    aleFit (rhaleCfg eff b) st features (.str "dp") centering = (st, .error .assertionError) :=
  C24_other_strings_rejected_partial eff b st features centering "dp" (by decide) (by decide) (by decide)

/-- The accepted but undocumented name `"dynamic"` fails in `find_limits` for every feature. -/
theorem C24_dynamic_never_fits (data eff : List (Row K D)) (lo hi : Fin D → K) (s : Fin D) (hlen : eff.length = data.length) :
    rhaleFitFeature data eff lo hi s (.str "dynamic") = .error .assertionError := by
  unfold rhaleFitFeature
  simp only [hlen, ne_eq, not_true_eq_false, if_false, findLimits]
  rfl

/-! ### All methods: what fit works with -/

/-- Conditions under which the dynamic programming search is well behaved (see C18). -/
def Spec.DpSafe (c : BinCtx K) (k m : ℕ) (d : K) : Prop :=
  ∃ e, c.eff = some e ∧ e.length = c.xs.length ∧ d ≤ 1 ∧ (1 ≤ m ∨ CellsNonempty c.xs c.xmin c.xmax k) ∧
    ∃ L', GridBinning c.xmin c.xmax k L' ∧ binningCost c.xs e m d L' < 10 ^ 8

/-- Methods whose limits are proved to be well formed: Fixed with at least one bin, Greedy, the strings, and DP under
the conditions of C18. -/
def Spec.SafeMethod (c : BinCtx K) : BinMethod K → Prop
  | .fixed n _ _ => 1 ≤ n
  | .greedy _ _ _ _ => True
  | .dp k m d _ => ∀ m', m = some m' → DpSafe c k m' d
  | .str s => s = "dp" → DpSafe c 20 0 (3 / 10)

theorem within_of_spans {L xs : List K} {lo hi : K} (h : Spans L lo hi) (hin : ∀ x ∈ xs, lo ≤ x ∧ x ≤ hi) : Within L xs :=
  ⟨lo, hi, h.first, h.last, hin⟩

theorem isCategorical_good {xs L : List K} {m cl : ℕ} (h : isCategorical xs (some m) cl = .ok (some (.arr L))) :
    Increasing L ∧ 2 ≤ L.length ∧ Within L xs ∧ MinPoints xs m L := by
  have hmp := isCategorical_minPoints h
  unfold isCategorical at h
  split_ifs at h with hcl
  · by_cases h2 : 2 ≤ (npUnique xs).length
    · obtain ⟨L', hL, hinc, hlen, hspec⟩ := catLimits_spec (npUnique xs) (npUnique_sorted xs) h2
      rw [hL] at h
      simp only [bind, Except.bind, pure, Except.pure, Except.ok.injEq, Option.some.injEq] at h
      split_ifs at h with hv
      · cases h
        refine ⟨hinc, by omega, ?_, hmp⟩
        have hne : L ≠ [] := by intro h0; rw [h0] at hlen; simp at hlen
        refine ⟨L.head hne, L.getLast hne, List.head?_eq_some_head hne, List.getLast?_eq_some_getLast hne, ?_⟩
        intro x hx
        obtain ⟨k, hk⟩ := List.mem_iff_getElem?.mp ((mem_npUnique x xs).mpr hx)
        obtain ⟨a, b, ha, hb, h3, h4⟩ := hspec k x hk
        have e1 : L[0]? = some (L.head hne) := by rw [← List.head?_eq_getElem?, List.head?_eq_some_head hne]
        have e2 : L[L.length - 1]? = some (L.getLast hne) := by
          rw [← List.getLast?_eq_getElem?, List.getLast?_eq_some_getLast hne]
        have hk1 : k + 1 < L.length := by
          by_contra hc
          rw [List.getElem?_eq_none (by omega)] at hb
          cases hb
        exact ⟨(increasing_getElem?_le hinc e1 ha (by omega)).trans h3.le,
          h4.le.trans (increasing_getElem?_le hinc hb e2 (by omega))⟩
    · exfalso
      have : catLimits (npUnique xs) = .error .indexError := by
        match hu : npUnique xs with
        | [] => rfl
        | [a] => rfl
        | a :: b :: t => rw [hu] at h2; simp at h2
      rw [this] at h
      cases h
  · cases h

theorem greedyFind_good (c : BinCtx K) (n m cl : ℕ) (d : K) (hin : ∀ x ∈ c.xs, c.xmin ≤ x ∧ x ≤ c.xmax)
    (hlt : c.xmin < c.xmax) (L : List K) (h : greedyFind c n d (some m) cl = .ok (.arr L)) :
    Increasing L ∧ 2 ≤ L.length ∧ Within L c.xs ∧ MinPoints c.xs m L := by
  by_cases hdeg : distinct c.xs = 1 ∨ c.xs.length < m
  · exfalso
    unfold greedyFind at h
    rw [noneValid_eq, show (decide (distinct c.xs = 1) || decide (c.xs.length < m)) = true by simpa using hdeg] at h
    cases h
  · push Not at hdeg
    have hnv : noneValidBinning c.xs (some m) = .ok false := by
      rw [noneValid_eq]
      simp [hdeg.1]
      omega
    by_cases hcat : cl < distinct c.xs
    · have hhead := h
      unfold greedyFind at hhead
      rw [hnv, isCategorical_not _ _ _ hcat] at hhead
      simp only [bind, Except.bind, Bool.false_eq_true, if_false, pure, Except.pure] at hhead
      cases he : c.eff with
      | none =>
        simp only [onlyOneBinPossible, BinCtx.getEff, he, bind, Except.bind] at hhead
        cases hhead
      | some e =>
        rcases Nat.eq_zero_or_pos n with hn | hn
        · subst hn
          have hl : linspace c.xmin c.xmax (0 + 1) = [c.xmin] := by simp [linspace, linspaceAt]
          rw [hl] at hhead
          simp only [onlyOneBinPossible, BinCtx.getEff, he, bind, Except.bind, pure, Except.pure] at hhead
          split_ifs at hhead with h1
          · cases hhead
            exact ⟨(spans_pair hlt).inc, by simp, within_of_spans (spans_pair hlt) hin, minPoints_pair hin hdeg.2⟩
          · cases hhead
        · obtain ⟨L', h2, h3, -, -, h5⟩ := greedyFind_core c e n m cl d he hcat hdeg.1 hdeg.2 hlt hin hn
          rw [h] at h2
          cases h2
          exact ⟨h3.inc, h3.two, within_of_spans h3 hin, h5⟩
    · unfold greedyFind at h
      rw [hnv] at h
      simp only [bind, Except.bind, Bool.false_eq_true, if_false, pure, Except.pure] at h
      cases hc : isCategorical c.xs (some m) cl with
      | error e => rw [hc] at h; cases h
      | ok o =>
        obtain ⟨l, rfl⟩ := isCategorical_ok (by omega) o hc
        rw [hc] at h
        simp only [Except.ok.injEq] at h
        subst h
        exact isCategorical_good hc

theorem fixedFind_good (c : BinCtx K) (n m cl : ℕ) (hin : ∀ x ∈ c.xs, c.xmin ≤ x ∧ x ≤ c.xmax)
    (hlt : c.xmin < c.xmax) (hn : 1 ≤ n) (L : List K) (h : fixedFind c n (some m) cl = .ok (.arr L)) :
    Increasing L ∧ 2 ≤ L.length ∧ Within L c.xs ∧ MinPoints c.xs m L := by
  by_cases hcat : cl < distinct c.xs
  · obtain ⟨L', -, -, h3, h4, h5⟩ := C14_fixed_equal_width c n m cl hcat hlt hn
    by_cases hmp : MinPoints c.xs m L'
    · have h6 := h4 hmp
      rw [h] at h6
      cases h6
      exact ⟨h3.inc, h3.two, within_of_spans h3 hin, hmp⟩
    · have h6 := h5 hmp
      rw [h] at h6
      cases h6
  · unfold fixedFind at h
    rw [noneValid_eq] at h
    simp only [bind, Except.bind, pure, Except.pure] at h
    cases hc : isCategorical c.xs (some m) cl with
    | error e => rw [hc] at h; cases h
    | ok o =>
      obtain ⟨l, rfl⟩ := isCategorical_ok (by omega) o hc
      rw [hc] at h
      simp only [Except.ok.injEq] at h
      subst h
      exact isCategorical_good hc

theorem dpFind_good (c : BinCtx K) (k m cl : ℕ) (d : K) (hin : ∀ x ∈ c.xs, c.xmin ≤ x ∧ x ≤ c.xmax)
    (hlt : c.xmin < c.xmax) (hsafe : DpSafe c k m d) (L : List K) (h : dpFind c k (some m) d cl = .ok (.arr L)) :
    Increasing L ∧ 2 ≤ L.length ∧ Within L c.xs ∧ MinPoints c.xs m L := by
  obtain ⟨e, he, hlen, hd, hnan, hcheap⟩ := hsafe
  by_cases hdeg : distinct c.xs = 1 ∨ c.xs.length < m
  · exfalso
    unfold dpFind at h
    rw [noneValid_eq, show (decide (distinct c.xs = 1) || decide (c.xs.length < m)) = true by simpa using hdeg] at h
    cases h
  · push Not at hdeg
    have hnv : noneValidBinning c.xs (some m) = .ok false := by
      rw [noneValid_eq]
      simp [hdeg.1]
      omega
    have hpair : Increasing [c.xmin, c.xmax] ∧ 2 ≤ [c.xmin, c.xmax].length ∧ Within [c.xmin, c.xmax] c.xs ∧
        MinPoints c.xs m [c.xmin, c.xmax] :=
      ⟨(spans_pair hlt).inc, by simp, within_of_spans (spans_pair hlt) hin, minPoints_pair hin hdeg.2⟩
    by_cases hcat : cl < distinct c.xs
    · by_cases hk : 2 ≤ k
      · rw [dpFind_eq c e k m cl d he hcat hdeg.1 hdeg.2 hk] at h
        split_ifs at h
        · cases h
          exact hpair
        · cases h
          obtain ⟨h2, -, h3, -⟩ := dp_core c e k m d hlen hlt hk hd hnan hcheap
          exact ⟨h2.1.inc, h2.1.two, within_of_spans h2.1 hin, h3⟩
      · unfold dpFind at h
        rw [hnv, isCategorical_not _ _ _ hcat] at h
        simp only [bind, Except.bind, Bool.false_eq_true, if_false, pure, Except.pure, onlyOneBinPossible, BinCtx.getEff, he] at h
        split_ifs at h with h1 h2 h3
        · cases h; exact hpair
        · cases h; exact hpair
        · omega
    · unfold dpFind at h
      rw [hnv] at h
      simp only [bind, Except.bind, Bool.false_eq_true, if_false, pure, Except.pure] at h
      cases hc : isCategorical c.xs (some m) cl with
      | error e => rw [hc] at h; cases h
      | ok o =>
        obtain ⟨l, rfl⟩ := isCategorical_ok (by omega) o hc
        rw [hc] at h
        simp only [Except.ok.injEq] at h
        subst h
        exact isCategorical_good hc

/-- Whatever limits a (safe) binning method returns for data inside the axis limits, they are strictly increasing, enclose the
data, and respect `min_points`. -/
theorem findLimits_good (c : BinCtx K) (bm : BinMethod K) (hin : ∀ x ∈ c.xs, c.xmin ≤ x ∧ x ≤ c.xmax)
    (hlt : c.xmin < c.xmax) (hsafe : SafeMethod c bm) (L : List K) (h : findLimits c bm = .ok (.arr L)) :
    Increasing L ∧ 2 ≤ L.length ∧ Within L c.xs ∧
      ∀ m cl, methodParams bm = some (some m, cl) → MinPoints c.xs m L := by
  have hnone := C23_false_min_points_none c
  cases bm with
  | fixed n mo cl =>
    cases mo with
    | none => rw [(hnone n cl 0).1] at h; cases h
    | some m =>
      obtain ⟨h1, h2, h3, h4⟩ := fixedFind_good c n m cl hin hlt hsafe L h
      refine ⟨h1, h2, h3, fun m' cl' hm => ?_⟩
      simp only [methodParams, Option.some.injEq, Prod.mk.injEq] at hm
      rw [← hm.1]; exact h4
  | greedy n mo d cl =>
    cases mo with
    | none => rw [(hnone n cl d).2.1] at h; cases h
    | some m =>
      obtain ⟨h1, h2, h3, h4⟩ := greedyFind_good c n m cl d hin hlt L h
      refine ⟨h1, h2, h3, fun m' cl' hm => ?_⟩
      simp only [methodParams, Option.some.injEq, Prod.mk.injEq] at hm
      rw [← hm.1]; exact h4
  | dp n mo d cl =>
    cases mo with
    | none => rw [(hnone n cl d).2.2] at h; cases h
    | some m =>
      obtain ⟨h1, h2, h3, h4⟩ := dpFind_good c n m cl d hin hlt (hsafe m rfl) L h
      refine ⟨h1, h2, h3, fun m' cl' hm => ?_⟩
      simp only [methodParams, Option.some.injEq, Prod.mk.injEq] at hm
      rw [← hm.1]; exact h4
  | str s =>
    have hz : ∀ m cl, methodParams (.str s : BinMethod K) = some (some m, cl) → MinPoints c.xs m L := by
      intro m cl hm
      simp only [methodParams] at hm
      split_ifs at hm
      simp only [Option.some.injEq, Prod.mk.injEq] at hm
      rw [← hm.1]
      intro _ _ _ _ _
      exact Nat.zero_le _
    unfold findLimits at h
    simp only at h
    split_ifs at h with h1 h2 h3
    · obtain ⟨g1, g2, g3, -⟩ := fixedFind_good c 20 0 15 hin hlt (by omega) L h
      exact ⟨g1, g2, g3, hz⟩
    · obtain ⟨g1, g2, g3, -⟩ := greedyFind_good c 100 0 15 (3 / 10) hin hlt L h
      exact ⟨g1, g2, g3, hz⟩
    · obtain ⟨g1, g2, g3, -⟩ := dpFind_good c 20 0 15 (3 / 10) hin hlt (hsafe h3) L h
      exact ⟨g1, g2, g3, hz⟩

/-! ### C17 -/

/-- The binning problem `RHALE._fit_feature` poses for feature `s`. -/
def rhaleCtx (data eff : List (Row K D)) (lo hi : Fin D → K) (s : Fin D) : BinCtx K where
  xs := col (data.filter (inAxis (lo s) (hi s) s)) s
  eff := some (col (((data.zip eff).filter fun p => inAxis (lo s) (hi s) s p.1).map (·.2)) s)
  xmin := lo s
  xmax := hi s

theorem rhaleCtx_in (data eff : List (Row K D)) (lo hi : Fin D → K) (s : Fin D) :
    ∀ x ∈ (rhaleCtx data eff lo hi s).xs, lo s ≤ x ∧ x ≤ hi s := by
  intro x hx
  obtain ⟨r, hr, rfl⟩ := List.mem_map.mp hx
  have := (List.mem_filter.mp hr).2
  simpa [inAxis] using this

theorem rhaleCtx_len (data eff : List (Row K D)) (lo hi : Fin D → K) (s : Fin D) (hlen : eff.length = data.length) :
    (col (((data.zip eff).filter fun p => inAxis (lo s) (hi s) s p.1).map (·.2)) s).length =
      (rhaleCtx data eff lo hi s).xs.length := by
  simp only [rhaleCtx, col, List.length_map]
  rw [filter_zip_fst data eff hlen (inAxis (lo s) (hi s) s), List.countP_eq_length_filter]

/-- What a successful `RHALE._fit_feature` has done. -/
theorem rhaleFitFeature_ok {data eff : List (Row K D)} {lo hi : Fin D → K} {s : Fin D} {bm : BinMethod K} {p : AleParams K}
    (h : rhaleFitFeature data eff lo hi s bm = .ok p) :
    eff.length = data.length ∧ ∃ L, findLimits (rhaleCtx data eff lo hi s) bm = .ok (.arr L) ∧
      computeAleParams (rhaleCtx data eff lo hi s).xs
        (col (((data.zip eff).filter fun p => inAxis (lo s) (hi s) s p.1).map (·.2)) s) L = .ok p := by
  unfold rhaleFitFeature at h
  by_cases hlen : eff.length = data.length
  · refine ⟨hlen, ?_⟩
    simp only [hlen, ne_eq, not_true_eq_false, if_false, bind, Except.bind] at h
    cases hf : findLimits (rhaleCtx data eff lo hi s) bm with
    | error e =>
      unfold rhaleCtx at hf
      rw [hf] at h
      cases h
    | ok l =>
      cases l with
      | impossible =>
        unfold rhaleCtx at hf
        rw [hf] at h
        cases h
      | arr L =>
        refine ⟨L, rfl, ?_⟩
        unfold rhaleCtx at hf
        rw [hf] at h
        exact h
  · simp only [hlen, ne_eq, not_false_eq_true, if_true] at h
    cases h

/-- **C17 (when no instance lies exactly on an inner limit).**  After a successful fit with `min_points_per_bin = m`, every entry
of `points_per_bin` is at least `m`.  Missing for the full claim: an instance exactly on an inner limit is counted for both neighbouring
bins when `min_points` is checked but for one of them in `points_per_bin`; then the claim is false, see
`C17_false_instance_on_limit`. -/
theorem C17_points_per_bin_partial (data eff : List (Row K D)) (lo hi : Fin D → K) (s : Fin D) (bm : BinMethod K)
    (m cl : ℕ) (p : AleParams K) (hbm : methodParams bm = some (some m, cl)) (hlt : lo s < hi s)
    (hsafe : SafeMethod (rhaleCtx data eff lo hi s) bm) (h : rhaleFitFeature data eff lo hi s bm = .ok p)
    (hno : ∀ r ∈ data, ∀ k, 0 < k → k + 1 < p.limits.length → p.limits[k]? ≠ some (r s)) :
    ∀ n ∈ p.pointsPerBin, m ≤ n := by
  obtain ⟨hlen, L, hL, hp⟩ := rhaleFitFeature_ok h
  have hin := rhaleCtx_in data eff lo hi s
  obtain ⟨hinc, htwo, hwith, hmp⟩ := findLimits_good (rhaleCtx data eff lo hi s) bm hin hlt hsafe L hL
  have hmp := hmp m cl hbm
  have hel := rhaleCtx_len data eff lo hi s hlen
  obtain ⟨herr, hok⟩ := C06_ale_params L _ _ hinc htwo hwith hel
  have hex : ∃ k, k < L.length - 1 ∧ 2 ≤ (rhaleCtx data eff lo hi s).xs.countP (fun x => InBin L k x) := by
    by_contra hc
    push Not at hc
    rw [herr fun k hk => hc k hk] at hp
    cases hp
  obtain ⟨p', hp', hlim, -, hplen, -, -, -, -, hpp, -⟩ := hok hex
  rw [hp] at hp'
  cases hp'
  rw [hlim] at hno
  intro n hn
  obtain ⟨k, hk⟩ := List.mem_iff_getElem?.mp hn
  have hkl : k < L.length - 1 := by
    by_contra hc
    rw [List.getElem?_eq_none (by omega)] at hk
    cases hk
  rw [hpp k hkl] at hk
  rw [← Option.some.inj hk]
  have ha : L[k]? = some L[k] := List.getElem?_eq_getElem (by omega)
  have hb : L[k + 1]? = some L[k + 1] := List.getElem?_eq_getElem (by omega)
  refine (hmp k _ _ ha hb).trans ?_
  unfold closedCount
  apply List.countP_mono_left
  intro x hx hxb
  simp only [decide_eq_true_eq] at hxb ⊢
  refine ⟨_, ha, _, hb, hxb.1, ?_⟩
  split_ifs with h2
  · exact hxb.2
  · refine lt_of_le_of_ne hxb.2 ?_
    rintro rfl
    obtain ⟨r, hr, hrs⟩ := List.mem_map.mp hx
    exact hno r (List.mem_filter.mp hr).1 (k + 1) (by omega) (by omega) (by rw [hb, hrs])

/-- One feature, one row per value. -/
def rows1 (xs : List ℚ) : List (Row ℚ 1) := xs.map fun x _ => x

/-- **C17 is false in general**: two bins, `min_points_per_bin = 2`, an instance exactly on the common limit; the fit succeeds and
reports a bin with a single point. -/
theorem C17_false_instance_on_limit :
    ∃ (data eff : List (Row ℚ 1)) (p : AleParams ℚ),
      rhaleFitFeature data eff (fun _ => 0) (fun _ => 2) 0 (.fixed 2 (some 2) 0) = .ok p ∧ p.pointsPerBin = [1, 2] := by
  refine ⟨rows1 [0, 1, 2], rows1 [5, 6, 7],
    { limits := [0, 1, 2], dx := [1, 1], pointsPerBin := [1, 2], binEffect := [5, 13 / 2], binVariance := [1 / 4, 1 / 4],
      binEstimatorVariance := [1 / 8, 1 / 8] }, by decide +kernel, rfl⟩

/-! ### Concrete instances -/

/-- C14, C17: four instances, two bins, both with two points, none on the inner limit. -/
example : ∃ p, rhaleFitFeature (rows1 [0, 1 / 2, 3 / 2, 2]) (rows1 [5, 6, 7, 9]) (fun _ => 0) (fun _ => 2) 0
    (.fixed 2 (some 2) 0) = .ok p ∧ p.limits = [0, 1, 2] ∧ p.pointsPerBin = [2, 2] :=
  ⟨{ limits := [0, 1, 2], dx := [1, 1], pointsPerBin := [2, 2], binEffect := [11 / 2, 8], binVariance := [1 / 4, 1],
     binEstimatorVariance := [1 / 8, 1 / 2] }, by decide +kernel, rfl, rfl⟩

/-- C15, C16: a greedy search that merges grid cells. -/
example : greedyFind { xs := [0, 1, 2, 3, 4, 5, 6, 8], eff := some [1, 1, 1, 1, 9, 9, 9, (9 : ℚ)], xmin := 0, xmax := 8 } 8 0
    (some 2) 0 = .ok (.arr [0, 3, 4, 8]) := by decide +kernel

/-- C21: three unevenly spaced values. -/
example : distinct [1, 2, 5, 2, 1, (5 : ℚ)] = 3 ∧
    findLimits { xs := [1, 2, 5, 2, 1, (5 : ℚ)], eff := none, xmin := 1, xmax := 5 } (.fixed 20 (some 2) 15) =
      .ok (.arr [1 / 2, 3 / 2, 7 / 2, 13 / 2]) := by
  constructor <;> decide +kernel

/-- C22: a constant feature. -/
example : distinct [(3 : ℚ), 3, 3] = 1 ∧
    findLimits { xs := [(3 : ℚ), 3, 3], eff := some [1, 2, 3], xmin := 3, xmax := 3 } (.greedy 10 (some 1) 0 15) = .ok .impossible ∧
    findLimits { xs := [(3 : ℚ), 3, 3], eff := some [1, 2, 3], xmin := 3, xmax := 3 } (.fixed 10 (some 1) 15) = .error .indexError := by
  refine ⟨?_, ?_, ?_⟩ <;> decide +kernel

end Effector
