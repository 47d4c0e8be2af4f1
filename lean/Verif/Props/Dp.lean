import Verif.Props.Binning

/-!
# C18 – C20: the dynamic programming search
-/

namespace Effector

open Spec

set_option linter.unusedSectionVars false

variable {K : Type} [Field K] [LinearOrder K] [IsStrictOrderedRing K]

/-- A binning of `[lo, hi]` on the grid with `n` parts. -/
def Spec.GridBinning (lo hi : K) (n : ℕ) (L : List K) : Prop := Spans L lo hi ∧ OnGrid lo hi n L

/-- Every cell of the grid contains an instance. -/
def Spec.CellsNonempty (xs : List K) (lo hi : K) (n : ℕ) : Prop :=
  ∀ i, i < n → ∃ x ∈ xs, gridPoint lo hi n i ≤ x ∧ x ≤ gridPoint lo hi n (i + 1)

/-! ### The cost function of the search -/

/-- The cost of a move in the search, without NaN. -/
def dpCost (xs e : List K) (m : ℕ) (d lo hi : K) (k i j : ℕ) : K :=
  if j < i then 10 ^ 8 else if i = j then 0
  else Spec.binCost xs e m d (gridPoint lo hi k i) (gridPoint lo hi k j)

theorem filterEff_eq (xs e : List K) (a b : K) : filterEff xs e a b = closedEffects xs e a b := by
  unfold filterEff closedEffects
  congr 1
  apply List.filter_congr
  intro p _
  simp [inBin]

theorem closedEffects_length (xs e : List K) (h : e.length = xs.length) (a b : K) :
    (closedEffects xs e a b).length = closedCount xs a b := by
  unfold closedEffects closedCount
  rw [List.length_map, filter_zip_fst xs e h fun x => decide (a ≤ x ∧ x ≤ b)]

theorem binCost_eq (xs e : List K) (h : e.length = xs.length) (m : ℕ) (d a b : K)
    (hne : 1 ≤ m ∨ 0 < closedCount xs a b) :
    Effector.binCost xs e m d a b = some (Spec.binCost xs e m d a b) := by
  unfold Effector.binCost Spec.binCost
  simp only [filterEff_eq, closedEffects_length xs e h]
  split_ifs with hm
  · rfl
  · have : closedEffects xs e a b ≠ [] := by
      intro h0
      have h1 := closedEffects_length xs e h a b
      rw [h0] at h1
      simp at h1
      omega
    unfold npVar
    rw [if_neg this]
    simp [popVar, variance, mean, avg]

theorem specBinCost_nonneg (xs e : List K) (m : ℕ) (d a b : K) (hd : d ≤ 1) (hab : a ≤ b) :
    0 ≤ Spec.binCost xs e m d a b := by
  unfold Spec.binCost
  split_ifs
  · positivity
  · refine mul_nonneg (mul_nonneg (popVar_nonneg _) (by linarith)) ?_
    have h1 : (0 : K) ≤ (closedCount xs a b : K) / (xs.length : K) := div_nonneg (Nat.cast_nonneg _) (Nat.cast_nonneg _)
    have h2 : (closedCount xs a b : K) / (xs.length : K) ≤ 1 := by
      apply div_le_one_of_le₀
      · exact_mod_cast List.countP_le_length
      · exact Nat.cast_nonneg _
    nlinarith

theorem closedCount_pos_of_cells {xs : List K} {lo hi : K} {n i j : ℕ} (h : CellsNonempty xs lo hi n) (hlt : lo < hi)
    (hij : i < j) (hj : j ≤ n) : 0 < closedCount xs (gridPoint lo hi n i) (gridPoint lo hi n j) := by
  obtain ⟨x, hx, h1, h2⟩ := h i (by omega)
  unfold closedCount
  rw [List.countP_pos_iff]
  refine ⟨x, hx, ?_⟩
  simp only [decide_eq_true_eq]
  refine ⟨h1, h2.trans ?_⟩
  rcases Nat.lt_or_ge (i + 1) j with h3 | h3
  · exact (gridPoint_lt hlt (by omega) h3).le
  · have : i + 1 = j := by omega
    rw [this]

theorem costOfMove_eq (c : BinCtx K) (e : List K) (m k : ℕ) (d : K) (h : e.length = c.xs.length)
    (hlt : c.xmin < c.xmax) (hnan : 1 ≤ m ∨ CellsNonempty c.xs c.xmin c.xmax k) (i j : ℕ) (_ : i ≤ k) (hj : j ≤ k) :
    costOfMove c e m d k i j = some (dpCost c.xs e m d c.xmin c.xmax k i j) := by
  unfold costOfMove dpCost
  split_ifs with h1 h2
  · rfl
  · rfl
  · apply binCost_eq _ _ h
    rcases hnan with h3 | h3
    · exact Or.inl h3
    · exact Or.inr (closedCount_pos_of_cells h3 hlt (by omega) hj)

theorem dpCost_nonneg (xs e : List K) (m : ℕ) (d lo hi : K) (k : ℕ) (hk : 1 ≤ k) (hlt : lo < hi) (hd : d ≤ 1) (i j : ℕ) :
    0 ≤ dpCost xs e m d lo hi k i j := by
  unfold dpCost
  split_ifs with h1 h2
  · positivity
  · exact le_rfl
  · exact specBinCost_nonneg _ _ _ _ _ _ hd (gridPoint_lt hlt hk (by omega)).le

theorem chainCost_eq_binningCost (xs e : List K) (m : ℕ) (d lo hi : K) (k : ℕ) (l : List ℕ) (hl : l.Pairwise (· < ·)) :
    chainCost (dpCost xs e m d lo hi k) l = binningCost xs e m d (l.map (gridPoint lo hi k)) := by
  induction l with
  | nil => rfl
  | cons a t ih =>
    cases t with
    | nil => rfl
    | cons b t =>
      obtain ⟨ha, ht⟩ := List.pairwise_cons.mp hl
      have hab := ha b (by simp)
      simp only [chainCost, List.map_cons, binningCost]
      rw [ih ht]
      congr 1
      unfold dpCost
      rw [if_neg (by omega), if_neg (by omega)]

/-- A binning on the grid is given by increasing indices from 0 to `n`. -/
theorem gridBinning_indices {lo hi : K} {n : ℕ} (hlt : lo < hi) (hn : 1 ≤ n) {L : List K} (h : GridBinning lo hi n L) :
    ∃ q : List ℕ, L = (0 :: q ++ [n]).map (gridPoint lo hi n) ∧ (0 :: q ++ [n]).Pairwise (· < ·) ∧ (∀ i ∈ q, i ≤ n) ∧
      q.length + 1 ≤ n := by
  obtain ⟨⟨hinc, htwo, hfirst, hlast⟩, hgrid⟩ := h
  have hex : ∀ L : List K, OnGrid lo hi n L → ∃ l : List ℕ, L = l.map (gridPoint lo hi n) ∧ ∀ i ∈ l, i ≤ n := by
    intro L hL
    induction L with
    | nil => exact ⟨[], rfl, by simp⟩
    | cons a t ih =>
      obtain ⟨l, hl, hl'⟩ := ih fun x hx => hL x (by simp [hx])
      obtain ⟨i, hi1, hi2⟩ := hL a (by simp)
      exact ⟨i :: l, by rw [hi2, hl]; rfl, by simpa using ⟨hi1, hl'⟩⟩
  obtain ⟨l, rfl, hl⟩ := hex L hgrid
  have hmono : ∀ i j, gridPoint lo hi n i < gridPoint lo hi n j → i < j := by
    intro i j hij
    by_contra hc
    rcases Nat.lt_or_ge j i with h1 | h1
    · exact absurd hij (not_lt.mpr (gridPoint_lt hlt hn h1).le)
    · have : i = j := by omega
      subst this
      exact lt_irrefl _ hij
  have hlinc : l.Pairwise (· < ·) := by
    unfold Increasing at hinc
    rw [List.pairwise_map] at hinc
    exact hinc.imp fun {a b} h => hmono a b h
  have hinj : ∀ i j, gridPoint lo hi n i = gridPoint lo hi n j → i = j := by
    intro i j hij
    rcases lt_trichotomy i j with h1 | h1 | h1
    · exact absurd hij (ne_of_lt (gridPoint_lt hlt hn h1))
    · exact h1
    · exact absurd hij.symm (ne_of_lt (gridPoint_lt hlt hn h1))
  have h2 : 2 ≤ l.length := by simpa using htwo
  have hq : l = 0 :: l.tail.dropLast ++ [n] := by
    match l, h2 with
    | a :: b :: t, _ =>
      simp only [List.map_cons, List.head?_cons, Option.some.injEq] at hfirst
      have ha : a = 0 := hinj a 0 (by rw [hfirst, gridPoint_zero])
      have hne : (b :: t) ≠ [] := by simp
      have hb : (b :: t).getLast hne = n := by
        apply hinj
        rw [gridPoint_last lo hi n hn]
        rw [List.getLast?_map, List.getLast?_cons_cons, List.getLast?_eq_some_getLast hne, Option.map_some,
          Option.some.injEq] at hlast
        exact hlast
      subst ha
      simp only [List.tail_cons, List.cons_append, List.cons.injEq, true_and]
      conv_rhs => rw [← hb]
      exact (List.dropLast_append_getLast hne).symm
  refine ⟨l.tail.dropLast, by rw [← hq], by rw [← hq]; exact hlinc, ?_, ?_⟩
  · intro i hi'
    exact hl i (by rw [hq]; simp [hi'])
  · have := increasing_length_le l n hlinc hl
    simp
    omega

/-- The search when it is reached. -/
theorem dpFind_eq (c : BinCtx K) (e : List K) (k m cl : ℕ) (d : K) (he : c.eff = some e) (hcat : cl < distinct c.xs)
    (h1 : distinct c.xs ≠ 1) (hm : m ≤ c.xs.length) (hk : 2 ≤ k) :
    dpFind c k (some m) d cl =
      if allclose c.xmin c.xmax || (decide (m ≤ e.length) && decide (e.length < 2 * m)) then .ok (.arr [c.xmin, c.xmax])
      else .ok (.arr ((dpIndices (costOfMove c e m d k) k).map (gridPoint c.xmin c.xmax k))) := by
  have hnv : noneValidBinning c.xs (some m) = .ok false := by
    rw [noneValid_eq]
    simp [h1]
    omega
  unfold dpFind
  rw [hnv, isCategorical_not _ _ _ hcat]
  simp only [bind, Except.bind, Bool.false_eq_true, if_false, pure, Except.pure, onlyOneBinPossible, BinCtx.getEff, he]
  split_ifs <;> first | rfl | omega

/-- What the search returns when some binning on the grid is cheaper than the penalty 1e8. -/
theorem dp_core (c : BinCtx K) (e : List K) (k m : ℕ) (d : K) (hlen : e.length = c.xs.length)
    (hlt : c.xmin < c.xmax) (hk : 2 ≤ k) (hd : d ≤ 1) (hnan : 1 ≤ m ∨ CellsNonempty c.xs c.xmin c.xmax k)
    (hcheap : ∃ L', GridBinning c.xmin c.xmax k L' ∧ binningCost c.xs e m d L' < 10 ^ 8) :
    GridBinning c.xmin c.xmax k ((dpIndices (costOfMove c e m d k) k).map (gridPoint c.xmin c.xmax k)) ∧
    (dpIndices (costOfMove c e m d k) k).length ≤ k + 1 ∧
    MinPoints c.xs m ((dpIndices (costOfMove c e m d k) k).map (gridPoint c.xmin c.xmax k)) ∧
    ∀ L', GridBinning c.xmin c.xmax k L' →
      binningCost c.xs e m d ((dpIndices (costOfMove c e m d k) k).map (gridPoint c.xmin c.xmax k)) ≤
        binningCost c.xs e m d L' := by
  set f := dpCost c.xs e m d c.xmin c.xmax k with hf
  have hself : ∀ i, f i i = 0 := fun i => by simp [hf, dpCost]
  have hpos : ∀ i j, 0 ≤ f i j := dpCost_nonneg _ _ _ _ _ _ _ (by omega) hlt hd
  obtain ⟨hhead, hlast, hle, hopt⟩ := dp_optimal (costOfMove_eq c e m k d hlen hlt hnan) hself (by omega : 1 ≤ k)
  set I := dpIndices (costOfMove c e m d k) k with hI
  have hcost : chainCost f I < 10 ^ 8 := by
    obtain ⟨L', hL', hc⟩ := hcheap
    obtain ⟨q, rfl, hqinc, hqk, hql⟩ := gridBinning_indices hlt (by omega) hL'
    rw [← chainCost_eq_binningCost c.xs e m d c.xmin c.xmax k _ hqinc] at hc
    exact lt_of_le_of_lt (hopt q hql hqk) hc
  have hmove : ∀ (n a b : ℕ), I[n]? = some a → I[n + 1]? = some b → f a b < 10 ^ 8 := fun n a b ha hb =>
    lt_of_le_of_lt (move_le_chainCost f hpos I n a b ha hb) hcost
  have hadj : ∀ (n a b : ℕ), I[n]? = some a → I[n + 1]? = some b → a < b := by
    intro n a b ha hb
    have hne : a ≠ b := by
      rw [hI] at ha hb
      exact dedupAdj_chain (fun a b => a ≠ b) _ (fun n a b _ _ => by tauto) n a b ha hb
    have := hmove n a b ha hb
    by_contra hcon
    have hba : b < a := by omega
    simp only [hf, dpCost, if_pos hba, lt_irrefl] at this
  have hinc : I.Pairwise (· < ·) := pairwise_of_adjacent (R := fun a b : ℕ => a < b) (fun a b c h1 h2 => lt_trans h1 h2) I hadj
  have h2len : 2 ≤ I.length := by
    match hI' : I with
    | [] => simp at hhead
    | [a] =>
      simp at hhead hlast
      omega
    | a :: b :: t => simp
  refine ⟨⟨⟨?_, by simpa using h2len, ?_, ?_⟩, ?_⟩, increasing_length_le I k hinc hle, ?_, ?_⟩
  · unfold Increasing
    rw [List.pairwise_map]
    exact hinc.imp fun {a b} h => gridPoint_lt hlt (by omega) h
  · rw [List.head?_map, hhead, Option.map_some, gridPoint_zero]
  · rw [List.getLast?_map, hlast, Option.map_some, gridPoint_last _ _ _ (by omega)]
  · intro l hl
    obtain ⟨i, hi, rfl⟩ := List.mem_map.mp hl
    exact ⟨i, hle i hi, rfl⟩
  · intro n a b ha hb
    rw [List.getElem?_map] at ha hb
    obtain ⟨i, hi, rfl⟩ := Option.map_eq_some_iff.mp ha
    obtain ⟨j, hj, rfl⟩ := Option.map_eq_some_iff.mp hb
    have hij := hadj n i j hi hj
    have hm := hmove n i j hi hj
    simp only [hf, dpCost] at hm
    rw [if_neg (by omega), if_neg (by omega)] at hm
    unfold Spec.binCost at hm
    split_ifs at hm with h3
    · exact absurd hm (lt_irrefl _)
    · omega
  · intro L' hL'
    obtain ⟨q, rfl, hqinc, hqk, hql⟩ := gridBinning_indices hlt (by omega) hL'
    rw [← chainCost_eq_binningCost c.xs e m d c.xmin c.xmax k _ hqinc, ← chainCost_eq_binningCost c.xs e m d c.xmin c.xmax k _ hinc]
    exact hopt q hql hqk

/-- **C18 (under a cost hypothesis).**  `DP.find` on a non-degenerate, non-categorical feature with `max_nof_bins = k ≥ 2` and
`discount ≤ 1` returns strictly increasing limits on the `k`-grid, from the axis minimum to the axis maximum (at most `k` bins).
Missing for the full claim: it needs that some binning on the grid costs less than the penalty 1e8 (otherwise false, see
`C18_false_for_large_effects`), and, for `min_points = 0`, that no grid cell is empty (NaN costs). -/
theorem C18_dp_increasing_partial (c : BinCtx K) (e : List K) (k m cl : ℕ) (d : K) (he : c.eff = some e)
    (hlen : e.length = c.xs.length) (hcat : cl < distinct c.xs) (h1 : distinct c.xs ≠ 1) (hm : m ≤ c.xs.length)
    (hlt : c.xmin < c.xmax) (hk : 2 ≤ k) (hd : d ≤ 1) (hnan : 1 ≤ m ∨ CellsNonempty c.xs c.xmin c.xmax k)
    (hcheap : ∃ L', GridBinning c.xmin c.xmax k L' ∧ binningCost c.xs e m d L' < 10 ^ 8) :
    ∃ L, dpFind c k (some m) d cl = .ok (.arr L) ∧ GridBinning c.xmin c.xmax k L ∧ L.length - 1 ≤ k := by
  rw [dpFind_eq c e k m cl d he hcat h1 hm hk]
  split_ifs
  · exact ⟨_, rfl, ⟨spans_pair hlt, onGrid_pair _ _ _ (by omega)⟩, by simp; omega⟩
  · obtain ⟨h2, h3, -, -⟩ := dp_core c e k m d hlen hlt hk hd hnan hcheap
    exact ⟨_, rfl, h2, by rw [List.length_map]; omega⟩

/-- **C19 (under a cost hypothesis).**  Every bin returned by `DP.find` contains at least `min_points` instances.  Missing for
the full claim: as in C18, some binning on the grid must cost less than 1e8. -/
theorem C19_dp_min_points_partial (c : BinCtx K) (e : List K) (k m cl : ℕ) (d : K) (he : c.eff = some e)
    (hlen : e.length = c.xs.length) (hcat : cl < distinct c.xs) (h1 : distinct c.xs ≠ 1) (hm : m ≤ c.xs.length)
    (hin : ∀ x ∈ c.xs, c.xmin ≤ x ∧ x ≤ c.xmax)
    (hlt : c.xmin < c.xmax) (hk : 2 ≤ k) (hd : d ≤ 1) (hnan : 1 ≤ m ∨ CellsNonempty c.xs c.xmin c.xmax k)
    (hcheap : ∃ L', GridBinning c.xmin c.xmax k L' ∧ binningCost c.xs e m d L' < 10 ^ 8) :
    ∃ L, dpFind c k (some m) d cl = .ok (.arr L) ∧ MinPoints c.xs m L := by
  rw [dpFind_eq c e k m cl d he hcat h1 hm hk]
  split_ifs
  · exact ⟨_, rfl, minPoints_pair hin hm⟩
  · obtain ⟨-, -, h2, -⟩ := dp_core c e k m d hlen hlt hk hd hnan hcheap
    exact ⟨_, rfl, h2⟩

/-- **C20.**  When there are at least `2 * min_points` instances and the axis limits are not numerically equal, the binning
returned by `DP.find` has the smallest total cost among all binnings of the `k`-grid from the axis minimum to the axis maximum.
Missing for the full claim: the two conditions (see `C20_false_one_bin_shortcut`), and the cost hypothesis of C18. -/
theorem C20_dp_optimal_partial (c : BinCtx K) (e : List K) (k m cl : ℕ) (d : K) (he : c.eff = some e)
    (hlen : e.length = c.xs.length) (hcat : cl < distinct c.xs) (h1 : distinct c.xs ≠ 1) (hm : 2 * m ≤ c.xs.length)
    (hclose : ¬ |c.xmin - c.xmax| ≤ 1 / 10 ^ 8 + 1 / 10 ^ 5 * |c.xmax|)
    (hlt : c.xmin < c.xmax) (hk : 2 ≤ k) (hd : d ≤ 1) (hnan : 1 ≤ m ∨ CellsNonempty c.xs c.xmin c.xmax k)
    (hcheap : ∃ L', GridBinning c.xmin c.xmax k L' ∧ binningCost c.xs e m d L' < 10 ^ 8) :
    ∃ L, dpFind c k (some m) d cl = .ok (.arr L) ∧ GridBinning c.xmin c.xmax k L ∧
      ∀ L', GridBinning c.xmin c.xmax k L' → binningCost c.xs e m d L ≤ binningCost c.xs e m d L' := by
  rw [dpFind_eq c e k m cl d he hcat h1 (by omega) hk]
  rw [if_neg]
  · obtain ⟨h2, -, -, h3⟩ := dp_core c e k m d hlen hlt hk hd hnan hcheap
    exact ⟨_, rfl, h2, h3⟩
  · have h2 : allclose c.xmin c.xmax = false := by
      unfold allclose
      exact decide_eq_false hclose
    rw [h2]
    simp
    omega

/-! ### Concrete instances and counterexamples -/

/-- Six instances, two clearly different slopes. -/
def dpDemo : BinCtx ℚ := { xs := [0, 1 / 2, 3 / 4, 9 / 4, 5 / 2, 3], eff := some [1, 1, 1, 5, 5, 5], xmin := 0, xmax := 3 }

/-- The hypotheses of C18–C20 are met (the single bin is cheap enough), and the search returns two bins. -/
example : 0 < distinct dpDemo.xs ∧ distinct dpDemo.xs ≠ 1 ∧ 2 * 2 ≤ dpDemo.xs.length ∧
    binningCost dpDemo.xs [1, 1, 1, 5, 5, 5] 2 0 [(0 : ℚ), 3] < 10 ^ 8 ∧ GridBinning (0 : ℚ) 3 3 [0, 3] ∧
    dpFind dpDemo 3 (some 2) 0 0 = .ok (.arr [0, 1, 3]) := by
  refine ⟨by decide +kernel, by decide +kernel, by decide, by decide +kernel, ⟨spans_pair (by norm_num), onGrid_pair _ _ _ (by omega)⟩,
    by decide +kernel⟩

/-- **C18 is false without the cost hypothesis**: with effects of the order 1e6 the search prefers to pay the penalty 1e8 for
a move backwards, and returns limits that are not increasing. -/
theorem C18_false_for_large_effects :
    ∃ (c : BinCtx ℚ) (e : List ℚ), c.eff = some e ∧ e.length = c.xs.length ∧ 0 < distinct c.xs ∧ distinct c.xs ≠ 1 ∧
      (∀ x ∈ c.xs, c.xmin ≤ x ∧ x ≤ c.xmax) ∧ dpFind c 3 (some 2) 0 0 = .ok (.arr [0, 2, 1, 3]) := by
  refine ⟨{ xs := [0, 1 / 2, 5 / 4, 5 / 4, 5 / 4, 5 / 4, 7 / 4, 7 / 4, 7 / 4, 7 / 4, 5 / 2, 3],
            eff := some [100000, -100000, 0, 0, 0, 0, 0, 0, 0, 0, 100000, -100000], xmin := 0, xmax := 3 },
    _, rfl, by decide, by decide +kernel, by decide +kernel, by decide +kernel, by decide +kernel⟩

/-- **C19 is false without the cost hypothesis**: with a huge variance a bin that is too small is accepted. -/
theorem C19_false_for_large_effects :
    ∃ (c : BinCtx ℚ) (e : List ℚ), c.eff = some e ∧ e.length = c.xs.length ∧ 0 < distinct c.xs ∧ distinct c.xs ≠ 1 ∧
      (∀ x ∈ c.xs, c.xmin ≤ x ∧ x ≤ c.xmax) ∧ dpFind c 2 (some 2) 0 0 = .ok (.arr [0, 1, 2]) ∧
      closedCount c.xs 1 2 = 1 := by
  refine ⟨{ xs := [0, 1 / 4, 1 / 2, 2], eff := some [0, 0, 0, 1000000], xmin := 0, xmax := 2 },
    _, rfl, by decide, by decide +kernel, by decide +kernel, by decide +kernel, by decide +kernel, by decide +kernel⟩

/-- **C20 is false** when the shortcut "only one bin possible" applies (`min_points ≤ N < 2 min_points`): an instance on the
common limit counts for both bins, so two bins are possible, and cheaper. -/
theorem C20_false_one_bin_shortcut :
    ∃ (c : BinCtx ℚ) (e : List ℚ), c.eff = some e ∧ e.length = c.xs.length ∧ 0 < distinct c.xs ∧ distinct c.xs ≠ 1 ∧
      2 ≤ c.xs.length ∧ dpFind c 2 (some 2) 0 0 = .ok (.arr [0, 2]) ∧ MinPoints c.xs 2 [0, 1, 2] ∧
      GridBinning c.xmin c.xmax 2 [0, 1, 2] ∧ binningCost c.xs e 2 0 [0, 1, 2] < binningCost c.xs e 2 0 [0, 2] := by
  refine ⟨{ xs := [0, 1, 2], eff := some [0, 0, 1], xmin := 0, xmax := 2 }, _, rfl, by decide, by decide +kernel,
    by decide +kernel, by decide, by decide +kernel, ?_, ⟨⟨?_, by decide, rfl, rfl⟩, ?_⟩, by decide +kernel⟩
  · rw [← minPoints_iff]; decide +kernel
  · unfold Increasing; decide +kernel
  · intro l hl
    simp at hl
    rcases hl with rfl | rfl | rfl
    · exact ⟨0, by omega, by norm_num [gridPoint]⟩
    · exact ⟨1, by omega, by norm_num [gridPoint]⟩
    · exact ⟨2, by omega, by norm_num [gridPoint]⟩

end Effector
