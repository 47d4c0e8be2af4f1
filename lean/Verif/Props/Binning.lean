import Verif.Lemmas.Dp
import Verif.Model.Ale

/-!
# C14 – C24: the binning methods
-/

namespace Effector

open Spec

set_option linter.unusedSectionVars false

variable {K : Type} [Field K] [LinearOrder K] {D : ℕ}

/-! ### Small facts -/

theorem noneValid_eq (xs : List K) (m : ℕ) :
    noneValidBinning xs (some m) = .ok (decide (distinct xs = 1) || decide (xs.length < m)) := by
  unfold noneValidBinning distinct
  rw [npUnique_length]

theorem isCategorical_not (xs : List K) (mo : Option ℕ) (cl : ℕ) (h : cl < distinct xs) :
    isCategorical xs mo cl = .ok none := by
  unfold isCategorical
  rw [npUnique_length, if_neg (by unfold distinct at h; omega)]
  rfl

theorem minPoints_iff (xs : List K) (m : ℕ) (L : List K) :
    (bins L).all (fun b => binValid xs m b.1 b.2) = true ↔ MinPoints xs m L := by
  rw [List.all_eq_true]
  unfold MinPoints closedCount
  constructor
  · intro h k a b ha hb
    exact (binValid_iff _ _ _ _).mp (h (a, b) ((bins_mem_iff L (a, b)).mpr ⟨k, ha, hb⟩))
  · intro h p hp
    obtain ⟨k, ha, hb⟩ := (bins_mem_iff L p).mp hp
    exact (binValid_iff _ _ _ _).mpr (h k _ _ ha hb)

theorem closedCount_all {xs : List K} {a b : K} (h : ∀ x ∈ xs, a ≤ x ∧ x ≤ b) : closedCount xs a b = xs.length := by
  unfold closedCount
  rw [List.countP_eq_length]
  intro x hx
  simpa using h x hx

theorem minPoints_pair {xs : List K} {a b : K} {m : ℕ} (h : ∀ x ∈ xs, a ≤ x ∧ x ≤ b) (hm : m ≤ xs.length) :
    MinPoints xs m [a, b] := by
  intro k p q hp hq
  match k with
  | 0 =>
    simp at hp hq
    subst hp hq
    rw [closedCount_all h]
    exact hm
  | k + 1 => simp at hq

variable [IsStrictOrderedRing K]

theorem spans_pair {a b : K} (h : a < b) : Spans [a, b] a b :=
  ⟨by simp [Increasing, h], by simp, rfl, rfl⟩

theorem gridPoint_zero (lo hi : K) (n : ℕ) : gridPoint lo hi n 0 = lo := by simp [gridPoint]

theorem gridPoint_last (lo hi : K) (n : ℕ) (hn : 1 ≤ n) : gridPoint lo hi n n = hi := by
  unfold gridPoint
  rw [mul_div_cancel₀ _ (by exact_mod_cast (by omega : n ≠ 0))]
  ring

theorem gridPoint_lt {lo hi : K} {n i j : ℕ} (h : lo < hi) (hn : 1 ≤ n) (hij : i < j) :
    gridPoint lo hi n i < gridPoint lo hi n j := by
  unfold gridPoint
  have hd : 0 < (hi - lo) / (n : K) := div_pos (by linarith) (by exact_mod_cast (by omega : 0 < n))
  have : (i : K) < j := by exact_mod_cast hij
  nlinarith

theorem onGrid_pair (lo hi : K) (n : ℕ) (hn : 1 ≤ n) : OnGrid lo hi n [lo, hi] := by
  intro l hl
  simp at hl
  rcases hl with rfl | rfl
  · exact ⟨0, by omega, (gridPoint_zero _ _ _).symm⟩
  · exact ⟨n, le_rfl, (gridPoint_last _ _ _ hn).symm⟩

theorem spans_linspace {lo hi : K} {n : ℕ} (h : lo < hi) (hn : 1 ≤ n) : Spans (linspace lo hi (n + 1)) lo hi :=
  ⟨linspace_increasing lo hi n h, by rw [length_linspace]; omega, linspace_head lo hi n, linspace_last lo hi n hn⟩

theorem onGrid_linspace (lo hi : K) (n : ℕ) : OnGrid lo hi n (linspace lo hi (n + 1)) := by
  intro l hl
  obtain ⟨i, hi', rfl⟩ := List.mem_iff_getElem.mp hl
  rw [length_linspace] at hi'
  refine ⟨i, by omega, ?_⟩
  have := getElem?_linspace lo hi n i hi'
  rw [List.getElem?_eq_getElem (by rw [length_linspace]; omega)] at this
  exact Option.some.inj this

/-! ### C14 -/

/-- **C14.**  On a non-categorical feature `Fixed.find` (`nof_bins ≥ 1`) returns the `nof_bins + 1` equally spaced limits from
the axis minimum to the axis maximum if every closed bin holds at least `min_points` instances, and `False` otherwise. -/
theorem C14_fixed_equal_width (c : BinCtx K) (n m cl : ℕ) (hcat : cl < distinct c.xs) (hlt : c.xmin < c.xmax) (hn : 1 ≤ n) :
    ∃ L : List K, L.length = n + 1 ∧ (∀ i, i ≤ n → L[i]? = some (gridPoint c.xmin c.xmax n i)) ∧
      Spans L c.xmin c.xmax ∧
      (MinPoints c.xs m L → fixedFind c n (some m) cl = .ok (.arr L)) ∧
      (¬ MinPoints c.xs m L → fixedFind c n (some m) cl = .ok .impossible) := by
  have key : fixedFind c n (some m) cl =
      .ok (if (bins (linspace c.xmin c.xmax (n + 1))).all (fun b => binValid c.xs m b.1 b.2) then
        .arr (linspace c.xmin c.xmax (n + 1)) else .impossible) := by
    unfold fixedFind
    rw [noneValid_eq, isCategorical_not _ _ _ hcat]
    rfl
  refine ⟨linspace c.xmin c.xmax (n + 1), length_linspace _ _ _, fun i hi => getElem?_linspace _ _ _ _ (by omega),
    spans_linspace hlt hn, fun h => ?_, fun h => ?_⟩
  · rw [key, if_pos ((minPoints_iff _ _ _).mpr h)]
  · rw [key, if_neg (fun h' => h ((minPoints_iff _ _ _).mp h'))]

/-! ### C15, C16 -/

/-- The greedy search on a non-degenerate, non-categorical feature. -/
theorem greedyFind_core (c : BinCtx K) (e : List K) (n m cl : ℕ) (d : K) (he : c.eff = some e)
    (hcat : cl < distinct c.xs) (h1 : distinct c.xs ≠ 1) (hm : m ≤ c.xs.length) (hlt : c.xmin < c.xmax)
    (hin : ∀ x ∈ c.xs, c.xmin ≤ x ∧ x ≤ c.xmax) (hn : 1 ≤ n) :
    ∃ L, greedyFind c n d (some m) cl = .ok (.arr L) ∧ Spans L c.xmin c.xmax ∧ OnGrid c.xmin c.xmax n L ∧
      L.length ≤ n + 1 ∧ MinPoints c.xs m L := by
  have hnv : noneValidBinning c.xs (some m) = .ok false := by
    rw [noneValid_eq]
    simp [h1]
    omega
  have hone : ∃ b, onlyOneBinPossible c m = .ok b := by
    unfold onlyOneBinPossible BinCtx.getEff
    rw [he]
    exact ⟨_, rfl⟩
  obtain ⟨b, hb⟩ := hone
  have hstart : greedyFind c n d (some m) cl =
      if b = true then .ok (.arr [c.xmin, c.xmax]) else
        match linspace c.xmin c.xmax (n + 1) with
        | [] => .error .indexError
        | l0 :: rest => (repairLast c.xs m (greedyLoop c.xs e m d l0 rest)).map .arr := by
    unfold greedyFind
    rw [hnv, isCategorical_not _ _ _ hcat]
    simp only [bind, Except.bind, Bool.false_eq_true, if_false, pure, Except.pure]
    rw [hb]
    simp only [BinCtx.getEff, he]
    cases b
    · simp only [Bool.false_eq_true, if_false]
      cases linspace c.xmin c.xmax (n + 1) with
      | nil => rfl
      | cons l0 rest =>
        simp only []
        cases repairLast c.xs m (greedyLoop c.xs e m d l0 rest) <;> rfl
    · rfl
  rw [hstart]
  by_cases hbt : b = true
  · rw [if_pos hbt]
    exact ⟨_, rfl, spans_pair hlt, onGrid_pair _ _ _ hn, by simp; omega, minPoints_pair hin hm⟩
  · rw [if_neg hbt]
    have hsp := spans_linspace (n := n) hlt hn
    have hgrid := onGrid_linspace c.xmin c.xmax n
    have hlen := length_linspace c.xmin c.xmax (n + 1)
    cases hl : linspace c.xmin c.xmax (n + 1) with
    | nil => rw [hl] at hlen; simp at hlen
    | cons l0 rest =>
      rw [hl] at hsp hgrid hlen
      have hl0 : l0 = c.xmin := by simpa using hsp.first
      subst hl0
      have hrest : rest ≠ [] := by
        intro h0
        rw [h0] at hlen
        simp at hlen
        omega
      obtain ⟨L, hL, hLinc, hL2, hLh, hLl, hLs, hLv⟩ :=
        greedy_core c.xs e m d c.xmin c.xmax rest hrest hsp.inc hsp.last hin hm
      refine ⟨L, by simp only [hL]; rfl, ⟨hLinc, hL2, hLh, hLl⟩, fun l hl => hgrid l (hLs.subset hl), ?_, ?_⟩
      · rw [← hlen]
        exact hLs.length_le
      · intro k a b ha hb
        exact hLv (a, b) ((bins_mem_iff L (a, b)).mpr ⟨k, ha, hb⟩)

/-- **C15.**  `Greedy.find` on a feature that is neither degenerate nor categorical, with the data inside the axis limits,
returns strictly increasing limits from the axis minimum to the axis maximum, all taken from the grid of `init_nof_bins` equal
parts, whatever the effects, the discount and `min_points` are. -/
theorem C15_greedy_increasing (c : BinCtx K) (e : List K) (n m cl : ℕ) (d : K) (he : c.eff = some e)
    (hcat : cl < distinct c.xs) (h1 : distinct c.xs ≠ 1) (hm : m ≤ c.xs.length) (hlt : c.xmin < c.xmax)
    (hin : ∀ x ∈ c.xs, c.xmin ≤ x ∧ x ≤ c.xmax) (hn : 1 ≤ n) :
    ∃ L, greedyFind c n d (some m) cl = .ok (.arr L) ∧ Spans L c.xmin c.xmax ∧ OnGrid c.xmin c.xmax n L ∧
      L.length - 1 ≤ n := by
  obtain ⟨L, h2, h3, h4, h5, -⟩ := greedyFind_core c e n m cl d he hcat h1 hm hlt hin hn
  exact ⟨L, h2, h3, h4, by omega⟩

/-- What `_is_categorical` stores satisfies `min_points` by construction. -/
theorem isCategorical_minPoints {xs L : List K} {m cl : ℕ} (h : isCategorical xs (some m) cl = .ok (some (.arr L))) :
    MinPoints xs m L := by
  unfold isCategorical at h
  split_ifs at h with hc
  · cases hl : catLimits (npUnique xs) with
    | error e => rw [hl] at h; cases h
    | ok l =>
      rw [hl] at h
      simp only [bind, Except.bind, pure, Except.pure, Except.ok.injEq, Option.some.injEq] at h
      split_ifs at h with hv
      · cases h
        exact (minPoints_iff _ _ _).mp hv
  · cases h

theorem isCategorical_ok {xs : List K} {mo : Option ℕ} {cl : ℕ} (h : distinct xs ≤ cl) (o : Option (Lim K)) 
    (ho : isCategorical xs mo cl = .ok o) : ∃ l, o = some l := by
  unfold isCategorical at ho
  rw [npUnique_length, if_pos (show xs.dedup.length ≤ cl from h)] at ho
  cases hl : catLimits (npUnique xs) with
  | error e => rw [hl] at ho; cases ho
  | ok l =>
    rw [hl] at ho
    simp only [bind, Except.bind, pure, Except.pure, Except.ok.injEq] at ho
    exact ⟨_, ho.symm⟩

/-- **C16.**  Whatever limits `Greedy.find` returns for data inside the axis limits, every bin (closed at both ends) contains at
least `min_points` instances. -/
theorem C16_greedy_min_points (c : BinCtx K) (n m cl : ℕ) (d : K) (hin : ∀ x ∈ c.xs, c.xmin ≤ x ∧ x ≤ c.xmax)
    (L : List K) (h : greedyFind c n d (some m) cl = .ok (.arr L)) : MinPoints c.xs m L := by
  by_cases hdeg : distinct c.xs = 1 ∨ c.xs.length < m
  · exfalso
    unfold greedyFind at h
    rw [noneValid_eq, show (decide (distinct c.xs = 1) || decide (c.xs.length < m)) = true by simpa using hdeg] at h
    cases h
  · push Not at hdeg
    have hnv : noneValidBinning c.xs (some m) = .ok false := by
      rw [noneValid_eq]
      simp [hdeg.1]
      omega
    by_cases hcat : cl < distinct c.xs
    · have hxs : c.xs ≠ [] := by
        intro h0
        rw [h0] at hcat
        simp [distinct] at hcat
      obtain ⟨x, hx⟩ := List.exists_mem_of_ne_nil _ hxs
      have hle : c.xmin ≤ c.xmax := (hin x hx).1.trans (hin x hx).2
      have hhead := h
      unfold greedyFind at hhead
      rw [hnv, isCategorical_not _ _ _ hcat] at hhead
      simp only [bind, Except.bind, Bool.false_eq_true, if_false, pure, Except.pure] at hhead
      cases he : c.eff with
      | none =>
        simp only [onlyOneBinPossible, BinCtx.getEff, he, bind, Except.bind] at hhead
        cases hhead
      | some e =>
        rcases hle.lt_or_eq with hlt | heq
        · rcases Nat.eq_zero_or_pos n with hn | hn
          · subst hn
            have hl : linspace c.xmin c.xmax (0 + 1) = [c.xmin] := by simp [linspace, linspaceAt]
            rw [hl] at hhead
            simp only [onlyOneBinPossible, BinCtx.getEff, he, bind, Except.bind, pure, Except.pure] at hhead
            split_ifs at hhead with h1
            · cases hhead
              exact minPoints_pair hin hdeg.2
            · cases hhead
          · obtain ⟨L', h2, -, -, -, h5⟩ := greedyFind_core c e n m cl d he hcat hdeg.1 hdeg.2 hlt hin hn
            rw [h] at h2
            cases h2
            exact h5
        · have hac : allclose c.xmin c.xmax = true := by
            unfold allclose
            rw [heq, sub_self, abs_zero]
            simp only [decide_eq_true_eq]
            positivity
          simp only [onlyOneBinPossible, BinCtx.getEff, he, bind, Except.bind, pure, Except.pure, hac, Bool.true_or,
            if_true] at hhead
          cases hhead
          exact minPoints_pair hin hdeg.2
    · unfold greedyFind at h
      rw [hnv] at h
      simp only [bind, Except.bind, Bool.false_eq_true, if_false, pure, Except.pure] at h
      cases hc : isCategorical c.xs (some m) cl with
      | error e => rw [hc] at h; cases h
      | ok o =>
        obtain ⟨l, rfl⟩ := isCategorical_ok (by omega) o hc
        rw [hc] at h
        simp only [Except.ok.injEq] at h
        subst h
        exact isCategorical_minPoints hc

end Effector
