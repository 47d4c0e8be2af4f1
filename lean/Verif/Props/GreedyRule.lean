import Verif.Props.Dp
import Verif.Props.FitSucceeds

/-!
# C88: where the greedy binning closes a bin
-/

namespace Effector

set_option linter.unusedSectionVars false

open Spec

variable {K : Type} [Field K] [LinearOrder K] [IsStrictOrderedRing K]

namespace Spec

/-- A bin that began at grid point `j` is worth closing at grid point `i`: it holds enough instances and stretching it by one more grid cell would make it costlier. -/
def WorthClosing (xs eff : List K) (m : ℕ) (discount lo hi : K) (n j i : ℕ) : Prop :=
  m ≤ closedCount xs (gridPoint lo hi n j) (gridPoint lo hi n i) ∧
    binCost xs eff m discount (gridPoint lo hi n j) (gridPoint lo hi n i) < binCost xs eff m discount (gridPoint lo hi n j) (gridPoint lo hi n (i + 1))

/-- The cuts of a walk along the grid from point 0 to point `n` that closes a bin at the first grid point where this is worth it. -/
structure FirstWorthCuts (xs eff : List K) (m : ℕ) (discount lo hi : K) (n : ℕ) (cuts : List ℕ) : Prop where
  first : cuts.head? = some 0
  last : cuts.getLast? = some n
  step : ∀ k j i : ℕ, cuts[k]? = some j → cuts[k + 1]? = some i → j < i ∧ i ≤ n ∧ (i < n → WorthClosing xs eff m discount lo hi n j i) ∧
    ∀ t, j < t → t < i → ¬ WorthClosing xs eff m discount lo hi n j t

/-- The effects, with respect to feature `s`, of the instances inside the axis limits. -/
def usedEffects {D : ℕ} (data eff : List (Row K D)) (lo hi : Fin D → K) (s : Fin D) : List K :=
  ((data.zip eff).filter fun p => lo s ≤ p.1 s ∧ p.1 s ≤ hi s).map fun p => p.2 s

end Spec

theorem closedCount_mono {xs : List K} {a b b' : K} (h : b ≤ b') : closedCount xs a b ≤ closedCount xs a b' := by
  unfold closedCount
  apply List.countP_mono_left
  intro x _ hx
  simp only [decide_eq_true_eq] at hx ⊢
  exact ⟨hx.1, hx.2.trans h⟩

theorem closeDecision_iff {xs e : List K} (hlen : e.length = xs.length) {m : ℕ} (hm : 1 ≤ m) (d a b b' : K) (hb : b ≤ b') :
    closeDecision xs e m d a b b' = true ↔ m ≤ closedCount xs a b ∧ Spec.binCost xs e m d a b < Spec.binCost xs e m d a b' := by
  unfold closeDecision
  simp only [binCost_eq xs e hlen m d _ _ (Or.inl hm)]
  have h1 : binValid xs m a b = true ↔ m ≤ closedCount xs a b := binValid_iff xs m a b
  have h2 : binValid xs m a b' = true ↔ m ≤ closedCount xs a b' := binValid_iff xs m a b'
  generalize Spec.binCost xs e m d a b = u
  generalize Spec.binCost xs e m d a b' = v
  by_cases hv : m ≤ closedCount xs a b
  · have hv' : m ≤ closedCount xs a b' := hv.trans (closedCount_mono hb)
    rw [h1.mpr hv, h2.mpr hv']
    simp only [Bool.and_self, if_true, nanEqZero, nanPos, nanLe, hv, true_and]
    by_cases hu : u = 0
    · subst hu
      by_cases hp : 0 < v
      · simp [hp]
      · by_cases hz : v = 0
        · simp [hz]
        · simp [hp, hz, not_lt.mp hp]
    · simp [hu]
  · have : binValid xs m a b = false := by
      cases hq : binValid xs m a b with
      | false => rfl
      | true => exact absurd (h1.mp hq) hv
    rw [this]
    simp [hv]

theorem last_two {α : Type} (l : List α) (h : 2 ≤ l.length) : ∃ init a b, l = init ++ [a, b] := by
  rcases hr : l.reverse with _ | ⟨b, _ | ⟨a, t⟩⟩
  · rw [← List.length_reverse, hr] at h; simp at h
  · rw [← List.length_reverse, hr] at h; simp at h
  · refine ⟨t.reverse, a, b, ?_⟩
    have := congrArg List.reverse hr
    simpa using this

variable {xs e : List K} {m n : ℕ} {d lo hi : K}

/-- The loop from grid point `i`, with a bin open since grid point `j`. -/
theorem greedyLoop_rule (hlen : e.length = xs.length) (hm : 1 ≤ m) (hlt : lo < hi) (hn : 1 ≤ n) (k : ℕ) : ∀ i j : ℕ, n = i + k + 1 → j ≤ i →
    (∀ t, j < t → t ≤ i → ¬ WorthClosing xs e m d lo hi n j t) →
    ∃ idx : List ℕ, greedyLoop xs e m d (gridPoint lo hi n j) ((List.range' (i + 1) (k + 1)).map (gridPoint lo hi n)) = (j :: idx).map (gridPoint lo hi n) ∧
      idx ≠ [] ∧ (j :: idx).getLast? = some n ∧
      ∀ (k' : ℕ) (a b : ℕ), (j :: idx)[k']? = some a → (j :: idx)[k' + 1]? = some b → a < b ∧ b ≤ n ∧ (b < n → WorthClosing xs e m d lo hi n a b) ∧
        ∀ t, a < t → t < b → ¬ WorthClosing xs e m d lo hi n a t := by
  induction k with
  | zero =>
    intro i j hni hji hopen
    refine ⟨[n], ?_, by simp, by simp, ?_⟩
    · simp [List.range', greedyLoop, hni]
    · intro k' a b ha hb
      cases k' with
      | zero =>
        simp only [List.getElem?_cons_zero, Option.some.injEq, List.getElem?_cons_succ] at ha hb
        subst ha hb
        exact ⟨by omega, le_rfl, fun h => absurd h (lt_irrefl _), fun t h1 h2 => hopen t h1 (by omega)⟩
      | succ k' => simp at hb
  | succ k ih =>
    intro i j hni hji hopen
    have hr : (List.range' (i + 1) (k + 1 + 1)).map (gridPoint lo hi n) =
        gridPoint lo hi n (i + 1) :: gridPoint lo hi n (i + 2) :: (List.range' (i + 3) k).map (gridPoint lo hi n) := by
      simp [List.range'_succ]
    have hr2 : gridPoint lo hi n (i + 2) :: (List.range' (i + 3) k).map (gridPoint lo hi n) = (List.range' (i + 1 + 1) (k + 1)).map (gridPoint lo hi n) := by
      simp [List.range'_succ]
    have hdec := closeDecision_iff hlen hm d (gridPoint lo hi n j) (gridPoint lo hi n (i + 1)) (gridPoint lo hi n (i + 2))
      (gridPoint_lt hlt hn (by omega)).le
    rw [hr, greedyLoop, hr2]
    by_cases hw : WorthClosing xs e m d lo hi n j (i + 1)
    · rw [if_pos (hdec.mpr hw)]
      obtain ⟨idx, h1, h2, h3, h4⟩ := ih (i + 1) (i + 1) (by omega) le_rfl (fun t h1 h2 => by omega)
      refine ⟨(i + 1) :: idx, by rw [h1]; simp, by simp, by simpa using h3, ?_⟩
      intro k' a b ha hb
      cases k' with
      | zero =>
        simp only [List.getElem?_cons_zero, Option.some.injEq, List.getElem?_cons_succ] at ha hb
        subst ha hb
        exact ⟨by omega, by omega, fun _ => hw, fun t h1 h2 => hopen t h1 (by omega)⟩
      | succ k' =>
        simp only [List.getElem?_cons_succ] at ha
        rw [List.getElem?_cons_succ] at hb
        exact h4 k' a b ha hb
    · rw [if_neg (fun h => hw (hdec.mp h))]
      refine ih (i + 1) j (by omega) (by omega) (fun t h1 h2 => ?_)
      rcases Nat.lt_or_ge t (i + 1) with h | h
      · exact hopen t h1 (by omega)
      · rw [show t = i + 1 by omega]; exact hw

/-- **C88.**  Greedy binning of a feature that is not categorical, with at least `2 * min_points` instances (`min_points ≥ 1`) and axis limits that are not numerically equal: the algorithm
walks along the grid of `init_nof_bins` equal cells and closes a bin at the first grid point where the bin holds `min_points` instances and stretching it by one more cell would raise its cost
(variance times width times discount); the last bin ends at the axis maximum and is joined with the one before if it holds too few instances. -/
theorem C88_greedy_rule (c : BinCtx K) (e : List K) (n m cl : ℕ) (d : K) (he : c.eff = some e) (hlen : e.length = c.xs.length)
    (hcat : cl < distinct c.xs) (h1 : distinct c.xs ≠ 1) (hm : 1 ≤ m) (h2m : 2 * m ≤ c.xs.length)
    (hclose : ¬ |c.xmin - c.xmax| ≤ 1 / 10 ^ 8 + 1 / 10 ^ 5 * |c.xmax|) (hlt : c.xmin < c.xmax) (hn : 1 ≤ n) :
    ∃ (cuts : List ℕ) (j : ℕ), FirstWorthCuts c.xs e m d c.xmin c.xmax n (cuts ++ [j, n]) ∧
      greedyFind c n d (some m) cl = .ok (.arr (
        if m ≤ closedCount c.xs (gridPoint c.xmin c.xmax n j) c.xmax then (cuts ++ [j, n]).map (gridPoint c.xmin c.xmax n)
        else (cuts ++ [n]).map (gridPoint c.xmin c.xmax n))) := by
  obtain ⟨k, rfl⟩ : ∃ k, n = k + 1 := ⟨n - 1, by omega⟩
  obtain ⟨idx, hl1, hl2, hl3, hl4⟩ := greedyLoop_rule (d := d) hlen hm hlt hn k 0 0 (by omega) le_rfl (fun t h1 h2 => by omega)
  obtain ⟨cuts, j, b, hab⟩ := last_two (0 :: idx) (by
    have : 0 < idx.length := List.length_pos_iff.mpr hl2
    simp; omega)
  have hb : b = k + 1 := by
    rw [hab] at hl3
    simpa using hl3
  subst hb
  refine ⟨cuts, j, ⟨by rw [← hab]; rfl, by simp, by rw [← hab]; exact hl4⟩, ?_⟩
  have hgl := gridPoint_last c.xmin c.xmax (k + 1) hn
  have hnv : noneValidBinning c.xs (some m) = .ok false := by
    rw [noneValid_eq]
    simp [h1]
    omega
  have hb : onlyOneBinPossible c m = .ok false := by
    unfold onlyOneBinPossible BinCtx.getEff allclose
    rw [he]
    simp only [bind, Except.bind, pure, Except.pure]
    rw [decide_eq_false hclose, hlen]
    simp
    intro; omega
  have hls : linspace c.xmin c.xmax (k + 1 + 1) = c.xmin :: (List.range' (0 + 1) (k + 1)).map (gridPoint c.xmin c.xmax (k + 1)) := by
    rw [linspace_evenly]
    unfold evenly
    rw [List.range_eq_range', List.range'_succ, List.map_cons]
    simp [gridPoint_zero]
  unfold greedyFind
  rw [hnv, isCategorical_not _ _ _ hcat]
  simp only [bind, Except.bind, Bool.false_eq_true, if_false, pure, Except.pure]
  rw [hb]
  simp only [BinCtx.getEff, he, Bool.false_eq_true, if_false]
  rw [hls]
  simp only []
  rw [gridPoint_zero] at hl1
  rw [hl1, hab, List.map_append]
  simp only [List.map_cons, List.map_nil]
  rw [repairLast_eq, hgl]
  have hv : binValid c.xs m (gridPoint c.xmin c.xmax (k + 1) j) c.xmax = true ↔ m ≤ closedCount c.xs (gridPoint c.xmin c.xmax (k + 1) j) c.xmax := binValid_iff _ _ _ _
  by_cases hq : m ≤ closedCount c.xs (gridPoint c.xmin c.xmax (k + 1) j) c.xmax
  · rw [if_pos (hv.mpr hq), if_pos hq]
  · rw [if_neg (fun h => hq (hv.mp h)), if_neg hq]
    simp [hgl]

/-- **C88 in the API.**  The bin limits of a fitted RHALE with `Greedy(init_nof_bins=n, min_points_per_bin=m, discount=d)` follow that rule, on the values and effects of the instances inside
the axis limits. -/
theorem C88_rhale {D : ℕ} (data eff : List (Row K D)) (lo hi : Fin D → K) (s : Fin D) (n m cl : ℕ) (d : K)
    (hcat : cl < distinct (usedValues data lo hi s)) (hm : 1 ≤ m) (h2m : 2 * m ≤ (usedValues data lo hi s).length)
    (hclose : ¬ |lo s - hi s| ≤ 1 / 10 ^ 8 + 1 / 10 ^ 5 * |hi s|) (hlt : lo s < hi s) (hn : 1 ≤ n) (p : AleParams K)
    (h : rhaleFitFeature data eff lo hi s (.greedy n (some m) d cl) = .ok p) :
    ∃ (cuts : List ℕ) (j : ℕ), FirstWorthCuts (usedValues data lo hi s) (usedEffects data eff lo hi s) m d (lo s) (hi s) n (cuts ++ [j, n]) ∧
      p.limits = if m ≤ closedCount (usedValues data lo hi s) (gridPoint (lo s) (hi s) n j) (hi s) then (cuts ++ [j, n]).map (gridPoint (lo s) (hi s) n)
        else (cuts ++ [n]).map (gridPoint (lo s) (hi s) n) := by
  obtain ⟨hlen, L, hL, hp⟩ := rhaleFitFeature_ok h
  have hx := rhaleCtx_xs data eff lo hi s
  have he : usedEffects data eff lo hi s = col (((data.zip eff).filter fun p => inAxis (lo s) (hi s) s p.1).map (·.2)) s := by
    unfold usedEffects col inAxis
    rw [List.map_map]
    congr 1
    apply List.filter_congr
    intro q _
    simp
  have h1 : distinct (usedValues data lo hi s) ≠ 1 := by
    intro h1
    have : findLimits (rhaleCtx data eff lo hi s) (.greedy n (some m) d cl) = .ok .impossible :=
      (C22_greedy_dp_impossible_partial (rhaleCtx data eff lo hi s) n m cl d (Or.inl (hx ▸ h1))).1
    rw [this] at hL
    cases hL
  obtain ⟨cuts, j, hc, hg⟩ := C88_greedy_rule (rhaleCtx data eff lo hi s) (usedEffects data eff lo hi s) n m cl d (he ▸ rfl)
    (by rw [he]; exact rhaleCtx_len data eff lo hi s hlen) (by rw [hx]; exact hcat) (by rw [hx]; exact h1) hm (by rw [hx]; exact h2m) hclose hlt hn
  rw [hx] at hc hg
  refine ⟨cuts, j, hc, ?_⟩
  have hL' : greedyFind (rhaleCtx data eff lo hi s) n d (some m) cl = .ok (.arr L) := hL
  rw [hg] at hL'
  simp only [Except.ok.injEq, Lim.arr.injEq] at hL'
  have hin := rhaleCtx_in data eff lo hi s
  obtain ⟨hinc, htwo, hwith, -⟩ := findLimits_good (rhaleCtx data eff lo hi s) _ hin hlt (show SafeMethod _ (.greedy n (some m) d cl) from trivial) L hL
  rw [(computeAleParams_good hinc htwo hwith (rhaleCtx_len data eff lo hi s hlen) hp).2.1]
  exact hL'.symm

/-- Six instances with a jump of the effect between 2 and 3, four cells of width 5/4, `min_points = 2`, no discount: two bins, closed at 5/2; with discount 3 (wide bins preferred) only one. -/
def jumpCtx : BinCtx ℚ where
  xs := [0, 1, 2, 3, 4, 5]
  eff := some [0, 0, 0, 1, 1, 1]
  xmin := 0
  xmax := 5

example : 0 < distinct jumpCtx.xs ∧ distinct jumpCtx.xs ≠ 1 ∧ 2 * 2 ≤ jumpCtx.xs.length ∧
    ¬ |jumpCtx.xmin - jumpCtx.xmax| ≤ 1 / 10 ^ 8 + 1 / 10 ^ 5 * |jumpCtx.xmax| ∧ jumpCtx.xmin < jumpCtx.xmax := by decide +kernel

example : greedyFind jumpCtx 4 0 (some 2) 0 = .ok (.arr [0, 5 / 2, 5]) ∧ greedyFind jumpCtx 4 3 (some 2) 0 = .ok (.arr [0, 5]) := by decide +kernel

end Effector
