import Verif.Props.TreeData

/-!
# C47: the minimum size of accepted subregions
-/

set_option linter.unusedSectionVars false

namespace Effector

variable {K : Type} [Field K] [LinearOrder K] [IsStrictOrderedRing K] {D : ℕ}

theorem levelRegions_fst (data : List (Row K D)) (eff : Option (List (Row K D))) (sps : List (Split K D)) :
    (Spec.levelRegions data eff sps).map (·.1) = Spec.regions data sps := by
  unfold Spec.levelRegions Spec.regions
  rw [List.map_map]
  rfl

theorem sum_mass_levelRegions (data : List (Row K D)) (eff : Option (List (Row K D))) (sps : List (Split K D)) :
    ((Spec.levelRegions data eff sps).map Spec.mass).sum = (data.length : K) + 2 ^ sps.length := by
  have h1 : (Spec.levelRegions data eff sps).map Spec.mass = (Spec.regions data sps).map fun x => (x.length : K) + 1 := by
    rw [← levelRegions_fst data eff, List.map_map]
    rfl
  have h2 : ∀ l : List (List (Row K D)), (l.map fun x => (x.length : K) + 1).sum = (l.flatten.length : K) + (l.length : K) := by
    intro l
    induction l with
    | nil => simp
    | cons x t ih => simp only [List.map_cons, List.sum_cons, ih, List.flatten_cons, List.length_append, List.length_cons]; push_cast; ring
  rw [h1, h2, (regions_perm data sps).length_eq, length_regions]
  push_cast
  rfl

/-- If one region pays the penalty `M`, the weighted heterogeneity is at least `M` over the total weight. -/
theorem weightedHeter_penalty (H : List (Row K D) → Option (List (Row K D)) → K) (Rs : List (Spec.Region K D)) (hH : ∀ R ∈ Rs, 0 ≤ H R.1 R.2) (M : K) (hM : 0 ≤ M)
    (R : Spec.Region K D) (hR : R ∈ Rs) (hp : M ≤ H R.1 R.2) : M ≤ Spec.weightedHeter H Rs * (Rs.map Spec.mass).sum := by
  have hT : 0 < (Rs.map Spec.mass).sum := by
    have h1 : Spec.mass R ≤ (Rs.map Spec.mass).sum := List.single_le_sum (by
      intro v hv
      obtain ⟨Q, -, rfl⟩ := List.mem_map.1 hv
      exact (mass_pos Q).le) _ (List.mem_map_of_mem hR)
    exact lt_of_lt_of_le (mass_pos R) h1
  unfold Spec.weightedHeter
  rw [div_mul_cancel₀ _ hT.ne']
  have h1 : H R.1 R.2 * Spec.mass R ≤ (Rs.map fun R => H R.1 R.2 * Spec.mass R).sum := List.single_le_sum (by
      intro v hv
      obtain ⟨Q, hQ, rfl⟩ := List.mem_map.1 hv
      exact mul_nonneg (hH Q hQ) (mass_pos Q).le) _ (List.mem_map_of_mem (f := fun R => H R.1 R.2 * Spec.mass R) hR)
  have h2 : (1 : K) ≤ Spec.mass R := by unfold Spec.mass; simp
  have h3 : M * 1 ≤ H R.1 R.2 * Spec.mass R := mul_le_mul hp h2 zero_le_one (hM.trans hp)
  linarith

/-- **C47, all levels but the last.** Every node of the full tree above its last level has at least `min_points` instances, for every heterogeneity
function. -/
theorem C47_inner_levels (cfg : RegCfg K D) (heff : EffAligned cfg) (posText : Fin D → K → String) (imp : Bool) (s : Splits K D)
    (tree : List (Node K D)) (h : TreeOf cfg posText imp s tree) (nd : Node K D) (hm : nd ∈ tree) (hl : nd.level < s.levels.length) :
    cfg.minPoints ≤ nd.rows.length := by
  obtain ⟨hnd, hH⟩ := h.heap heff
  have hr : (rootNode cfg s).level = 0 := rfl
  have hS := searchAllSplits_ok cfg heff s h.search
  obtain ⟨n, hn1, hn⟩ := usedSplits_prefix cfg imp s
  obtain ⟨i, hi⟩ := List.getElem?_of_mem hm
  have hle := hH.level_le hr hi
  have hrow := hH.levelRows hr nd.level hle
  have hmem : nd.rows ∈ (getLevelNodes tree nd.level).map (·.rows) := List.mem_map_of_mem (List.mem_of_getElem? (hH.pos hr hi))
  rw [hrow] at hmem
  have htk : (usedSplits cfg imp s).take nd.level = s.levels.take nd.level := by
    rw [hn, List.take_take]
    congr 1
    rw [hn, List.length_take] at hle
    omega
  rw [htk] at hmem
  exact (hS.level nd.level _ (List.getElem?_eq_getElem hl)).2 _ hmem

/-- **C47 (partial).** Every node of the pruned tree has at least `min_points` instances, if the heterogeneity function gives 1e8 (or more) to smaller regions and is not
negative, the threshold is not negative, and the heterogeneity of the whole data set is at most `1e8 / (N + 2 ^ max_depth)`.  Missing: larger
heterogeneities, for which the penalty does not suffice (`C47_false_for_large_heterogeneity`). -/
theorem C47_pruned_nodes_partial (cfg : RegCfg K D) (heff : EffAligned cfg) (posText : Fin D → K → String) (s : Splits K D)
    (tree : List (Node K D)) (h : TreeOf cfg posText true s tree) (hpos : ∀ x e, x.Sublist cfg.data → 0 ≤ cfg.heter x e)
    (hpen : ∀ x e, x.length < cfg.minPoints → 100000000 ≤ cfg.heter x e) (hthr : 0 ≤ cfg.dropThres)
    (hsmall : cfg.heter cfg.data cfg.dataEffect * ((cfg.data.length : K) + 2 ^ cfg.maxLevels) ≤ 100000000) (nd : Node K D) (hm : nd ∈ tree) :
    cfg.minPoints ≤ nd.rows.length := by
  by_cases hl : nd.level < s.levels.length
  · exact C47_inner_levels cfg heff posText true s tree h nd hm hl
  obtain ⟨hnd, hH⟩ := h.heap heff
  have hr : (rootNode cfg s).level = 0 := rfl
  have hS := searchAllSplits_ok cfg heff s h.search
  obtain ⟨i, hi⟩ := List.getElem?_of_mem hm
  have hle := hH.level_le hr hi
  obtain ⟨n, hn1, hn⟩ := choose_prefix cfg s
  have hu : usedSplits cfg true s = s.levels.take n := hn
  rw [hu, List.length_take] at hle
  -- all splits are important
  have hnd : nd.level = s.levels.length := by omega
  have hnn : n = s.levels.length := by omega
  have hall : chooseImportantSplits cfg (some s) = s.levels := by rw [hn, hnn, List.take_length]
  have hne : s.levels ≠ [] := hS.nonempty
  have hlen0 := List.length_pos_of_ne_nil hne
  by_contra hlt
  have hlt := not_le.mp hlt
  have h1 : s.heterInit ≠ 100000000 := fun e => hne (by rw [← hall]; exact C42_nothing cfg _ (.inr ⟨s, rfl, .inr e⟩))
  have h2 : cfg.smallEnough ≤ s.heterInit := by
    by_contra e
    exact hne (by rw [← hall]; exact C42_nothing cfg _ (.inr ⟨s, rfl, .inl (not_le.mp e)⟩))
  have hsub : ∀ sps, ∀ R ∈ Spec.levelRegions cfg.data cfg.dataEffect sps, R.1.Sublist cfg.data := by
    intro sps R hR
    obtain ⟨path, -, rfl⟩ := List.mem_map.1 hR
    exact List.filter_sublist
  have hwpos : ∀ sp ∈ s.levels, 0 ≤ sp.wHeter := by
    intro sp hsp
    obtain ⟨k, hk⟩ := List.getElem?_of_mem hsp
    obtain ⟨-, -, -, -, -, h6, -⟩ := C41_best_split_at_every_level cfg heff s h.search k sp hk
    rw [h6]
    apply div_nonneg
    · apply List.sum_nonneg
      intro v hv
      obtain ⟨R, hR, rfl⟩ := List.mem_map.1 hv
      exact mul_nonneg (hpos _ _ (hsub _ R hR)) (mass_pos R).le
    · exact sum_mass_nonneg _
  have h0 : 0 ≤ s.heterInit := by rw [hS.heterInit]; exact hpos _ _ (List.Sublist.refl _)
  obtain ⟨m, hm1, hm2, hm3, -⟩ := C42_longest_prefix cfg s h1 h2 h0 hwpos
  have hmm : m = s.levels.length := by
    rw [hall] at hm2
    have := congrArg List.length hm2
    rw [List.length_take] at this
    omega
  -- the weighted heterogeneities decrease
  have hdec : ∀ (k : ℕ) (sp : Split K D), s.levels[k]? = some sp → sp.wHeter < s.heterInit := by
    intro k
    induction k with
    | zero =>
      intro sp hk
      obtain ⟨prev, sp', e1, e2, e3⟩ := hm3 0 (by omega)
      rw [hk] at e2; cases e2
      simp only [Spec.heterPrev, Option.some.injEq] at e1
      rw [← e1] at e3
      have := mul_nonneg hthr h0
      linarith
    | succ k ih =>
      intro sp hk
      have hkl := (List.getElem?_eq_some_iff.mp hk).1
      obtain ⟨prev, sp', e1, e2, e3⟩ := hm3 (k + 1) (by omega)
      rw [hk] at e2; cases e2
      have hk' : s.levels[k]? = some (s.levels[k]'(by omega)) := List.getElem?_eq_getElem _
      simp only [Spec.heterPrev, hk', Option.map_some, Option.some.injEq] at e1
      have hi1 := ih _ hk'
      rw [e1] at hi1
      have hprev : 0 ≤ prev := by rw [← e1]; exact hwpos _ (List.getElem_mem _)
      have := mul_nonneg hthr hprev
      linarith
  -- the last level
  have hlast : s.levels[s.levels.length - 1]? = some (s.levels[s.levels.length - 1]'(by omega)) := List.getElem?_eq_getElem _
  have hd := hdec _ _ hlast
  obtain ⟨-, -, -, -, -, h6, -⟩ := C41_best_split_at_every_level cfg heff s h.search _ _ hlast
  rw [show s.levels.length - 1 + 1 = s.levels.length by omega, List.take_length] at h6
  have hrow := hH.levelRows hr nd.level (by rw [hu, List.length_take]; omega)
  have hmem : nd.rows ∈ (getLevelNodes tree nd.level).map (·.rows) := List.mem_map_of_mem (List.mem_of_getElem? (hH.pos hr hi))
  rw [hrow, hu, hnn, List.take_length, hnd, List.take_length] at hmem
  have e : (rootNode cfg s).rows = cfg.data := rfl
  rw [e, ← levelRegions_fst cfg.data cfg.dataEffect] at hmem
  obtain ⟨R, hR, hR1⟩ := List.mem_map.1 hmem
  have hpp := weightedHeter_penalty cfg.heter _ (fun R hR => hpos _ _ (hsub _ R hR)) 100000000 (by norm_num) R hR (hpen _ _ (by rw [hR1]; exact hlt))
  rw [← h6, sum_mass_levelRegions] at hpp
  have hN : (0 : K) < (cfg.data.length : K) + 2 ^ s.levels.length := by positivity
  have hle2 : (cfg.data.length : K) + 2 ^ s.levels.length ≤ (cfg.data.length : K) + 2 ^ cfg.maxLevels := by
    have := pow_le_pow_right₀ (one_le_two (α := K)) hS.depth
    linarith
  have hi0 : s.heterInit = cfg.heter cfg.data cfg.dataEffect := hS.heterInit
  rw [← hi0] at hsmall
  have k1 : s.heterInit * ((cfg.data.length : K) + 2 ^ s.levels.length) ≤ s.heterInit * ((cfg.data.length : K) + 2 ^ cfg.maxLevels) :=
    mul_le_mul_of_nonneg_left hle2 h0
  have k2 := mul_lt_mul_of_pos_right hd hN
  linarith

/-- The example of `exCfg` meets the hypotheses: its pruned tree is the full tree of depth 2 and all its nodes have at least two instances. -/
theorem exCfg_pruned :
    (match searchAllSplits exCfg with
      | .ok (some s) => (match splitsToTree exCfg (fun _ p => toString p) (some s) true with
        | .ok (some tree) => tree.map fun nd => (nd.name, nd.rows.length)
        | _ => [])
      | _ => []) =
    [("x", 8), ("x | y == 0", 4), ("x | y != 0", 4), ("x | y == 0 and z <= 1/4", 2), ("x | y == 0 and z  > 1/4", 2), ("x | y != 0 and z <= 1/4", 2),
      ("x | y != 0 and z  > 1/4", 2)] ∧ exCfg.heter exCfg.data exCfg.dataEffect * ((exCfg.data.length : ℚ) + 2 ^ exCfg.maxLevels) ≤ 100000000 := by
  decide +kernel

/-- Three instances with large values; regions with fewer than two instances pay the penalty 1e8. -/
def bigCfg : RegCfg ℚ 2 :=
  { feature := 0, heter := fun x _ => if x.length < 2 then 100000000 else Spec.popVar (col x 0), data := [![0, 0], ![0, 0], ![100000, 1]], dataEffect := none,
    types := ![.cont, .cat], names := ![("x" : String), "y"], catLimit := 2, foc := [1], minPoints := 2, nofSplits := 1,
    maxLevels := 1, dropThres := 1 / 5, smallEnough := 1 / 10, splitCat := false }

theorem bigCfg_pruned :
    (match searchAllSplits bigCfg with
      | .ok (some s) => (match splitsToTree bigCfg (fun _ p => toString p) (some s) true with
        | .ok (some tree) => tree.map fun nd => nd.rows.length
        | _ => [])
      | _ => []) = [3, 2, 1] := by
  decide +kernel

/-- **C47 is false for large heterogeneities**: the pruned tree of `bigCfg` has a node with one instance although `min_points` is 2 and smaller regions pay
the penalty 1e8. -/
theorem C47_false_for_large_heterogeneity : ¬ ∀ (cfg : RegCfg ℚ 2), EffAligned cfg → (∀ x e, 0 ≤ cfg.heter x e) →
    (∀ x e, x.length < cfg.minPoints → 100000000 ≤ cfg.heter x e) → 0 ≤ cfg.dropThres → ∀ posText s tree, TreeOf cfg posText true s tree →
      ∀ nd ∈ tree, cfg.minPoints ≤ nd.rows.length := by
  intro hall
  have hd := bigCfg_pruned
  rcases hs : searchAllSplits bigCfg with e | (_ | s)
  · rw [hs] at hd; simp at hd
  · rw [hs] at hd; simp at hd
  rw [hs] at hd
  simp only at hd
  rcases ht : splitsToTree bigCfg (fun _ p => toString p) (some s) true with e | (_ | tree)
  · rw [ht] at hd; simp at hd
  · rw [ht] at hd; simp at hd
  rw [ht] at hd
  simp only at hd
  have hm : (1 : ℕ) ∈ tree.map fun nd => nd.rows.length := by rw [hd]; simp
  obtain ⟨nd, hnd, h1⟩ := List.mem_map.1 hm
  have := hall bigCfg (by intro e he; cases he) (by
      intro x e
      show 0 ≤ if x.length < 2 then (100000000 : ℚ) else Spec.popVar (col x 0)
      split_ifs
      · norm_num
      · unfold Spec.popVar
        apply div_nonneg _ (Nat.cast_nonneg _)
        apply List.sum_nonneg
        intro v hv
        obtain ⟨y, -, rfl⟩ := List.mem_map.1 hv
        positivity) (by
      intro x e hx
      show 100000000 ≤ if x.length < 2 then (100000000 : ℚ) else Spec.popVar (col x 0)
      rw [if_pos (show x.length < 2 from hx)]) (by show (0 : ℚ) ≤ 1 / 5; norm_num) _ s tree ⟨hs, ht⟩ nd hnd
  rw [h1] at this
  exact absurd this (by decide)

end Effector
