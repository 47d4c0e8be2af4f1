import Verif.Lemmas.AleFit

/-! # The fitted parameters do not depend on the order of the instances -/

namespace Effector

set_option linter.unusedSectionVars false

open Spec

variable {K : Type} [Field K] [LinearOrder K] {D : ℕ}

theorem increasing_ext {l l' : List K} (h : Increasing l) (h' : Increasing l') (hm : ∀ x, x ∈ l ↔ x ∈ l') : l = l' := by
  have hp : l.Perm l' := (List.perm_ext_iff_of_nodup (h.imp fun h => ne_of_lt h) (h'.imp fun h => ne_of_lt h)).mpr hm
  exact hp.eq_of_pairwise' (r := (· < ·)) h h'

theorem npUnique_perm {xs xs' : List K} (h : xs.Perm xs') : npUnique xs = npUnique xs' :=
  increasing_ext (npUnique_sorted xs) (npUnique_sorted xs') fun x => by rw [mem_npUnique, mem_npUnique, h.mem_iff]

theorem mean_perm {l l' : List K} (h : l.Perm l') : mean l = mean l' := by
  unfold mean
  rw [h.sum_eq, h.length_eq]

theorem npVar_perm {l l' : List K} (h : l.Perm l') : npVar l = npVar l' := by
  unfold npVar variance
  have h1 : (l = []) ↔ (l' = []) := by
    constructor
    · rintro rfl; exact h.nil_eq.symm
    · rintro rfl; exact h.eq_nil
  rw [mean_perm h, mean_perm (h.map _)]
  by_cases hc : l = []
  · rw [if_pos hc, if_pos (h1.mp hc)]
  · rw [if_neg hc, if_neg fun h' => hc (h1.mpr h')]

/-- Two lists of (feature value, effect) pairs that are permutations of each other. -/
structure PairPerm (xs eff xs' eff' : List K) : Prop where
  len : eff.length = xs.length
  len' : eff'.length = xs'.length
  perm : (xs.zip eff).Perm (xs'.zip eff')

theorem PairPerm.xs {xs eff xs' eff' : List K} (h : PairPerm xs eff xs' eff') : xs.Perm xs' := by
  have := h.perm.map Prod.fst
  rwa [List.map_fst_zip h.len.ge, List.map_fst_zip h.len'.ge] at this

theorem PairPerm.eff {xs eff xs' eff' : List K} (h : PairPerm xs eff xs' eff') : eff.Perm eff' := by
  have := h.perm.map Prod.snd
  rwa [List.map_snd_zip h.len.le, List.map_snd_zip h.len'.le] at this

theorem filterXs_perm {xs xs' : List K} (h : xs.Perm xs') (a b : K) : (filterXs xs a b).length = (filterXs xs' a b).length :=
  (h.filter _).length_eq

theorem binValid_perm {xs xs' : List K} (h : xs.Perm xs') : binValid xs = binValid xs' := by
  funext m a b
  unfold binValid
  rw [filterXs_perm h]

theorem binCost_perm {xs eff xs' eff' : List K} (h : PairPerm xs eff xs' eff') : binCost xs eff = binCost xs' eff' := by
  funext m d a b
  have hp : (filterEff xs eff a b).Perm (filterEff xs' eff' a b) := (h.perm.filter _).map _
  unfold binCost
  simp only [hp.length_eq, npVar_perm hp, h.xs.length_eq]

theorem noneValidBinning_perm {xs xs' : List K} (h : xs.Perm xs') : noneValidBinning xs = noneValidBinning xs' := by
  funext mo
  unfold noneValidBinning
  simp only [npUnique_perm h, h.length_eq]

theorem isCategorical_perm {xs xs' : List K} (h : xs.Perm xs') : isCategorical xs = isCategorical xs' := by
  funext mo cl
  have : binValidOpt xs = binValidOpt xs' := by
    funext mo a b
    unfold binValidOpt
    rw [binValid_perm h]
  unfold isCategorical
  simp only [npUnique_perm h, this]

theorem closeDecision_perm {xs eff xs' eff' : List K} (h : PairPerm xs eff xs' eff') :
    closeDecision xs eff = closeDecision xs' eff' := by
  funext m d l a b
  unfold closeDecision
  simp only [binCost_perm h, binValid_perm h.xs]

theorem greedyLoop_perm {xs eff xs' eff' : List K} (h : PairPerm xs eff xs' eff') (m : ℕ) (d left : K) (rest : List K) :
    greedyLoop xs eff m d left rest = greedyLoop xs' eff' m d left rest := by
  induction rest generalizing left with
  | nil => rfl
  | cons l1 t ih =>
    cases t with
    | nil => rfl
    | cons l2 t =>
      unfold greedyLoop
      rw [closeDecision_perm h, ih, ih]

theorem repairLast_perm {xs xs' : List K} (h : xs.Perm xs') : repairLast xs = repairLast xs' := by
  funext m l
  unfold repairLast
  simp only [binValid_perm h]

/-- Binning problems that differ only in the order of the instances. -/
structure CtxPerm (c c' : BinCtx K) : Prop where
  xmin : c.xmin = c'.xmin
  xmax : c.xmax = c'.xmax
  xs : c.xs.Perm c'.xs
  eff : (c.eff = none ∧ c'.eff = none) ∨ ∃ e e', c.eff = some e ∧ c'.eff = some e' ∧ PairPerm c.xs e c'.xs e'

theorem onlyOneBin_perm {c c' : BinCtx K} (h : CtxPerm c c') : onlyOneBinPossible c = onlyOneBinPossible c' := by
  funext m
  unfold onlyOneBinPossible BinCtx.getEff
  rcases h.eff with ⟨h1, h2⟩ | ⟨e, e', h1, h2, hp⟩
  · rw [h1, h2]; rfl
  · rw [h1, h2, h.xmin, h.xmax]
    simp only [bind, Except.bind, hp.eff.length_eq]

theorem fixedFind_perm {c c' : BinCtx K} (h : CtxPerm c c') : fixedFind c = fixedFind c' := by
  funext n mo cl
  unfold fixedFind
  rw [noneValidBinning_perm h.xs, isCategorical_perm h.xs, h.xmin, h.xmax, binValid_perm h.xs]

theorem greedyFind_perm {c c' : BinCtx K} (h : CtxPerm c c') : greedyFind c = greedyFind c' := by
  funext n d mo cl
  unfold greedyFind
  rw [noneValidBinning_perm h.xs, isCategorical_perm h.xs, onlyOneBin_perm h, h.xmin, h.xmax, repairLast_perm h.xs]
  rcases h.eff with ⟨h1, h2⟩ | ⟨e, e', h1, h2, hp⟩
  · unfold BinCtx.getEff
    rw [h1, h2]
    rfl
  · unfold BinCtx.getEff
    rw [h1, h2]
    simp only [bind, Except.bind, greedyLoop_perm hp]

theorem dpFind_perm {c c' : BinCtx K} (h : CtxPerm c c') : dpFind c = dpFind c' := by
  funext n mo d cl
  unfold dpFind
  rw [noneValidBinning_perm h.xs, isCategorical_perm h.xs, onlyOneBin_perm h, h.xmin, h.xmax]
  rcases h.eff with ⟨h1, h2⟩ | ⟨e, e', h1, h2, hp⟩
  · unfold BinCtx.getEff
    rw [h1, h2]
    rfl
  · have : ∀ m, costOfMove c e m d n = costOfMove c' e' m d n := by
      intro m
      funext i j
      unfold costOfMove
      rw [binCost_perm hp, h.xmin, h.xmax]
    unfold BinCtx.getEff
    rw [h1, h2]
    simp only [bind, Except.bind, this]

theorem findLimits_perm {c c' : BinCtx K} (h : CtxPerm c c') (bm : BinMethod K) : findLimits c bm = findLimits c' bm := by
  unfold findLimits
  rw [fixedFind_perm h, greedyFind_perm h, dpFind_perm h]

/-! ### compute_ale_params -/

theorem mapM_pyIndex {α : Type} [Inhabited α] (l : List ℕ) (v : List α) :
    l.mapM (fun i => pyIndex v i) = if ∀ i ∈ l, i < v.length then .ok (l.map fun i => v.getD i default) else .error .indexError := by
  induction l with
  | nil => rfl
  | cons a t ih =>
    rw [List.mapM_cons, ih]
    by_cases ha : a < v.length
    · rw [pyIndex_ok (List.getElem?_eq_getElem ha)]
      simp only [bind, Except.bind]
      by_cases ht : ∀ i ∈ t, i < v.length
      · rw [if_pos ht, if_pos (by intro i hi; rcases List.mem_cons.mp hi with rfl | hi; exacts [ha, ht i hi])]
        simp [pure, Except.pure, ha]
      · rw [if_neg ht, if_neg fun hc => ht fun i hi => hc i (List.mem_cons_of_mem _ hi)]
    · have hn : ¬ ∀ i ∈ a :: t, i < v.length := fun hc => ha (hc a List.mem_cons_self)
      have : pyIndex v a = .error .indexError := by
        unfold pyIndex
        rw [List.getElem?_eq_none (by omega)]
      rw [this, if_neg hn]
      rfl

theorem digitize_form (bins : List K) : (∀ xs, digitize xs bins = .error .valueError) ∨ ∃ F : K → ℕ, ∀ xs, digitize xs bins = .ok (xs.map F) := by
  by_cases h1 : bins.Pairwise (· ≤ ·)
  · exact Or.inr ⟨countLe bins, fun xs => by unfold digitize; rw [if_pos h1]⟩
  · by_cases h2 : bins.Pairwise (· ≥ ·)
    · exact Or.inr ⟨fun x => bins.length - countLe bins x, fun xs => by unfold digitize; rw [if_neg h1, if_pos h2]⟩
    · exact Or.inl fun xs => by unfold digitize; rw [if_neg h1, if_neg h2]

theorem binIndices_map (F : K → ℕ) (xs : List K) :
    binIndices (xs.map F) = if ∃ x ∈ xs, F x = 0 then .error .valueError else .ok (xs.map fun x => F x - 1) := by
  unfold binIndices
  have : 0 ∈ xs.map F ↔ ∃ x ∈ xs, F x = 0 := by simp
  by_cases h : 0 ∈ xs.map F
  · rw [if_pos h, if_pos (this.mp h)]
  · rw [if_neg h, if_neg fun h' => h (this.mpr h'), List.map_map]
    rfl

theorem bincountLen_perm {l l' : List ℕ} (h : l.Perm l') (m : ℕ) : bincountLen l m = bincountLen l' m := by
  unfold bincountLen
  rw [(h.map _).foldr_eq]

theorem nanSum_perm {l l' : List (Option K)} (h : l.Perm l') : nanSum l = nanSum l' := by
  induction h with
  | nil => rfl
  | cons x _ ih => simp only [nanSum, ih]
  | swap x y l =>
    simp only [nanSum]
    cases x <;> cases y <;> cases nanSum l <;> simp [add_left_comm]
  | trans _ _ ih1 ih2 => exact ih1.trans ih2

theorem valuesAt_perm {xs eff xs' eff' : List K} (h : PairPerm xs eff xs' eff') (f : K → ℕ) (k : ℕ) :
    (valuesAt (xs.map f) eff k).Perm (valuesAt (xs'.map f) eff' k) := by
  rw [valuesAt_map, valuesAt_map]
  exact (h.perm.filter _).map _

theorem exists_perm_iff {xs xs' : List K} (h : xs.Perm xs') (P : K → Prop) : (∃ x ∈ xs, P x) ↔ ∃ x ∈ xs', P x :=
  ⟨fun ⟨x, hx, hp⟩ => ⟨x, h.mem_iff.mp hx, hp⟩, fun ⟨x, hx, hp⟩ => ⟨x, h.mem_iff.mpr hx, hp⟩⟩

theorem computeBinEffect_perm {xs eff xs' eff' : List K} (h : PairPerm xs eff xs' eff') (limits : List K) :
    computeBinEffect xs eff limits = computeBinEffect xs' eff' limits := by
  unfold computeBinEffect
  rcases digitize_form (bumpLast EPS limits) with hd | ⟨F, hd⟩
  · rw [hd, hd]
    rfl
  · rw [hd, hd]
    simp only [bind, Except.bind]
    rw [binIndices_map, binIndices_map]
    by_cases h0 : ∃ x ∈ xs, F x = 0
    · rw [if_pos h0, if_pos ((exists_perm_iff h.xs _).mp h0)]
    · rw [if_neg h0, if_neg fun h' => h0 ((exists_perm_iff h.xs _).mpr h')]
      have hidx := h.xs.map fun x => F x - 1
      have hW : bincountW (xs.map fun x => F x - 1) eff (limits.length - 1) = bincountW (xs'.map fun x => F x - 1) eff' (limits.length - 1) := by
        unfold bincountW
        rw [if_pos (by rw [List.length_map, h.len]), if_pos (by rw [List.length_map, h.len']), bincountLen_perm hidx]
        congr 1
        exact List.map_congr_left fun k _ => (valuesAt_perm h _ k).sum_eq
      have hB : bincount (xs.map fun x => F x - 1) (limits.length - 1) = bincount (xs'.map fun x => F x - 1) (limits.length - 1) := by
        unfold bincount
        rw [bincountLen_perm hidx]
        exact List.map_congr_left fun k _ => hidx.count_eq k
      simp only [hW, hB]

theorem computeBinVariance_perm {xs eff xs' eff' : List K} (h : PairPerm xs eff xs' eff') (limits : List K) (means : List (Option K)) :
    computeBinVariance xs eff limits means = computeBinVariance xs' eff' limits means := by
  unfold computeBinVariance
  rcases digitize_form (bumpLast EPS limits) with hd | ⟨F, hd⟩
  · rw [hd, hd]
    rfl
  · rw [hd, hd]
    simp only [bind, Except.bind]
    rw [binIndices_map, binIndices_map]
    by_cases h0 : ∃ x ∈ xs, F x = 0
    · rw [if_pos h0, if_pos ((exists_perm_iff h.xs _).mp h0)]
    · rw [if_neg h0, if_neg fun h' => h0 ((exists_perm_iff h.xs _).mpr h')]
      have hidx := h.xs.map fun x => F x - 1
      simp only [mapM_pyIndex]
      have hiff : (∀ i ∈ xs.map fun x => F x - 1, i < means.length) ↔ (∀ i ∈ xs'.map fun x => F x - 1, i < means.length) :=
        ⟨fun H i hi => H i (hidx.mem_iff.mpr hi), fun H i hi => H i (hidx.mem_iff.mp hi)⟩
      by_cases hr : ∀ i ∈ xs.map fun x => F x - 1, i < means.length
      · rw [if_pos hr, if_pos (hiff.mp hr)]
        simp only [List.map_map, Function.comp_def]
        have hB : bincount (xs.map fun x => F x - 1) (limits.length - 1) = bincount (xs'.map fun x => F x - 1) (limits.length - 1) := by
          unfold bincount
          rw [bincountLen_perm hidx]
          exact List.map_congr_left fun k _ => hidx.count_eq k
        have hN : bincountNan (xs.map fun x => F x - 1) (List.zipWith sqDev eff (xs.map fun x => means.getD (F x - 1) default)) (limits.length - 1) =
            bincountNan (xs'.map fun x => F x - 1) (List.zipWith sqDev eff' (xs'.map fun x => means.getD (F x - 1) default)) (limits.length - 1) := by
          unfold bincountNan
          rw [if_pos (by simp [h.len]), if_pos (by simp [h.len']), bincountLen_perm hidx]
          congr 1
          apply List.map_congr_left
          intro k _
          rw [valuesAt_zipWith (fun x => F x - 1) (fun i => means.getD i default) sqDev xs eff k,
            valuesAt_zipWith (fun x => F x - 1) (fun i => means.getD i default) sqDev xs' eff' k]
          exact nanSum_perm ((valuesAt_perm h _ k).map _)
        simp only [hN, hB]
      · rw [if_neg hr, if_neg fun h' => hr (hiff.mpr h')]

theorem computeAleParams_perm {xs eff xs' eff' : List K} (h : PairPerm xs eff xs' eff') (limits : List K) :
    computeAleParams xs eff limits = computeAleParams xs' eff' limits := by
  unfold computeAleParams
  simp only [computeBinEffect_perm h, computeBinVariance_perm h]

/-! ### compute_local_effects -/

variable [IsStrictOrderedRing K]

theorem foldl_min_same {x y : K} {l l' : List K} (h : ∀ z, z ∈ x :: l ↔ z ∈ y :: l') : l.foldl min x = l'.foldl min y := by
  have hle : ∀ (x y : K) (l l' : List K), (∀ z, z ∈ x :: l ↔ z ∈ y :: l') → l.foldl min x ≤ l'.foldl min y := by
    intro x y l l' h
    have hm := (h _).mpr (foldl_min_mem l' y)
    rcases List.mem_cons.mp hm with h1 | h1
    · rw [h1]; exact (foldl_min_le_mem l x).1
    · exact (foldl_min_le_mem l x).2 _ h1
  exact le_antisymm (hle _ _ _ _ h) (hle _ _ _ _ fun z => (h z).symm)

theorem foldl_max_same {x y : K} {l l' : List K} (h : ∀ z, z ∈ x :: l ↔ z ∈ y :: l') : l.foldl max x = l'.foldl max y := by
  have hle : ∀ (x y : K) (l l' : List K), (∀ z, z ∈ x :: l ↔ z ∈ y :: l') → l.foldl max x ≤ l'.foldl max y := by
    intro x y l l' h
    have hm := (h _).mp (foldl_max_mem l x)
    rcases List.mem_cons.mp hm with h1 | h1
    · rw [h1]; exact (mem_le_foldl_max l' y).1
    · exact (mem_le_foldl_max l' y).2 _ h1
  exact le_antisymm (hle _ _ _ _ h) (hle _ _ _ _ fun z => (h z).symm)

theorem foldl_min_perm {x y : K} {l l' : List K} (h : (x :: l).Perm (y :: l')) : l.foldl min x = l'.foldl min y :=
  foldl_min_same fun _ => h.mem_iff

theorem listMin_same {l l' : List K} (h : ∀ z, z ∈ l ↔ z ∈ l') : listMin l = listMin l' := by
  cases l with
  | nil =>
    cases l' with
    | nil => rfl
    | cons y l' => exact absurd ((h y).mpr List.mem_cons_self) (by simp)
  | cons x l =>
    cases l' with
    | nil => exact absurd ((h x).mp List.mem_cons_self) (by simp)
    | cons y l' => simp only [listMin, foldl_min_same h]

theorem foldl_max_perm {x y : K} {l l' : List K} (h : (x :: l).Perm (y :: l')) : l.foldl max x = l'.foldl max y :=
  foldl_max_same fun _ => h.mem_iff

theorem listMax_same {l l' : List K} (h : ∀ z, z ∈ l ↔ z ∈ l') : listMax l = listMax l' := by
  cases l with
  | nil =>
    cases l' with
    | nil => rfl
    | cons y l' => exact absurd ((h y).mpr List.mem_cons_self) (by simp)
  | cons x l =>
    cases l' with
    | nil => exact absurd ((h x).mp List.mem_cons_self) (by simp)
    | cons y l' => simp only [listMax, foldl_max_same h]

/-- `compute_local_effects` on two data sets with the same rows (possibly repeated): the same error, or the same function of the row applied to both. -/
theorem computeLocalEffects_same (cast : K → K) (f : Row K D → K) {data data' : List (Row K D)} (h : ∀ r, r ∈ data ↔ r ∈ data') (limits : List K)
    (s : Fin D) :
    (∃ e, computeLocalEffects cast data (List.map f) limits s = .error e ∧ computeLocalEffects cast data' (List.map f) limits s = .error e) ∨
    ∃ φ : Row K D → K, ∃ L, computeLocalEffects cast data (List.map f) limits s = .ok (data.map φ, L) ∧
      computeLocalEffects cast data' (List.map f) limits s = .ok (data'.map φ, L) := by
  have hmap : ∀ {α β : Type} {l l' : List α} (g : α → β), (∀ z, z ∈ l ↔ z ∈ l') → ∀ z, z ∈ l.map g ↔ z ∈ l'.map g := by
    intro α β l l' g h z
    simp only [List.mem_map, h]
  have hcol : ∀ z, z ∈ col data s ↔ z ∈ col data' s := hmap _ h
  unfold computeLocalEffects
  simp only [bind, Except.bind]
  cases hlo : pyIndex limits 0 with
  | error e => exact Or.inl ⟨e, rfl, rfl⟩
  | ok lo =>
    simp only []
    rw [listMin_same hcol, listMax_same hcol]
    cases hmn : listMin (col data' s) with
    | error e => exact Or.inl ⟨e, rfl, rfl⟩
    | ok mn =>
      simp only []
      cases ha : pyAssert (decide (lo ≤ mn)) with
      | error e => exact Or.inl ⟨e, rfl, rfl⟩
      | ok u =>
        simp only []
        cases hhi : pyIndex limits (limits.length - 1) with
        | error e => exact Or.inl ⟨e, rfl, rfl⟩
        | ok hi =>
          simp only []
          cases hmx : listMax (col data' s) with
          | error e => exact Or.inl ⟨e, rfl, rfl⟩
          | ok mx =>
            simp only []
            cases ha' : pyAssert (decide (mx ≤ hi)) with
            | error e => exact Or.inl ⟨e, rfl, rfl⟩
            | ok u =>
              simp only []
              rcases digitize_form (bumpLast EPS limits) with hd | ⟨F, hd⟩
              · rw [hd, hd]
                exact Or.inl ⟨_, rfl, rfl⟩
              · rw [hd, hd]
                simp only []
                have hind := hmap F hcol
                have hall : ((col data s).map F).all (fun x => decide (0 < x)) = ((col data' s).map F).all (fun x => decide (0 < x)) := by
                  rw [Bool.eq_iff_iff, List.all_eq_true, List.all_eq_true]
                  exact ⟨fun H i hi => H i ((hind i).mpr hi), fun H i hi => H i ((hind i).mp hi)⟩
                rw [hall]
                cases ha2 : pyAssert (((col data' s).map F).all (fun x => decide (0 < x))) with
                | error e => exact Or.inl ⟨e, rfl, rfl⟩
                | ok u =>
                  simp only []
                  have e1 : ∀ l : List ℕ, l.mapM (fun i => pyIndex (bumpLast EPS limits) (i - 1)) =
                      (l.map (· - 1)).mapM (fun i => pyIndex (bumpLast EPS limits) i) := by
                    intro l; rw [List.mapM_map]; rfl
                  simp only [e1]
                  have : Inhabited K := ⟨0⟩
                  simp only [mapM_pyIndex]
                  have hiff : ∀ (l l' : List ℕ), (∀ z, z ∈ l ↔ z ∈ l') → ((∀ i ∈ l, i < (bumpLast EPS limits).length) ↔ ∀ i ∈ l', i < (bumpLast EPS limits).length) :=
                    fun l l' hl => ⟨fun H i hi => H i ((hl i).mpr hi), fun H i hi => H i ((hl i).mp hi)⟩
                  by_cases hr : ∀ i ∈ (col data s).map F, i < (bumpLast EPS limits).length
                  · rw [if_pos hr, if_pos ((hiff _ _ hind).mp hr)]
                    simp only []
                    by_cases hr' : ∀ i ∈ ((col data s).map F).map (· - 1), i < (bumpLast EPS limits).length
                    · rw [if_pos hr', if_pos ((hiff _ _ (hmap _ hind)).mp hr')]
                      simp only []
                      cases h0 : pyIndex (bumpLast EPS limits) 0 with
                      | error e => exact Or.inl ⟨e, rfl, rfl⟩
                      | ok l0 =>
                        simp only []
                        cases h1 : pyIndex (bumpLast EPS limits) 1 with
                        | error e => exact Or.inl ⟨e, rfl, rfl⟩
                        | ok l1 =>
                          right
                          refine ⟨fun r => (f (Function.update r s (cast ((bumpLast EPS limits).getD (F (r s)) default))) -
                            f (Function.update r s (cast ((bumpLast EPS limits).getD (F (r s) - 1) default)))) / (l1 - l0), bumpLast EPS limits, ?_, ?_⟩
                          all_goals
                            simp only [pure, Except.pure, col, List.map_map, setCol_map, Function.comp_def, List.zipWith_map, List.zipWith_self]
                    · rw [if_neg hr', if_neg fun hc => hr' ((hiff _ _ (hmap _ hind)).mpr hc)]
                      exact Or.inl ⟨_, rfl, rfl⟩
                  · rw [if_neg hr, if_neg fun hc => hr ((hiff _ _ hind).mpr hc)]
                    exact Or.inl ⟨_, rfl, rfl⟩

/-- `compute_local_effects` on two orders of the same rows: the same error, or the same function of the row applied to both. -/
theorem computeLocalEffects_perm (cast : K → K) (f : Row K D → K) {data data' : List (Row K D)} (h : data.Perm data') (limits : List K)
    (s : Fin D) :
    (∃ e, computeLocalEffects cast data (List.map f) limits s = .error e ∧ computeLocalEffects cast data' (List.map f) limits s = .error e) ∨
    ∃ φ : Row K D → K, ∃ L, computeLocalEffects cast data (List.map f) limits s = .ok (data.map φ, L) ∧
      computeLocalEffects cast data' (List.map f) limits s = .ok (data'.map φ, L) :=
  computeLocalEffects_same cast f (fun _ => h.mem_iff) limits s

end Effector
