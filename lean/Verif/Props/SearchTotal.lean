import Verif.Props.Partition

/-!
# C61: the search for splits does not raise
-/

set_option linter.unusedSectionVars false

namespace Effector

variable {K : Type} [Field K] [LinearOrder K] [IsStrictOrderedRing K] {D : ℕ}

theorem mass_pos (R : Spec.Region K D) : (0 : K) < Spec.mass R := by unfold Spec.mass; positivity

theorem sum_mass_nonneg (Rs : List (Spec.Region K D)) : (0 : K) ≤ (Rs.map Spec.mass).sum := by
  apply List.sum_nonneg
  intro v hv
  obtain ⟨R, -, rfl⟩ := List.mem_map.1 hv
  exact (mass_pos R).le

/-- A drop is at least `-M` if all heterogeneities are between `0` and `M`. -/
theorem weightedDrop_ge (H : List (Row K D) → Option (List (Row K D)) → K) (M : K)
    (f : Fin D) (pos : K) (typ : FeatType) (Rs : List (Spec.Region K D)) (hH : ∀ R ∈ Spec.parts f pos typ Rs, H R.1 R.2 ≤ M) (before : List K) (hb : ∀ b ∈ before, 0 ≤ b) (hl : before.length = Rs.length)
    (hM : 0 ≤ M) : -M ≤ Spec.weightedDrop H f pos typ Rs before := by
  unfold Spec.weightedDrop
  rcases (sum_mass_nonneg (Spec.parts f pos typ Rs)).lt_or_eq with hT | hT
  · rw [le_div_iff₀ hT]
    clear hT
    unfold Spec.parts at hH ⊢
    induction Rs generalizing before with
    | nil => simp
    | cons R t ih =>
      cases before with
      | nil => simp at hl
      | cons b bs =>
        have := ih (fun R hR => hH R (by rw [List.flatMap_cons]; exact List.mem_append_right _ hR)) bs (fun x hx => hb x (by simp [hx])) (by simpa using hl)
        simp only [List.flatMap_cons, List.cons_append, List.nil_append, List.map_cons, List.sum_cons, List.zip_cons_cons] at this ⊢
        have hb0 := hb b (by simp)
        have h1 := hH (Spec.part f pos typ false R) (by simp)
        have h2 := hH (Spec.part f pos typ true R) (by simp)
        have m1 := mass_pos (Spec.part f pos typ false R)
        have m2 := mass_pos (Spec.part f pos typ true R)
        have k1 : -M * Spec.mass (Spec.part f pos typ false R) ≤
            (b - H (Spec.part f pos typ false R).1 (Spec.part f pos typ false R).2) * Spec.mass (Spec.part f pos typ false R) :=
          mul_le_mul_of_nonneg_right (by linarith) m1.le
        have k2 : -M * Spec.mass (Spec.part f pos typ true R) ≤
            (b - H (Spec.part f pos typ true R).1 (Spec.part f pos typ true R).2) * Spec.mass (Spec.part f pos typ true R) :=
          mul_le_mul_of_nonneg_right (by linarith) m2.le
        linarith
  · rw [← hT]; simpa using hM

/-- The arguments for which the search cannot fail. -/
structure SearchArgsOk (cfg : RegCfg K D) : Prop where
  data : cfg.data ≠ []
  splits : 0 < cfg.nofSplits
  cat : ∀ f ∈ cfg.foc, cfg.types f = .cat → Spec.distinct (cfg.data.map (· f)) ≤ max cfg.nofSplits cfg.catLimit
  heter : ∀ x e, x.Sublist cfg.data → 0 ≤ cfg.heter x e ∧ cfg.heter x e ≤ 100000000
  eff : EffAligned cfg

theorem listMin_ne {l : List K} (h : l ≠ []) : ∃ m, listMin l = .ok m := by
  cases l with
  | nil => exact absurd rfl h
  | cons a t => exact ⟨_, rfl⟩

theorem listMax_ne {l : List K} (h : l ≠ []) : ∃ m, listMax l = .ok m := by
  cases l with
  | nil => exact absurd rfl h
  | cons a t => exact ⟨_, rfl⟩

theorem mapM_total {α β : Type} {f : α → Py β} {l : List α} (h : ∀ a ∈ l, ∃ b, f a = .ok b) : ∃ r, l.mapM f = .ok r := by
  induction l with
  | nil => exact ⟨[], rfl⟩
  | cons a t ih =>
    obtain ⟨b, hb⟩ := h a (by simp)
    obtain ⟨r, hr⟩ := ih fun x hx => h x (by simp [hx])
    exact ⟨b :: r, by rw [List.mapM_cons, hb, hr]; rfl⟩

/-- The sides of regions inside the data are inside the data. -/
theorem parts_sublist {data : List (Row K D)} (xs : List (List (Row K D))) (js : Option (List (List (Row K D)))) (h : ∀ l, js = some l → xs.length = l.length)
    (hsub : ∀ x ∈ xs, x.Sublist data) (f : Fin D) (pos : K) (typ : FeatType) (R : Spec.Region K D) (hR : R ∈ Spec.parts f pos typ (pairUp xs js)) :
    R.1.Sublist data := by
  unfold Spec.parts at hR
  obtain ⟨Q, hQ, hR⟩ := List.mem_flatMap.1 hR
  have hQ1 : Q.1 ∈ xs := by
    have := List.mem_map_of_mem (f := (·.1)) hQ
    rwa [pairUp_fst xs js h] at this
  have hs := hsub _ hQ1
  simp only [List.mem_cons, List.not_mem_nil, or_false] at hR
  rcases hR with rfl | rfl <;> exact List.filter_sublist.trans hs

theorem singleLevel_total (cfg : RegCfg K D) (hA : SearchArgsOk cfg) (hfoc : cfg.foc ≠ [])
    (xs : List (List (Row K D))) (js : Option (List (List (Row K D)))) (h : ∀ l, js = some l → xs.length = l.length)
    (before : List K) (hb : before.length = xs.length) (hb0 : ∀ b ∈ before, 0 ≤ b) (hsub : ∀ x ∈ xs, x.Sublist cfg.data) : ∃ sp, singleLevelSplits cfg xs js before = .ok sp := by
  have hcol : ∀ f, col cfg.data f ≠ [] := fun f => by simpa [col] using hA.data
  obtain ⟨cands, hc⟩ : ∃ cands, candidatePositions cfg = .ok cands := by
    apply mapM_total
    intro f _
    cases ht : cfg.types f with
    | cat => exact ⟨_, rfl⟩
    | cont =>
      obtain ⟨mn, h1⟩ := listMin_ne (hcol f)
      obtain ⟨mx, h2⟩ := listMax_ne (hcol f)
      simp only [findPositionsCont, h1, h2, bind, Except.bind, pure, Except.pure]
      exact ⟨_, rfl⟩
  have hlc : cands.length = cfg.foc.length := mapM_len hc
  -- lengths of the candidate lists
  have hps : ∀ (a : ℕ) f ps, cfg.foc[a]? = some f → cands[a]? = some ps → 0 < ps.length ∧ ps.length ≤ max cfg.nofSplits cfg.catLimit := by
    intro a f ps ha hp
    obtain ⟨ps', h1, h2⟩ := mapM_sub hc a f ha
    rw [hp] at h2
    cases h2
    cases ht : cfg.types f with
    | cat =>
      rw [ht] at h1
      simp only [Except.ok.injEq] at h1
      subst h1
      have hd := hA.cat f (List.mem_of_getElem? ha) ht
      unfold findPositionsCat
      constructor
      · obtain ⟨v, hv⟩ := List.exists_mem_of_ne_nil _ (hcol f)
        exact List.length_pos_of_mem ((mem_npUnique v _).mpr hv)
      · rw [npUnique_length]; exact hd
    | cont =>
      rw [ht] at h1
      obtain ⟨mn, h3⟩ := listMin_ne (hcol f)
      obtain ⟨mx, h4⟩ := listMax_ne (hcol f)
      simp only [findPositionsCont, h3, h4, bind, Except.bind, pure, Except.pure, Except.ok.injEq] at h1
      subst h1
      simp only [List.length_map, List.length_range]
      exact ⟨hA.splits, le_max_left _ _⟩
  obtain ⟨rows, hr⟩ : ∃ rows, ((cfg.foc.zip cands).mapM fun p => padRow (max cfg.nofSplits cfg.catLimit)
      (p.2.map fun pos => (evalCandidate cfg xs js before p.1 pos (cfg.types p.1)).1)) = .ok rows := by
    apply mapM_total
    intro p hp
    obtain ⟨a, ha⟩ := List.getElem?_of_mem hp
    rw [List.getElem?_zip_eq_some] at ha
    unfold padRow
    rw [if_pos (by simpa using (hps a p.1 p.2 ha.1 ha.2).2)]
    exact ⟨_, rfl⟩
  have hlr : rows.length = cfg.foc.length := by rw [mapM_len hr, List.length_zip, hlc, Nat.min_self]
  have hM : (0 : K) ≤ 100000000 := by norm_num
  -- the rows of the matrix
  have hrow : ∀ (a : ℕ) r, rows[a]? = some r → ∃ f ps, cfg.foc[a]? = some f ∧ cands[a]? = some ps ∧
      r = (ps.map fun pos => (evalCandidate cfg xs js before f pos (cfg.types f)).1) ++
        List.replicate (max cfg.nofSplits cfg.catLimit - ps.length) (-BIG_M) := by
    intro a r ha
    have hlt := (List.getElem?_eq_some_iff.mp ha).1
    have e1 : cfg.foc[a]? = some (cfg.foc[a]'(by omega)) := List.getElem?_eq_getElem _
    have e2 : cands[a]? = some (cands[a]'(by omega)) := List.getElem?_eq_getElem _
    obtain ⟨r', hr1, hr2⟩ := mapM_sub hr a (_, _) (by rw [List.getElem?_zip_eq_some]; exact ⟨e1, e2⟩)
    rw [ha] at hr2
    cases hr2
    unfold padRow at hr1
    simp only [List.length_map] at hr1
    split_ifs at hr1 with hle
    simp only [Except.ok.injEq] at hr1
    exact ⟨_, _, e1, e2, hr1.symm⟩
  have hw : ∀ r ∈ rows, r.length = max cfg.nofSplits cfg.catLimit := by
    intro r hr'
    obtain ⟨a, ha⟩ := List.getElem?_of_mem hr'
    obtain ⟨f, ps, h1, h2, rfl⟩ := hrow a r ha
    have := (hps a f ps h1 h2).2
    simp; omega
  have hge : ∀ f pos, -BIG_M ≤ (evalCandidate cfg xs js before f pos (cfg.types f)).1 := by
    intro f pos
    rw [evalCandidate_eq cfg xs js h before hb]
    have hlen : (pairUp xs js).length = xs.length := by rw [← List.length_map (f := (·.1)), pairUp_fst xs js h]
    have hsub' : ∀ R ∈ Spec.parts f pos (cfg.types f) (pairUp xs js), cfg.heter R.1 R.2 ≤ 100000000 := fun R hR =>
      (hA.heter _ _ (parts_sublist xs js h hsub f pos (cfg.types f) R hR)).2
    have := weightedDrop_ge cfg.heter 100000000 f pos (cfg.types f) (pairUp xs js) hsub' before hb0 (by rw [hlen, hb]) hM
    have e : (BIG_M : K) = 100000000 := by norm_num [BIG_M]
    rw [e]
    exact this
  have hwpos : 0 < max cfg.nofSplits cfg.catLimit := lt_of_lt_of_le hA.splits (le_max_left _ _)
  obtain ⟨f0, hf0⟩ : ∃ f0, cfg.foc[0]? = some f0 := by
    cases hfo : cfg.foc with
    | nil => exact absurd hfo hfoc
    | cons a t => exact ⟨a, rfl⟩
  have hrpos : 0 < rows.length := by
    rw [hlr]; exact List.length_pos_of_ne_nil hfoc
  obtain ⟨f0', ps0, h10, h20, hr0⟩ := hrow 0 rows[0] (List.getElem?_eq_getElem hrpos)
  have hps0 := hps 0 f0' ps0 h10 h20
  have hflat0 : rows.flatten[0]? = some (evalCandidate cfg xs js before f0' ps0[0] (cfg.types f0')).1 := by
    have := flatten_get _ rows hw 0 0 rows[0] (List.getElem?_eq_getElem hrpos) hwpos
    simp only [Nat.zero_mul, Nat.zero_add] at this
    rw [this, hr0, List.getElem?_append_left (by simpa using hps0.1), List.getElem?_map, List.getElem?_eq_getElem hps0.1]
    rfl
  have hne : rows.flatten ≠ [] := by
    intro e; rw [e] at hflat0; simp at hflat0
  obtain ⟨v, v1, v2, v3⟩ := npArgmax_spec rows.flatten hne
  have hflen : rows.flatten.length = rows.length * max cfg.nofSplits cfg.catLimit := by
    rw [List.length_flatten]
    have : rows.map List.length = rows.map fun _ => max cfg.nofSplits cfg.catLimit := List.map_congr_left hw
    rw [this]; simp
  have hlt : npArgmax rows.flatten < rows.length * max cfg.nofSplits cfg.catLimit := by
    rw [← hflen]; exact (List.getElem?_eq_some_iff.mp v1).1
  have hi : npArgmax rows.flatten / max cfg.nofSplits cfg.catLimit < rows.length := (Nat.div_lt_iff_lt_mul hwpos).mpr hlt
  obtain ⟨f, ps, h1, h2, hrr⟩ := hrow _ _ (List.getElem?_eq_getElem hi)
  have hj : npArgmax rows.flatten % max cfg.nofSplits cfg.catLimit < ps.length := by
    by_contra hcon
    have hcon := not_lt.mp hcon
    have hmod := Nat.mod_lt (npArgmax rows.flatten) hwpos
    have hv : v = -BIG_M := by
      have := flatten_get _ rows hw _ _ _ (List.getElem?_eq_getElem hi) hmod
      rw [Nat.div_add_mod', v1, hrr, List.getElem?_append_right (by simpa using hcon), List.getElem?_replicate, if_pos (by simp; omega)] at this
      exact Option.some.inj this
    rcases Nat.eq_zero_or_pos (npArgmax rows.flatten) with h0 | h0
    · rw [h0, Nat.zero_div] at h1 h2
      rw [h10] at h1; rw [h20] at h2
      cases h1; cases h2
      rw [h0, Nat.zero_mod] at hcon
      omega
    · have := v3 0 _ h0 hflat0
      rw [hv] at this
      exact absurd (hge _ _) (not_le.mpr this)
  obtain ⟨mn, hmn⟩ := listMin_ne (hcol f)
  obtain ⟨mx, hmx⟩ := listMax_ne (hcol f)
  unfold singleLevelSplits
  simp only [hc, bind, Except.bind, hr]
  rw [if_neg hne, pyIndex_ok h1]
  simp only
  rw [pyIndex_ok h2]
  simp only
  rw [pyIndex_ok (List.getElem?_eq_getElem hj)]
  simp only [hmn, hmx, pure, Except.pure]
  exact ⟨_, rfl⟩

theorem searchLoop_total (cfg : RegCfg K D) (hA : SearchArgsOk cfg) (hfoc : cfg.foc ≠ []) (n : ℕ)
    (xs : List (List (Row K D))) (js : Option (List (List (Row K D)))) (h : ∀ l, js = some l → xs.length = l.length)
    (before : List K) (hb : before.length = xs.length) (hb0 : ∀ b ∈ before, 0 ≤ b) (hsub : ∀ x ∈ xs, x.Sublist cfg.data) : ∃ levels, searchLoop cfg n xs js before = .ok levels := by
  induction n generalizing xs js before with
  | zero => exact ⟨[], rfl⟩
  | succ n ih =>
    unfold searchLoop
    by_cases hs : xs.any (fun x => decide (x.length < cfg.minPoints)) = true
    · rw [if_pos hs]; exact ⟨[], rfl⟩
    rw [if_neg hs]
    obtain ⟨sp, hsp⟩ := singleLevel_total cfg hA hfoc xs js h before hb hb0 hsub
    have hbest := singleLevel_best cfg xs js h before hb sp hsp
    obtain ⟨cands, rows, mn, mx, -, -, -, -, -, -, -, -, h9, h10, h11, -⟩ := singleLevelSplits_ok cfg _ _ _ sp hsp
    have hlen2 : ∀ l, (js.map fun js => splitAllEff xs js sp.feature sp.position sp.typ) = some l →
        (splitAll xs sp.feature sp.position sp.typ).length = l.length := by
      intro l hl
      cases js with
      | none => simp at hl
      | some l' =>
        simp only [Option.map_some, Option.some.injEq] at hl
        rw [← hl, length_splitAll, length_splitAllEff _ _ (h l' rfl)]
    obtain ⟨rest, hrest⟩ := ih (splitAll xs sp.feature sp.position sp.typ) (js.map fun js => splitAllEff xs js sp.feature sp.position sp.typ) hlen2
      sp.heterogeneity (by rw [h11, length_heters _ _ _ hlen2]) (by
        intro b hb'
        rw [hbest.2.2.2.2.2.1] at hb'
        obtain ⟨R, hR, rfl⟩ := List.mem_map.1 hb'
        exact (hA.heter _ _ (parts_sublist xs js h hsub _ _ _ R hR)).1) (by
        intro x hx
        unfold splitAll splitRows at hx
        obtain ⟨y, hy, hx⟩ := List.mem_flatMap.1 hx
        simp only [List.mem_cons, List.not_mem_nil, or_false] at hx
        rcases hx with rfl | rfl <;> exact List.filter_sublist.trans (hsub y hy))
    simp only [hsp, bind, Except.bind, hrest, pure, Except.pure]
    exact ⟨_, rfl⟩

/-- **C61.** The search for splits never raises, at any level, if the data set is not empty, at least one numerical candidate is asked for, no categorical
conditioning feature has more different values than the larger of `nof_candidate_splits_for_numerical` and `categorical_limit`, `max_split_levels` is
at most the number of conditioning features and the heterogeneity of every part of the data is between 0 and 1e8. -/
theorem C61_search_never_raises (cfg : RegCfg K D) (hA : SearchArgsOk cfg) (hm : cfg.maxLevels ≤ cfg.foc.length) : ∃ r, searchAllSplits cfg = .ok r := by
  unfold searchAllSplits
  by_cases hcat : cfg.types cfg.feature = .cat ∧ cfg.splitCat = false
  · rw [if_pos hcat]; exact ⟨none, rfl⟩
  rw [if_neg hcat, if_neg (not_lt.mpr hm)]
  by_cases hfoc : cfg.foc = []
  · have : cfg.maxLevels = 0 := by rw [hfoc] at hm; simpa using hm
    rw [this]
    exact ⟨none, rfl⟩
  obtain ⟨levels, hl⟩ := searchLoop_total cfg hA hfoc cfg.maxLevels [cfg.data] (cfg.dataEffect.map fun e => [e]) (by
      intro l hl
      cases he : cfg.dataEffect with
      | none => rw [he] at hl; simp at hl
      | some e => rw [he] at hl; simp only [Option.map_some, Option.some.injEq] at hl; rw [← hl]; rfl)
    [cfg.heter cfg.data cfg.dataEffect] rfl (by intro b hb; rw [List.mem_singleton] at hb; rw [hb]; exact (hA.heter _ _ (List.Sublist.refl _)).1)
    (by intro x hx; rw [List.mem_singleton] at hx; rw [hx])
  simp only [hl, bind, Except.bind, pure, Except.pure]
  exact ⟨_, rfl⟩

/-- **C61, the search finds a split.** Under the same conditions, with `max_split_levels` at least 1, enough data and a feature that may be split, there
is at least one split (and hence a tree). -/
theorem C61_search_finds_a_split (cfg : RegCfg K D) (hA : SearchArgsOk cfg) (hm : cfg.maxLevels ≤ cfg.foc.length) (h1 : 0 < cfg.maxLevels)
    (hmin : cfg.minPoints ≤ cfg.data.length) (hcat : cfg.types cfg.feature = .cont ∨ cfg.splitCat = true) :
    ∃ s, searchAllSplits cfg = .ok (some s) ∧ s.levels ≠ [] := by
  have hnc : ¬ (cfg.types cfg.feature = .cat ∧ cfg.splitCat = false) := by
    rintro ⟨a, b⟩
    rcases hcat with h | h
    · rw [a] at h; cases h
    · rw [b] at h; cases h
  have hfoc : cfg.foc ≠ [] := by
    intro e; rw [e] at hm; simp at hm; omega
  obtain ⟨levels, hl⟩ := searchLoop_total cfg hA hfoc cfg.maxLevels [cfg.data] (cfg.dataEffect.map fun e => [e]) (by
      intro l hl
      cases he : cfg.dataEffect with
      | none => rw [he] at hl; simp at hl
      | some e => rw [he] at hl; simp only [Option.map_some, Option.some.injEq] at hl; rw [← hl]; rfl)
    [cfg.heter cfg.data cfg.dataEffect] rfl (by intro b hb; rw [List.mem_singleton] at hb; rw [hb]; exact (hA.heter _ _ (List.Sublist.refl _)).1)
    (by intro x hx; rw [List.mem_singleton] at hx; rw [hx])
  have hne : levels ≠ [] := by
    obtain ⟨n, hn⟩ : ∃ n, cfg.maxLevels = n + 1 := ⟨cfg.maxLevels - 1, by omega⟩
    rw [hn] at hl
    unfold searchLoop at hl
    rw [if_neg (by simpa using hmin)] at hl
    simp only [bind, Except.bind, pure, Except.pure] at hl
    intro e
    subst e
    split at hl
    · simp at hl
    · split at hl <;> simp at hl
  unfold searchAllSplits
  rw [if_neg hnc, if_neg (not_lt.mpr hm)]
  simp only [hl, bind, Except.bind, pure, Except.pure, if_neg hne]
  exact ⟨_, rfl, hne⟩

/-- **C61, the limits of the claim.** A categorical conditioning feature with more different values than `max(nof_splits, cat_limit)` makes the search
raise `IndexError`. -/
theorem C61_too_many_categories_raises :
    let cfg : RegCfg ℚ 2 :=
      { feature := 0, heter := fun x _ => (x.length : ℚ), data := [![0, 1], ![0, 2], ![0, 3]], dataEffect := none,
        types := ![.cont, .cat], names := fun _ => "", catLimit := 2, foc := [1], minPoints := 1, nofSplits := 2, maxLevels := 1, dropThres := 0,
        smallEnough := 0, splitCat := false }
    (match searchAllSplits cfg with | .error .indexError => true | _ => false) = true := by
  decide +kernel

/-- A concrete search: the heterogeneity is the variance of the first column, with the penalty 1e8 for regions with fewer than two instances. -/
def exCfg : RegCfg ℚ 3 :=
  { feature := 0,
    heter := fun x _ => if x.length < 2 then 100000000 else Spec.popVar (col x 0),
    data := [![0, 0, 0], ![0, 0, 0], ![1, 0, 1], ![1, 0, 1], ![5, 1, 0], ![5, 1, 0], ![7, 1, 1], ![7, 1, 1]],
    dataEffect := none, types := ![.cont, .cat, .cont], names := !["x", "y", "z"], catLimit := 10, foc := focAll 0, minPoints := 2, nofSplits := 2,
    maxLevels := 2, dropThres := 1 / 5, smallEnough := 1 / 10, splitCat := false }

/-- The search succeeds with two levels: first the categorical feature 1 at 0, then the numerical feature 2 at 1/4 (the first of two equally good
positions). -/
theorem exCfg_search :
    (match searchAllSplits exCfg with
      | .ok (some s) => s.levels.map fun sp => (sp.feature, sp.position, sp.nofInstances, sp.heterogeneity, sp.wHeter)
      | _ => []) = [(1, 0, [4, 4], [1 / 4, 1], 5 / 8), (2, 1 / 4, [2, 2, 2, 2], [0, 0, 0, 0], 0)] := by
  decide +kernel

theorem exCfg_ok : SearchArgsOk exCfg := by
  refine ⟨by decide, by decide, by decide +kernel, ?_, by intro e he; cases he⟩
  intro x e hx
  have hmem : ∀ v ∈ col x 0, (0 : ℚ) ≤ v ∧ v ≤ 7 := by
    intro v hv
    obtain ⟨r, hr, rfl⟩ := List.mem_map.1 hv
    have : ∀ r ∈ exCfg.data, (0 : ℚ) ≤ r 0 ∧ r 0 ≤ 7 := by decide +kernel
    exact this r (hx.subset hr)
  show 0 ≤ (if x.length < 2 then (100000000 : ℚ) else Spec.popVar (col x 0)) ∧ (if x.length < 2 then (100000000 : ℚ) else Spec.popVar (col x 0)) ≤ 100000000
  split_ifs with hlt
  · norm_num
  · have hpos : (0 : ℚ) < ((col x 0).length : ℚ) := by
      have : (col x 0).length = x.length := by simp [col]
      rw [this]; exact_mod_cast (by omega : 0 < x.length)
    have havg : 0 ≤ Spec.avg (col x 0) ∧ Spec.avg (col x 0) ≤ 7 := by
      unfold Spec.avg
      constructor
      · exact div_nonneg (List.sum_nonneg fun v hv => (hmem v hv).1) hpos.le
      · rw [div_le_iff₀ hpos]
        have := List.sum_le_card_nsmul (col x 0) 7 fun v hv => (hmem v hv).2
        simpa [mul_comm] using this
    unfold Spec.popVar
    constructor
    · apply div_nonneg _ hpos.le
      apply List.sum_nonneg
      intro v hv
      obtain ⟨y, -, rfl⟩ := List.mem_map.1 hv
      positivity
    · rw [div_le_iff₀ hpos]
      have := List.sum_le_card_nsmul ((col x 0).map fun y => (y - Spec.avg (col x 0)) ^ 2) 100000000 (by
        intro v hv
        obtain ⟨y, hy, rfl⟩ := List.mem_map.1 hv
        have h1 := hmem y hy
        have h3 : -7 ≤ y - Spec.avg (col x 0) := by linarith [h1.1, havg.2]
        have h4 : y - Spec.avg (col x 0) ≤ 7 := by linarith [h1.2, havg.1]
        nlinarith)
      simpa [mul_comm] using this

end Effector
