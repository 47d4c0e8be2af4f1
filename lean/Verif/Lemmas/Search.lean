import Verif.Lemmas.Heap

/-!
# The regions of the levels, and inversion of the search loop
-/

set_option linter.unusedSectionVars false

namespace Effector

variable {K : Type} [Field K] [LinearOrder K] [IsStrictOrderedRing K] {D : ℕ}

namespace Spec

/-- The two sides of a split, as the property C39 describes them: a categorical split asks for equality with the position, a numerical one for a
value below it.  `right` is the other side. -/
def OnSide (typ : FeatType) (pos : K) (right : Bool) (v : K) : Prop :=
  match typ, right with
  | .cat, false => v = pos
  | .cat, true => v ≠ pos
  | .cont, false => v < pos
  | .cont, true => pos ≤ v

instance (typ : FeatType) (pos : K) (right : Bool) (v : K) : Decidable (OnSide typ pos right v) := by
  unfold OnSide; cases typ <;> cases right <;> infer_instance

/-- The instance `r` takes the turns `path` at the splits `sps`. -/
def Follows (sps : List (Split K D)) (path : List Bool) (r : Row K D) : Prop :=
  ∀ p ∈ sps.zip path, OnSide p.1.typ p.1.position p.2 (r p.1.feature)

instance (sps : List (Split K D)) (path : List Bool) (r : Row K D) : Decidable (Follows sps path r) := by
  unfold Follows; infer_instance

/-- All paths of length `n`, left to right. -/
def paths : ℕ → List (List Bool)
  | 0 => [[]]
  | n + 1 => (paths n).flatMap fun p => [p ++ [false], p ++ [true]]

/-- The regions that the splits `sps` cut the data into, left to right. -/
def regions (data : List (Row K D)) (sps : List (Split K D)) : List (List (Row K D)) :=
  (paths sps.length).map fun path => data.filter fun r => Follows sps path r

/-- The effects of the instances of the regions. -/
def effRegions (data : List (Row K D)) (eff : List (Row K D)) (sps : List (Split K D)) : List (List (Row K D)) :=
  (paths sps.length).map fun path => ((data.zip eff).filter fun p => Follows sps path p.1).map (·.2)

end Spec

theorem goesFirst_iff (typ : FeatType) (pos v : K) : goesFirst typ pos v = decide (Spec.OnSide typ pos false v) := by
  cases typ <;> rfl

theorem goesSecond_iff (typ : FeatType) (pos v : K) : goesSecond typ pos v = decide (Spec.OnSide typ pos true v) := by
  cases typ <;> rfl

theorem length_paths {n : ℕ} : (Spec.paths n).length = 2 ^ n := by
  induction n with
  | zero => rfl
  | succ n ih =>
    unfold Spec.paths
    simp [List.length_flatMap, ih, pow_succ]

theorem paths_length {n : ℕ} {p : List Bool} (h : p ∈ Spec.paths n) : p.length = n := by
  induction n generalizing p with
  | zero => simp [Spec.paths] at h; subst h; rfl
  | succ n ih =>
    unfold Spec.paths at h
    obtain ⟨q, hq, hp⟩ := List.mem_flatMap.1 h
    have := ih hq
    simp only [List.mem_cons, List.not_mem_nil, or_false] at hp
    rcases hp with rfl | rfl <;> simp [this]

theorem follows_snoc {sps : List (Split K D)} {path : List Bool} (h : path.length = sps.length) (sp : Split K D) (b : Bool) (r : Row K D) :
    Spec.Follows (sps ++ [sp]) (path ++ [b]) r ↔ Spec.Follows sps path r ∧ Spec.OnSide sp.typ sp.position b (r sp.feature) := by
  unfold Spec.Follows
  rw [List.zip_append h.symm]
  constructor
  · intro hh
    exact ⟨fun p hp => hh p (List.mem_append_left _ hp), hh (sp, b) (by simp)⟩
  · rintro ⟨h1, h2⟩ p hp
    rcases List.mem_append.mp hp with hp | hp
    · exact h1 p hp
    · simp only [List.zip_cons_cons, List.zip_nil_right, List.mem_singleton] at hp
      subst hp
      exact h2

theorem regions_snoc (data : List (Row K D)) (sps : List (Split K D)) (sp : Split K D) :
    Spec.regions data (sps ++ [sp]) = splitAll (Spec.regions data sps) sp.feature sp.position sp.typ := by
  unfold Spec.regions splitAll splitRows
  rw [List.length_append, List.length_singleton, List.flatMap_map]
  show List.map _ (List.flatMap _ _) = _
  rw [List.map_flatMap]
  apply List.flatMap_congr
  intro path hp
  have hl := paths_length hp
  simp only [List.map_cons, List.map_nil, List.filter_filter, goesFirst_iff, goesSecond_iff, follows_snoc hl]
  congr 1
  · apply List.filter_congr; intro r _; simp [Bool.and_comm]
  · congr 1
    apply List.filter_congr; intro r _; simp [Bool.and_comm]

theorem zip_filter_map {α β : Type} (l : List (α × β)) (p : α → Bool) :
    ((l.filter fun q => p q.1).map (·.1)).zip ((l.filter fun q => p q.1).map (·.2)) = l.filter fun q => p q.1 := by
  induction l with
  | nil => rfl
  | cons a t ih =>
    by_cases h : p a.1
    · simp [h, ih]
    · simp [h, ih]

theorem filter_zip_fst' {α β : Type} (x : List α) (e : List β) (h : x.length = e.length) (p : α → Bool) :
    ((x.zip e).filter fun q => p q.1).map (·.1) = x.filter p := by
  induction x generalizing e with
  | nil => simp
  | cons a t ih =>
    cases e with
    | nil => simp at h
    | cons b s =>
      have := ih s (by simpa using h)
      by_cases hp : p a
      · simp [hp, this]
      · simp [hp, this]

theorem effRegions_snoc (data : List (Row K D)) (eff : List (Row K D)) (hlen : data.length = eff.length) (sps : List (Split K D)) (sp : Split K D) :
    Spec.effRegions data eff (sps ++ [sp]) =
      splitAllEff (Spec.regions data sps) (Spec.effRegions data eff sps) sp.feature sp.position sp.typ := by
  unfold Spec.effRegions Spec.regions splitAllEff splitEff
  rw [List.length_append, List.length_singleton, List.zip_map', List.flatMap_map]
  show List.map _ (List.flatMap _ _) = _
  rw [List.map_flatMap]
  apply List.flatMap_congr
  intro path hp
  have hl := paths_length hp
  dsimp only
  rw [← filter_zip_fst' data eff hlen (fun r => decide (Spec.Follows sps path r)),
    zip_filter_map (data.zip eff) (fun r => decide (Spec.Follows sps path r))]
  simp only [List.map_cons, List.map_nil, List.filter_filter, goesFirst_iff, goesSecond_iff, follows_snoc hl]
  congr 1
  · congr 1; apply List.filter_congr; intro r _; simp [Bool.and_comm]
  · congr 2
    apply List.filter_congr; intro r _; simp [Bool.and_comm]

theorem regions_nil (data : List (Row K D)) : Spec.regions data ([] : List (Split K D)) = [data] := by
  unfold Spec.regions
  simp [Spec.paths, Spec.Follows]

theorem effRegions_nil (data eff : List (Row K D)) (hlen : data.length = eff.length) : Spec.effRegions data eff ([] : List (Split K D)) = [eff] := by
  unfold Spec.effRegions
  simp [Spec.paths, Spec.Follows]
  exact List.map_snd_zip (by omega)

theorem length_regions (data : List (Row K D)) (sps : List (Split K D)) : (Spec.regions data sps).length = 2 ^ sps.length := by
  unfold Spec.regions; rw [List.length_map, length_paths]

theorem length_effRegions (data eff : List (Row K D)) (sps : List (Split K D)) : (Spec.effRegions data eff sps).length = 2 ^ sps.length := by
  unfold Spec.effRegions; rw [List.length_map, length_paths]

/-! ### The search loop -/

/-- The heterogeneities that the regions of the first `i` splits have. -/
def heterAt (before : List K) (levels : List (Split K D)) (i : ℕ) : List K :=
  match i with
  | 0 => before
  | i + 1 => match levels[i]? with
    | some sp => sp.heterogeneity
    | none => []

theorem searchLoop_get (cfg : RegCfg K D) (data : List (Row K D)) (eff : Option (List (Row K D))) (heff : ∀ e, eff = some e → data.length = e.length)
    (n : ℕ) (done : List (Split K D)) (before : List K) (levels : List (Split K D))
    (h : searchLoop cfg n (Spec.regions data done) (eff.map fun e => Spec.effRegions data e done) before = .ok levels) :
    levels.length ≤ n ∧
    (levels.length < n → ∃ x ∈ Spec.regions data (done ++ levels), x.length < cfg.minPoints) ∧
    ∀ (i : ℕ) (sp : Split K D), levels[i]? = some sp →
      singleLevelSplits cfg (Spec.regions data (done ++ levels.take i)) (eff.map fun e => Spec.effRegions data e (done ++ levels.take i))
        (heterAt before levels i) = .ok sp ∧ ∀ x ∈ Spec.regions data (done ++ levels.take i), cfg.minPoints ≤ x.length := by
  induction n generalizing done before levels with
  | zero =>
    simp only [searchLoop, Except.ok.injEq] at h
    subst h
    exact ⟨le_rfl, fun h => absurd h (by simp), by intro i sp hi; simp at hi⟩
  | succ n ih =>
    unfold searchLoop at h
    by_cases hsm : (Spec.regions data done).any (fun x => decide (x.length < cfg.minPoints)) = true
    · rw [if_pos hsm] at h
      simp only [Except.ok.injEq] at h
      subst h
      refine ⟨by simp, ?_, by intro i sp hi; simp at hi⟩
      intro _
      obtain ⟨x, hx, hx2⟩ := List.any_eq_true.mp hsm
      exact ⟨x, by simpa using hx, by simpa using hx2⟩
    · rw [if_neg hsm] at h
      have hbig : ∀ x ∈ Spec.regions data done, cfg.minPoints ≤ x.length := by
        intro x hx
        by_contra hlt
        exact hsm (List.any_eq_true.mpr ⟨x, hx, by simpa using hlt⟩)
      rcases hs : singleLevelSplits cfg (Spec.regions data done) (eff.map fun e => Spec.effRegions data e done) before with e | sp
      · rw [hs] at h; simp [bind, Except.bind] at h
      rw [hs] at h
      simp only [bind, Except.bind] at h
      have hjs : (Option.map (fun js => splitAllEff (Spec.regions data done) js sp.feature sp.position sp.typ)
          (eff.map fun e => Spec.effRegions data e done)) = eff.map fun e => Spec.effRegions data e (done ++ [sp]) := by
        rw [Option.map_map]
        cases he : eff with
        | none => rfl
        | some e =>
          simp only [Option.map_some, Function.comp, Option.some.injEq]
          rw [effRegions_snoc data e (heff e he)]
      rw [hjs, ← regions_snoc] at h
      rcases hr : searchLoop cfg n (Spec.regions data (done ++ [sp])) (eff.map fun e => Spec.effRegions data e (done ++ [sp])) sp.heterogeneity
        with e | rest
      · rw [hr] at h; simp at h
      rw [hr] at h
      simp only [pure, Except.pure, Except.ok.injEq] at h
      subst h
      obtain ⟨i1, i2, i3⟩ := ih (done ++ [sp]) sp.heterogeneity rest hr
      refine ⟨by simpa using i1, ?_, ?_⟩
      · intro hl
        have := i2 (by simpa using hl)
        simpa using this
      · intro i sp' hi
        cases i with
        | zero =>
          simp only [List.getElem?_cons_zero, Option.some.injEq] at hi
          subst hi
          simpa [heterAt] using ⟨hs, hbig⟩
        | succ i =>
          simp only [List.getElem?_cons_succ] at hi
          have := i3 i sp' hi
          have hh : heterAt before (sp :: rest) (i + 1) = heterAt sp.heterogeneity rest i := by
            cases i <;> simp [heterAt]
          rw [hh]
          simpa using this

/-! ### One level -/

/-- What a successful `single_level_splits` returns. -/
theorem singleLevelSplits_ok (cfg : RegCfg K D) (xs : List (List (Row K D))) (js : Option (List (List (Row K D)))) (before : List K) (sp : Split K D)
    (h : singleLevelSplits cfg xs js before = .ok sp) :
    ∃ cands rows mn mx, candidatePositions cfg = .ok cands ∧
      ((cfg.foc.zip cands).mapM fun p => padRow (max cfg.nofSplits cfg.catLimit) (p.2.map fun pos => (evalCandidate cfg xs js before p.1 pos (cfg.types p.1)).1)) = .ok rows ∧
      rows.flatten ≠ [] ∧
      cfg.foc[sp.splitI]? = some sp.feature ∧ cands[sp.splitI]? = some sp.candidates ∧ sp.candidates[sp.splitJ]? = some sp.position ∧
      sp.splitI = npArgmax rows.flatten / max cfg.nofSplits cfg.catLimit ∧ sp.splitJ = npArgmax rows.flatten % max cfg.nofSplits cfg.catLimit ∧
      sp.typ = cfg.types sp.feature ∧ sp.nofInstances = (splitAll xs sp.feature sp.position sp.typ).map List.length ∧
      sp.heterogeneity = heters cfg (splitAll xs sp.feature sp.position sp.typ) (js.map fun js => splitAllEff xs js sp.feature sp.position sp.typ) ∧
      sp.wHeterDrop = (evalCandidate cfg xs js before sp.feature sp.position sp.typ).1 ∧
      sp.wHeter = (evalCandidate cfg xs js before sp.feature sp.position sp.typ).2 ∧
      sp.range = (mn, mx) ∧ listMin (col cfg.data sp.feature) = .ok mn ∧ listMax (col cfg.data sp.feature) = .ok mx := by
  unfold singleLevelSplits at h
  simp only [bind, Except.bind, pure, Except.pure] at h
  rcases hc : candidatePositions cfg with e | cands
  · rw [hc] at h; simp at h
  rw [hc] at h
  simp only at h
  rcases hr : (cfg.foc.zip cands).mapM fun p => padRow (max cfg.nofSplits cfg.catLimit) (p.2.map fun pos => (evalCandidate cfg xs js before p.1 pos (cfg.types p.1)).1)
    with e | rows
  · rw [hr] at h; simp at h
  rw [hr] at h
  simp only at h
  by_cases hne : rows.flatten = []
  · rw [if_pos hne] at h; simp at h
  rw [if_neg hne] at h
  rcases h1 : pyIndex cfg.foc (npArgmax rows.flatten / max cfg.nofSplits cfg.catLimit) with e | f
  · rw [h1] at h; simp at h
  rw [h1] at h
  simp only at h
  rcases h2 : pyIndex cands (npArgmax rows.flatten / max cfg.nofSplits cfg.catLimit) with e | ps
  · rw [h2] at h; simp at h
  rw [h2] at h
  simp only at h
  rcases h3 : pyIndex ps (npArgmax rows.flatten % max cfg.nofSplits cfg.catLimit) with e | pos
  · rw [h3] at h; simp at h
  rw [h3] at h
  simp only at h
  rcases h4 : listMin (col cfg.data f) with e | mn
  · rw [h4] at h; simp at h
  rw [h4] at h
  simp only at h
  rcases h5 : listMax (col cfg.data f) with e | mx
  · rw [h5] at h; simp at h
  rw [h5] at h
  simp only [Except.ok.injEq] at h
  have pi : ∀ {α : Type} {l : List α} {i : ℕ} {a : α}, pyIndex l i = .ok a → l[i]? = some a := by
    intro α l i a h
    unfold pyIndex at h
    rcases he : l[i]? with _ | b
    · rw [he] at h; simp at h
    · rw [he] at h; simpa using h
  subst h
  exact ⟨cands, rows, mn, mx, rfl, hr, hne, pi h1, pi h2, pi h3, rfl, rfl, rfl, rfl, rfl, rfl, rfl, rfl, h4, h5⟩

theorem length_splitAll (xs : List (List (Row K D))) (f : Fin D) (pos : K) (typ : FeatType) : (splitAll xs f pos typ).length = 2 * xs.length := by
  unfold splitAll; simp [List.length_flatMap]; ring

theorem length_splitAllEff (xs js : List (List (Row K D))) (h : xs.length = js.length) (f : Fin D) (pos : K) (typ : FeatType) :
    (splitAllEff xs js f pos typ).length = 2 * xs.length := by
  unfold splitAllEff; simp [List.length_flatMap, h]; ring

theorem levelsShape_of_get {n : ℕ} {l : List (Split K D)}
    (h : ∀ (i : ℕ) (sp : Split K D), l[i]? = some sp → sp.nofInstances.length = n * 2 ^ (i + 1) ∧ sp.heterogeneity.length = n * 2 ^ (i + 1)) : LevelsShape n l := by
  induction l generalizing n with
  | nil => trivial
  | cons a t ih =>
    obtain ⟨h1, h2⟩ := h 0 a rfl
    refine ⟨by rw [h1]; ring, by rw [h2]; ring, ih fun i sp hi => ?_⟩
    obtain ⟨h3, h4⟩ := h (i + 1) sp (by simpa using hi)
    exact ⟨by rw [h3]; ring, by rw [h4]; ring⟩

/-- The effects have as many rows as the data. -/
def EffAligned (cfg : RegCfg K D) : Prop := ∀ e, cfg.dataEffect = some e → cfg.data.length = e.length

/-- What a successful search returns. -/
structure Searched (cfg : RegCfg K D) (s : Splits K D) : Prop where
  heterInit : s.heterInit = cfg.heter cfg.data cfg.dataEffect
  nofInit : s.nofInit = cfg.data.length
  nonempty : s.levels ≠ []
  depth : s.levels.length ≤ cfg.maxLevels
  stopped : s.levels.length < cfg.maxLevels → ∃ x ∈ Spec.regions cfg.data s.levels, x.length < cfg.minPoints
  level : ∀ (i : ℕ) (sp : Split K D), s.levels[i]? = some sp →
    singleLevelSplits cfg (Spec.regions cfg.data (s.levels.take i)) (cfg.dataEffect.map fun e => Spec.effRegions cfg.data e (s.levels.take i))
      (heterAt [s.heterInit] s.levels i) = .ok sp ∧ ∀ x ∈ Spec.regions cfg.data (s.levels.take i), cfg.minPoints ≤ x.length

theorem searchAllSplits_ok (cfg : RegCfg K D) (heff : EffAligned cfg) (s : Splits K D) (h : searchAllSplits cfg = .ok (some s)) : Searched cfg s := by
  unfold searchAllSplits at h
  by_cases hcat : cfg.types cfg.feature = .cat ∧ cfg.splitCat = false
  · rw [if_pos hcat] at h; simp at h
  rw [if_neg hcat] at h
  by_cases hfoc : cfg.foc.length < cfg.maxLevels
  · rw [if_pos hfoc] at h; simp at h
  rw [if_neg hfoc] at h
  simp only [bind, Except.bind, pure, Except.pure] at h
  rcases hl : searchLoop cfg cfg.maxLevels [cfg.data] (cfg.dataEffect.map fun e => [e]) [cfg.heter cfg.data cfg.dataEffect] with e | levels
  · rw [hl] at h; simp at h
  have hl2 := hl
  rw [hl] at h
  simp only [Except.ok.injEq] at h
  have e1 : (cfg.dataEffect.map fun e => [e]) = cfg.dataEffect.map fun e => Spec.effRegions cfg.data e ([] : List (Split K D)) := by
    cases he : cfg.dataEffect with
    | none => rfl
    | some e => simp only [Option.map_some]; rw [effRegions_nil _ _ (heff e he)]
  rw [e1, ← regions_nil cfg.data] at hl2
  obtain ⟨i1, i2, i3⟩ := searchLoop_get cfg cfg.data cfg.dataEffect heff cfg.maxLevels [] _ levels hl2
  by_cases hn : levels = []
  · rw [if_pos hn] at h; simp at h
  rw [if_neg hn] at h
  simp only [Option.some.injEq] at h
  subst h
  exact ⟨rfl, rfl, hn, i1, by simpa using i2, by simpa using i3⟩

/-- The reported numbers of a level. -/
theorem Searched.fields {cfg : RegCfg K D} {s : Splits K D} (hS : Searched cfg s) (heff : EffAligned cfg) {i : ℕ} {sp : Split K D} (hi : s.levels[i]? = some sp) :
    sp.typ = cfg.types sp.feature ∧ sp.nofInstances = (Spec.regions cfg.data (s.levels.take (i + 1))).map List.length ∧
      sp.heterogeneity = heters cfg (Spec.regions cfg.data (s.levels.take (i + 1)))
        (cfg.dataEffect.map fun e => Spec.effRegions cfg.data e (s.levels.take (i + 1))) := by
  obtain ⟨h, -⟩ := hS.level i sp hi
  obtain ⟨cands, rows, mn, mx, -, -, -, -, -, -, -, -, h9, h10, h11, -⟩ := singleLevelSplits_ok cfg _ _ _ sp h
  have ht : s.levels.take (i + 1) = s.levels.take i ++ [sp] := by rw [List.take_add_one, hi]; rfl
  rw [ht, regions_snoc]
  refine ⟨h9, h10, ?_⟩
  rw [h11]
  congr 1
  cases he : cfg.dataEffect with
  | none => rfl
  | some e =>
    simp only [Option.map_some]
    rw [effRegions_snoc _ _ (heff e he)]

theorem length_heters (cfg : RegCfg K D) (xs : List (List (Row K D))) (js : Option (List (List (Row K D)))) (h : ∀ l, js = some l → xs.length = l.length) :
    (heters cfg xs js).length = xs.length := by
  unfold heters
  cases js with
  | none => simp
  | some l => simp [h l rfl]

theorem Searched.shape {cfg : RegCfg K D} {s : Splits K D} (hS : Searched cfg s) (heff : EffAligned cfg) : LevelsShape 1 s.levels := by
  apply levelsShape_of_get
  intro i sp hi
  obtain ⟨-, h2, h3⟩ := hS.fields heff hi
  have hlt := (List.getElem?_eq_some_iff.mp hi).1
  have hl : (s.levels.take (i + 1)).length = i + 1 := by rw [List.length_take]; omega
  constructor
  · rw [h2, List.length_map, length_regions, hl]; ring
  · rw [h3, length_heters, length_regions, hl]
    · ring
    · intro l hl2
      cases he : cfg.dataEffect with
      | none => rw [he] at hl2; simp at hl2
      | some e =>
        rw [he] at hl2
        simp only [Option.map_some, Option.some.injEq] at hl2
        rw [← hl2, length_regions, length_effRegions]

end Effector
