import Verif.Props.MissingIgnored
import Verif.Props.MissingPdp

/-!
# C116: the regional fit with missing values and the regional fit on filled-in data
-/

set_option linter.unusedSectionVars false

namespace Effector

variable {K : Type} [Field K] [LinearOrder K] [IsStrictOrderedRing K] {D : ℕ}

open Spec

namespace Spec

/-- A way to fill in the missing values that keeps the values that are there. -/
def KeepsKnown (imp : MRow K D → Row K D) : Prop := ∀ r f v, r f = some v → imp r f = v

/-- The regional fit on the filled-in data. -/
def filledCfg (imp : MRow K D → Row K D) (cfg : MRegCfg K D) : RegCfg K D where
  feature := cfg.feature
  heter := fun _ _ => 0
  data := cfg.data.map imp
  dataEffect := cfg.dataEffect
  types := cfg.types
  names := fun _ => ""
  catLimit := cfg.catLimit
  foc := cfg.foc
  minPoints := cfg.minPoints
  nofSplits := cfg.nofSplits
  maxLevels := cfg.maxLevels
  dropThres := cfg.dropThres
  smallEnough := cfg.smallEnough
  splitCat := cfg.splitCat

/-- A split of data without missing values, as a split of data that might have had some. -/
def asMSplit (sp : Split K D) : MSplit K D where
  feature := sp.feature
  position := some sp.position
  range := (some sp.range.1, some sp.range.2)
  candidates := sp.candidates.map some
  nofInstances := sp.nofInstances
  typ := sp.typ
  heterogeneity := sp.heterogeneity
  splitI := sp.splitI
  splitJ := sp.splitJ
  wHeterDrop := sp.wHeterDrop
  wHeter := sp.wHeter

/-- The same for the result of the search. -/
def asMSplits (s : Splits K D) : MSplits K D where
  heterInit := s.heterInit
  nofInit := s.nofInit
  levels := s.levels.map asMSplit

/-- No value of the feature is missing. -/
def Complete (data : List (MRow K D)) (f : Fin D) : Prop := ∀ r ∈ data, (r f).isSome

end Spec

section Split

variable {imp : MRow K D → Row K D} (hi : KeepsKnown imp) {data : List (MRow K D)} {f : Fin D} (hf : Complete data f)

include hi hf

theorem known_at {r : MRow K D} (hr : r ∈ data) : r f = some (imp r f) := by
  obtain ⟨v, hv⟩ := Option.isSome_iff_exists.mp (hf r hr)
  rw [hv, hi r f v hv]

theorem mFirst_fills {r : MRow K D} (hr : r ∈ data) (p : K) (typ : FeatType) : mGoesFirst typ (some p) (r f) = goesFirst typ p (imp r f) := by
  rw [known_at hi hf hr]
  cases typ <;> rfl

theorem mSecond_fills {r : MRow K D} (hr : r ∈ data) (p : K) (typ : FeatType) : mGoesSecond typ (some p) (r f) = goesSecond typ p (imp r f) := by
  rw [known_at hi hf hr]
  cases typ <;> rfl

theorem mSplitRows_fills {x : List (MRow K D)} (hx : ∀ r ∈ x, r ∈ data) (p : K) (typ : FeatType) :
    (mSplitRows x f (some p) typ).1.map imp = (splitRows (x.map imp) f p typ).1 ∧ (mSplitRows x f (some p) typ).2.map imp = (splitRows (x.map imp) f p typ).2 := by
  unfold mSplitRows splitRows
  dsimp only
  rw [List.filter_map, List.filter_map]
  exact ⟨congrArg _ (List.filter_congr fun r hr => mFirst_fills hi hf (hx r hr) p typ), congrArg _ (List.filter_congr fun r hr => mSecond_fills hi hf (hx r hr) p typ)⟩

theorem mSplitAll_fills {xs : List (List (MRow K D))} (hx : ∀ x ∈ xs, ∀ r ∈ x, r ∈ data) (p : K) (typ : FeatType) :
    (mSplitAll xs f (some p) typ).map (List.map imp) = splitAll (xs.map (List.map imp)) f p typ := by
  unfold mSplitAll splitAll
  rw [List.map_flatMap, List.flatMap_map]
  apply List.flatMap_congr
  intro x hxm
  obtain ⟨h1, h2⟩ := mSplitRows_fills hi hf (hx x hxm) p typ
  simp only [List.map_cons, List.map_nil, h1, h2]

theorem mSplitEff_fills {α : Type} {x : List (MRow K D)} (hx : ∀ r ∈ x, r ∈ data) (j : List α) (p : K) (typ : FeatType) : mSplitEff x j f (some p) typ = splitEff (x.map imp) j f p typ := by
  have key : ∀ (g : Option K → Bool) (g0 : K → Bool), (∀ r ∈ data, g (r f) = g0 (imp r f)) → ∀ (x : List (MRow K D)) (_ : ∀ r ∈ x, r ∈ data) (j : List α),
      ((x.zip j).filter fun p => g (p.1 f)).map (·.2) = (((x.map imp).zip j).filter fun p => g0 (p.1 f)).map (·.2) := by
    intro g g0 hg x
    induction x with
    | nil => intro _ j; simp
    | cons a t ih =>
      intro hx j
      cases j with
      | nil => simp
      | cons b j =>
        have := ih (fun r hr => hx r (List.mem_cons_of_mem _ hr)) j
        rw [List.map_cons, List.zip_cons_cons, List.zip_cons_cons, List.filter_cons, List.filter_cons]
        dsimp only
        rw [hg a (hx a (List.mem_cons_self ..))]
        split_ifs
        · rw [List.map_cons, List.map_cons, this]
        · exact this
  unfold mSplitEff splitEff
  rw [key (mGoesFirst typ (some p)) (goesFirst typ p) (fun r hr => mFirst_fills hi hf hr p typ) x hx j,
    key (mGoesSecond typ (some p)) (goesSecond typ p) (fun r hr => mSecond_fills hi hf hr p typ) x hx j]

theorem mSplitAllEff_fills {xs : List (List (MRow K D))} (hx : ∀ x ∈ xs, ∀ r ∈ x, r ∈ data) (js : List (List (Row K D))) (p : K) (typ : FeatType) :
    mSplitAllEff xs js f (some p) typ = splitAllEff (xs.map (List.map imp)) js f p typ := by
  unfold mSplitAllEff splitAllEff
  induction xs generalizing js with
  | nil => simp
  | cons x xs ih =>
    cases js with
    | nil => simp
    | cons j js =>
      simp only [List.map_cons, List.zip_cons_cons, List.flatMap_cons]
      rw [ih (fun y hy => hx y (List.mem_cons_of_mem _ hy)) js, mSplitEff_fills hi hf (hx x (List.mem_cons_self ..))]

theorem mcol_fills : mcol data f = (col (data.map imp) f).map some := by
  unfold mcol col
  rw [List.map_map, List.map_map]
  exact List.map_congr_left fun r hr => known_at hi hf hr

end Split

theorem known_some' (l : List K) : known (l.map some) = l := by
  induction l with
  | nil => rfl
  | cons a t ih =>
    unfold known at ih ⊢
    rw [List.map_cons, List.filterMap_cons]
    simp

theorem npMin_numbers {l : List K} {m : K} (h : listMin l = .ok m) : npMin (l.map some) = some m := by
  cases l with
  | nil => cases h
  | cons a t =>
    rw [← Except.ok.inj h]
    exact npMinFrom_some a t

theorem npMax_numbers {l : List K} {m : K} (h : listMax l = .ok m) : npMax (l.map some) = some m := by
  cases l with
  | nil => cases h
  | cons a t =>
    rw [← Except.ok.inj h]
    exact npMaxFrom_some a t

theorem listMin_ok {l : List K} (h : l ≠ []) : ∃ m, listMin l = .ok m := by
  cases l with
  | nil => exact absurd rfl h
  | cons a t => exact ⟨_, rfl⟩

theorem listMax_ok {l : List K} (h : l ≠ []) : ∃ m, listMax l = .ok m := by
  cases l with
  | nil => exact absurd rfl h
  | cons a t => exact ⟨_, rfl⟩

theorem mapM_map_ok {α β γ : Type} {f : α → Py γ} {g : α → Py β} {h : β → γ} : ∀ {l : List α}, (∀ a ∈ l, f a = (g a).map h) → l.mapM f = (l.mapM g).map (List.map h)
  | [], _ => rfl
  | a :: t, hl => by
    have ih := mapM_map_ok (f := f) (g := g) (h := h) (l := t) fun b hb => hl b (List.mem_cons_of_mem _ hb)
    rw [List.mapM_cons, List.mapM_cons, hl a (List.mem_cons_self ..), ih]
    simp only [bind, Except.bind, pure, Except.pure]
    cases g a with
    | error e => rfl
    | ok b =>
      simp only [Except.map]
      cases t.mapM g with
      | error e => rfl
      | ok r => rfl

section Search

variable {imp : MRow K D → Row K D} (hi : KeepsKnown imp) {cfg : MRegCfg K D} (hne : cfg.data ≠ []) (hfoc : ∀ f ∈ cfg.foc, Complete cfg.data f) {H : HeterMiss K D} {H0 : HeterM K D}
  (hH : ∀ x e, (∀ r ∈ x, r ∈ cfg.data) → H x e = H0 (x.map imp) e)

include hi hne in
theorem mPositions_fills {f : Fin D} (hf : Complete cfg.data f) :
    mPositions cfg f = (match cfg.types f with
      | .cat => .ok (findPositionsCat (cfg.data.map imp) f)
      | .cont => findPositionsCont (cfg.data.map imp) f cfg.nofSplits : Py (List K)).map (List.map some) := by
  unfold mPositions
  cases cfg.types f with
  | cat =>
    dsimp only
    unfold mUnique findPositionsCat
    rw [mcol_fills hi hf, known_some', if_neg (fun h => by obtain ⟨x, _, hx⟩ := List.mem_map.mp h; cases hx), List.append_nil]
    rfl
  | cont =>
    dsimp only
    unfold mFindPositionsCont findPositionsCont
    have hc : col (cfg.data.map imp) f ≠ [] := by simpa [col] using hne
    obtain ⟨mn, hmn⟩ := listMin_ok hc
    obtain ⟨mx, hmx⟩ := listMax_ok hc
    have e1 := npMin_numbers hmn
    have e2 := npMax_numbers hmx
    rw [← mcol_fills hi hf] at e1 e2
    rw [hmn, hmx]
    rcases hd : cfg.data with _ | ⟨d0, dt⟩
    · exact absurd hd hne
    rw [hd] at e1 e2
    dsimp only
    rw [e1, e2]
    simp [bind, Except.bind, pure, Except.pure, Except.map]

include hi hne hfoc in
theorem mCandidates_fills : mCandidatePositions cfg = (candidatePositions (filledCfg imp cfg)).map (List.map (List.map some)) :=
  mapM_map_ok fun f hf => mPositions_fills hi hne (hfoc f hf)

include hH in
theorem mHeters_fills {xs : List (List (MRow K D))} (hx : ∀ x ∈ xs, ∀ r ∈ x, r ∈ cfg.data) (js : Option (List (List (Row K D)))) :
    mHeters H xs js = hetersM H0 (xs.map (List.map imp)) js := by
  cases js with
  | none =>
    unfold mHeters hetersM
    dsimp only
    induction xs with
    | nil => rfl
    | cons x xs ih => rw [List.map_cons, List.mapM_cons, List.mapM_cons, hH x none (hx x (List.mem_cons_self ..)), ih fun y hy => hx y (List.mem_cons_of_mem _ hy)]
  | some js =>
    unfold mHeters hetersM
    dsimp only
    induction xs generalizing js with
    | nil => rfl
    | cons x xs ih =>
      cases js with
      | nil => rfl
      | cons j js =>
        rw [List.map_cons, List.zip_cons_cons, List.zip_cons_cons, List.mapM_cons, List.mapM_cons]
        dsimp only
        rw [hH x (some j) (hx x (List.mem_cons_self ..)), ih fun y hy => hx y (List.mem_cons_of_mem _ hy)]

theorem lengths_fills (xs : List (List (MRow K D))) : (xs.map (List.map imp)).map List.length = xs.map List.length := by
  rw [List.map_map]
  exact List.map_congr_left fun x _ => by simp

theorem mWeights_fills (xs : List (List (MRow K D))) : (mSplitWeights xs : List K) = splitWeights (xs.map (List.map imp)) := by
  unfold mSplitWeights splitWeights
  simp [Function.comp_def]

include hi hH in
theorem mEval_fills {xs : List (List (MRow K D))} (hx : ∀ x ∈ xs, ∀ r ∈ x, r ∈ cfg.data) (js : Option (List (List (Row K D)))) (before : List K) {f : Fin D} (hf : Complete cfg.data f) (p : K)
    (typ : FeatType) : mEvalCandidate H xs js before f (some p) typ = evalCandidateM H0 (xs.map (List.map imp)) js before f p typ := by
  unfold mEvalCandidate evalCandidateM
  dsimp only
  rw [mHeters_fills hH (mSplitAll_sub hx f (some p) typ), mSplitAll_fills hi hf hx, mWeights_fills (imp := imp), mSplitAll_fills hi hf hx]
  have : (js.map fun js => mSplitAllEff xs js f (some p) typ) = js.map fun js => splitAllEff (xs.map (List.map imp)) js f p typ := by
    cases js with
    | none => rfl
    | some j => exact congrArg some (mSplitAllEff_fills hi hf hx j p typ)
  rw [this]

include hi hH in
theorem mRow_fills (w : ℕ) {xs : List (List (MRow K D))} (hx : ∀ x ∈ xs, ∀ r ∈ x, r ∈ cfg.data) (js : Option (List (List (Row K D)))) (before : List K) {f : Fin D} (hf : Complete cfg.data f)
    (typ : FeatType) (ps : List K) : mMatrixRow H w xs js before f typ (ps.map some) = matrixRowM H0 w (xs.map (List.map imp)) js before f typ ps := by
  unfold mMatrixRow matrixRowM
  have : (ps.map some).mapM (fun pos => mEvalCandidate H xs js before f pos typ) = ps.mapM fun pos => evalCandidateM H0 (xs.map (List.map imp)) js before f pos typ := by
    induction ps with
    | nil => rfl
    | cons a t ih => rw [List.map_cons, List.mapM_cons, List.mapM_cons, mEval_fills hi hH hx js before hf, ih]
  rw [this]

theorem pyIndex_map' {α β : Type} (g : α → β) (l : List α) (i : ℕ) : pyIndex (l.map g) i = (pyIndex l i).map g := by
  unfold pyIndex
  rw [List.getElem?_map]
  cases l[i]? <;> rfl

include hi hne hfoc hH in
theorem mSingle_fills {xs : List (List (MRow K D))} (hx : ∀ x ∈ xs, ∀ r ∈ x, r ∈ cfg.data) (js : Option (List (List (Row K D)))) (before : List K) :
    mSingleLevelSplits cfg H xs js before = (singleLevelSplitsM (filledCfg imp cfg) H0 (xs.map (List.map imp)) js before).map asMSplit := by
  unfold mSingleLevelSplits singleLevelSplitsM
  rw [mCandidates_fills hi hne hfoc]
  simp only [bind, Except.bind, pure, Except.pure]
  generalize candidatePositions (filledCfg imp cfg) = q
  cases q with
  | error e => rfl
  | ok cands =>
    simp only [Except.map]
    have hrows : ((cfg.foc.zip (cands.map (List.map some))).mapM fun p => mMatrixRow H (max cfg.nofSplits cfg.catLimit) xs js before p.1 (cfg.types p.1) p.2) =
        (cfg.foc.zip cands).mapM fun p => matrixRowM H0 (max cfg.nofSplits cfg.catLimit) (xs.map (List.map imp)) js before p.1 (cfg.types p.1) p.2 := by
      generalize cfg.foc = foc at hfoc
      induction foc generalizing cands with
      | nil => rfl
      | cons f foc ih =>
        cases cands with
        | nil => rfl
        | cons c cands =>
          rw [List.map_cons, List.zip_cons_cons, List.zip_cons_cons, List.mapM_cons, List.mapM_cons]
          dsimp only
          rw [mRow_fills hi hH _ hx js before (hfoc f (List.mem_cons_self ..)), ih cands (fun g hg => hfoc g (List.mem_cons_of_mem _ hg))]
    have hrows' : ((cfg.foc.zip (cands.map (List.map some))).mapM fun p => mMatrixRow H (max cfg.nofSplits cfg.catLimit) xs js before p.1 (cfg.types p.1) p.2) =
        ((filledCfg imp cfg).foc.zip cands).mapM fun p => matrixRowM H0 (max (filledCfg imp cfg).nofSplits (filledCfg imp cfg).catLimit) (xs.map (List.map imp)) js before p.1
          ((filledCfg imp cfg).types p.1) p.2 := hrows
    rw [hrows']
    generalize (((filledCfg imp cfg).foc.zip cands).mapM fun p => matrixRowM H0 (max (filledCfg imp cfg).nofSplits (filledCfg imp cfg).catLimit) (xs.map (List.map imp)) js before p.1
          ((filledCfg imp cfg).types p.1) p.2) = q
    cases q with
    | error e => rfl
    | ok rows =>
      dsimp only [filledCfg]
      by_cases hfl : rows.flatten = []
      · rw [if_pos hfl, if_pos hfl]
      rw [if_neg hfl, if_neg hfl]
      rcases h1 : pyIndex cfg.foc (npArgmax rows.flatten / max cfg.nofSplits cfg.catLimit) with e | f
      · rfl
      dsimp only
      have hf := hfoc f (List.mem_of_getElem? (pyIndex_found h1))
      rw [pyIndex_map']
      cases pyIndex cands (npArgmax rows.flatten / max cfg.nofSplits cfg.catLimit) with
      | error e => rfl
      | ok ps =>
        simp only [Except.map]
        rw [pyIndex_map']
        cases pyIndex ps (npArgmax rows.flatten % max cfg.nofSplits cfg.catLimit) with
        | error e => rfl
        | ok pos =>
          simp only [Except.map]
          rw [mHeters_fills hH (mSplitAll_sub hx f (some pos) _), mSplitAll_fills hi hf hx, mEval_fills hi hH hx js before hf]
          have hjs : (js.map fun js => mSplitAllEff xs js f (some pos) (cfg.types f)) = js.map fun js => splitAllEff (xs.map (List.map imp)) js f pos (cfg.types f) := by
            cases js with
            | none => rfl
            | some j => exact congrArg some (mSplitAllEff_fills hi hf hx j pos _)
          rw [hjs]
          have hc : col (cfg.data.map imp) f ≠ [] := by simpa [col] using hne
          obtain ⟨mn, hmn⟩ := listMin_ok hc
          obtain ⟨mx, hmx⟩ := listMax_ok hc
          have e1 := npMin_numbers hmn
          have e2 := npMax_numbers hmx
          rw [← mcol_fills hi hf] at e1 e2
          rw [hmn, hmx, e1, e2]
          cases hetersM H0 (splitAll (xs.map (List.map imp)) f pos (cfg.types f)) (js.map fun js => splitAllEff (xs.map (List.map imp)) js f pos (cfg.types f)) with
          | error e => rfl
          | ok sub =>
            dsimp only
            cases evalCandidateM H0 (xs.map (List.map imp)) js before f pos (cfg.types f) with
            | error e => rfl
            | ok q =>
              dsimp only [asMSplit]
              rw [← mSplitAll_fills hi hf hx, lengths_fills]

include hi hne hfoc hH in
theorem mLoop_fills (n : ℕ) {xs : List (List (MRow K D))} (hx : ∀ x ∈ xs, ∀ r ∈ x, r ∈ cfg.data) (js : Option (List (List (Row K D)))) (before : List K) :
    mSearchLoop cfg H n xs js before = (searchLoopM (filledCfg imp cfg) H0 n (xs.map (List.map imp)) js before).map (List.map asMSplit) := by
  induction n generalizing xs js before with
  | zero => rfl
  | succ n ih =>
    unfold mSearchLoop searchLoopM
    have hany : (xs.map (List.map imp)).any (fun x => decide (x.length < (filledCfg imp cfg).minPoints)) = xs.any fun x => decide (x.length < cfg.minPoints) := by
      rw [List.any_map]
      congr 1
      funext x
      simp [filledCfg]
    rw [hany]
    by_cases hs : xs.any (fun x => decide (x.length < cfg.minPoints)) = true
    · rw [if_pos hs, if_pos hs]; rfl
    rw [if_neg hs, if_neg hs, mSingle_fills hi hne hfoc hH hx]
    simp only [bind, Except.bind, pure, Except.pure]
    rcases e1 : singleLevelSplitsM (filledCfg imp cfg) H0 (xs.map (List.map imp)) js before with e | sp
    · rfl
    simp only [Except.map]
    have e1' := mSingle_fills hi hne hfoc hH hx js before
    rw [e1] at e1'
    obtain ⟨-, -, -, a1, -⟩ := mSingle_rows e1'
    have hf : Complete cfg.data sp.feature := hfoc _ (List.mem_of_getElem? a1)
    have hjs : (js.map fun js => mSplitAllEff xs js sp.feature (some sp.position) sp.typ) = js.map fun js => splitAllEff (xs.map (List.map imp)) js sp.feature sp.position sp.typ := by
      cases js with
      | none => rfl
      | some j => exact congrArg some (mSplitAllEff_fills hi hf hx j _ _)
    have h2 := ih (mSplitAll_sub hx sp.feature (some sp.position) sp.typ) (js.map fun js => splitAllEff (xs.map (List.map imp)) js sp.feature sp.position sp.typ) sp.heterogeneity
    rw [mSplitAll_fills hi hf hx] at h2
    have key : mSearchLoop cfg H n (mSplitAll xs (asMSplit sp).feature (asMSplit sp).position (asMSplit sp).typ)
        (js.map fun js => mSplitAllEff xs js (asMSplit sp).feature (asMSplit sp).position (asMSplit sp).typ) (asMSplit sp).heterogeneity =
        (searchLoopM (filledCfg imp cfg) H0 n (splitAll (xs.map (List.map imp)) sp.feature sp.position sp.typ)
          (js.map fun js => splitAllEff (xs.map (List.map imp)) js sp.feature sp.position sp.typ) sp.heterogeneity).map (List.map asMSplit) := by
      change mSearchLoop cfg H n (mSplitAll xs sp.feature (some sp.position) sp.typ) (js.map fun js => mSplitAllEff xs js sp.feature (some sp.position) sp.typ) sp.heterogeneity = _
      rw [hjs, h2]
    rw [key]
    cases searchLoopM (filledCfg imp cfg) H0 n (splitAll (xs.map (List.map imp)) sp.feature sp.position sp.typ)
        (js.map fun js => splitAllEff (xs.map (List.map imp)) js sp.feature sp.position sp.typ) sp.heterogeneity with
    | error e => rfl
    | ok rest => rfl

include hi hne hfoc hH in
/-- The search on complete conditioning features is the search on the filled-in data. -/
theorem mSearch_fills : mSearchAllSplits cfg H = (searchAllSplitsM (filledCfg imp cfg) H0).map (Option.map asMSplits) := by
  unfold mSearchAllSplits searchAllSplitsM
  by_cases c1 : cfg.types cfg.feature = .cat ∧ cfg.splitCat = false
  · have c1' : (filledCfg imp cfg).types (filledCfg imp cfg).feature = .cat ∧ (filledCfg imp cfg).splitCat = false := c1
    rw [if_pos c1, if_pos c1']; rfl
  have c1' : ¬ ((filledCfg imp cfg).types (filledCfg imp cfg).feature = .cat ∧ (filledCfg imp cfg).splitCat = false) := c1
  rw [if_neg c1, if_neg c1']
  by_cases c2 : cfg.foc.length < cfg.maxLevels
  · have c2' : (filledCfg imp cfg).foc.length < (filledCfg imp cfg).maxLevels := c2
    rw [if_pos c2, if_pos c2']; rfl
  have c2' : ¬ (filledCfg imp cfg).foc.length < (filledCfg imp cfg).maxLevels := c2
  rw [if_neg c2, if_neg c2']
  simp only [bind, Except.bind, pure, Except.pure]
  have hr : H cfg.data cfg.dataEffect = H0 (filledCfg imp cfg).data (filledCfg imp cfg).dataEffect := hH cfg.data cfg.dataEffect fun r hr => hr
  rw [hr]
  cases H0 (filledCfg imp cfg).data (filledCfg imp cfg).dataEffect with
  | error e => rfl
  | ok h0 =>
    dsimp only
    have hl : mSearchLoop cfg H cfg.maxLevels [cfg.data] (cfg.dataEffect.map fun e => [e]) [h0] =
        (searchLoopM (filledCfg imp cfg) H0 (filledCfg imp cfg).maxLevels [(filledCfg imp cfg).data] ((filledCfg imp cfg).dataEffect.map fun e => [e]) [h0]).map (List.map asMSplit) :=
      mLoop_fills hi hne hfoc hH cfg.maxLevels (xs := [cfg.data]) (by simp) (cfg.dataEffect.map fun e => [e]) [h0]
    rw [hl]
    cases searchLoopM (filledCfg imp cfg) H0 (filledCfg imp cfg).maxLevels [(filledCfg imp cfg).data] ((filledCfg imp cfg).dataEffect.map fun e => [e]) [h0] with
    | error e => rfl
    | ok l =>
      cases l with
      | nil => rfl
      | cons sp l => simp [Except.map, asMSplits, filledCfg]

theorem mChoose_fills (s : Option (Splits K D)) : mChooseImportantSplits cfg (s.map asMSplits) = (chooseImportantSplits (filledCfg imp cfg) s).map asMSplit := by
  cases s with
  | none => rfl
  | some s =>
    have e : (s.levels.map asMSplit).map (fun x : MSplit K D => x.wHeter) = s.levels.map (·.wHeter) := by
      rw [List.map_map]; rfl
    simp only [Option.map_some, mChooseImportantSplits, chooseImportantSplits, asMSplits, e]
    change _ = (if s.heterInit = BIG_M then [] else if s.heterInit < cfg.smallEnough then [] else
      if (splitValid cfg.dropThres (s.heterInit :: s.levels.map (·.wHeter))).count true = 0 then []
      else if (splitValid cfg.dropThres (s.heterInit :: s.levels.map (·.wHeter))).count true = (splitValid cfg.dropThres (s.heterInit :: s.levels.map (·.wHeter))).length then s.levels
      else if (splitValid cfg.dropThres (s.heterInit :: s.levels.map (·.wHeter))).idxOf false = 0 then []
      else s.levels.take ((splitValid cfg.dropThres (s.heterInit :: s.levels.map (·.wHeter))).idxOf false)).map asMSplit
    split_ifs <;> simp

end Search

end Effector
