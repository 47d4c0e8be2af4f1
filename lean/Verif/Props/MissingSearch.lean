import Verif.Model.MissingSearch
import Verif.Props.Missing
import Verif.Props.Partition

/-!
# C116: missing values in the conditioning features of a regional fit
-/

set_option linter.unusedSectionVars false

namespace Effector

variable {K : Type} [Field K] [LinearOrder K] [IsStrictOrderedRing K] {D : ℕ}

open Spec

namespace Spec

/-- Feature `f` has a missing value. -/
def HasMissing (data : List (MRow K D)) (f : Fin D) : Prop := ∃ r ∈ data, r f = none

/-- The regions after some splits, from left to right. -/
def mRegions (data : List (MRow K D)) (splits : List (MSplit K D)) : List (List (MRow K D)) :=
  splits.foldl (fun xs sp => mSplitAll xs sp.feature sp.position sp.typ) [data]

/-- What all heterogeneity functions of the library have in common: `BIG_M` on regions with fewer than `m` instances, and never negative. -/
structure HeterLike (m : ℕ) (H : HeterMiss K D) : Prop where
  small : ∀ x e, x.length < m → H x e = .ok (10 ^ 8)
  nonneg : ∀ x e v, H x e = .ok v → 0 ≤ v

end Spec

theorem pyIndex_found {α : Type} {l : List α} {i : ℕ} {a : α} (h : pyIndex l i = .ok a) : l[i]? = some a := by
  unfold pyIndex at h
  rcases he : l[i]? with _ | b
  · rw [he] at h; cases h
  · rw [he] at h; simpa using h

theorem mapM_results {α β : Type} {f : α → Py β} {l : List α} {r : List β} : l.mapM f = .ok r ↔ List.Forall₂ (fun a b => f a = .ok b) l r := by
  induction l generalizing r with
  | nil =>
    constructor
    · intro h; cases h; exact .nil
    · intro h; cases h; rfl
  | cons a t ih =>
    rw [List.mapM_cons]
    simp only [bind, Except.bind, pure, Except.pure]
    constructor
    · intro h
      rcases e1 : f a with e | b
      · rw [e1] at h; cases h
      rw [e1] at h
      simp only at h
      rcases e2 : t.mapM f with e | r'
      · rw [e2] at h; cases h
      rw [e2] at h
      obtain rfl := Except.ok.inj h
      exact .cons e1 (ih.mp e2)
    · intro h
      cases h with
      | cons h1 h2 => rw [h1, ih.mpr h2]

theorem forall2_get {α β : Type} {R : α → β → Prop} {l : List α} {r : List β} (h : List.Forall₂ R l r) {i : ℕ} {a : α} {b : β} (ha : l[i]? = some a) (hb : r[i]? = some b) : R a b := by
  induction h generalizing i with
  | nil => simp at ha
  | cons h1 _ ih =>
    cases i with
    | zero =>
      simp at ha hb
      subst ha hb
      exact h1
    | succ i => exact ih (by simpa using ha) (by simpa using hb)

theorem forall2_mem_right {α β : Type} {R : α → β → Prop} {l : List α} {r : List β} (h : List.Forall₂ R l r) {b : β} (hb : b ∈ r) : ∃ a ∈ l, R a b := by
  induction h with
  | nil => cases hb
  | @cons x y l r h1 _ ih =>
    rcases List.mem_cons.mp hb with rfl | hb
    · exact ⟨x, List.mem_cons_self .., h1⟩
    · obtain ⟨a, ha, hr⟩ := ih hb
      exact ⟨a, List.mem_cons_of_mem _ ha, hr⟩

/-! ### One level -/

theorem mSingle_ok {cfg : MRegCfg K D} {H : HeterMiss K D} {xs : List (List (MRow K D))} {js : Option (List (List (Row K D)))} {before : List K} {sp : MSplit K D}
    (h : mSingleLevelSplits cfg H xs js before = .ok sp) :
    ∃ cands rows, mCandidatePositions cfg = .ok cands ∧
      ((cfg.foc.zip cands).mapM fun p => mMatrixRow H (max cfg.nofSplits cfg.catLimit) xs js before p.1 (cfg.types p.1) p.2) = .ok rows ∧ rows.flatten ≠ [] ∧
      cfg.foc[sp.splitI]? = some sp.feature ∧ cands[sp.splitI]? = some sp.candidates ∧ sp.candidates[sp.splitJ]? = some sp.position ∧
      sp.splitI = npArgmax rows.flatten / max cfg.nofSplits cfg.catLimit ∧ sp.splitJ = npArgmax rows.flatten % max cfg.nofSplits cfg.catLimit ∧
      sp.typ = cfg.types sp.feature ∧
      mHeters H (mSplitAll xs sp.feature sp.position sp.typ) (js.map fun js => mSplitAllEff xs js sp.feature sp.position sp.typ) = .ok sp.heterogeneity ∧
      mEvalCandidate H xs js before sp.feature sp.position sp.typ = .ok (sp.wHeterDrop, sp.wHeter) ∧
      sp.nofInstances = (mSplitAll xs sp.feature sp.position sp.typ).map List.length ∧ sp.range = (npMin (mcol cfg.data sp.feature), npMax (mcol cfg.data sp.feature)) := by
  unfold mSingleLevelSplits at h
  simp only [bind, Except.bind, pure, Except.pure] at h
  rcases hc : mCandidatePositions cfg with e | cands
  · rw [hc] at h; cases h
  rw [hc] at h
  simp only at h
  rcases hr : ((cfg.foc.zip cands).mapM fun p => mMatrixRow H (max cfg.nofSplits cfg.catLimit) xs js before p.1 (cfg.types p.1) p.2) with e | rows
  · rw [hr] at h; cases h
  rw [hr] at h
  simp only at h
  by_cases hne : rows.flatten = []
  · rw [if_pos hne] at h; cases h
  rw [if_neg hne] at h
  rcases h1 : pyIndex cfg.foc (npArgmax rows.flatten / max cfg.nofSplits cfg.catLimit) with e | f
  · rw [h1] at h; cases h
  rw [h1] at h
  simp only at h
  rcases h2 : pyIndex cands (npArgmax rows.flatten / max cfg.nofSplits cfg.catLimit) with e | ps
  · rw [h2] at h; cases h
  rw [h2] at h
  simp only at h
  rcases h3 : pyIndex ps (npArgmax rows.flatten % max cfg.nofSplits cfg.catLimit) with e | pos
  · rw [h3] at h; cases h
  rw [h3] at h
  simp only at h
  rcases h6 : mHeters H (mSplitAll xs f pos (cfg.types f)) (js.map fun js => mSplitAllEff xs js f pos (cfg.types f)) with e | sub
  · rw [h6] at h; cases h
  rw [h6] at h
  simp only at h
  rcases h7 : mEvalCandidate H xs js before f pos (cfg.types f) with e | q
  · rw [h7] at h; cases h
  rw [h7] at h
  obtain rfl := Except.ok.inj h
  exact ⟨cands, rows, rfl, hr, hne, pyIndex_found h1, pyIndex_found h2, pyIndex_found h3, rfl, rfl, rfl, h6, h7, rfl, rfl⟩

/-- The candidates of the chosen feature. -/
theorem mCandidates_get {cfg : MRegCfg K D} {cands : List (List (Option K))} (h : mCandidatePositions cfg = .ok cands) {i : ℕ} {f : Fin D} {ps : List (Option K)}
    (hf : cfg.foc[i]? = some f) (hp : cands[i]? = some ps) :
    (match cfg.types f with
      | .cat => .ok (mUnique (mcol cfg.data f))
      | .cont => mFindPositionsCont cfg.data f cfg.nofSplits) = (.ok ps : Py (List (Option K))) :=
  forall2_get (mapM_results.mp h) hf hp

theorem mHeters_nonneg {m : ℕ} {H : HeterMiss K D} (hH : HeterLike m H) {xs : List (List (MRow K D))} {js : Option (List (List (Row K D)))} {l : List K} (h : mHeters H xs js = .ok l) :
    ∀ v ∈ l, 0 ≤ v := by
  intro v hv
  cases js with
  | none =>
    obtain ⟨x, -, hx⟩ := forall2_mem_right (mapM_results.mp h) hv
    exact hH.nonneg _ _ _ hx
  | some js =>
    obtain ⟨x, -, hx⟩ := forall2_mem_right (mapM_results.mp h) hv
    exact hH.nonneg _ _ _ hx

theorem mWeights_nonneg (xs : List (List (MRow K D))) : ∀ w ∈ (mSplitWeights xs : List K), 0 ≤ w := by
  intro w hw
  obtain ⟨x, -, rfl⟩ := List.mem_map.mp hw
  refine div_nonneg (by positivity) (List.sum_nonneg ?_)
  intro y hy
  obtain ⟨z, -, rfl⟩ := List.mem_map.mp hy
  positivity

theorem mWeights_sum {xs : List (List (MRow K D))} (h : xs ≠ []) : (mSplitWeights xs : List K).sum = 1 := by
  unfold mSplitWeights
  have hpos : 0 < (xs.map fun x => (x.length : K) + 1).sum := by
    cases xs with
    | nil => exact absurd rfl h
    | cons a t =>
      rw [List.map_cons, List.sum_cons]
      have : 0 ≤ (t.map fun x => (x.length : K) + 1).sum := List.sum_nonneg (by
        intro y hy
        obtain ⟨z, -, rfl⟩ := List.mem_map.mp hy
        positivity)
      positivity
  have : ∀ (S : K) (l : List (List (MRow K D))), (l.map fun x => ((x.length : K) + 1) / S).sum = (l.map fun x => (x.length : K) + 1).sum / S := by
    intro S l
    induction l with
    | nil => simp
    | cons a t ih => rw [List.map_cons, List.map_cons, List.sum_cons, List.sum_cons, ih, ← add_div]
  rw [this, div_self hpos.ne']

theorem mEval_parts {H : HeterMiss K D} {xs : List (List (MRow K D))} {js : Option (List (List (Row K D)))} {before : List K} {f : Fin D} {pos : Option K} {typ : FeatType} {q : K × K}
    (h : mEvalCandidate H xs js before f pos typ = .ok q) :
    ∃ sub, mHeters H (mSplitAll xs f pos typ) (js.map fun js => mSplitAllEff xs js f pos typ) = .ok sub ∧
      q = ((List.zipWith (· * ·) (heterDrops before sub) (mSplitWeights (mSplitAll xs f pos typ))).sum, (List.zipWith (· * ·) (mSplitWeights (mSplitAll xs f pos typ)) sub).sum) := by
  unfold mEvalCandidate at h
  simp only [bind, Except.bind, pure, Except.pure] at h
  rcases e : mHeters H (mSplitAll xs f pos typ) (js.map fun js => mSplitAllEff xs js f pos typ) with e' | sub
  · rw [e] at h; cases h
  rw [e] at h
  exact ⟨sub, rfl, (Except.ok.inj h).symm⟩

theorem mEval_nonneg {m : ℕ} {H : HeterMiss K D} (hH : HeterLike m H) {xs : List (List (MRow K D))} {js : Option (List (List (Row K D)))} {before : List K} {f : Fin D} {pos : Option K} {typ : FeatType}
    {q : K × K} (h : mEvalCandidate H xs js before f pos typ = .ok q) : 0 ≤ q.2 := by
  obtain ⟨sub, h1, rfl⟩ := mEval_parts h
  refine List.sum_nonneg ?_
  intro y hy
  obtain ⟨i, hi, rfl⟩ := List.mem_iff_getElem.mp hy
  rw [List.getElem_zipWith]
  exact mul_nonneg (mWeights_nonneg _ _ (List.getElem_mem _)) (mHeters_nonneg hH h1 _ (List.getElem_mem _))

theorem numbers_of {l : List (Option K)} (h : ∀ v ∈ l, v ≠ none) : ∃ k : List K, l = k.map some := by
  induction l with
  | nil => exact ⟨[], rfl⟩
  | cons a t ih =>
    obtain ⟨k, rfl⟩ := ih fun v hv => h v (List.mem_cons_of_mem _ hv)
    cases a with
    | none => exact absurd rfl (h none (List.mem_cons_self ..))
    | some a => exact ⟨a :: k, rfl⟩

theorem npMin_isSome {l : List (Option K)} (h : ∀ v ∈ l, v ≠ none) (hl : l ≠ []) : ∃ m, npMin l = some m := by
  obtain ⟨k, rfl⟩ := numbers_of h
  cases k with
  | nil => exact absurd rfl hl
  | cons a t => exact ⟨_, npMinFrom_some a t⟩

theorem npMax_isSome {l : List (Option K)} (h : ∀ v ∈ l, v ≠ none) (hl : l ≠ []) : ∃ m, npMax l = some m := by
  obtain ⟨k, rfl⟩ := numbers_of h
  cases k with
  | nil => exact absurd rfl hl
  | cons a t => exact ⟨_, npMaxFrom_some a t⟩

/-- A split on a continuous feature with a missing value: every part is empty. -/
theorem mSplitAll_gone (xs : List (List (MRow K D))) (f : Fin D) : mSplitAll xs f none .cont = xs.flatMap fun _ => [[], []] := by
  unfold mSplitAll
  have h1 : ∀ v : Option K, mGoesFirst .cont none v = false := by intro v; cases v <;> rfl
  have h2 : ∀ v : Option K, mGoesSecond .cont none v = false := by intro v; cases v <;> rfl
  simp [mSplitRows, h1, h2]

theorem sum_const_right {c : K} : ∀ {w l : List K}, (∀ v ∈ l, v = c) → l.length = w.length → (List.zipWith (· * ·) w l).sum = w.sum * c
  | [], _, _, _ => by simp
  | a :: w, [], _, hl => by simp at hl
  | a :: w, b :: l, h, hl => by
    rw [List.zipWith_cons_cons, List.sum_cons, List.sum_cons, sum_const_right (fun v hv => h v (List.mem_cons_of_mem _ hv)) (by simpa using hl), h b (List.mem_cons_self ..), add_mul]

theorem mHeters_length {H : HeterMiss K D} {xs : List (List (MRow K D))} {js : Option (List (List (Row K D)))} (hj : ∀ l, js = some l → xs.length ≤ l.length) {l : List K}
    (h : mHeters H xs js = .ok l) : l.length = xs.length := by
  cases js with
  | none => exact (mapM_results.mp h).length_eq.symm
  | some js =>
    have := (mapM_results.mp h).length_eq
    rw [List.length_zip] at this
    have := hj js rfl
    omega

theorem length_mSplitAll (xs : List (List (MRow K D))) (f : Fin D) (pos : Option K) (typ : FeatType) : (mSplitAll xs f pos typ).length = 2 * xs.length := by
  unfold mSplitAll
  rw [List.length_flatMap]
  simp
  ring

theorem length_mSplitAllEff (xs : List (List (MRow K D))) (js : List (List (Row K D))) (f : Fin D) (pos : Option K) (typ : FeatType) :
    (mSplitAllEff xs js f pos typ).length = 2 * min xs.length js.length := by
  unfold mSplitAllEff
  rw [List.length_flatMap]
  simp
  ring

/-- As many effect arrays as regions. -/
def EffFor (xs : List (List (MRow K D))) (js : Option (List (List (Row K D)))) : Prop := ∀ l, js = some l → xs.length ≤ l.length

theorem EffFor.split {xs : List (List (MRow K D))} {js : Option (List (List (Row K D)))} (h : EffFor xs js) (f : Fin D) (pos : Option K) (typ : FeatType) :
    EffFor (mSplitAll xs f pos typ) (js.map fun js => mSplitAllEff xs js f pos typ) := by
  intro l hl
  cases js with
  | none => cases hl
  | some js =>
    obtain rfl := Option.some.inj hl
    have := h js rfl
    rw [length_mSplitAll, length_mSplitAllEff]
    omega

/-- The weighted heterogeneity of a candidate on a continuous feature with missing values is `BIG_M`. -/
theorem mEval_gone {m : ℕ} (hm : 1 ≤ m) {H : HeterMiss K D} (hH : HeterLike m H) {xs : List (List (MRow K D))} (hx : xs ≠ []) {js : Option (List (List (Row K D)))} (hj : EffFor xs js)
    {before : List K} {f : Fin D} {q : K × K} (h : mEvalCandidate H xs js before f none .cont = .ok q) : q.2 = 10 ^ 8 := by
  obtain ⟨sub, h1, rfl⟩ := mEval_parts h
  have hall : ∀ v ∈ sub, v = (10 : K) ^ 8 := by
    intro v hv
    have hempty : ∀ x ∈ mSplitAll xs f none .cont, x = [] := by
      intro x hx
      rw [mSplitAll_gone] at hx
      obtain ⟨y, -, hy⟩ := List.mem_flatMap.mp hx
      simpa using hy
    have : ∃ x e, x ∈ mSplitAll xs f none .cont ∧ H x e = .ok v := by
      cases js with
      | none =>
        obtain ⟨x, hx1, hx2⟩ := forall2_mem_right (mapM_results.mp h1) hv
        exact ⟨x, none, hx1, hx2⟩
      | some js =>
        obtain ⟨x, hx1, hx2⟩ := forall2_mem_right (mapM_results.mp h1) hv
        exact ⟨x.1, some x.2, (List.of_mem_zip hx1).1, hx2⟩
    obtain ⟨x, e, hx1, hx2⟩ := this
    rw [hempty x hx1, hH.small [] e (by simp; omega)] at hx2
    exact (Except.ok.inj hx2).symm
  have hne : mSplitAll xs f none .cont ≠ [] := by
    intro h0
    have h3 := length_mSplitAll xs f none .cont
    rw [h0] at h3
    have h4 := List.length_pos_of_ne_nil hx
    simp only [List.length_nil] at h3
    omega
  dsimp only
  rw [sum_const_right hall, mWeights_sum hne, one_mul]
  rw [mHeters_length (hj.split f none .cont) h1]
  simp [mSplitWeights]

/-- A split that loses no instance: on a categorical feature, or on a continuous feature without missing values. -/
def KeepsAll (cfg : MRegCfg K D) (sp : MSplit K D) : Prop := sp.typ = cfg.types sp.feature ∧ (sp.typ = .cat ∨ (¬ HasMissing cfg.data sp.feature ∧ sp.position.isSome))

theorem mSingle_keeps {m : ℕ} (hm : 1 ≤ m) {cfg : MRegCfg K D} {H : HeterMiss K D} (hH : HeterLike m H) {xs : List (List (MRow K D))} (hx : xs ≠ [])
    {js : Option (List (List (Row K D)))} (hj : EffFor xs js) {before : List K} {sp : MSplit K D} (h : mSingleLevelSplits cfg H xs js before = .ok sp) :
    KeepsAll cfg sp ∨ ((sp.typ = .cont ∧ HasMissing cfg.data sp.feature) ∧ sp.wHeter = 10 ^ 8) := by
  obtain ⟨cands, rows, hc, hr, hne, a1, a2, a3, aI, aJ, a4, a5, a6, a7, a8⟩ := mSingle_ok h
  have hps := mCandidates_get hc a1 a2
  cases ht : sp.typ with
  | cat => exact Or.inl ⟨a4, Or.inl ht⟩
  | cont =>
    rw [← a4, ht] at hps
    dsimp only at hps
    have hpm := List.mem_of_getElem? a3
    unfold mFindPositionsCont at hps
    rcases hd : cfg.data with _ | ⟨d0, dt⟩
    · rw [hd] at hps; cases hps
    rw [hd] at hps
    dsimp only at hps
    have hps' := Except.ok.inj hps
    rw [← hps'] at hpm
    obtain ⟨i, -, hi⟩ := List.mem_map.mp hpm
    by_cases hmiss : HasMissing cfg.data sp.feature
    · right
      refine ⟨⟨rfl, hd ▸ hmiss⟩, ?_⟩
      obtain ⟨r, hr, hrn⟩ := hmiss
      rw [hd] at hr
      rw [npMin_none (l := mcol (d0 :: dt) sp.feature) (List.mem_map.mpr ⟨r, hr, hrn⟩)] at hi
      rw [ht, ← hi] at a6
      exact mEval_gone hm hH hx hj a6
    · left
      refine ⟨a4, Or.inr ⟨hmiss, ?_⟩⟩
      have hk : ∀ v ∈ mcol (d0 :: dt) sp.feature, v ≠ none := by
        intro v hv hn
        obtain ⟨r, hr, hrv⟩ := List.mem_map.mp hv
        exact hmiss ⟨r, hd ▸ hr, hrv.trans hn⟩
      obtain ⟨mn, hmn⟩ := npMin_isSome hk (by simp [mcol])
      obtain ⟨mx, hmx⟩ := npMax_isSome hk (by simp [mcol])
      rw [hmn, hmx] at hi
      rw [← hi]
      rfl

/-! ### The important splits -/

/-- The levels kept: until the drop is too small for the first time. -/
def kept (thres a : K) (l : List (MSplit K D)) : List (MSplit K D) := l.take (firstFalse (splitValid thres (a :: l.map (·.wHeter))))

theorem kept_cons (thres a : K) (sp : MSplit K D) (l : List (MSplit K D)) :
    kept thres a (sp :: l) = if dropExceeds thres a sp.wHeter then sp :: kept thres sp.wHeter l else [] := by
  unfold kept
  simp only [List.map_cons, splitValid]
  cases dropExceeds thres a sp.wHeter with
  | false => simp [firstFalse]
  | true =>
    have e : ∀ v : List Bool, firstFalse (true :: v) = firstFalse v + 1 := fun v => by simp [firstFalse]
    rw [e, List.take_succ_cons]
    rfl

theorem mChoose_eq (cfg : MRegCfg K D) (s : MSplits K D) :
    mChooseImportantSplits cfg (some s) = if s.heterInit = BIG_M ∨ s.heterInit < cfg.smallEnough then [] else kept cfg.dropThres s.heterInit s.levels := by
  unfold mChooseImportantSplits kept
  simp only
  by_cases h1 : s.heterInit = BIG_M
  · rw [if_pos h1, if_pos (Or.inl h1)]
  by_cases h2 : s.heterInit < cfg.smallEnough
  · rw [if_neg h1, if_pos h2, if_pos (Or.inr h2)]
  have h3 : ¬ (s.heterInit = BIG_M ∨ s.heterInit < cfg.smallEnough) := by tauto
  rw [if_neg h1, if_neg h2, if_neg h3]
  have hlen : (splitValid cfg.dropThres (s.heterInit :: s.levels.map (·.wHeter))).length = s.levels.length := by
    rw [splitValid_length]; simp
  generalize splitValid cfg.dropThres (s.heterInit :: s.levels.map (·.wHeter)) = v at *
  by_cases c0 : v.count true = 0
  · rw [if_pos c0, firstFalse_none v c0]; simp
  rw [if_neg c0]
  by_cases c1 : v.count true = v.length
  · rw [if_pos c1, firstFalse_all v c1, hlen, List.take_length]
  rw [if_neg c1, idxOf_false v c1]
  by_cases c2 : firstFalse v = 0
  · rw [if_pos c2, c2]; simp
  · rw [if_neg c2]

theorem drop_lt {thres a b : K} (ht : 0 ≤ thres) (ha : 0 ≤ a) (hb : 0 ≤ b) (h : dropExceeds thres a b = true) : b < a := by
  unfold dropExceeds at h
  by_cases h0 : a = 0
  · rw [if_pos h0] at h
    have := of_decide_eq_true h
    exact absurd this (not_lt.mpr hb)
  · rw [if_neg h0] at h
    have h1 := of_decide_eq_true h
    have h2 : 0 < (a - b) / a := lt_of_le_of_lt ht h1
    have h3 : 0 < a := lt_of_le_of_ne ha (Ne.symm h0)
    have h4 := (div_pos_iff_of_pos_right h3).mp h2
    linarith

theorem mSplitAll_sub {data : List (MRow K D)} {xs : List (List (MRow K D))} (h : ∀ x ∈ xs, ∀ r ∈ x, r ∈ data) (f : Fin D) (pos : Option K) (typ : FeatType) :
    ∀ x ∈ mSplitAll xs f pos typ, ∀ r ∈ x, r ∈ data := by
  intro x hx r hr
  obtain ⟨y, hy, hxy⟩ := List.mem_flatMap.mp hx
  have : r ∈ y := by
    rcases List.mem_cons.mp hxy with rfl | hxy
    · exact (List.mem_filter.mp hr).1
    · rw [List.mem_singleton.mp hxy] at hr
      exact (List.mem_filter.mp hr).1
  exact h y hy r this

theorem split_perm {cfg : MRegCfg K D} {sp : MSplit K D} (hk : KeepsAll cfg sp) {x : List (MRow K D)} (hx : ∀ r ∈ x, r ∈ cfg.data) :
    ((mSplitRows x sp.feature sp.position sp.typ).1 ++ (mSplitRows x sp.feature sp.position sp.typ).2).Perm x := by
  rcases hk.2 with hc | ⟨hmiss, hpos⟩
  · rw [hc]
    exact (C112_split_cat x sp.feature sp.position).1
  · obtain ⟨p, hp⟩ := Option.isSome_iff_exists.mp hpos
    cases ht : sp.typ with
    | cat => exact (C112_split_cat x sp.feature sp.position).1
    | cont =>
      rw [hp]
      unfold mSplitRows
      have e : x.filter (fun r => mGoesSecond .cont (some p) (r sp.feature)) = x.filter (fun r => !mGoesFirst .cont (some p) (r sp.feature)) := by
        apply List.filter_congr
        intro r hr
        cases hv : r sp.feature with
        | none => exact absurd ⟨r, hx r hr, hv⟩ hmiss
        | some v => simp [mGoesFirst, mGoesSecond, ← not_lt]
      dsimp only
      rw [e]
      exact List.filter_append_perm (fun r : MRow K D => mGoesFirst .cont (some p) (r sp.feature)) x

theorem splitAll_perm {cfg : MRegCfg K D} {sp : MSplit K D} (hk : KeepsAll cfg sp) {xs : List (List (MRow K D))} (hx : ∀ x ∈ xs, ∀ r ∈ x, r ∈ cfg.data) :
    (mSplitAll xs sp.feature sp.position sp.typ).flatten.Perm xs.flatten := by
  induction xs with
  | nil => exact .refl _
  | cons x xs ih =>
    have h1 := split_perm hk (hx x (List.mem_cons_self ..))
    have h2 := ih fun y hy => hx y (List.mem_cons_of_mem _ hy)
    unfold mSplitAll at h2 ⊢
    rw [List.flatMap_cons, List.flatten_append, List.flatten_cons]
    refine List.Perm.append ?_ h2
    simpa using h1

/-- The loop: what is kept loses no instance. -/
theorem mLoop_keeps {m : ℕ} (hm : 1 ≤ m) {cfg : MRegCfg K D} (hthr : 0 ≤ cfg.dropThres) {H : HeterMiss K D} (hH : HeterLike m H) (n : ℕ) {xs : List (List (MRow K D))} (hx : xs ≠ [])
    (hsub : ∀ x ∈ xs, ∀ r ∈ x, r ∈ cfg.data) {js : Option (List (List (Row K D)))} (hj : EffFor xs js) {before : List K} {l : List (MSplit K D)} (h : mSearchLoop cfg H n xs js before = .ok l)
    {a : K} (ha : 0 ≤ a) (hb : a ≤ 10 ^ 8) :
    (∀ sp ∈ kept cfg.dropThres a l, KeepsAll cfg sp) ∧
      ∀ k, (((kept cfg.dropThres a l).take k).foldl (fun xs sp => mSplitAll xs sp.feature sp.position sp.typ) xs).flatten.Perm xs.flatten := by
  induction n generalizing xs js before l a with
  | zero =>
    obtain rfl := Except.ok.inj h
    exact ⟨by simp [kept], by simp [kept]⟩
  | succ n ih =>
    unfold mSearchLoop at h
    by_cases hs : xs.any (fun x => decide (x.length < cfg.minPoints)) = true
    · rw [if_pos hs] at h
      obtain rfl := Except.ok.inj h
      exact ⟨by simp [kept], by simp [kept]⟩
    rw [if_neg hs] at h
    simp only [bind, Except.bind, pure, Except.pure] at h
    rcases e1 : mSingleLevelSplits cfg H xs js before with e | sp
    · rw [e1] at h; cases h
    rw [e1] at h
    simp only at h
    rcases e3 : mSearchLoop cfg H n (mSplitAll xs sp.feature sp.position sp.typ) (js.map fun js => mSplitAllEff xs js sp.feature sp.position sp.typ) sp.heterogeneity with e | rest
    · rw [e3] at h; cases h
    rw [e3] at h
    obtain rfl := Except.ok.inj h
    rw [kept_cons]
    cases hd : dropExceeds cfg.dropThres a sp.wHeter with
    | false => exact ⟨by simp, by simp⟩
    | true =>
      rw [if_pos rfl]
      obtain ⟨-, -, -, -, -, -, -, -, -, -, -, -, a6, -⟩ := mSingle_ok e1
      have hw : 0 ≤ sp.wHeter := mEval_nonneg hH a6
      have hlt := drop_lt hthr ha hw hd
      have hk : KeepsAll cfg sp := by
        rcases mSingle_keeps hm hH hx hj e1 with hk | ⟨-, hbad⟩
        · exact hk
        · rw [hbad] at hlt
          exact absurd (lt_of_lt_of_le hlt hb) (lt_irrefl _)
      have hne : mSplitAll xs sp.feature sp.position sp.typ ≠ [] := by
        intro h0
        have h3 := length_mSplitAll xs sp.feature sp.position sp.typ
        rw [h0] at h3
        have h4 := List.length_pos_of_ne_nil hx
        simp only [List.length_nil] at h3
        omega
      obtain ⟨i1, i2⟩ := ih hne (mSplitAll_sub hsub _ _ _) (hj.split _ _ _) e3 hw (hlt.le.trans hb)
      refine ⟨?_, ?_⟩
      · intro s hs
        rcases List.mem_cons.mp hs with rfl | hs
        · exact hk
        · exact i1 s hs
      · intro k
        cases k with
        | zero => simp
        | succ k =>
          rw [List.take_succ_cons, List.foldl_cons]
          exact (i2 k).trans (splitAll_perm hk hsub)

theorem mSearch_ok {cfg : MRegCfg K D} {H : HeterMiss K D} {s : MSplits K D} (h : mSearchAllSplits cfg H = .ok (some s)) :
    H cfg.data cfg.dataEffect = .ok s.heterInit ∧ mSearchLoop cfg H cfg.maxLevels [cfg.data] (cfg.dataEffect.map fun e => [e]) [s.heterInit] = .ok s.levels := by
  unfold mSearchAllSplits at h
  by_cases c1 : cfg.types cfg.feature = .cat ∧ cfg.splitCat = false
  · rw [if_pos c1] at h; cases h
  rw [if_neg c1] at h
  by_cases c2 : cfg.foc.length < cfg.maxLevels
  · rw [if_pos c2] at h; cases h
  rw [if_neg c2] at h
  simp only [bind, Except.bind, pure, Except.pure] at h
  rcases k1 : H cfg.data cfg.dataEffect with e | h0
  · rw [k1] at h; cases h
  rw [k1] at h
  simp only at h
  rcases e1 : mSearchLoop cfg H cfg.maxLevels [cfg.data] (cfg.dataEffect.map fun e => [e]) [h0] with e | l
  · rw [e1] at h; cases h
  rw [e1] at h
  dsimp only at h
  by_cases hl : l = []
  · rw [if_pos hl] at h; cases h
  rw [if_neg hl] at h
  obtain rfl := Option.some.inj (Except.ok.inj h)
  exact ⟨rfl, e1⟩

theorem effFor_root (data : List (MRow K D)) (e : Option (List (Row K D))) : EffFor [data] (e.map fun e => [e]) := by
  intro l hl
  cases e with
  | none => cases hl
  | some e =>
    obtain rfl := Option.some.inj hl
    simp

/-- **C116, no instance is lost.**  Data with missing values anywhere.  At every depth of the pruned tree the regions together contain every instance exactly as often as the data set does; and
no reported split is on a continuous feature with a missing value.  (`H` is any heterogeneity function that answers `BIG_M` on regions that are too small and is never negative; the heterogeneity
of the whole data set is at most `BIG_M`.) -/
theorem C116_no_instance_lost (cfg : MRegCfg K D) (hthr : 0 ≤ cfg.dropThres) (hm : 1 ≤ cfg.minPoints) (H : HeterMiss K D) (hH : HeterLike cfg.minPoints H)
    (hroot : ∀ v, H cfg.data cfg.dataEffect = .ok v → v ≤ 10 ^ 8) (s : Option (MSplits K D)) (hs : mSearchAllSplits cfg H = .ok s) :
    (∀ k, (mRegions cfg.data ((mChooseImportantSplits cfg s).take k)).flatten.Perm cfg.data) ∧
      ∀ sp ∈ mChooseImportantSplits cfg s, cfg.types sp.feature = .cont → (∀ r ∈ cfg.data, (r sp.feature).isSome) ∧ sp.position.isSome := by
  cases s with
  | none => exact ⟨by simp [mChooseImportantSplits, mRegions], by simp [mChooseImportantSplits]⟩
  | some s =>
    obtain ⟨h1, h2⟩ := mSearch_ok hs
    obtain ⟨k1, k2⟩ := mLoop_keeps hm hthr hH cfg.maxLevels (by simp) (by simp) (effFor_root _ _) h2 (hH.nonneg _ _ _ h1) (hroot _ h1)
    rw [mChoose_eq]
    by_cases hc : s.heterInit = BIG_M ∨ s.heterInit < cfg.smallEnough
    · rw [if_pos hc]
      exact ⟨by simp [mRegions], by simp⟩
    rw [if_neg hc]
    refine ⟨fun k => by simpa [mRegions] using k2 k, ?_⟩
    intro sp hsp ht
    obtain ⟨h3, h4⟩ := k1 sp hsp
    rcases h4 with h4 | ⟨h4, h5⟩
    · rw [h3, ht] at h4; cases h4
    · refine ⟨?_, h5⟩
      intro r hr
      cases hv : r sp.feature with
      | some v => rfl
      | none => exact absurd ⟨r, hr, hv⟩ h4

end Effector
