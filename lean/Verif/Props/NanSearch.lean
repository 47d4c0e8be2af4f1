import Verif.Model.NanSearch
import Verif.Props.NanOutputPdp
import Verif.Props.Partition
import Verif.Props.Tree
import Verif.Props.RegionalCost

/-!
# C115: heterogeneities that are NaN
-/

set_option linter.unusedSectionVars false

namespace Effector

variable {K : Type} [Field K] [LinearOrder K] [IsStrictOrderedRing K] {D : ℕ}

open Spec

namespace Spec

/-- The split of the search without NaN, in the type of the search with NaN. -/
def asNSplit (s : Split K D) : NSplit K D :=
  { feature := s.feature, position := s.position, range := s.range, candidates := s.candidates, nofInstances := s.nofInstances, typ := s.typ,
    heterogeneity := s.heterogeneity.map some, splitI := s.splitI, splitJ := s.splitJ, wHeterDrop := some s.wHeterDrop, wHeter := some s.wHeter }

/-- `hN` answers like `h` for every region, except that some of its answers are NaN. -/
def HeterNanOr (hN : HeterN K D) (h : HeterM K D) : Prop := ∀ x e, NanPyRel NanOr (hN x e) (h x e)

end Spec

/-! ### Choosing the important splits -/

theorem nSplitValid_length (thres : K) (l : List (Option K)) : (nSplitValid thres l).length = l.length - 1 := by
  induction l with
  | nil => rfl
  | cons a t ih =>
    cases t with
    | nil => rfl
    | cons b t => simp only [nSplitValid, List.length_cons] at ih ⊢; omega

theorem nChoose_eq (cfg : RegCfg K D) (s : NSplits K D) (h1 : s.heterInit ≠ some BIG_M) (h2 : nanLt s.heterInit (some cfg.smallEnough) = false) :
    nChooseImportantSplits cfg (some s) = s.levels.take (firstFalse (nSplitValid cfg.dropThres (s.heterInit :: s.levels.map (·.wHeter)))) := by
  have hlen : (nSplitValid cfg.dropThres (s.heterInit :: s.levels.map (·.wHeter))).length = s.levels.length := by
    rw [nSplitValid_length]; simp
  unfold nChooseImportantSplits
  simp only
  rw [if_neg h1, if_neg (by rw [h2]; simp)]
  generalize nSplitValid cfg.dropThres (s.heterInit :: s.levels.map (·.wHeter)) = v at *
  by_cases c0 : v.count true = 0
  · rw [if_pos c0, firstFalse_none v c0]; simp
  rw [if_neg c0]
  by_cases c1 : v.count true = v.length
  · rw [if_pos c1, firstFalse_all v c1, hlen, List.take_length]
  rw [if_neg c1, idxOf_false v c1]
  by_cases c2 : firstFalse v = 0
  · rw [if_pos c2, c2]; simp
  · rw [if_neg c2]

/-- Level by level the same splits, up to the first level whose weighted heterogeneity is NaN. -/
inductive LevelsRel : List (NSplit K D) → List (Split K D) → Prop
  | nil : LevelsRel [] []
  | same {s : Split K D} {l : List (NSplit K D)} {l' : List (Split K D)} : LevelsRel l l' → LevelsRel (asNSplit s :: l) (s :: l')
  | gone {n : NSplit K D} {s : Split K D} {l : List (NSplit K D)} {l' : List (Split K D)} : n.wHeter = none → LevelsRel (n :: l) (s :: l')

theorem nKeep_prefix (thres : K) {l : List (NSplit K D)} {l' : List (Split K D)} (h : LevelsRel l l') (a : K) :
    ∃ k, l.take (firstFalse (nSplitValid thres (some a :: l.map (·.wHeter)))) =
      ((l'.take (firstFalse (splitValid thres (a :: l'.map (·.wHeter))))).take k).map asNSplit := by
  induction h generalizing a with
  | nil => exact ⟨0, by simp⟩
  | gone hn => exact ⟨0, by simp [nSplitValid, hn, nDropExceeds, firstFalse]⟩
  | @same s l l' _ ih =>
    obtain ⟨k, hk⟩ := ih s.wHeter
    simp only [List.map_cons, nSplitValid, splitValid, asNSplit, nDropExceeds] at hk ⊢
    cases dropExceeds thres a s.wHeter with
    | false => exact ⟨0, by simp [firstFalse]⟩
    | true =>
      refine ⟨k + 1, ?_⟩
      have e : ∀ v : List Bool, firstFalse (true :: v) = firstFalse v + 1 := fun v => by simp [firstFalse]
      rw [e, e, List.take_succ_cons, List.take_succ_cons, List.take_succ_cons, List.map_cons, hk]
      rfl

theorem nChoose_prefix (cfg : RegCfg K D) (sN : NSplits K D) (s : Splits K D) (h0 : NanOr sN.heterInit s.heterInit) (hl : sN.heterInit ≠ none → LevelsRel sN.levels s.levels) :
    ∃ k, nChooseImportantSplits cfg (some sN) = ((chooseImportantSplits cfg (some s)).take k).map asNSplit := by
  rcases h0 with h0 | h0
  · refine ⟨0, ?_⟩
    rw [nChoose_eq cfg sN (by rw [h0]; simp) (by rw [h0]; rfl), h0]
    have : firstFalse (nSplitValid cfg.dropThres (none :: sN.levels.map (·.wHeter))) = 0 := by
      cases sN.levels with
      | nil => rfl
      | cons a t => simp [nSplitValid, nDropExceeds, firstFalse]
    rw [this]
    simp
  · by_cases c1 : s.heterInit = BIG_M
    · exact ⟨0, by simp [nChooseImportantSplits, h0, c1]⟩
    by_cases c2 : s.heterInit < cfg.smallEnough
    · exact ⟨0, by simp [nChooseImportantSplits, h0, nanLt, c2]⟩
    rw [nChoose_eq cfg sN (by rw [h0]; simpa using c1) (by rw [h0]; simpa [nanLt] using c2), choose_eq cfg s c1 (not_lt.mp c2), h0]
    exact nKeep_prefix _ (hl (by rw [h0]; simp)) _

/-! ### Weighted sums -/

theorem nWeighted_numbers (a w : List K) : nWeighted (a.map some) w = some (List.zipWith (· * ·) a w).sum := by
  unfold nWeighted
  have e : List.zipWith (fun (x : Option K) (w : K) => x.map (· * w)) (a.map some) w = (List.zipWith (· * ·) a w).map some := by
    rw [List.zipWith_map_left, List.map_zipWith]
    rfl
  rw [e, nanSum_known, known_some, if_neg (fun h => by obtain ⟨x, _, hx⟩ := List.mem_map.mp h; cases hx)]

theorem nWeighted_none_iff (a : List (Option K)) (w : List K) : nWeighted a w = none ↔ ∃ i, i < w.length ∧ a[i]? = some none := by
  unfold nWeighted
  rw [nanSum_known]
  constructor
  · intro h
    split_ifs at h with hm
    obtain ⟨i, hi, he⟩ := List.mem_iff_getElem.mp hm
    rw [List.length_zipWith] at hi
    rw [List.getElem_zipWith] at he
    refine ⟨i, by omega, ?_⟩
    rw [List.getElem?_eq_getElem (by omega)]
    congr 1
    exact Option.map_eq_none_iff.mp he
  · rintro ⟨i, hi, he⟩
    have hia : i < a.length := by
      by_contra hc
      rw [List.getElem?_eq_none (by omega)] at he
      simp at he
    rw [List.getElem?_eq_getElem hia] at he
    have he' : a[i] = none := by simpa using he
    rw [if_pos]
    refine List.mem_iff_getElem.mpr ⟨i, by rw [List.length_zipWith]; omega, ?_⟩
    rw [List.getElem_zipWith, he']
    rfl

/-- The weighted drop is NaN: so is the weighted heterogeneity, if the parents' heterogeneities are numbers. -/
theorem nDrop_none {before : List (Option K)} (hb : none ∉ before) {sub : List (Option K)} {w : List K} (h : nWeighted (nHeterDrops before sub) w = none) : nWeighted sub w = none := by
  rw [nWeighted_none_iff] at h ⊢
  obtain ⟨i, hi, he⟩ := h
  refine ⟨i, hi, ?_⟩
  unfold nHeterDrops at he
  rw [List.getElem?_zipWith] at he
  cases h1 : (before.flatMap fun h => [h, h])[i]? with
  | none => rw [h1] at he; simp at he
  | some b =>
    cases h2 : sub[i]? with
    | none => rw [h1, h2] at he; simp at he
    | some s =>
      rw [h1, h2] at he
      have hbm := List.mem_of_getElem? h1
      obtain ⟨x, hx, hx2⟩ := List.mem_flatMap.mp hbm
      have : b = x := by simpa using hx2
      subst this
      cases b with
      | none => exact absurd hx hb
      | some b =>
        cases s with
        | none => rfl
        | some s => simp [nanSub] at he

/-- Conversely, a NaN part makes the drop NaN. -/
theorem nDrop_of_none {before : List (Option K)} {sub : List (Option K)} {w : List K} (hl : sub.length ≤ 2 * before.length) (hw : sub.length ≤ w.length) (h : none ∈ sub) :
    nWeighted (nHeterDrops before sub) w = none := by
  rw [nWeighted_none_iff]
  obtain ⟨i, hi, he⟩ := List.mem_iff_getElem.mp h
  refine ⟨i, by omega, ?_⟩
  unfold nHeterDrops
  have hi2 : i < (before.flatMap fun h => [h, h]).length := by
    have : (before.flatMap fun h => [h, h]).length = 2 * before.length := by
      rw [List.length_flatMap]; simp; ring
    omega
  rw [List.getElem?_zipWith, List.getElem?_eq_getElem hi2, List.getElem?_eq_getElem hi, he]
  generalize (before.flatMap fun h => [h, h])[i] = b
  cases b <;> rfl

theorem nHeterDrops_numbers (before sub : List K) : nHeterDrops (before.map some) (sub.map some) = (heterDrops before sub).map some := by
  unfold nHeterDrops heterDrops
  have e : ((before.map some).flatMap fun h => [h, h]) = (before.flatMap fun h => [h, h]).map some := by
    rw [List.flatMap_map, List.map_flatMap]
    rfl
  rw [e, List.zipWith_map, List.map_zipWith]
  rfl

/-! ### One level -/

theorem Spec.RowNanOr.sum {a : List (Option K)} {b : List K} (h : RowNanOr a b) : NanOr (nanSum a) b.sum := by
  rw [nanSum_known]
  by_cases hn : none ∈ a
  · rw [if_pos hn]; exact Or.inl rfl
  · rw [if_neg hn, h.number hn, known_some]; exact Or.inr rfl

theorem Spec.RowNanOr.weighted {a : List (Option K)} {b : List K} (h : RowNanOr a b) (w : List K) : NanOr (nWeighted a w) (List.zipWith (· * ·) b w).sum := by
  refine RowNanOr.sum ?_
  induction h generalizing w with
  | nil => exact .nil
  | cons h1 _ ih =>
    cases w with
    | nil => exact .nil
    | cons x w => exact .cons (h1.map _) (ih w)

theorem rowNanOr_some (l : List K) : RowNanOr (l.map some) l := by
  induction l with
  | nil => exact .nil
  | cons a t ih => exact .cons (Or.inr rfl) ih

theorem forall2_refl {α : Type} (l : List α) : List.Forall₂ (fun a b => a = b) l l := by
  induction l with
  | nil => exact .nil
  | cons a t ih => exact .cons rfl ih

theorem mapM_rel_same {α γ δ : Type} {S : γ → δ → Prop} {f : α → Py γ} {g : α → Py δ} (hfg : ∀ x, NanPyRel S (f x) (g x)) (l : List α) :
    NanPyRel (List.Forall₂ S) (l.mapM f) (l.mapM g) :=
  mapM_rel (R := fun a b => a = b) (fun x y h => by subst h; exact hfg x) (forall2_refl l)

theorem nHeters_rel {hN : HeterN K D} {h : HeterM K D} (hh : HeterNanOr hN h) (xs : List (List (Row K D))) (js : Option (List (List (Row K D)))) :
    NanPyRel RowNanOr (nHeters hN xs js) (hetersM h xs js) := by
  cases js with
  | none => exact mapM_rel_same (fun x => hh x none) xs
  | some js => exact mapM_rel_same (fun p => hh p.1 (some p.2)) (xs.zip js)

theorem nEvalCandidate_rel {hN : HeterN K D} {h : HeterM K D} (hh : HeterNanOr hN h) (xs : List (List (Row K D))) (js : Option (List (List (Row K D)))) (before : List K) (f : Fin D)
    (pos : K) (typ : FeatType) :
    NanPyRel (fun p q => NanOr p.1 q.1 ∧ NanOr p.2 q.2) (nEvalCandidate hN xs js (before.map some) f pos typ) (evalCandidateM h xs js before f pos typ) := by
  unfold nEvalCandidate evalCandidateM
  simp only [bind, Except.bind, pure, Except.pure]
  rcases nHeters_rel hh (splitAll xs f pos typ) (js.map fun js => splitAllEff xs js f pos typ) with ⟨e, h1, h2⟩ | ⟨a, b, h1, h2, h3⟩
  · rw [h1, h2]; exact Or.inl ⟨_, rfl, rfl⟩
  · rw [h1, h2]
    refine Or.inr ⟨_, _, rfl, rfl, ?_, ?_⟩
    · refine RowNanOr.weighted ?_ _
      refine RowNanOr.zipWith ?_ h3 fun _ _ _ _ k1 k2 => k1.sub k2
      have e : ((before.map some).flatMap fun h => [h, h]) = (before.flatMap fun h => [h, h]).map some := by
        rw [List.flatMap_map, List.map_flatMap]
        rfl
      rw [e]
      exact rowNanOr_some _
    · have := h3.weighted (splitWeights (splitAll xs f pos typ))
      show NanOr (nWeighted a _) (List.zipWith (· * ·) _ b).sum
      rw [List.zipWith_comm_of_comm fun x y => mul_comm x y]
      exact this

theorem nMatrixRow_rel {hN : HeterN K D} {h : HeterM K D} (hh : HeterNanOr hN h) (w : ℕ) (xs : List (List (Row K D))) (js : Option (List (List (Row K D)))) (before : List K) (f : Fin D)
    (typ : FeatType) (ps : List K) :
    NanPyRel RowNanOr (nMatrixRow hN w xs js (before.map some) f typ ps) (matrixRowM h w xs js before f typ ps) := by
  unfold nMatrixRow matrixRowM
  simp only [bind, Except.bind]
  rcases mapM_rel_same (fun pos => nEvalCandidate_rel hh xs js before f pos typ) ps with ⟨e, h1, h2⟩ | ⟨a, b, h1, h2, h3⟩
  · rw [h1, h2]; exact Or.inl ⟨_, rfl, rfl⟩
  · rw [h1, h2]
    have hr : RowNanOr (a.map (·.1)) (b.map (·.1)) := rows_map h3 fun x y hxy => hxy.1
    unfold nPadRow padRow
    simp only []
    rw [List.Forall₂.length_eq hr]
    split_ifs
    · refine Or.inr ⟨_, _, rfl, rfl, ?_⟩
      refine List.rel_append hr ?_
      generalize w - (b.map (·.1)).length = n
      induction n with
      | zero => exact .nil
      | succ n ih => exact .cons (Or.inr rfl) ih
    · exact Or.inl ⟨_, rfl, rfl⟩

/-- What a successful `single_level_splits` returns. -/
theorem nSingle_ok {cfg : RegCfg K D} {hN : HeterN K D} {xs : List (List (Row K D))} {js : Option (List (List (Row K D)))} {before : List (Option K)} {sp : NSplit K D}
    (h : nSingleLevelSplits cfg hN xs js before = .ok sp) :
    ∃ cands rows mn mx, candidatePositions cfg = .ok cands ∧
      ((cfg.foc.zip cands).mapM fun p => nMatrixRow hN (max cfg.nofSplits cfg.catLimit) xs js before p.1 (cfg.types p.1) p.2) = .ok rows ∧ rows.flatten ≠ [] ∧
      cfg.foc[sp.splitI]? = some sp.feature ∧ cands[sp.splitI]? = some sp.candidates ∧ sp.candidates[sp.splitJ]? = some sp.position ∧
      sp.splitI = nArgmax rows.flatten / max cfg.nofSplits cfg.catLimit ∧ sp.splitJ = nArgmax rows.flatten % max cfg.nofSplits cfg.catLimit ∧
      sp.typ = cfg.types sp.feature ∧
      nHeters hN (splitAll xs sp.feature sp.position sp.typ) (js.map fun js => splitAllEff xs js sp.feature sp.position sp.typ) = .ok sp.heterogeneity ∧
      nEvalCandidate hN xs js before sp.feature sp.position sp.typ = .ok (sp.wHeterDrop, sp.wHeter) ∧
      sp.nofInstances = (splitAll xs sp.feature sp.position sp.typ).map List.length ∧ sp.range = (mn, mx) ∧
      listMin (col cfg.data sp.feature) = .ok mn ∧ listMax (col cfg.data sp.feature) = .ok mx := by
  unfold nSingleLevelSplits at h
  simp only [bind, Except.bind, pure, Except.pure] at h
  rcases hc : candidatePositions cfg with e | cands
  · rw [hc] at h; cases h
  rw [hc] at h
  simp only at h
  rcases hr : ((cfg.foc.zip cands).mapM fun p => nMatrixRow hN (max cfg.nofSplits cfg.catLimit) xs js before p.1 (cfg.types p.1) p.2) with e | rows
  · rw [hr] at h; cases h
  rw [hr] at h
  simp only at h
  by_cases hne : rows.flatten = []
  · rw [if_pos hne] at h; cases h
  rw [if_neg hne] at h
  rcases h1 : pyIndex cfg.foc (nArgmax rows.flatten / max cfg.nofSplits cfg.catLimit) with e | f
  · rw [h1] at h; cases h
  rw [h1] at h
  simp only at h
  rcases h2 : pyIndex cands (nArgmax rows.flatten / max cfg.nofSplits cfg.catLimit) with e | ps
  · rw [h2] at h; cases h
  rw [h2] at h
  simp only at h
  rcases h3 : pyIndex ps (nArgmax rows.flatten % max cfg.nofSplits cfg.catLimit) with e | pos
  · rw [h3] at h; cases h
  rw [h3] at h
  simp only at h
  rcases h6 : nHeters hN (splitAll xs f pos (cfg.types f)) (js.map fun js => splitAllEff xs js f pos (cfg.types f)) with e | sub
  · rw [h6] at h; cases h
  rw [h6] at h
  simp only at h
  rcases h4 : listMin (col cfg.data f) with e | mn
  · rw [h4] at h; cases h
  rw [h4] at h
  simp only at h
  rcases h5 : listMax (col cfg.data f) with e | mx
  · rw [h5] at h; cases h
  rw [h5] at h
  simp only at h
  rcases h7 : nEvalCandidate hN xs js before f pos (cfg.types f) with e | q
  · rw [h7] at h; cases h
  rw [h7] at h
  simp only [Except.ok.injEq] at h
  have pi : ∀ {α : Type} {l : List α} {i : ℕ} {a : α}, pyIndex l i = .ok a → l[i]? = some a := by
    intro α l i a h
    unfold pyIndex at h
    rcases he : l[i]? with _ | b
    · rw [he] at h; cases h
    · rw [he] at h; simpa using h
  subst h
  exact ⟨cands, rows, mn, mx, rfl, hr, hne, pi h1, pi h2, pi h3, rfl, rfl, rfl, h6, h7, rfl, rfl, h4, h5⟩

/-- The matrix: the value of every candidate is in it, and a NaN in it is the value of a candidate. -/
theorem nMatrix_get {cfg : RegCfg K D} {hN : HeterN K D} {xs : List (List (Row K D))} {js : Option (List (List (Row K D)))} {before : List (Option K)} {cands : List (List K)}
    {rows : List (List (Option K))} (hc : candidatePositions cfg = .ok cands)
    (hr : ((cfg.foc.zip cands).mapM fun p => nMatrixRow hN (max cfg.nofSplits cfg.catLimit) xs js before p.1 (cfg.types p.1) p.2) = .ok rows) (a : ℕ) (f : Fin D) (ps : List K) (j : ℕ) (pos : K)
    (ha : cfg.foc[a]? = some f) (hps : cands[a]? = some ps) (hj : ps[j]? = some pos) :
    ∃ q, nEvalCandidate hN xs js before f pos (cfg.types f) = .ok q ∧ rows.flatten[a * max cfg.nofSplits cfg.catLimit + j]? = some q.1 := by
  have hlc : cands.length = cfg.foc.length := mapM_len hc
  have hrow : ∀ (a : ℕ) f ps, cfg.foc[a]? = some f → cands[a]? = some ps → ∃ r, rows[a]? = some r ∧ r.length = max cfg.nofSplits cfg.catLimit ∧
      ps.length ≤ max cfg.nofSplits cfg.catLimit ∧
      ∀ (j : ℕ) pos, ps[j]? = some pos → ∃ q, nEvalCandidate hN xs js before f pos (cfg.types f) = .ok q ∧ r[j]? = some q.1 := by
    intro a f ps ha hps
    obtain ⟨r, hr1, hr2⟩ := mapM_sub hr a (f, ps) (by rw [List.getElem?_zip_eq_some]; exact ⟨ha, hps⟩)
    unfold nMatrixRow at hr1
    simp only [bind, Except.bind] at hr1
    rcases hv : (ps.mapM fun pos => nEvalCandidate hN xs js before f pos (cfg.types f)) with e | vals
    · rw [hv] at hr1; cases hr1
    rw [hv] at hr1
    have hvl := mapM_len hv
    unfold nPadRow at hr1
    simp only [List.length_map] at hr1
    split_ifs at hr1 with hle
    simp only [Except.ok.injEq] at hr1
    subst hr1
    refine ⟨_, hr2, ?_, by omega, ?_⟩
    · simp; omega
    · intro j pos hj
      obtain ⟨q, hq1, hq2⟩ := mapM_sub hv j pos hj
      have hlt := (List.getElem?_eq_some_iff.mp hq2).1
      refine ⟨q, hq1, ?_⟩
      rw [List.getElem?_append_left (by simpa using hlt), List.getElem?_map, hq2]
      rfl
  have hw : ∀ r ∈ rows, r.length = max cfg.nofSplits cfg.catLimit := by
    intro r hr'
    obtain ⟨a, ha⟩ := List.getElem?_of_mem hr'
    have hlt := (List.getElem?_eq_some_iff.mp ha).1
    have hll := mapM_len hr
    rw [List.length_zip, hlc, Nat.min_self] at hll
    obtain ⟨r', h9, h10, -⟩ := hrow a (cfg.foc[a]'(by omega)) (cands[a]'(by omega)) (List.getElem?_eq_getElem _) (List.getElem?_eq_getElem _)
    rw [ha] at h9
    rw [Option.some.inj h9, h10]
  obtain ⟨r, hr1, hr2, hr3, hr4⟩ := hrow a f ps ha hps
  have hlt := (List.getElem?_eq_some_iff.mp hj).1
  obtain ⟨q, hq1, hq2⟩ := hr4 j pos hj
  exact ⟨q, hq1, by rw [flatten_get _ rows hw a j r hr1 (by omega), hq2]⟩

/-- If one candidate of the level has a NaN drop, so has the chosen one. -/
theorem nSingle_nan {cfg : RegCfg K D} {hN : HeterN K D} {xs : List (List (Row K D))} {js : Option (List (List (Row K D)))} {before : List (Option K)} {sp : NSplit K D}
    (h : nSingleLevelSplits cfg hN xs js before = .ok sp) {cands : List (List K)} {rows : List (List (Option K))} (hc : candidatePositions cfg = .ok cands)
    (hr : ((cfg.foc.zip cands).mapM fun p => nMatrixRow hN (max cfg.nofSplits cfg.catLimit) xs js before p.1 (cfg.types p.1) p.2) = .ok rows) (hn : none ∈ rows.flatten) :
    sp.wHeterDrop = none := by
  obtain ⟨cands', rows', mn, mx, hc', hr', -, h1, h2, h3, hI, hJ, ht, -, he, -⟩ := nSingle_ok h
  rw [hc] at hc'
  obtain rfl := Except.ok.inj hc'
  rw [hr] at hr'
  obtain rfl := Except.ok.inj hr'
  obtain ⟨q, hq1, hq2⟩ := nMatrix_get hc hr _ _ _ _ _ h1 h2 h3
  rw [hI, hJ, Nat.div_add_mod'] at hq2
  have hidx : rows.flatten[nArgmax rows.flatten]? = some none := by
    unfold nArgmax
    rw [if_pos hn]
    have hlt := List.idxOf_lt_length_of_mem hn
    rw [List.getElem?_eq_getElem hlt, List.getElem_idxOf]
  rw [hidx] at hq2
  rw [ht, hq1] at he
  have := Except.ok.inj he
  rw [this] at hq2
  exact (Option.some.inj hq2).symm

theorem nHeters_length {hN : HeterN K D} {xs : List (List (Row K D))} {js : Option (List (List (Row K D)))} {sub : List (Option K)} (h : nHeters hN xs js = .ok sub) : sub.length ≤ xs.length := by
  unfold nHeters at h
  cases js with
  | none => exact (mapM_len h).le
  | some js =>
    rw [mapM_len h, List.length_zip]
    exact min_le_left _ _

theorem length_splitWeights (xs : List (List (Row K D))) : (splitWeights xs : List K).length = xs.length := by
  simp [splitWeights]

/-- One level: the same split as without NaN, or a weighted heterogeneity that is NaN. -/
theorem nSingle_rel {cfg : RegCfg K D} {hN : HeterN K D} {h : HeterM K D} (hh : HeterNanOr hN h) {xs : List (List (Row K D))} {js : Option (List (List (Row K D)))} {before : List K}
    {spN : NSplit K D} {sp : Split K D} (h1 : nSingleLevelSplits cfg hN xs js (before.map some) = .ok spN) (h2 : singleLevelSplitsM cfg h xs js before = .ok sp) :
    spN = asNSplit sp ∨ spN.wHeter = none := by
  have h10 := h1
  obtain ⟨cands, rows, mn, mx, hc, hr, hne, a1, a2, a3, aI, aJ, a4, a5, a6, a7, a8, a9, a10⟩ := nSingle_ok h1
  by_cases hn : none ∈ rows.flatten
  · right
    have hd := nSingle_nan h10 hc hr hn
    unfold nEvalCandidate at a6
    simp only [bind, Except.bind, a5, pure, Except.pure, Except.ok.injEq, Prod.mk.injEq] at a6
    rw [hd] at a6
    rw [← a6.2]
    refine nDrop_none ?_ a6.1
    simp
  · by_cases hs : none ∈ spN.heterogeneity
    · right
      unfold nEvalCandidate at a6
      simp only [bind, Except.bind, a5, pure, Except.pure, Except.ok.injEq, Prod.mk.injEq] at a6
      rw [← a6.2, nWeighted_none_iff]
      obtain ⟨i, hi⟩ := List.getElem?_of_mem hs
      refine ⟨i, ?_, hi⟩
      have hl := nHeters_length a5
      have := (List.getElem?_eq_some_iff.mp hi).1
      rw [length_splitWeights]
      omega
    · left
      unfold singleLevelSplitsM at h2
      simp only [bind, Except.bind, pure, Except.pure, hc] at h2
      rcases mapM_rel_same (fun p : Fin D × List K => nMatrixRow_rel hh (max cfg.nofSplits cfg.catLimit) xs js before p.1 (cfg.types p.1) p.2) (cfg.foc.zip cands) with ⟨e, k1, k2⟩ | ⟨a, b, k1, k2, k3⟩
      · rw [k1] at hr; cases hr
      rw [k1] at hr
      obtain rfl := Except.ok.inj hr
      have hflat : RowNanOr a.flatten b.flatten := List.rel_flatten k3
      have hfe := hflat.number hn
      have hne2 : b.flatten ≠ [] := by
        intro h0
        rw [h0] at hfe
        exact hne hfe
      have harg : nArgmax a.flatten = npArgmax b.flatten := by
        unfold nArgmax
        rw [if_neg hn, hfe, known_some]
      rw [harg] at aI aJ
      rw [k2] at h2
      simp only [if_neg hne2, ← aI, ← aJ, pyIndex_ok a1, pyIndex_ok a2, pyIndex_ok a3, a9, a10, ← a4] at h2
      rcases nHeters_rel hh (splitAll xs spN.feature spN.position spN.typ) (js.map fun js => splitAllEff xs js spN.feature spN.position spN.typ) with ⟨e, m1, m2⟩ | ⟨x, y, m1, m2, m3⟩
      · rw [m1] at a5; cases a5
      rw [m1] at a5
      obtain rfl := Except.ok.inj a5
      have hsub := m3.number hs
      unfold evalCandidateM at h2
      simp only [bind, Except.bind, pure, Except.pure, m2, Except.ok.injEq] at h2
      unfold nEvalCandidate at a6
      simp only [bind, Except.bind, m1, pure, Except.pure, Except.ok.injEq, Prod.mk.injEq] at a6
      rw [hsub, nHeterDrops_numbers, nWeighted_numbers, nWeighted_numbers] at a6
      subst h2
      obtain ⟨b1, b2⟩ := a6
      cases spN with
      | mk feature position range candidates nofInstances typ heterogeneity splitI splitJ wHeterDrop wHeter =>
        simp only at b1 b2 hsub a7 a8 ⊢
        subst b1 b2 hsub a7 a8
        simp only [asNSplit, NSplit.mk.injEq, true_and, Option.some.injEq]
        rw [List.zipWith_comm_of_comm fun x y => mul_comm x y]

/-! ### The whole search -/

theorem nLoop_rel {cfg : RegCfg K D} {hN : HeterN K D} {h : HeterM K D} (hh : HeterNanOr hN h) (n : ℕ) {xs : List (List (Row K D))} {js : Option (List (List (Row K D)))} {before : List K}
    {lN : List (NSplit K D)} {l : List (Split K D)} (h1 : nSearchLoop cfg hN n xs js (before.map some) = .ok lN) (h2 : searchLoopM cfg h n xs js before = .ok l) : LevelsRel lN l := by
  induction n generalizing xs js before lN l with
  | zero =>
    obtain rfl := Except.ok.inj h1
    obtain rfl := Except.ok.inj h2
    exact .nil
  | succ n ih =>
    unfold nSearchLoop at h1
    unfold searchLoopM at h2
    by_cases hs : xs.any (fun x => decide (x.length < cfg.minPoints)) = true
    · rw [if_pos hs] at h1 h2
      obtain rfl := Except.ok.inj h1
      obtain rfl := Except.ok.inj h2
      exact .nil
    rw [if_neg hs] at h1 h2
    simp only [bind, Except.bind, pure, Except.pure] at h1 h2
    rcases e1 : nSingleLevelSplits cfg hN xs js (before.map some) with e | spN
    · rw [e1] at h1; cases h1
    rcases e2 : singleLevelSplitsM cfg h xs js before with e | sp
    · rw [e2] at h2; cases h2
    rw [e1] at h1
    rw [e2] at h2
    simp only at h1 h2
    rcases e3 : nSearchLoop cfg hN n (splitAll xs spN.feature spN.position spN.typ) (js.map fun js => splitAllEff xs js spN.feature spN.position spN.typ) spN.heterogeneity with e | restN
    · rw [e3] at h1; cases h1
    rcases e4 : searchLoopM cfg h n (splitAll xs sp.feature sp.position sp.typ) (js.map fun js => splitAllEff xs js sp.feature sp.position sp.typ) sp.heterogeneity with e | rest
    · rw [e4] at h2; cases h2
    rw [e3] at h1
    rw [e4] at h2
    obtain rfl := Except.ok.inj h1
    obtain rfl := Except.ok.inj h2
    rcases nSingle_rel hh e1 e2 with rfl | hn
    · exact .same (ih e3 e4)
    · exact .gone hn

/-- **C115, NaN heterogeneities hide splits and never invent one.**  Suppose a heterogeneity function answers like another one, except that some of its answers are NaN.  If both searches return,
the important splits of the first are the first `k` important splits of the second, for some `k`, with the same positions, heterogeneities and populations. -/
theorem C115_prefix (cfg : RegCfg K D) {hN : HeterN K D} {h : HeterM K D} (hh : HeterNanOr hN h) {sN : Option (NSplits K D)} {s : Option (Splits K D)}
    (h1 : nSearchAllSplits cfg hN = .ok sN) (h2 : searchAllSplitsM cfg h = .ok s) :
    ∃ k, nChooseImportantSplits cfg sN = ((chooseImportantSplits cfg s).take k).map asNSplit := by
  unfold nSearchAllSplits at h1
  unfold searchAllSplitsM at h2
  by_cases c1 : cfg.types cfg.feature = .cat ∧ cfg.splitCat = false
  · rw [if_pos c1] at h1 h2
    obtain rfl := Except.ok.inj h1
    exact ⟨0, by simp [nChooseImportantSplits]⟩
  rw [if_neg c1] at h1 h2
  by_cases c2 : cfg.foc.length < cfg.maxLevels
  · rw [if_pos c2] at h1; cases h1
  rw [if_neg c2] at h1 h2
  simp only [bind, Except.bind, pure, Except.pure] at h1 h2
  rcases hh cfg.data cfg.dataEffect with ⟨e, k1, k2⟩ | ⟨a, b, k1, k2, k3⟩
  · rw [k1] at h1; cases h1
  rw [k1] at h1
  rw [k2] at h2
  simp only at h1 h2
  rcases e1 : nSearchLoop cfg hN cfg.maxLevels [cfg.data] (cfg.dataEffect.map fun e => [e]) [a] with e | lN
  · rw [e1] at h1; cases h1
  rcases e2 : searchLoopM cfg h cfg.maxLevels [cfg.data] (cfg.dataEffect.map fun e => [e]) [b] with e | l
  · rw [e2] at h2; cases h2
  rw [e1] at h1
  rw [e2] at h2
  replace h1 := Except.ok.inj h1
  replace h2 := Except.ok.inj h2
  have hrel : a ≠ none → LevelsRel lN l := by
    intro ha
    rcases k3 with k3 | k3
    · exact absurd k3 ha
    · rw [k3] at e1
      exact nLoop_rel hh cfg.maxLevels (before := [b]) e1 e2
  by_cases ce : lN = []
  · rw [if_pos ce] at h1
    rw [← h1]
    exact ⟨0, by simp [nChooseImportantSplits]⟩
  rw [if_neg ce] at h1
  obtain ⟨k, hk⟩ := nChoose_prefix cfg { heterInit := a, nofInit := cfg.data.length, levels := lN } { heterInit := b, nofInit := cfg.data.length, levels := l } k3 hrel
  rw [h1] at hk
  by_cases ce2 : l = []
  · rw [if_pos ce2] at h2
    refine ⟨0, ?_⟩
    rw [hk, ce2]
    have : chooseImportantSplits cfg (some { heterInit := b, nofInit := cfg.data.length, levels := [] }) = [] := by
      obtain ⟨n, -, hn⟩ := choose_prefix cfg { heterInit := b, nofInit := cfg.data.length, levels := [] }
      rw [hn]
      simp
    rw [this]
    simp
  · rw [if_neg ce2] at h2
    rw [h2] at hk
    exact ⟨k, hk⟩

/-! ### When splits are hidden -/

theorem nSplitValid_get (thres : K) (l : List (Option K)) (i : ℕ) : (nSplitValid thres l)[i]? = (match l[i]?, l[i + 1]? with
    | some a, some b => some (nDropExceeds thres a b)
    | _, _ => none) := by
  induction l generalizing i with
  | nil => simp [nSplitValid]
  | cons a t ih =>
    cases t with
    | nil => cases i <;> simp [nSplitValid]
    | cons b t =>
      cases i with
      | zero => simp [nSplitValid]
      | succ i =>
        simp only [nSplitValid, List.getElem?_cons_succ]
        rw [ih]
        simp

theorem nChoose_le (cfg : RegCfg K D) (s : NSplits K D) : ∃ n, n ≤ s.levels.length ∧
    n ≤ firstFalse (nSplitValid cfg.dropThres (s.heterInit :: s.levels.map (·.wHeter))) ∧ nChooseImportantSplits cfg (some s) = s.levels.take n := by
  by_cases h1 : s.heterInit = some BIG_M
  · exact ⟨0, by simp, by simp, by simp [nChooseImportantSplits, h1]⟩
  by_cases h2 : nanLt s.heterInit (some cfg.smallEnough) = true
  · exact ⟨0, by simp, by simp, by simp [nChooseImportantSplits, h1, h2]⟩
  refine ⟨_, ?_, le_rfl, nChoose_eq cfg s h1 (by simpa using h2)⟩
  have := (firstFalse_spec (nSplitValid cfg.dropThres (s.heterInit :: s.levels.map (·.wHeter)))).1
  rw [nSplitValid_length] at this
  simpa using this

/-- The heterogeneities of the regions before level `i`. -/
def nHeterAt (before : List (Option K)) (levels : List (NSplit K D)) (i : ℕ) : List (Option K) :=
  match i with
  | 0 => before
  | i + 1 => match levels[i]? with
    | some sp => sp.heterogeneity
    | none => []

theorem nLoop_get (cfg : RegCfg K D) (hN : HeterN K D) (data : List (Row K D)) (n : ℕ) (done : List (Split K D)) (before : List (Option K)) (hb : before.length = (Spec.regions data done).length)
    (levels : List (NSplit K D)) (h : nSearchLoop cfg hN n (Spec.regions data done) none before = .ok levels) (i : ℕ) (sp : NSplit K D) (hi : levels[i]? = some sp) :
    nSingleLevelSplits cfg hN (Spec.regions data (done ++ (levels.take i).map NSplit.plain)) none (nHeterAt before levels i) = .ok sp ∧
      (nHeterAt before levels i).length = (Spec.regions data (done ++ (levels.take i).map NSplit.plain)).length := by
  induction n generalizing done before levels i with
  | zero =>
    obtain rfl := Except.ok.inj h
    simp at hi
  | succ n ih =>
    unfold nSearchLoop at h
    by_cases hsm : (Spec.regions data done).any (fun x => decide (x.length < cfg.minPoints)) = true
    · rw [if_pos hsm] at h
      obtain rfl := Except.ok.inj h
      simp at hi
    rw [if_neg hsm] at h
    simp only [bind, Except.bind, pure, Except.pure] at h
    rcases hs : nSingleLevelSplits cfg hN (Spec.regions data done) none before with e | sp0
    · rw [hs] at h; cases h
    rw [hs] at h
    simp only [Option.map_none] at h
    have hreg : splitAll (Spec.regions data done) sp0.feature sp0.position sp0.typ = Spec.regions data (done ++ [sp0.plain]) := (regions_snoc data done sp0.plain).symm
    rw [hreg] at h
    rcases hr : nSearchLoop cfg hN n (Spec.regions data (done ++ [sp0.plain])) none sp0.heterogeneity with e | rest
    · rw [hr] at h; cases h
    rw [hr] at h
    obtain rfl := Except.ok.inj h
    cases i with
    | zero =>
      simp only [List.getElem?_cons_zero, Option.some.injEq] at hi
      subst hi
      simpa [nHeterAt] using ⟨hs, hb⟩
    | succ i =>
      simp only [List.getElem?_cons_succ] at hi
      have hl : sp0.heterogeneity.length = (Spec.regions data (done ++ [sp0.plain])).length := by
        obtain ⟨_, _, _, _, -, -, -, -, -, -, -, -, -, h5, -⟩ := nSingle_ok hs
        rw [← hreg]
        exact mapM_len h5
      have := ih (done ++ [sp0.plain]) sp0.heterogeneity hl rest hr i hi
      have hh : nHeterAt before (sp0 :: rest) (i + 1) = nHeterAt sp0.heterogeneity rest i := by
        cases i <;> simp [nHeterAt]
      rw [hh]
      simpa using this

/-- **C115, one NaN region hides every split from that level on.**  If the heterogeneity of one side of one candidate split (any conditioning feature, any candidate position) of one region of
level `l` is NaN, at most `l` splits are important, whatever the other candidates offer.  (For the classes without per-instance effects.) -/
theorem C115_hidden (cfg : RegCfg K D) (hN : HeterN K D) (hE : cfg.dataEffect = none) (s : NSplits K D) (hs : nSearchAllSplits cfg hN = .ok (some s)) (l : ℕ) (f : Fin D) (hf : f ∈ cfg.foc) (pos : K)
    (hc : Spec.Candidate cfg.data cfg.types cfg.nofSplits f pos) (x : List (Row K D)) (hx : x ∈ Spec.regions cfg.data ((s.levels.take l).map NSplit.plain))
    (hnan : hN (splitRows x f pos (cfg.types f)).1 none = .ok none ∨ hN (splitRows x f pos (cfg.types f)).2 none = .ok none) :
    (nChooseImportantSplits cfg (some s)).length ≤ l := by
  obtain ⟨n, hn1, hn2, hn3⟩ := nChoose_le cfg s
  rw [hn3, List.length_take]
  by_cases hlen : s.levels.length ≤ l
  · omega
  have hl : l < s.levels.length := by omega
  have hget : s.levels[l]? = some s.levels[l] := List.getElem?_eq_getElem hl
  -- the search
  unfold nSearchAllSplits at hs
  by_cases c1 : cfg.types cfg.feature = .cat ∧ cfg.splitCat = false
  · rw [if_pos c1] at hs; simp at hs
  rw [if_neg c1] at hs
  by_cases c2 : cfg.foc.length < cfg.maxLevels
  · rw [if_pos c2] at hs; cases hs
  rw [if_neg c2, hE] at hs
  simp only [bind, Except.bind, pure, Except.pure, Option.map_none] at hs
  rcases e0 : hN cfg.data none with e | h0
  · rw [e0] at hs; cases hs
  rw [e0] at hs
  simp only at hs
  rcases e1 : nSearchLoop cfg hN cfg.maxLevels [cfg.data] none [h0] with e | lN
  · rw [e1] at hs; cases hs
  rw [e1] at hs
  simp only at hs
  by_cases hemp : lN = []
  · rw [if_pos hemp] at hs; simp at hs
  rw [if_neg hemp] at hs
  have hs' := Option.some.inj (Except.ok.inj hs)
  have hlv : lN = s.levels := by rw [← hs']
  have hin : s.heterInit = h0 := by rw [← hs']
  rw [hlv] at e1
  have hreg0 : Spec.regions cfg.data ([] : List (Split K D)) = [cfg.data] := regions_nil cfg.data
  rw [← hreg0] at e1
  obtain ⟨hsing, hblen⟩ := nLoop_get cfg hN cfg.data cfg.maxLevels [] [h0] (by rw [hreg0]; rfl) s.levels e1 l _ hget
  rw [List.nil_append] at hsing hblen
  generalize hbe : nHeterAt [h0] s.levels l = before at hsing hblen
  -- the matrix of this level contains a NaN
  obtain ⟨cands, rows, mn, mx, hcand, hrows, -⟩ := nSingle_ok hsing
  obtain ⟨a, ha⟩ := List.getElem?_of_mem hf
  obtain ⟨ps, hps1, hps2, -⟩ := candidates_spec cfg cands hcand a f ha
  obtain ⟨j, hj⟩ := List.getElem?_of_mem ((hps2 pos).mpr hc)
  obtain ⟨q, hq1, hq2⟩ := nMatrix_get hcand hrows a f ps j pos ha hps1 hj
  have hq : q.1 = none := by
    unfold nEvalCandidate at hq1
    simp only [bind, Except.bind, pure, Except.pure, Option.map_none] at hq1
    rcases hsub : nHeters hN (splitAll (Spec.regions cfg.data ((s.levels.take l).map NSplit.plain)) f pos (cfg.types f)) none with e | sub
    · rw [hsub] at hq1; cases hq1
    rw [hsub] at hq1
    obtain rfl := Except.ok.inj hq1
    have hsl : sub.length = (splitAll (Spec.regions cfg.data ((s.levels.take l).map NSplit.plain)) f pos (cfg.types f)).length := mapM_len hsub
    refine nDrop_of_none ?_ ?_ ?_
    · rw [hsl, length_splitAll, hblen]
    · rw [hsl, length_splitWeights]
    · have key : ∀ y ∈ splitAll (Spec.regions cfg.data ((s.levels.take l).map NSplit.plain)) f pos (cfg.types f), hN y none = .ok none → none ∈ sub := by
        intro y hy hyn
        obtain ⟨i, hi⟩ := List.getElem?_of_mem hy
        obtain ⟨b, hb1, hb2⟩ := mapM_sub hsub i y hi
        rw [hyn] at hb1
        obtain rfl := Except.ok.inj hb1
        exact List.mem_of_getElem? hb2
      rcases hnan with hnan | hnan
      · exact key _ (List.mem_flatMap.mpr ⟨x, hx, by simp⟩) hnan
      · exact key _ (List.mem_flatMap.mpr ⟨x, hx, by simp⟩) hnan
  have hmem : none ∈ rows.flatten := by rw [hq] at hq2; exact List.mem_of_getElem? hq2
  have hd := nSingle_nan hsing hcand hrows hmem
  -- so the flag of this level is false
  have hv : (nSplitValid cfg.dropThres (s.heterInit :: s.levels.map (·.wHeter)))[l]? = some false := by
    rw [nSplitValid_get]
    have hb1 : (s.heterInit :: s.levels.map (·.wHeter))[l + 1]? = some s.levels[l].wHeter := by
      rw [List.getElem?_cons_succ, List.getElem?_map, hget]; rfl
    by_cases hbn : none ∈ before
    · have ha1 : (s.heterInit :: s.levels.map (·.wHeter))[l]? = some none := by
        cases l with
        | zero =>
          have : before = [h0] := hbe.symm
          rw [this] at hbn
          have h00 : h0 = none := by simpa using (List.mem_singleton.mp hbn).symm
          rw [List.getElem?_cons_zero, hin, h00]
        | succ l =>
          have hget' : s.levels[l]? = some s.levels[l] := List.getElem?_eq_getElem (by omega)
          have hbe' : before = s.levels[l].heterogeneity := by rw [← hbe]; simp [nHeterAt, hget']
          obtain ⟨hsing', -⟩ := nLoop_get cfg hN cfg.data cfg.maxLevels [] [h0] (by rw [hreg0]; rfl) s.levels e1 l _ hget'
          obtain ⟨_, _, _, _, -, -, -, -, -, -, -, -, -, h5, h6, -⟩ := nSingle_ok hsing'
          rw [List.getElem?_cons_succ, List.getElem?_map, hget', Option.map_some]
          congr 1
          unfold nEvalCandidate at h6
          simp only [bind, Except.bind, h5, pure, Except.pure, Except.ok.injEq, Prod.mk.injEq] at h6
          rw [← h6.2, nWeighted_none_iff]
          rw [hbe'] at hbn
          obtain ⟨i, hi⟩ := List.getElem?_of_mem hbn
          refine ⟨i, ?_, hi⟩
          have hl := nHeters_length h5
          have := (List.getElem?_eq_some_iff.mp hi).1
          rw [length_splitWeights]
          omega
      rw [ha1, hb1]
      rfl
    · obtain ⟨_, _, _, _, -, -, -, -, -, -, -, -, -, h5, h6, -⟩ := nSingle_ok hsing
      unfold nEvalCandidate at h6
      simp only [bind, Except.bind, h5, pure, Except.pure, Except.ok.injEq, Prod.mk.injEq] at h6
      rw [hd] at h6
      have hw := nDrop_none hbn h6.1
      rw [h6.2] at hw
      have hex : ∃ a, (s.heterInit :: s.levels.map (·.wHeter))[l]? = some a :=
        ⟨_, List.getElem?_eq_getElem (by simp; omega)⟩
      obtain ⟨a, ha⟩ := hex
      rw [ha, hb1, hw]
      cases a <;> rfl
  have hff : firstFalse (nSplitValid cfg.dropThres (s.heterInit :: s.levels.map (·.wHeter))) ≤ l := by
    by_contra hcon
    have := (firstFalse_spec (nSplitValid cfg.dropThres (s.heterInit :: s.levels.map (·.wHeter)))).2.1 l (by omega)
    rw [hv] at this
    simp at this
  omega

/-- No important split when the heterogeneity of the whole data set is NaN or `BIG_M`. -/
theorem nRoot_bad (cfg : RegCfg K D) (hN : HeterN K D) (a : Option K) (ha : a = none ∨ a = some BIG_M) (h0 : hN cfg.data cfg.dataEffect = .ok a) (s : Option (NSplits K D))
    (hs : nSearchAllSplits cfg hN = .ok s) : nChooseImportantSplits cfg s = [] := by
  unfold nSearchAllSplits at hs
  by_cases c1 : cfg.types cfg.feature = .cat ∧ cfg.splitCat = false
  · rw [if_pos c1] at hs
    obtain rfl := Except.ok.inj hs
    rfl
  rw [if_neg c1] at hs
  by_cases c2 : cfg.foc.length < cfg.maxLevels
  · rw [if_pos c2] at hs; cases hs
  rw [if_neg c2, h0] at hs
  simp only [bind, Except.bind, pure, Except.pure] at hs
  rcases e1 : nSearchLoop cfg hN cfg.maxLevels [cfg.data] (cfg.dataEffect.map fun e => [e]) [a] with e | lN
  · rw [e1] at hs; cases hs
  rw [e1] at hs
  obtain rfl := Except.ok.inj hs
  split_ifs
  · rfl
  · rcases ha with rfl | rfl
    · obtain ⟨n, hn1, hn2, hn3⟩ := nChoose_le cfg { heterInit := none, nofInit := cfg.data.length, levels := lN }
      have : firstFalse (nSplitValid cfg.dropThres (none :: lN.map (·.wHeter))) = 0 := by
        cases lN with
        | nil => rfl
        | cons a t => simp [nSplitValid, nDropExceeds, firstFalse]
      rw [hn3]
      rw [this] at hn2
      rw [Nat.le_zero.mp hn2]
      rfl
    · simp [nChooseImportantSplits]

/-- **C115, NaN for the whole data set.**  If the heterogeneity of all the instances together is NaN, no split is important. -/
theorem C115_root (cfg : RegCfg K D) (hN : HeterN K D) (h0 : hN cfg.data cfg.dataEffect = .ok none) (s : Option (NSplits K D)) (hs : nSearchAllSplits cfg hN = .ok s) :
    nChooseImportantSplits cfg s = [] := nRoot_bad cfg hN none (Or.inl rfl) h0 s hs

/-! ### Without NaN -/

theorem mapM_map_some {α β γ : Type} {f : α → Py β} {g : α → Py γ} {F : γ → β} {l : List α} (h : ∀ a ∈ l, f a = (g a).map F) : l.mapM f = (l.mapM g).map (List.map F) := by
  induction l with
  | nil => rfl
  | cons a t ih =>
    rw [List.mapM_cons, List.mapM_cons, h a (by simp), ih fun b hb => h b (by simp [hb])]
    cases g a with
    | error e => rfl
    | ok v =>
      cases t.mapM g with
      | error e => rfl
      | ok w => rfl

/-- `hN` is the function `h`, never NaN, on every selection of rows of the data. -/
def NoNanOn (data : List (Row K D)) (hN : HeterN K D) (h : HeterM K D) : Prop := ∀ x e, (∀ r ∈ x, r ∈ data) → hN x e = (h x e).map some

section
variable {cfg : RegCfg K D} {hN : HeterN K D} {h : HeterM K D}

theorem nHeters_clean (hh : NoNanOn cfg.data hN h) {xs : List (List (Row K D))} (hx : ∀ x ∈ xs, ∀ r ∈ x, r ∈ cfg.data) (js : Option (List (List (Row K D)))) :
    nHeters hN xs js = (hetersM h xs js).map (List.map some) := by
  cases js with
  | none => exact mapM_map_some fun x hxs => hh x none (hx x hxs)
  | some js => exact mapM_map_some fun p hp => hh p.1 (some p.2) (hx p.1 (List.of_mem_zip hp).1)

theorem nEvalCandidate_clean (hh : NoNanOn cfg.data hN h) {xs : List (List (Row K D))} (hx : ∀ x ∈ xs, ∀ r ∈ x, r ∈ cfg.data) (js : Option (List (List (Row K D)))) (before : List K) (f : Fin D)
    (pos : K) (typ : FeatType) :
    nEvalCandidate hN xs js (before.map some) f pos typ = (evalCandidateM h xs js before f pos typ).map fun p => (some p.1, some p.2) := by
  unfold nEvalCandidate evalCandidateM
  simp only [bind, Except.bind, pure, Except.pure]
  rw [nHeters_clean hh (splitAll_sub hx f pos typ)]
  cases hetersM h (splitAll xs f pos typ) (js.map fun js => splitAllEff xs js f pos typ) with
  | error e => rfl
  | ok sub =>
    simp only [Except.map]
    rw [nHeterDrops_numbers, nWeighted_numbers, nWeighted_numbers]
    congr 3
    rw [List.zipWith_comm_of_comm fun x y => mul_comm x y]

theorem nMatrixRow_clean (hh : NoNanOn cfg.data hN h) (w : ℕ) {xs : List (List (Row K D))} (hx : ∀ x ∈ xs, ∀ r ∈ x, r ∈ cfg.data) (js : Option (List (List (Row K D)))) (before : List K) (f : Fin D)
    (typ : FeatType) (ps : List K) : nMatrixRow hN w xs js (before.map some) f typ ps = (matrixRowM h w xs js before f typ ps).map (List.map some) := by
  unfold nMatrixRow matrixRowM
  simp only [bind, Except.bind]
  rw [mapM_map_some fun pos _ => nEvalCandidate_clean hh hx js before f pos typ]
  cases (ps.mapM fun pos => evalCandidateM h xs js before f pos typ) with
  | error e => rfl
  | ok vals =>
    simp only [Except.map, nPadRow, padRow, List.length_map]
    split_ifs
    · simp only [List.map_append, List.map_map, List.map_replicate]
      rfl
    · rfl

theorem nSingle_clean (hh : NoNanOn cfg.data hN h) {xs : List (List (Row K D))} (hx : ∀ x ∈ xs, ∀ r ∈ x, r ∈ cfg.data) (js : Option (List (List (Row K D)))) (before : List K) :
    nSingleLevelSplits cfg hN xs js (before.map some) = (singleLevelSplitsM cfg h xs js before).map asNSplit := by
  unfold nSingleLevelSplits singleLevelSplitsM
  simp only [bind, Except.bind, pure, Except.pure]
  cases candidatePositions cfg with
  | error e => rfl
  | ok cands =>
    dsimp only
    rw [mapM_map_some fun (p : Fin D × List K) _ => nMatrixRow_clean hh (max cfg.nofSplits cfg.catLimit) hx js before p.1 (cfg.types p.1) p.2]
    cases ((cfg.foc.zip cands).mapM fun p => matrixRowM h (max cfg.nofSplits cfg.catLimit) xs js before p.1 (cfg.types p.1) p.2) with
    | error e => rfl
    | ok rows =>
      simp only [Except.map]
      have hfl : (List.map (List.map some) rows).flatten = rows.flatten.map some := by rw [List.map_flatten]
      rw [hfl]
      by_cases hne : rows.flatten = []
      · rw [if_pos (by rw [hne]; rfl), if_pos hne]
      rw [if_neg (by simpa using hne), if_neg hne]
      have harg : nArgmax (rows.flatten.map some) = npArgmax rows.flatten := by
        unfold nArgmax
        rw [if_neg (fun h => by obtain ⟨x, _, hx⟩ := List.mem_map.mp h; cases hx), known_some]
      rw [harg]
      generalize npArgmax rows.flatten = a
      cases pyIndex cfg.foc (a / max cfg.nofSplits cfg.catLimit) with
      | error e => rfl
      | ok f =>
        dsimp only
        cases pyIndex cands (a / max cfg.nofSplits cfg.catLimit) with
        | error e => rfl
        | ok ps =>
          dsimp only
          cases pyIndex ps (a % max cfg.nofSplits cfg.catLimit) with
          | error e => rfl
          | ok pos =>
            dsimp only
            rw [nHeters_clean hh (splitAll_sub hx f pos (cfg.types f)), nEvalCandidate_clean hh hx]
            cases hetersM h (splitAll xs f pos (cfg.types f)) (js.map fun js => splitAllEff xs js f pos (cfg.types f)) with
            | error e => rfl
            | ok sub =>
              simp only [Except.map]
              cases listMin (col cfg.data f) with
              | error e => rfl
              | ok mn =>
                dsimp only
                cases listMax (col cfg.data f) with
                | error e => rfl
                | ok mx =>
                  dsimp only
                  cases evalCandidateM h xs js before f pos (cfg.types f) with
                  | error e => rfl
                  | ok e => rfl

theorem nLoop_clean (hh : NoNanOn cfg.data hN h) (n : ℕ) {xs : List (List (Row K D))} (hx : ∀ x ∈ xs, ∀ r ∈ x, r ∈ cfg.data) (js : Option (List (List (Row K D)))) (before : List K) :
    nSearchLoop cfg hN n xs js (before.map some) = (searchLoopM cfg h n xs js before).map (List.map asNSplit) := by
  induction n generalizing xs js before with
  | zero => rfl
  | succ n ih =>
    unfold nSearchLoop searchLoopM
    by_cases hs : xs.any (fun x => decide (x.length < cfg.minPoints)) = true
    · rw [if_pos hs, if_pos hs]; rfl
    rw [if_neg hs, if_neg hs, nSingle_clean hh hx]
    simp only [bind, Except.bind, pure, Except.pure]
    cases singleLevelSplitsM cfg h xs js before with
    | error e => rfl
    | ok sp =>
      simp only [Except.map]
      have := ih (splitAll_sub hx sp.feature sp.position sp.typ) (js.map fun js => splitAllEff xs js sp.feature sp.position sp.typ) sp.heterogeneity
      simp only [asNSplit] at this ⊢
      rw [this]
      cases searchLoopM cfg h n (splitAll xs sp.feature sp.position sp.typ) (js.map fun js => splitAllEff xs js sp.feature sp.position sp.typ) sp.heterogeneity with
      | error e => rfl
      | ok rest => rfl

/-- The result of the search without NaN, in the types of the search with NaN. -/
def asNSplits (s : Splits K D) : NSplits K D := { heterInit := some s.heterInit, nofInit := s.nofInit, levels := s.levels.map asNSplit }

theorem nSearch_clean (cfg : RegCfg K D) {hN : HeterN K D} {h : HeterM K D} (hh : NoNanOn cfg.data hN h) : nSearchAllSplits cfg hN = (searchAllSplitsM cfg h).map (Option.map asNSplits) := by
  unfold nSearchAllSplits searchAllSplitsM
  by_cases c1 : cfg.types cfg.feature = .cat ∧ cfg.splitCat = false
  · rw [if_pos c1, if_pos c1]; rfl
  rw [if_neg c1, if_neg c1]
  by_cases c2 : cfg.foc.length < cfg.maxLevels
  · rw [if_pos c2, if_pos c2]; rfl
  rw [if_neg c2, if_neg c2, hh _ _ fun r hr => hr]
  simp only [bind, Except.bind, pure, Except.pure]
  cases h cfg.data cfg.dataEffect with
  | error e => rfl
  | ok h0 =>
    simp only [Except.map]
    have := nLoop_clean hh cfg.maxLevels (xs := [cfg.data]) (by simp) (cfg.dataEffect.map fun e => [e]) [h0]
    simp only [List.map_cons, List.map_nil] at this
    rw [this]
    cases searchLoopM cfg h cfg.maxLevels [cfg.data] (cfg.dataEffect.map fun e => [e]) [h0] with
    | error e => rfl
    | ok levels =>
      simp only [Except.map]
      by_cases hl : levels = []
      · rw [if_pos (by rw [hl]; rfl), if_pos hl]; rfl
      · rw [if_neg (by simpa using hl), if_neg hl]; rfl

theorem nChoose_clean (cfg : RegCfg K D) (s : Option (Splits K D)) : nChooseImportantSplits cfg (s.map asNSplits) = (chooseImportantSplits cfg s).map asNSplit := by
  cases s with
  | none => rfl
  | some s =>
    simp only [Option.map_some]
    by_cases c1 : s.heterInit = BIG_M
    · simp [nChooseImportantSplits, chooseImportantSplits, asNSplits, c1]
    by_cases c2 : s.heterInit < cfg.smallEnough
    · simp [nChooseImportantSplits, chooseImportantSplits, asNSplits, c1, c2, nanLt]
    rw [nChoose_eq cfg _ (by simpa [asNSplits] using c1) (by simpa [asNSplits, nanLt] using c2), choose_eq cfg s c1 (not_lt.mp c2), List.map_take]
    have : ∀ (a : K) (l : List (Split K D)), nSplitValid cfg.dropThres (some a :: (l.map asNSplit).map (·.wHeter)) = splitValid cfg.dropThres (a :: l.map (·.wHeter)) := by
      intro a l
      induction l generalizing a with
      | nil => rfl
      | cons sp l ih =>
        have := ih sp.wHeter
        simp only [List.map_cons, nSplitValid, splitValid, asNSplit, nDropExceeds] at this ⊢
        rw [this]
    show (s.levels.map asNSplit).take (firstFalse (nSplitValid cfg.dropThres (some s.heterInit :: (s.levels.map asNSplit).map (·.wHeter)))) = _
    rw [this]

/-- **C115, without NaN nothing changes.**  If the heterogeneity is a number for every selection of rows of the data, the search finds the same levels and the same important splits, or raises the
same exception. -/
theorem C115_clean (cfg : RegCfg K D) {hN : HeterN K D} {h : HeterM K D} (hh : ∀ x e, (∀ r ∈ x, r ∈ cfg.data) → hN x e = (h x e).map some) :
    ((nSearchAllSplits cfg hN).map fun s => s.map fun s => (s.heterInit, s.levels)) =
        (searchAllSplitsM cfg h).map (fun s => s.map fun s => (some s.heterInit, s.levels.map asNSplit)) ∧
      (nSearchAllSplits cfg hN).map (nChooseImportantSplits cfg) = (searchAllSplitsM cfg h).map fun s => (chooseImportantSplits cfg s).map asNSplit := by
  rw [nSearch_clean cfg hh]
  cases searchAllSplitsM cfg h with
  | error e => exact ⟨rfl, rfl⟩
  | ok s =>
    refine ⟨?_, ?_⟩
    · cases s <;> rfl
    · simp only [Except.map]
      rw [nChoose_clean]

end

end Effector
