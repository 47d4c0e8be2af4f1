import Verif.Props.RandomFit
import Verif.Props.SearchTotal

/-!
# C117: the search with random draws does not raise
-/

set_option linter.unusedSectionVars false

namespace Effector

variable {K : Type} [Field K] [LinearOrder K] [IsStrictOrderedRing K] {D : ℕ} {σ S α β : Type}

open Spec

namespace Spec

/-- Whatever the state: the program returns, and what it returns satisfies `P`. -/
def Returning (p : RunM σ K D S α) (P : α → Prop) : Prop := ∀ y : Sys σ K D S, ∃ y' a, p y = (y', .ok a) ∧ P a

/-- The arguments for which the search cannot fail: as in C61, with the heterogeneity of every part of the data, every time it is asked for, between 0 and 1e8. -/
structure RandomArgsOk (cfg : RegCfg K D) (h : HeterR σ K D S) : Prop where
  data : cfg.data ≠ []
  splits : 0 < cfg.nofSplits
  cat : ∀ f ∈ cfg.foc, cfg.types f = .cat → distinct (cfg.data.map (· f)) ≤ max cfg.nofSplits cfg.catLimit
  heter : ∀ x e, x.Sublist cfg.data → Returning (h x e) fun v => 0 ≤ v ∧ v ≤ 100000000
  eff : EffAligned cfg

end Spec

theorem returning_bind {p : RunM σ K D S α} {f : α → RunM σ K D S β} {P : α → Prop} {Q : β → Prop} (h1 : Returning p P) (h2 : ∀ a, P a → Returning (f a) Q) :
    Returning (p >>= f) Q := by
  intro y
  obtain ⟨y1, a, e1, ha⟩ := h1 y
  obtain ⟨y2, b, e2, hb⟩ := h2 a ha y1
  exact ⟨y2, b, by rw [runBind_of e1, e2], hb⟩

theorem returning_pure {a : α} {P : α → Prop} (h : P a) : Returning (pure a : RunM σ K D S α) P := fun y => ⟨y, a, rfl, h⟩

theorem returning_inert {x : Py α} {a : α} {P : α → Prop} (hx : x = .ok a) (h : P a) : Returning (inert x : RunM σ K D S α) P := fun y => ⟨y, a, by rw [hx]; rfl, h⟩

/-- A program that is known to return `a` without using the state. -/
theorem returning_known {x : Py α} {a : α} {f : α → RunM σ K D S β} {Q : β → Prop} (hx : x = .ok a) (h : Returning (f a) Q) : Returning (inert x >>= f) Q :=
  returning_bind (P := fun b => b = a) (returning_inert hx rfl) fun b hb => by rw [hb]; exact h

theorem returning_each {f : β → RunM σ K D S α} {l : List β} {P : β → α → Prop} (h : ∀ b ∈ l, Returning (f b) (P b)) : Returning (runEach f l) (List.Forall₂ P l) := by
  induction l with
  | nil => exact returning_pure .nil
  | cons b t ih =>
    show Returning (f b >>= fun a => runEach f t >>= fun as => pure (a :: as)) _
    exact returning_bind (h b (by simp)) fun a ha => returning_bind (ih fun b hb => h b (by simp [hb])) fun as has => returning_pure (.cons ha has)

theorem forall2_all {P : α → Prop} {l : List β} {r : List α} (h : List.Forall₂ (fun _ v => P v) l r) : r.length = l.length ∧ ∀ v ∈ r, P v := by
  induction h with
  | nil => exact ⟨rfl, by simp⟩
  | cons ha _ ih =>
    refine ⟨by simp [ih.1], fun v hv => ?_⟩
    rcases List.mem_cons.mp hv with rfl | hv
    · exact ha
    · exact ih.2 v hv

/-- A measured drop is at least `-M` if all heterogeneities are between `0` and `M`. -/
theorem measuredDrop_ge (M : K) (hM : 0 ≤ M) (Rs : List (Region K D)) (before vs : List K) (hb : ∀ b ∈ before, 0 ≤ b) (hv : ∀ v ∈ vs, v ≤ M) : -M ≤ measuredDrop Rs before vs := by
  unfold measuredDrop
  have hbs : ∀ b ∈ before.flatMap fun b => [b, b], 0 ≤ b := by
    intro b h
    obtain ⟨c, hc, h⟩ := List.mem_flatMap.mp h
    simp only [List.mem_cons, List.not_mem_nil, or_false, or_self] at h
    rw [h]; exact hb c hc
  generalize (before.flatMap fun b => [b, b]) = bs at hbs
  rcases (sum_mass_nonneg Rs).lt_or_eq with hT | hT
  · rw [le_div_iff₀ hT]
    clear hT
    have key : ∀ (Rs : List (Region K D)) (bs vs : List K), (∀ b ∈ bs, 0 ≤ b) → (∀ v ∈ vs, v ≤ M) →
        -M * (Rs.map mass).sum ≤ ((Rs.zip (bs.zip vs)).map fun p => (p.2.1 - p.2.2) * mass p.1).sum := by
      intro Rs
      induction Rs with
      | nil => simp
      | cons R t ih =>
        intro bs vs hbs hvs
        have hneg : -M * ((R :: t).map mass).sum ≤ 0 := mul_nonpos_of_nonpos_of_nonneg (by linarith) (sum_mass_nonneg _)
        cases bs with
        | nil => simpa using hneg
        | cons b bs =>
          cases vs with
          | nil => simpa using hneg
          | cons v vs =>
            have := ih bs vs (fun x hx => hbs x (by simp [hx])) fun x hx => hvs x (by simp [hx])
            have hb0 := hbs b (by simp)
            have hv0 := hvs v (by simp)
            have k1 : -M * mass R ≤ (b - v) * mass R := mul_le_mul_of_nonneg_right (by linarith) (mass_pos R).le
            simp only [List.zip_cons_cons, List.map_cons, List.sum_cons]
            linarith
    exact key Rs bs vs hbs hv
  · rw [← hT]; simpa using hM

section

variable {cfg : RegCfg K D} {h : HeterR σ K D S} (hA : RandomArgsOk cfg h) {xs : List (List (Row K D))} {js : Option (List (List (Row K D)))}
  (hj : ∀ l, js = some l → xs.length = l.length) (hsub : ∀ x ∈ xs, x.Sublist cfg.data) {before : List K} (hb0 : ∀ b ∈ before, 0 ≤ b)

include hA hj hsub

theorem runHeters_returning (f : Fin D) (pos : K) (typ : FeatType) :
    Returning (runHeters h (splitAll xs f pos typ) (js.map fun js => splitAllEff xs js f pos typ)) fun vs => vs.length = 2 * xs.length ∧ ∀ v ∈ vs, 0 ≤ v ∧ v ≤ 100000000 := by
  rw [runHeters_ask, pairUp_splitAll xs js hj]
  intro y
  obtain ⟨y', vs, e, hf⟩ := returning_each (P := fun _ v => (0 : K) ≤ v ∧ v ≤ 100000000)
    (fun R hR => hA.heter R.1 R.2 (parts_sublist xs js hj hsub f pos typ R hR)) y
  obtain ⟨h1, h2⟩ := forall2_all hf
  exact ⟨y', vs, e, by rw [h1, length_parts, pairUp_length xs js hj], h2⟩

include hb0

theorem runCandidate_returning (f : Fin D) (pos : K) (typ : FeatType) : Returning (runCandidate h xs js before f typ pos) fun v => -BIG_M ≤ v.1 := by
  unfold runCandidate
  refine returning_bind (runHeters_returning hA hj hsub f pos typ) fun vs hvs => returning_pure ?_
  rw [splitAll_parts xs js hj, (measured_values _ _ _).1]
  have e : (BIG_M : K) = 100000000 := by norm_num [BIG_M]
  rw [e]
  exact measuredDrop_ge _ (by norm_num) _ _ _ hb0 fun v hv => (hvs.2 v hv).2

theorem runRowFrom_returning (w : ℕ) (f : Fin D) (typ : FeatType) (ps : List K) (i : ℕ) (hw : i + ps.length ≤ w) :
    Returning (runRowFrom h w xs js before f typ i ps) fun r => r.length = ps.length ∧ ∀ v ∈ r, -BIG_M ≤ v.1 := by
  induction ps generalizing i with
  | nil => exact returning_pure ⟨rfl, by simp⟩
  | cons pos t ih =>
    unfold runRowFrom
    rw [List.length_cons] at hw
    refine returning_bind (runCandidate_returning hA hj hsub hb0 f pos typ) fun v hv => ?_
    refine returning_bind (P := fun _ => True) (returning_inert (a := ()) (if_pos (by omega)) trivial) fun _ _ => ?_
    refine returning_bind (ih (i + 1) (by omega)) fun vs hvs => returning_pure ⟨by simp [hvs.1], fun u hu => ?_⟩
    rcases List.mem_cons.mp hu with rfl | hu
    · exact hv
    · exact hvs.2 u hu

omit hj hsub hb0 in
/-- The candidates: they exist, and there is at least one for every feature, and at most as many as the matrix has columns. -/
theorem candidates_total : ∃ cands, candidatePositions cfg = .ok cands ∧ cands.length = cfg.foc.length ∧
    ∀ ps ∈ cands, 0 < ps.length ∧ ps.length ≤ max cfg.nofSplits cfg.catLimit := by
  have hcol : ∀ f, col cfg.data f ≠ [] := fun f => by simpa [col] using hA.data
  obtain ⟨cands, hc⟩ : ∃ cands, candidatePositions cfg = .ok cands := by
    apply mapM_total
    intro f _
    cases ht : cfg.types f with
    | cat => exact ⟨_, rfl⟩
    | cont =>
      obtain ⟨mn, h1⟩ := listMin_ne (hcol f)
      obtain ⟨mx, h2⟩ := listMax_ne (hcol f)
      simp only [findPositionsCont, h1, h2, bind, Except.bind, pure, Except.pure]
      exact ⟨_, rfl⟩
  have hlc : cands.length = cfg.foc.length := mapM_len hc
  refine ⟨cands, hc, hlc, fun ps hp => ?_⟩
  obtain ⟨a, ha⟩ := List.getElem?_of_mem hp
  have hlt := (List.getElem?_eq_some_iff.mp ha).1
  have hfa : cfg.foc[a]? = some (cfg.foc[a]'(by omega)) := List.getElem?_eq_getElem _
  generalize (cfg.foc[a]'(by omega)) = f at hfa
  obtain ⟨ps', h1, h2⟩ := mapM_sub hc a f hfa
  rw [ha] at h2
  cases h2
  cases ht : cfg.types f with
  | cat =>
    rw [ht] at h1
    simp only [Except.ok.injEq] at h1
    subst h1
    have hd := hA.cat f (List.mem_of_getElem? hfa) ht
    unfold findPositionsCat
    constructor
    · obtain ⟨v, hv⟩ := List.exists_mem_of_ne_nil _ (hcol f)
      exact List.length_pos_of_mem ((mem_npUnique v _).mpr hv)
    · rw [npUnique_length]; exact hd
  | cont =>
    rw [ht] at h1
    obtain ⟨mn, h3⟩ := listMin_ne (hcol f)
    obtain ⟨mx, h4⟩ := listMax_ne (hcol f)
    simp only [findPositionsCont, h3, h4, bind, Except.bind, pure, Except.pure, Except.ok.injEq] at h1
    subst h1
    simp only [List.length_map, List.length_range]
    exact ⟨hA.splits, le_max_left _ _⟩

omit hA hj hsub hb0 in
/-- `np.argmax` of the padded matrix is a cell that was filled. -/
theorem argmax_filled (w : ℕ) (rows : List (List (K × K))) (hne : rows ≠ []) (hlen : ∀ r ∈ rows, 0 < r.length ∧ r.length ≤ w) (hge : ∀ r ∈ rows, ∀ v ∈ r, -BIG_M ≤ v.1) :
    (rows.flatMap fun r => r.map (·.1) ++ List.replicate (w - r.length) (-BIG_M)) ≠ [] ∧
    ∃ r v, rows[npArgmax (rows.flatMap fun r => r.map (·.1) ++ List.replicate (w - r.length) (-BIG_M)) / w]? = some r ∧
      r[npArgmax (rows.flatMap fun r => r.map (·.1) ++ List.replicate (w - r.length) (-BIG_M)) % w]? = some v := by
  rw [List.flatMap_def]
  generalize hm : (rows.map fun r => r.map (·.1) ++ List.replicate (w - r.length) (-BIG_M)) = mat
  have hrpos : 0 < rows.length := List.length_pos_of_ne_nil hne
  have hget : ∀ (a : ℕ) m, mat[a]? = some m → ∃ r, rows[a]? = some r ∧ m = r.map (·.1) ++ List.replicate (w - r.length) (-BIG_M) := by
    intro a m ha
    rw [← hm, List.getElem?_map] at ha
    cases hr : rows[a]? with
    | none => rw [hr] at ha; cases ha
    | some r => rw [hr] at ha; exact ⟨r, rfl, (Option.some.inj ha).symm⟩
  have hw : ∀ m ∈ mat, m.length = w := by
    intro m hmm
    obtain ⟨a, ha⟩ := List.getElem?_of_mem hmm
    obtain ⟨r, hr, rfl⟩ := hget a m ha
    have := (hlen r (List.mem_of_getElem? hr)).2
    simp; omega
  have hml : mat.length = rows.length := by rw [← hm, List.length_map]
  have hr0 := hlen rows[0] (List.getElem_mem hrpos)
  have hwpos : 0 < w := by omega
  obtain ⟨r0, hr0', hm0⟩ := hget 0 _ (List.getElem?_eq_getElem (by omega : 0 < mat.length))
  have hl0 := hlen r0 (List.mem_of_getElem? hr0')
  have hflat0 : mat.flatten[0]? = some (r0[0]'hl0.1).1 := by
    have := flatten_get _ mat hw 0 0 _ (List.getElem?_eq_getElem (by omega : 0 < mat.length)) hwpos
    simp only [Nat.zero_mul, Nat.zero_add] at this
    rw [this, hm0, List.getElem?_append_left (by simpa using hl0.1), List.getElem?_map, List.getElem?_eq_getElem hl0.1]
    rfl
  have hfne : mat.flatten ≠ [] := by
    intro e; rw [e] at hflat0; simp at hflat0
  refine ⟨hfne, ?_⟩
  obtain ⟨v, v1, v2, v3⟩ := npArgmax_spec mat.flatten hfne
  have hflen : mat.flatten.length = mat.length * w := by
    rw [List.length_flatten]
    have : mat.map List.length = mat.map fun _ => w := List.map_congr_left hw
    rw [this]; simp
  have hlt : npArgmax mat.flatten < mat.length * w := by
    rw [← hflen]; exact (List.getElem?_eq_some_iff.mp v1).1
  have hi : npArgmax mat.flatten / w < mat.length := (Nat.div_lt_iff_lt_mul hwpos).mpr hlt
  obtain ⟨r, h1, hrr⟩ := hget _ _ (List.getElem?_eq_getElem hi)
  have hjj : npArgmax mat.flatten % w < r.length := by
    by_contra hcon
    have hcon := not_lt.mp hcon
    have hmod := Nat.mod_lt (npArgmax mat.flatten) hwpos
    have hv : v = -BIG_M := by
      have := flatten_get _ mat hw _ _ _ (List.getElem?_eq_getElem hi) hmod
      rw [Nat.div_add_mod', v1, hrr, List.getElem?_append_right (by simpa using hcon), List.getElem?_replicate, if_pos (by simp; omega)] at this
      exact Option.some.inj this
    rcases Nat.eq_zero_or_pos (npArgmax mat.flatten) with h0 | h0
    · rw [h0, Nat.zero_div] at h1
      rw [hr0'] at h1
      cases h1
      rw [h0, Nat.zero_mod] at hcon
      omega
    · have := v3 0 _ h0 hflat0
      rw [hv] at this
      exact absurd (hge r0 (List.mem_of_getElem? hr0') _ (List.getElem_mem _)) (not_le.mpr this)
  exact ⟨r, r[npArgmax mat.flatten % w], h1, List.getElem?_eq_getElem hjj⟩

theorem runSingleLevel_returning (hfoc : cfg.foc ≠ []) :
    Returning (runSingleLevel cfg h xs js before) fun sp => sp.heterogeneity.length = 2 * xs.length ∧ ∀ v ∈ sp.heterogeneity, 0 ≤ v := by
  obtain ⟨cands, hc, hlc, hps⟩ := candidates_total hA
  unfold runSingleLevel
  refine returning_known hc ?_
  dsimp only
  generalize hw : max cfg.nofSplits cfg.catLimit = w at *
  refine returning_bind (returning_each (P := fun p r => r.length = p.2.length ∧ ∀ v ∈ r, -BIG_M ≤ v.1) fun p hp =>
    runRowFrom_returning hA hj hsub hb0 w p.1 _ p.2 0 (by have := (hps p.2 (List.of_mem_zip hp).2).2; omega)) fun rows hrows => ?_
  have hlr : rows.length = cfg.foc.length := by rw [← hrows.length_eq, List.length_zip, hlc, Nat.min_self]
  have hrow : ∀ (a : ℕ) r, rows[a]? = some r → ∃ f ps, cfg.foc[a]? = some f ∧ cands[a]? = some ps ∧ r.length = ps.length ∧ ∀ v ∈ r, -BIG_M ≤ v.1 := by
    intro a r ha
    have hlt := (List.getElem?_eq_some_iff.mp ha).1
    have e1 : cfg.foc[a]? = some (cfg.foc[a]'(by omega)) := List.getElem?_eq_getElem _
    have e2 : cands[a]? = some (cands[a]'(by omega)) := List.getElem?_eq_getElem _
    have e3 : (cfg.foc.zip cands)[a]? = some (cfg.foc[a]'(by omega), cands[a]'(by omega)) := by rw [List.getElem?_zip_eq_some]; exact ⟨e1, e2⟩
    have := forall2_get hrows e3 ha
    exact ⟨_, _, e1, e2, this⟩
  obtain ⟨hne, r, v, hr, hv⟩ := argmax_filled w rows (by
      intro e
      rw [e] at hlr
      exact hfoc (List.length_eq_zero_iff.mp hlr.symm)) (fun r hr => by
      obtain ⟨a, ha⟩ := List.getElem?_of_mem hr
      obtain ⟨f, ps, -, e2, e3, -⟩ := hrow a r ha
      rw [e3]
      exact hps ps (List.mem_of_getElem? e2)) fun r hr => by
      obtain ⟨a, ha⟩ := List.getElem?_of_mem hr
      obtain ⟨f, ps, -, -, -, e4⟩ := hrow a r ha
      exact e4
  obtain ⟨f, ps, e1, e2, e3, -⟩ := hrow _ r hr
  generalize hflat : (rows.flatMap fun r => r.map (·.1) ++ List.replicate (w - r.length) (-BIG_M)) = flat at *
  have hj' := (List.getElem?_eq_some_iff.mp hv).1
  obtain ⟨pos, e4⟩ : ∃ pos, ps[npArgmax flat % w]? = some pos := ⟨_, List.getElem?_eq_getElem (by omega)⟩
  have hcol : ∀ f, col cfg.data f ≠ [] := fun f => by simpa [col] using hA.data
  obtain ⟨mn, hmn⟩ := listMin_ne (hcol f)
  obtain ⟨mx, hmx⟩ := listMax_ne (hcol f)
  refine returning_bind (P := fun _ => True) (returning_inert (a := ()) (if_neg hne) trivial) fun _ _ => ?_
  refine returning_known (pyIndex_ok e1) ?_
  refine returning_known (pyIndex_ok e2) ?_
  refine returning_known (pyIndex_ok e4) ?_
  refine returning_bind (runHeters_returning hA hj hsub _ _ _) fun vs hvs => ?_
  refine returning_bind (P := fun _ => True) (returning_inert hmn trivial) fun _ _ => ?_
  refine returning_bind (P := fun _ => True) (returning_inert hmx trivial) fun _ _ => ?_
  refine returning_known (pyIndex_ok hr) ?_
  refine returning_bind (P := fun _ => True) (returning_inert (pyIndex_ok hv) trivial) fun _ _ => ?_
  exact returning_pure ⟨hvs.1, fun v hv => (hvs.2 v hv).1⟩

end

theorem runLevels_returning {cfg : RegCfg K D} {h : HeterR σ K D S} (hA : RandomArgsOk cfg h) (hfoc : cfg.foc ≠ []) (n : ℕ) (xs : List (List (Row K D)))
    (js : Option (List (List (Row K D)))) (hj : ∀ l, js = some l → xs.length = l.length) (hsub : ∀ x ∈ xs, x.Sublist cfg.data) (before : List K) (hb0 : ∀ b ∈ before, 0 ≤ b) :
    Returning (runLevels cfg h n xs js before) fun _ => True := by
  induction n generalizing xs js before with
  | zero => exact returning_pure trivial
  | succ n ih =>
    unfold runLevels
    split_ifs with hs
    · exact returning_pure trivial
    refine returning_bind (runSingleLevel_returning hA hj hsub hb0 hfoc) fun sp hsp => ?_
    refine returning_bind (ih _ _ ?_ ?_ _ hsp.2) fun _ _ => returning_pure trivial
    · intro l hl
      cases js with
      | none => simp at hl
      | some l' =>
        simp only [Option.map_some, Option.some.injEq] at hl
        rw [← hl, length_splitAll, length_splitAllEff _ _ (hj l' rfl)]
    · intro x hx
      unfold splitAll splitRows at hx
      obtain ⟨y, hy, hx⟩ := List.mem_flatMap.1 hx
      simp only [List.mem_cons, List.not_mem_nil, or_false] at hx
      rcases hx with rfl | rfl <;> exact List.filter_sublist.trans (hsub y hy)

/-- **C117, no exception.**  The search returns, whatever the state, under the conditions of C61, if every measurement of a region returns a number between 0 and 1e8 (another number each
time, perhaps). -/
theorem C117_search_returns (cfg : RegCfg K D) (h : HeterR σ K D S) (hA : RandomArgsOk cfg h) (hm : cfg.maxLevels ≤ cfg.foc.length) : Returning (runSearch cfg h) fun _ => True := by
  unfold runSearch
  split_ifs with hcat hl
  · exact returning_pure trivial
  · exact absurd hl (not_lt.mpr hm)
  refine returning_bind (P := fun _ => True) (returning_inert (a := ()) rfl trivial) fun _ _ => ?_
  refine returning_bind (hA.heter _ _ (List.Sublist.refl _)) fun v hv => ?_
  refine returning_bind (P := fun _ => True) ?_ fun _ _ => returning_pure trivial
  by_cases hfoc : cfg.foc = []
  · have : cfg.maxLevels = 0 := by rw [hfoc] at hm; simpa using hm
    rw [this]
    exact returning_pure trivial
  refine runLevels_returning hA hfoc _ _ _ ?_ ?_ _ ?_
  · intro l hl
    cases he : cfg.dataEffect with
    | none => rw [he] at hl; simp at hl
    | some e => rw [he] at hl; simp only [Option.map_some, Option.some.injEq] at hl; rw [← hl]; rfl
  · intro x hx
    rw [List.mem_singleton.mp hx]
  · intro b hb
    rw [List.mem_singleton.mp hb]
    exact hv.1

/-- **C117, no exception, one feature.**  And then the trees of the feature are built and stored. -/
theorem C117_fit_returns [PySqrt K] (o : RegionalObj K D) (kw : FitKw K D) (f : Fin D) (h : HeterR σ K D (RegionalState K D))
    (hA : RandomArgsOk (regionsOf o.cfg (kw.toArgs o) f) h) (hm : kw.maxDepth ≤ (kw.foc.getD (focAll f)).length) :
    Returning (runFitFeature o kw f h) fun _ => True := by
  intro y
  obtain ⟨y1, sp, e, -⟩ := C117_search_returns _ h hA hm y
  unfold runFitFeature
  have key : ∀ imp, ∃ t, splitsToTree (regionsOf o.cfg (kw.toArgs o) f) (posTextOf o.cfg.fmt none) sp imp = .ok t := by
    intro imp
    cases sp with
    | none => exact ⟨none, rfl⟩
    | some s =>
      obtain ⟨hS, -⟩ := C117_search _ hA.eff h y y1 s e
      obtain ⟨t, h1, -⟩ := soundTree_of hS (posTextOf o.cfg.fmt none) imp
      exact ⟨some t, h1⟩
  obtain ⟨t1, k1⟩ := key false
  obtain ⟨t2, k2⟩ := key true
  rw [runBind_of e]
  refine returning_bind (P := fun _ => True) (returning_inert k1 trivial) (fun _ _ => ?_) y1
  refine returning_bind (P := fun _ => True) (returning_inert k2 trivial) fun _ _ => ?_
  exact fun y => ⟨_, _, rfl, trivial⟩

end Effector
