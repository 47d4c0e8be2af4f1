import Verif.Props.RegionalApiTotal

/-!
# C68 and C71 for models that do not work row by row

A model handed to effector is a function from a whole array of rows to an array of outputs; nothing forces the output of one row to be independent of the other rows of
the batch (batch normalisation, ranking, a model that memoises …).  The theorems here extend C68 and C71 for ALE, PDP and d-PDP to every such model.
-/

set_option linter.unusedSectionVars false

namespace Effector

/-- Specification: a model that answers every batch with one number per row (and otherwise does what it likes). -/
def Spec.OnePerRow {K : Type} {D : ℕ} (model : List (Row K D) → List K) : Prop := ∀ X, (model X).length = X.length

/-- Specification: every number the model ever returns lies between `a` and `a + B`. -/
def Spec.OutputsIn {K : Type} [Add K] [LE K] {D : ℕ} (model : List (Row K D) → List K) (a B : K) : Prop := ∀ X, ∀ y ∈ model X, a ≤ y ∧ y ≤ a + B

open Spec

variable {K : Type} [Field K] [LinearOrder K] [IsStrictOrderedRing K] {D : ℕ}

theorem length_setCol (cast : K → K) (data : List (Row K D)) (s : Fin D) (vs : List K) (h : vs.length = data.length) :
    (setCol cast data s vs).length = data.length := by
  unfold setCol
  rw [List.length_zipWith, h, min_self]

/-- `compute_local_effects` inside the limits, for any model. -/
theorem computeLocalEffects_any {cast : K → K} {model : List (Row K D) → List K} {data : List (Row K D)} {limits : List K} {s : Fin D}
    (hinc : Increasing limits) (htwo : 2 ≤ limits.length) (hin : Within limits (col data s)) (hne : data ≠ []) :
    ∃ l0 l1 R S, (bumpLast EPS limits)[0]? = some l0 ∧ (bumpLast EPS limits)[1]? = some l1 ∧ l0 < l1 ∧ R.length = data.length ∧ S.length = data.length ∧
    computeLocalEffects cast data model limits s = .ok ((List.zipWith (· - ·) (model R) (model S)).map (· / (l1 - l0)), bumpLast EPS limits) := by
  obtain ⟨lo, hi, hlo, hhi, hmem⟩ := hin
  have hlen : (bumpLast EPS limits).length = limits.length := length_bumpLast _ _
  have hincb := increasing_bumpLast (EPS_pos (K := K)).le hinc
  have e0 : (bumpLast EPS limits)[0]? = some (bumpLast EPS limits)[0] := List.getElem?_eq_getElem (by omega)
  have e1 : (bumpLast EPS limits)[1]? = some (bumpLast EPS limits)[1] := List.getElem?_eq_getElem (by omega)
  refine ⟨_, _, setCol cast data s (data.map fun r => (bumpLast EPS limits).getD (binIdx limits (r s)) 0),
    setCol cast data s (data.map fun r => (bumpLast EPS limits).getD (binIdx limits (r s) - 1) 0), e0, e1,
    increasing_getElem?_lt hincb e0 e1 (by omega), length_setCol _ _ _ _ (by simp), length_setCol _ _ _ _ (by simp), ?_⟩
  obtain ⟨r0, rs, rfl⟩ : ∃ r rs, data = r :: rs := by
    cases data with
    | nil => exact absurd rfl hne
    | cons r rs => exact ⟨r, rs, rfl⟩
  have hcol : col (r0 :: rs) s = r0 s :: col rs s := rfl
  have hmin : lo ≤ (col rs s).foldl min (r0 s) := by
    have := foldl_min_mem (col rs s) (r0 s)
    rw [← hcol] at this
    exact (hmem _ this).1
  have hmax : (col rs s).foldl max (r0 s) ≤ hi := by
    have := foldl_max_mem (col rs s) (r0 s)
    rw [← hcol] at this
    exact (hmem _ this).2
  have hidx : ∀ r ∈ r0 :: rs, 0 < binIdx limits (r s) ∧ binIdx limits (r s) < limits.length := by
    intro r hr
    have := hmem (r s) (List.mem_map.mpr ⟨r, hr, rfl⟩)
    exact binIdx_lt hinc htwo hlo hhi this.1 this.2
  have hdig : digitize (col (r0 :: rs) s) (bumpLast EPS limits) = .ok ((r0 :: rs).map fun r => binIdx limits (r s)) := by
    rw [digitize_sorted (increasing_le hincb)]
    unfold col
    rw [List.map_map]
    rfl
  have hall : (((r0 :: rs).map fun r => binIdx limits (r s)).all (0 < ·)) = true := by
    rw [List.all_eq_true]
    intro i hi'
    obtain ⟨r, hr, rfl⟩ := List.mem_map.mp hi'
    simpa using (hidx r hr).1
  have hright : ((r0 :: rs).map fun r => binIdx limits (r s)).mapM (fun i => pyIndex (bumpLast EPS limits) i) =
      .ok ((r0 :: rs).map fun r => (bumpLast EPS limits).getD (binIdx limits (r s)) 0) := by
    rw [List.mapM_map]
    apply mapM_ok
    intro r hr
    apply pyIndex_ok
    have := hidx r hr
    rw [List.getD_eq_getElem?_getD, List.getElem?_eq_getElem (show binIdx limits (r s) < (bumpLast EPS limits).length by omega)]
    rfl
  have hleft : ((r0 :: rs).map fun r => binIdx limits (r s)).mapM (fun i => pyIndex (bumpLast EPS limits) (i - 1)) =
      .ok ((r0 :: rs).map fun r => (bumpLast EPS limits).getD (binIdx limits (r s) - 1) 0) := by
    rw [List.mapM_map]
    apply mapM_ok
    intro r hr
    apply pyIndex_ok
    have := hidx r hr
    rw [List.getD_eq_getElem?_getD, List.getElem?_eq_getElem (show binIdx limits (r s) - 1 < (bumpLast EPS limits).length by omega)]
    rfl
  unfold computeLocalEffects
  rw [pyIndex_ok (show limits[0]? = some lo by rw [← List.head?_eq_getElem?, hlo])]
  simp only [bind, Except.bind]
  rw [hcol]
  simp only [listMin, listMax]
  rw [pyAssert, if_pos (by simpa using hmin)]
  simp only []
  rw [pyIndex_ok (show limits[limits.length - 1]? = some hi by rw [← List.getLast?_eq_getElem?, hhi])]
  simp only []
  rw [pyAssert, if_pos (by simpa using hmax)]
  simp only []
  rw [← hcol, hdig]
  simp only []
  rw [pyAssert, if_pos hall]
  simp only []
  rw [hright]
  simp only []
  rw [hleft]
  simp only []
  rw [pyIndex_ok e0]
  simp only []
  rw [pyIndex_ok e1]
  simp only [pure, Except.pure]

/-- A successful ALE fit of a model with one output per row, unfolded. -/
theorem ale_fit_cases_any {cast : K → K} {model : List (Row K D) → List K} (hone : OnePerRow model) {data : List (Row K D)} {lo hi : Fin D → K} {s : Fin D}
    {bm : BinMethod K} {p : AleParams K} (hlt : lo s < hi s) (hsafe : SafeMethod (aleCtx data lo hi s) (aleMethod bm))
    (h : aleFitFeature cast model data lo hi s bm = .ok p) :
    ∃ L l0 l1 eff, findLimits (aleCtx data lo hi s) (aleMethod bm) = .ok (.arr L) ∧ Increasing L ∧ 2 ≤ L.length ∧
      Within L (aleCtx data lo hi s).xs ∧ (bumpLast EPS L)[0]? = some l0 ∧ (bumpLast EPS L)[1]? = some l1 ∧ l0 < l1 ∧
      computeAleParams (aleCtx data lo hi s).xs eff (bumpLast EPS L) = .ok p ∧ GoodParams p ∧ p.limits = bumpLast EPS L ∧
      (aleCtx data lo hi s).xs.length = eff.length ∧
      ∀ a B : K, OutputsIn model a B → ∀ y ∈ eff, -B / (l1 - l0) ≤ y ∧ y ≤ -B / (l1 - l0) + 2 * B / (l1 - l0) := by
  obtain ⟨-, L, eff, L', hL, hc, hp⟩ := aleFitFeature_ok h
  obtain ⟨hinc, htwo, hwith, -⟩ := findLimits_good _ _ (aleCtx_in data lo hi s) hlt hsafe L hL
  have hne : data.filter (inAxis (lo s) (hi s) s) ≠ [] := by
    intro h0
    rw [h0] at hc
    have : ∀ L : List K, computeLocalEffects cast ([] : List (Row K D)) model L s ≠ .ok (eff, L') := by
      intro L hcon
      unfold computeLocalEffects at hcon
      simp only [bind, Except.bind] at hcon
      cases hx : pyIndex L 0 with
      | error e => rw [hx] at hcon; cases hcon
      | ok v => rw [hx] at hcon; cases hcon
    exact this L hc
  obtain ⟨l0, l1, R, S, h0, h1, h01, hR, hS, hce⟩ := computeLocalEffects_any (cast := cast) (model := model) hinc htwo hwith hne
  rw [hce] at hc
  injection hc with hc
  injection hc with hc1 hc2
  subst hc1 hc2
  have hxl : (aleCtx data lo hi s).xs.length = ((List.zipWith (· - ·) (model R) (model S)).map (· / (l1 - l0))).length := by
    rw [List.length_map, List.length_zipWith, hone, hone, hR, hS, min_self]
    simp [aleCtx, col]
  have hg := computeAleParams_good (increasing_bumpLast (EPS_pos (K := K)).le hinc) (by rw [length_bumpLast]; exact htwo)
    (within_bump htwo hwith) hxl.symm hp
  refine ⟨L, l0, l1, _, hL, hinc, htwo, hwith, h0, h1, h01, hp, hg.1, hg.2.1, hxl, fun a B hB y hy => ?_⟩
  have hd : 0 < l1 - l0 := by linarith
  obtain ⟨z, hz, rfl⟩ := List.mem_map.mp hy
  rw [← List.map_uncurry_zip_eq_zipWith] at hz
  obtain ⟨⟨u, v⟩, huv, rfl⟩ := List.mem_map.mp hz
  obtain ⟨q1, q2⟩ := hB R u (List.of_mem_zip huv).1
  obtain ⟨q3, q4⟩ := hB S v (List.of_mem_zip huv).2
  simp only [Function.uncurry]
  rw [← add_div, div_le_div_iff_of_pos_right hd, div_le_div_iff_of_pos_right hd]
  constructor <;> linarith

/-- **C68, ALE**, for every model with one output per row: the heterogeneity of any non-empty region is available, not negative, 1e8 when the region is too small or
cannot be fitted, and otherwise the accumulated standard deviation at the largest value of the feature. -/
theorem C68_ale_heterogeneity_any_model [PySqrt K] [LawfulSqrt K] (choice : ℕ → ℕ → List ℕ) (cast : K → K) (model : List (Row K D) → List K)
    (hone : OnePerRow model) (foi : Fin D) (bm : BinMethod K) (minPoints : ℕ) (centering : PyVal)
    (data : List (Row K D)) (eff : Option (List (Row K D))) (lo hi : Fin D → K) (hlim : axisLimitsAll data = .ok (lo, hi))
    (hbins : ∀ m cl, bm ≠ .fixed 0 m cl) (hcl : ∀ n m, bm ≠ .fixed n m 0) :
    ∃ v, aleHeter (mkAle choice cast model) foi bm minPoints centering data eff = .ok v ∧ 0 ≤ v ∧
      (data.length < minPoints → v = 10 ^ 8) ∧
      ((isFixedMethod bm = false ∨ (∃ e, prepCentering centering = .error e) ∨
        (∃ e, aleFitFeature cast model data lo hi foi bm = .error e)) → v = 10 ^ 8) ∧
      ∀ p m, minPoints ≤ data.length → isFixedMethod bm = true → prepCentering centering = .ok m →
        aleFitFeature cast model data lo hi foi bm = .ok p → hi foi ≤ 10 ^ 8 →
        v = stepIntegral p.limits (p.binVariance.map PySqrt.sqrt) (hi foi) := by
  simp only [BIG_M_lit] at *
  by_cases hfew : data.length < minPoints
  · refine ⟨_, aleHeter_few _ _ _ _ _ _ _ hfew, big_pos.le, fun _ => rfl, fun _ => rfl, fun p m hle => ?_⟩
    omega
  · obtain ⟨hmx, -, hne⟩ := listMax_axis hlim foi
    have hmk : mkAle choice cast model data eff = .ok (aleCfg cast model
        { data := data, indices := List.range data.length, axisLo := lo, axisHi := hi }) := by
      unfold mkAle
      rw [base_init_all choice data none]
      simp only [limitsOr, hlim, Except.bind, bind, pure, Except.pure]
    have hgood : ∀ p, aleFitFeature cast model data lo hi foi bm = .ok p → GoodParams p ∧ lo foi < hi foi := by
      intro p hp
      by_cases hlt : lo foi < hi foi
      · obtain ⟨-, -, -, -, -, -, -, -, -, -, -, -, hg, -⟩ := ale_fit_cases_any hone hlt (ale_safe (aleFitFeature_ok hp).1 hbins) hp
        exact ⟨hg, hlt⟩
      · obtain ⟨hfx, L, -, -, hL, -⟩ := aleFitFeature_ok hp
        refine absurd hL (findLimits_constant _ _ (distinct_of_axis hlim hlt) ?_ L)
        intro n m h
        cases bm with
        | str s => cases h
        | fixed n' m' cl' => exact hcl _ _ h
        | greedy n' m' d' cl' => cases h
        | dp n' m' d' cl' => cases h
    obtain ⟨h1, h2⟩ := aleHeter_value (minPoints := minPoints) (centering := centering) hmk hmx (by omega) hgood
    cases hal : isFixedMethod bm with
    | false =>
      exact ⟨_, h2 (Or.inl hal), big_pos.le, fun _ => rfl, fun _ => rfl, fun p m _ h => by cases h⟩
    | true =>
      cases hc : prepCentering centering with
      | error e =>
        exact ⟨_, h2 (Or.inr (Or.inl ⟨e, hc⟩)), big_pos.le, fun _ => rfl, fun _ => rfl, fun p m _ _ h => by cases h⟩
      | ok m =>
        cases hfit : aleFitFeature cast model data lo hi foi bm with
        | error e =>
          exact ⟨_, h2 (Or.inr (Or.inr ⟨e, hfit⟩)), big_pos.le, fun _ => rfl, fun _ => rfl, fun p m _ _ _ h => by cases h⟩
        | ok p =>
          obtain ⟨H, hH, hpos, hv⟩ := h1 p m hal hc hfit
          refine ⟨_, hv, hpos _, fun h => absurd h hfew, ?_, ?_⟩
          · rintro (h | ⟨e, h⟩ | ⟨e, h⟩) <;> cases h
          · intro p' m' _ _ _ hp' hbig
            cases hp'
            have hg := (hgood p hfit).1
            have := hg.acc_below (p.binVariance.map PySqrt.sqrt) [hi foi] (by rw [List.length_map]; exact hg.bv)
              (by intro x hx; rw [List.mem_singleton] at hx; subst hx; exact Or.inl hbig)
            have hH1 := hH [hi foi]
            unfold evalHet at hH1
            rw [this] at hH1
            simpa using hH1.symm

/-- **C68, ALE, upper bound**, for every model with one output per row whose outputs lie in an interval of length `B`. -/
theorem C68_ale_heterogeneity_bounded_any_model [PySqrt K] [LawfulSqrt K] (choice : ℕ → ℕ → List ℕ) (cast : K → K) (model : List (Row K D) → List K)
    (hone : OnePerRow model) (foi : Fin D)
    (n m cl : ℕ) (hn : 1 ≤ n) (hcl : 1 ≤ cl) (minPoints : ℕ) (centering : PyVal)
    (data : List (Row K D)) (eff : Option (List (Row K D))) (lo hi : Fin D → K) (hlim : axisLimitsAll data = .ok (lo, hi))
    (a B : K) (hB : 0 ≤ B) (hf : OutputsIn model a B) (w δ N : K) (hw : hi foi - lo foi ≤ w) (_hδ : 0 < δ)
    (hgap : ∀ r ∈ data, ∀ r' ∈ data, r foi < r' foi → δ ≤ r' foi - r foi) (hN1 : (n : K) ≤ N) (hN2 : 3 / 2 * w ≤ N * δ) (hbig : hi foi ≤ 100000000) :
    ∃ v, aleHeter (mkAle choice cast model) foi (.fixed n (some m) cl) minPoints centering data eff = .ok v ∧ 0 ≤ v ∧
      (v = 100000000 ∨ v ≤ 2 * B * N) := by
  have hb1 : ∀ m' cl', (.fixed n (some m) cl : BinMethod K) ≠ .fixed 0 m' cl' := by
    intro m' cl' h; cases h; omega
  have hb2 : ∀ n' m', (.fixed n (some m) cl : BinMethod K) ≠ .fixed n' m' 0 := by
    intro n' m' h; cases h; omega
  obtain ⟨v, h1, h2, h3, h4, h5⟩ := C68_ale_heterogeneity_any_model choice cast model hone foi (.fixed n (some m) cl) minPoints centering data eff lo hi hlim hb1 hb2
  refine ⟨v, h1, h2, ?_⟩
  have hBM : (10 ^ 8 : K) = 100000000 := by norm_num
  rw [hBM] at h3 h4 h5
  by_cases hfew : data.length < minPoints
  · exact Or.inl (h3 hfew)
  rcases prepCentering_ok_or centering with ⟨c, hm⟩ | hm
  swap
  · exact Or.inl (h4 (Or.inr (Or.inl hm)))
  cases hfit : aleFitFeature cast model data lo hi foi (.fixed n (some m) cl) with
  | error e => exact Or.inl (h4 (Or.inr (Or.inr ⟨e, hfit⟩)))
  | ok p =>
    right
    rw [h5 p c (by omega) rfl hm hfit hbig]
    have hlt : lo foi < hi foi := by
      by_contra hlt
      obtain ⟨-, L, -, -, hL, -⟩ := aleFitFeature_ok hfit
      exact findLimits_constant _ _ (distinct_of_axis hlim hlt) hb2 L hL
    obtain ⟨L, l0, l1, effs, hL, hinc, htwo, hwith, h0, h1', h01, hp, hg, hpl, hxl, heffb⟩ :=
      ale_fit_cases_any hone hlt (ale_safe (aleFitFeature_ok hfit).1 hb1) hfit
    have hd : 0 < l1 - l0 := by linarith
    replace heffb := heffb a B hf
    have hhead : (bumpLast EPS L).head? = some l0 := by rw [List.head?_eq_getElem?]; exact h0
    have hwidth := fixedFind_width (aleCtx data lo hi foi) n m cl hlt hn L hL h0 h1'
    have hax : ∀ r ∈ data.filter (inAxis (lo foi) (hi foi) foi), r ∈ data := fun r hr => (List.mem_filter.mp hr).1
    have hR : l0 ≤ hi foi ∧ hi foi - l0 ≤ N * (l1 - l0) := by
      rcases hwidth with ⟨e1, e2⟩ | ⟨u, v', hu, hv', huv, e1, e2⟩
      · refine ⟨by rw [e1]; exact hlt.le, e2.trans (mul_le_mul_of_nonneg_right hN1 hd.le)⟩
      · obtain ⟨r, hr, rfl⟩ := List.mem_map.mp hu
        obtain ⟨r', hr', rfl⟩ := List.mem_map.mp hv'
        have i1 := aleCtx_in data lo hi foi _ hu
        have i2 := aleCtx_in data lo hi foi _ hv'
        have i3 := hgap r (hax r hr) r' (hax r' hr') huv
        refine ⟨by rw [e2]; linarith [i1.2], ?_⟩
        have hNn : 0 ≤ N := le_trans (by positivity) hN1
        have := mul_le_mul_of_nonneg_left i3 hNn
        rw [e1, e2]
        linarith [i1.1, i1.2, i2.1, i2.2]
    refine (het_bound (div_nonneg (by linarith) hd.le) (increasing_bumpLast (EPS_pos (K := K)).le hinc) (by rw [length_bumpLast]; exact htwo)
      (within_bump htwo hwith) hxl.symm hp heffb hhead hR.1).trans ?_
    calc 2 * B / (l1 - l0) * (hi foi - l0) ≤ 2 * B / (l1 - l0) * (N * (l1 - l0)) :=
          mul_le_mul_of_nonneg_left hR.2 (div_nonneg (by linarith) hd.le)
      _ = 2 * B * N := by field_simp

/-- **C71, RegionalALE, any model** with one output per row and outputs in an interval of length `B`: with `n` fixed bins, values of the feature in an interval of
length `w` (and at most 1e8), different values at least `δ` apart, and `2 B max(n, 3/2 w / δ) ≤ 1e8`, `fit` raises nothing. -/
theorem C71_ale_any_model [PySqrt K] [LawfulSqrt K] (cfg : RegCfg K D) (heff : EffAligned cfg) (hne : cfg.data ≠ []) (hspl : 0 < cfg.nofSplits)
    (hcat : ∀ f ∈ cfg.foc, cfg.types f = .cat → distinct (cfg.data.map (· f)) ≤ max cfg.nofSplits cfg.catLimit)
    (hdep : cfg.maxLevels ≤ cfg.foc.length) (hmin : 1 ≤ cfg.minPoints) (choice : ℕ → ℕ → List ℕ) (cast : K → K) (model : List (Row K D) → List K)
    (hone : OnePerRow model)
    (n m cl : ℕ) (hn : 1 ≤ n) (hcl : 1 ≤ cl) (centering : PyVal)
    (a B : K) (hB : 0 ≤ B) (hf : OutputsIn model a B) (u w δ N : K) (hu : ∀ r ∈ cfg.data, u ≤ r cfg.feature ∧ r cfg.feature ≤ u + w) (hδ : 0 < δ)
    (hgap : ∀ r ∈ cfg.data, ∀ r' ∈ cfg.data, r cfg.feature < r' cfg.feature → δ ≤ r' cfg.feature - r cfg.feature)
    (hN1 : (n : K) ≤ N) (hN2 : 3 / 2 * w ≤ N * δ) (hbig : u + w ≤ 100000000) (hBN : 2 * B * N ≤ 100000000) :
    ∃ r, searchAllSplitsM cfg (aleHeter (mkAle choice cast model) cfg.feature (.fixed n (some m) cl) cfg.minPoints centering) = .ok r := by
  refine C71_search_never_raises cfg heff hne hspl hcat hdep _ fun x e hx => ?_
  obtain ⟨hx1, hx2, hx3⟩ := hx
  by_cases hxe : x = []
  · refine ⟨BIG_M, aleHeter_few _ _ _ _ _ _ _ ?_, big_pos.le, by norm_num [BIG_M]⟩
    rw [hxe]; exact hmin
  · obtain ⟨lo, hi, hlim⟩ := axisLimits_ok hxe
    obtain ⟨hmx, hmn, -⟩ := listMax_axis hlim cfg.feature
    have hlo : u ≤ lo cfg.feature ∧ hi cfg.feature ≤ u + w := by
      obtain ⟨r, hr, h1⟩ := List.mem_map.mp (listMin_least hmn).1
      obtain ⟨r', hr', h2⟩ := List.mem_map.mp (listMax_greatest hmx).1
      rw [← h1, ← h2]
      exact ⟨(hu r (hx1.subset hr)).1, (hu r' (hx1.subset hr')).2⟩
    obtain ⟨v, h1, h2, h3⟩ := C68_ale_heterogeneity_bounded_any_model choice cast model hone cfg.feature n m cl hn hcl cfg.minPoints centering x e lo hi hlim a B hB hf w δ N
      (by linarith [hlo.1, hlo.2]) hδ (fun r hr r' hr' => hgap r (hx1.subset hr) r' (hx1.subset hr')) hN1 hN2 (hlo.2.trans hbig)
    refine ⟨v, h1, h2, ?_⟩
    rcases h3 with h3 | h3
    · rw [h3]
    · exact h3.trans hBN

/-! ### PDP and d-PDP -/

/-- Specification: every number from which the (d-)ICE curves are built lies in an interval of length `B`: the outputs of the model (PDP); the partial derivatives with
respect to the feature (d-PDP with a Jacobian); for d-PDP without Jacobian, the outputs lie in an interval of length `B / 10^6` (the step of the central
differences is `1e-6`). -/
def Spec.CurvesIn (kind : PdpKind K D) (s : Fin D) (B : K) : Prop :=
  match kind with
  | .pdp m => ∃ a, OutputsIn m a B
  | .derJac j => ∃ a, ∀ X, ∀ r ∈ j X, a ≤ r s ∧ r s ≤ a + B
  | .derNum m => ∃ a, OutputsIn m a (B / 10 ^ 6)

/-- Specification: `nof_instances` is `"all"`, or a positive number, and the random draw of `n` of `N` positions gives `n` positions below `N`. -/
def Spec.ValidSample (choice : ℕ → ℕ → List ℕ) (nof : PyVal) : Prop :=
  nof = .str "all" ∨ ∃ n : ℕ, nof = .int n ∧ 1 ≤ n ∧ ∀ N, n ≤ N → (choice N n).length = n ∧ ∀ i ∈ choice N n, i < N

theorem prepNof_valid {choice : ℕ → ℕ → List ℕ} {nof : PyVal} (h : ValidSample choice nof) (N : ℕ) :
    ∃ k idx, prepNofInstances choice nof N = .ok (k, idx) ∧ ∀ i ∈ idx, i < N := by
  rcases h with rfl | ⟨n, rfl, -, hn⟩
  · exact ⟨_, _, rfl, fun i hi => List.mem_range.mp hi⟩
  · unfold prepNofInstances
    simp only
    by_cases hlt : (n : ℤ) < (N : ℤ)
    · rw [if_pos hlt, if_neg (by omega)]
      exact ⟨_, _, rfl, fun i hi => (hn N (by omega)).2 i (by simpa using hi)⟩
    · rw [if_neg hlt]
      exact ⟨_, _, rfl, fun i hi => List.mem_range.mp hi⟩

theorem base_init_valid {choice : ℕ → ℕ → List ℕ} {nof : PyVal} (h : ValidSample choice nof) (data : List (Row K D)) (lo hi : Fin D → K) :
    ∃ b, Base.init choice data nof (some (lo, hi)) = .ok b := by
  obtain ⟨k, idx, h1, h2⟩ := prepNof_valid h data.length
  unfold Base.init
  rw [h1]
  simp only [bind, Except.bind, pure, Except.pure]
  obtain ⟨d, hd⟩ : ∃ d, takeRows data idx = .ok d := by
    cases data with
    | nil =>
      cases idx with
      | nil => exact ⟨[], rfl⟩
      | cons i t => exact absurd (h2 i (by simp)) (by simp)
    | cons r t =>
      refine ⟨idx.map fun i => (r :: t).getD i r, mapM_ok fun i hi => pyIndex_ok ?_⟩
      have := h2 i hi
      rw [List.getD_eq_getElem?_getD, List.getElem?_eq_getElem this]
      rfl
  rw [hd]
  exact ⟨_, rfl⟩

theorem centralDiff_mem {y1 y2 : List K} {z : K} (h : z ∈ centralDiff y1 y2) : ∃ u ∈ y1, ∃ v ∈ y2, z = (u - v) / (2 * FD_STEP) := by
  unfold centralDiff at h
  rw [← List.map_uncurry_zip_eq_zipWith] at h
  obtain ⟨⟨u, v⟩, huv, rfl⟩ := List.mem_map.mp h
  exact ⟨u, (List.of_mem_zip huv).1, v, (List.of_mem_zip huv).2, rfl⟩

theorem reshape2_mem {T N : ℕ} {y : List K} {yy : List (List K)} (h : reshape2 T N y = .ok yy) : ∀ row ∈ yy, ∀ z ∈ row, z ∈ y := by
  unfold reshape2 at h
  split_ifs at h
  cases h
  intro row hrow z hz
  obtain ⟨t, -, rfl⟩ := List.mem_map.mp hrow
  exact List.mem_of_mem_drop (List.mem_of_mem_take hz)

/-- The matrix of ICE values of any black box: all its entries lie in one interval. -/
theorem pdpPredict_in {cast : K → K} {kind : PdpKind K D} {s : Fin D} {B : K} (hk : CurvesIn kind s B) :
    ∃ a, ∀ data xx vec yy, pdpPredict cast kind data xx s vec = .ok yy → ∀ row ∈ yy, ∀ z ∈ row, a ≤ z ∧ z ≤ a + B := by
  cases kind with
  | pdp m =>
    obtain ⟨a, ha⟩ := hk
    refine ⟨a, fun data xx vec yy h row hrow z hz => ?_⟩
    unfold pdpPredict at h
    cases vec with
    | true =>
      simp only [if_true, pdpVecY] at h
      exact ha _ z (reshape2_mem h row hrow z hz)
    | false =>
      simp only [Bool.false_eq_true, if_false] at h
      split_ifs at h
      cases h
      unfold pdpNonVecY at hrow
      obtain ⟨v, -, rfl⟩ := List.mem_map.mp hrow
      exact ha _ z hz
  | derJac j =>
    obtain ⟨a, ha⟩ := hk
    have hout : ∀ X, ∀ z ∈ (BlackBox.jac j).out s X, a ≤ z ∧ z ≤ a + B := by
      intro X z hz
      obtain ⟨r, hr, rfl⟩ := List.mem_map.mp hz
      exact ha X r hr
    refine ⟨a, fun data xx vec yy h row hrow z hz => ?_⟩
    unfold pdpPredict at h
    cases vec with
    | true =>
      simp only [if_true, pdpVecY] at h
      exact hout _ z (reshape2_mem h row hrow z hz)
    | false =>
      simp only [Bool.false_eq_true, if_false] at h
      split_ifs at h
      cases h
      unfold pdpNonVecY at hrow
      obtain ⟨v, -, rfl⟩ := List.mem_map.mp hrow
      exact hout _ z hz
  | derNum m =>
    obtain ⟨a, ha⟩ := hk
    have hdiff : ∀ X Y, ∀ z ∈ centralDiff (m X) (m Y), -(B / 2) ≤ z ∧ z ≤ -(B / 2) + B := by
      intro X Y z hz
      obtain ⟨u, hu, v, hv, rfl⟩ := centralDiff_mem hz
      obtain ⟨u1, u2⟩ := ha X u hu
      obtain ⟨v1, v2⟩ := ha Y v hv
      have : (u - v) / (2 * FD_STEP) = (u - v) * 500000 := by unfold FD_STEP; ring
      rw [this]
      constructor <;> linarith
    refine ⟨-(B / 2), fun data xx vec yy h row hrow z hz => ?_⟩
    unfold pdpPredict at h
    cases vec with
    | true =>
      simp only [if_true, pdpVecY] at h
      exact hdiff _ _ z (reshape2_mem h row hrow z hz)
    | false =>
      simp only [Bool.false_eq_true, if_false] at h
      split_ifs at h
      cases h
      unfold pdpNonVecY at hrow
      obtain ⟨v, -, rfl⟩ := List.mem_map.mp hrow
      exact hdiff _ _ z hz

/-- The evaluation inside the heterogeneity of a region: an exception, or the standard deviations of the rows of a matrix of ICE values. -/
theorem pdpEval_het_cases [PySqrt K] (cfg : PdpCfg K D) (st : PdpState K D) (s : Fin D) (xs : List K) (vec : Bool) :
    (∃ e, (pdpEval cfg st s xs true (.bool false) false vec).2 = .error e) ∨
      ∃ data yy, pdpPredict cfg.cast cfg.kind data xs s vec = .ok yy ∧
        (pdpEval cfg st s xs true (.bool false) false vec).2 = .ok (.meanStd (yy.map mean) (yy.map npStd)) := by
  have hfit : ∀ st', (∃ e, pdpEvalFitted cfg st' s xs true .off false vec = .error e) ∨
      ∃ data yy, pdpPredict cfg.cast cfg.kind data xs s vec = .ok yy ∧
        pdpEvalFitted cfg st' s xs true .off false vec = .ok (.meanStd (yy.map mean) (yy.map npStd)) := by
    intro st'
    unfold pdpEvalFitted
    simp only [bind, Except.bind, pure, Except.pure, if_true, Bool.false_eq_true, if_false]
    generalize pyAssert _ = q
    cases q with
    | error e => exact Or.inl ⟨e, rfl⟩
    | ok _ =>
      simp only []
      cases hy : pdpPredict cfg.cast cfg.kind st'.data xs s vec with
      | error e => exact Or.inl ⟨e, rfl⟩
      | ok yy => exact Or.inr ⟨st'.data, yy, hy, rfl⟩
  unfold pdpEval
  simp only [prepCentering]
  generalize needsRefit (st.fitted s) (st.args s) _ = q
  cases q with
  | error e => exact Or.inl ⟨e, rfl⟩
  | ok b =>
    cases b with
    | false => exact hfit st
    | true =>
      simp only []
      generalize pdpFitLoop cfg _ 100 vec st [s] = p
      obtain ⟨st', r⟩ := p
      cases r with
      | error e => exact Or.inl ⟨e, rfl⟩
      | ok _ => exact hfit st'

/-- **C68, PDP and d-PDP, any model, Jacobian, cast and sample**: the heterogeneity of a region (with at least one row whenever it has `min_points` of them) is
available and not negative, and at most 1e8 when the curves lie in an interval of length 1e8.  (`_hw`: a region of which no row is within the axis limits has NaN as
its heterogeneity in numpy, which the model does not describe.) -/
theorem C68_pdp_heterogeneity_any_model [PySqrt K] [LawfulSqrt K] (choice : ℕ → ℕ → List ℕ) (cast : K → K) (kind : PdpKind K D) (lo hi : Fin D → K) (foi : Fin D)
    (minPoints : ℕ) (hmin : 1 ≤ minPoints) (centering nof : PyVal) (hnof : ValidSample choice nof) (points : ℕ) (vec : Bool) (data : List (Row K D))
    (_hw : AllWithin data lo hi) :
    ∃ v, pdpHeter choice cast kind lo hi foi minPoints centering nof points vec data = .ok v ∧ 0 ≤ v ∧
      (data.length < minPoints → v = 10 ^ 8) ∧ (CurvesIn kind foi 100000000 → v ≤ 10 ^ 8) := by
  have hBM : (BIG_M : K) = 10 ^ 8 := by norm_num [BIG_M]
  have hbig : (0 : K) ≤ BIG_M := big_pos.le
  unfold pdpHeter
  by_cases hfew : data.length < minPoints
  · rw [if_pos hfew]
    exact ⟨_, rfl, hbig, fun _ => hBM, fun _ => hBM.le⟩
  · rw [if_neg hfew]
    obtain ⟨b, hb⟩ := base_init_valid hnof data lo hi
    rw [hb]
    simp only [bind, Except.bind, pure, Except.pure]
    generalize hcfg : ({ cast := cast, kind := kind, axisLo := b.axisLo, axisHi := b.axisHi } : PdpCfg K D) = cfg
    generalize pdpFit cfg (PdpState.init b.data) (.int ((foi : ℕ) : ℤ)) centering points vec = p
    obtain ⟨st, r⟩ := p
    cases r with
    | error e => exact ⟨_, rfl, hbig, fun h => absurd h hfew, fun _ => hBM.le⟩
    | ok _ =>
      simp only []
      have hxe : col data foi ≠ [] := by
        intro h
        have : data = [] := by simpa [col] using h
        rw [this, List.length_nil] at hfew
        omega
      obtain ⟨mn, hmn⟩ := listMin_ne hxe
      obtain ⟨mx, hmx⟩ := listMax_ne hxe
      rw [hmn, hmx]
      simp only []
      rcases pdpEval_het_cases cfg st foi (linspace mn mx 10) vec with ⟨e, he⟩ | ⟨d, yy, hyy, he⟩
      · rw [he]
        exact ⟨_, rfl, hbig, fun h => absurd h hfew, fun _ => hBM.le⟩
      · rw [he]
        refine ⟨_, rfl, mean_nonneg fun x hx => ?_, fun h => absurd h hfew, fun hk => ?_⟩
        · obtain ⟨y, -, rfl⟩ := List.mem_map.mp hx
          exact LawfulSqrt.sqrt_nonneg _
        · subst hcfg
          obtain ⟨a, ha⟩ := pdpPredict_in (cast := cast) hk
          have hrow := ha d _ vec yy hyy
          by_cases hyn : yy = []
          · rw [hyn]
            simp [mean]
          · refine (avg_bounds (g1 := 0) (l := yy.map npStd) ?_ (by simpa using hyn)).2
            intro z hz
            obtain ⟨row, hr, rfl⟩ := List.mem_map.mp hz
            refine ⟨LawfulSqrt.sqrt_nonneg _, ?_⟩
            have := sqrt_popVar_le (l := row) (a := a) (b := a + 100000000) (by linarith) (hrow row hr)
            have e : npStd row = PySqrt.sqrt (popVar row) := by simp [npStd, variance, popVar, mean, avg]
            rw [e]
            linarith

/-- **C71, RegionalPDP / RegionalDerPDP, any model**: any black box (PDP model, Jacobian, or model differentiated numerically), any cast of the data matrix, any valid
sample: if the numbers from which the curves are built lie in an interval of length 1e8, `fit` raises nothing. -/
theorem C71_pdp_any_model [PySqrt K] [LawfulSqrt K] (cfg : RegCfg K D) (heff : EffAligned cfg) (hne : cfg.data ≠ []) (hspl : 0 < cfg.nofSplits)
    (hcat : ∀ f ∈ cfg.foc, cfg.types f = .cat → distinct (cfg.data.map (· f)) ≤ max cfg.nofSplits cfg.catLimit)
    (hdep : cfg.maxLevels ≤ cfg.foc.length) (hmin : 1 ≤ cfg.minPoints) (choice : ℕ → ℕ → List ℕ) (cast : K → K) (kind : PdpKind K D) (lo hi : Fin D → K)
    (hw : AllWithin cfg.data lo hi) (centering nof : PyVal) (hnof : ValidSample choice nof) (points : ℕ) (vec : Bool) (hk : CurvesIn kind cfg.feature 100000000) :
    ∃ r, searchAllSplitsM cfg (fun x _ => pdpHeter choice cast kind lo hi cfg.feature cfg.minPoints centering nof points vec x) = .ok r := by
  refine C71_search_never_raises cfg heff hne hspl hcat hdep _ fun x e hx => ?_
  obtain ⟨v, h1, h2, -, h4⟩ := C68_pdp_heterogeneity_any_model choice cast kind lo hi cfg.feature cfg.minPoints hmin centering nof hnof points vec x
    fun r hr => hw r (hx.1.subset hr)
  refine ⟨v, h1, h2, (h4 hk).trans ?_⟩
  norm_num

/-! ### Through the API -/

/-- **C71 through the API, RegionalALE, any model** with one output per row. -/
theorem C71_ale_api_any_model [PySqrt K] [LawfulSqrt K] (bb : BlackBoxes K D) (hone : OnePerRow bb.model) (data : List (Row K D)) (nof : PyVal)
    (axisLimits : Option ((Fin D → K) × (Fin D → K))) (types : Option (Fin D → FeatType)) (catLimit : ℕ) (names : Option (Fin D → String)) (fmt : K → String)
    (o : RegionalObj K D) (ho : regionalNew bb "ale" data none nof axisLimits types catLimit names fmt = .ok o) (hne : o.cfg.data ≠ [])
    (kw : FitKw K D) (features : PyVal) (l : List (Fin D)) (hargs : FitArgsOk kw features l) (htypes : TypesOk data types catLimit kw)
    (n m cl : ℕ) (hbin : kw.bin = .fixed n (some m) cl) (hn : 1 ≤ n) (hcl : 1 ≤ cl) (a B : K) (hB : 0 ≤ B) (hg : OutputsIn bb.model a B)
    (hb : ∀ f ∈ l, ∃ u w δ N : K, (∀ r ∈ data, u ≤ r f ∧ r f ≤ u + w) ∧ 0 < δ ∧ (∀ r ∈ data, ∀ r' ∈ data, r f < r' f → δ ≤ r' f - r f) ∧
      (n : K) ≤ N ∧ 3 / 2 * w ≤ N * δ ∧ u + w ≤ 100000000 ∧ 2 * B * N ≤ 100000000) (st : RegionalState K D) :
    (regionalFit o st features kw).2 = .ok () := by
  have hse : startEffects bb "ale" data none = none := rfl
  obtain ⟨hc, c1, c2, c3, -, -, c4, c5, c6, -⟩ := C81_constructor bb "ale" data none nof axisLimits types catLimit names fmt
    (fun e he => by rw [hse] at he; cases he) o ho
  rw [C81_fit_returns o hc]
  refine ⟨hargs.minPoints, l, hargs.features, fun f hf => ?_⟩
  obtain ⟨u, w, δ, N, h1, h2, h3, h4, h5, h6, h7⟩ := hb f hf
  obtain ⟨r, hr⟩ := C71_ale_any_model (regionsOf o.cfg (kw.toArgs o) f) hc.1 hne hargs.candidates (fun g _ hg => catFits htypes c3 c4 c5 c6 g hg) (hargs.depth f hf)
    (le_trans (by norm_num) hargs.minPoints) bb.choice bb.cast bb.model hone n m cl hn hcl kw.centering a B hB hg u w δ N (fun r hr => h1 r (c4 r hr)) h2
    (fun r hr r' hr' => h3 r (c4 r hr) r' (c4 r' hr')) h4 h5 h6 h7
  refine ⟨r, ?_⟩
  unfold searchOf regionalHeter
  rw [c1, c2, hbin]
  simp only [prepBinningMethod, bind, Except.bind, pure, Except.pure]
  exact hr

/-- **C71 through the API, RegionalPDP, any model** (automatic axis limits; no condition on the data type of the matrix, or on the number of points for centring). -/
theorem C71_pdp_api_any_model [PySqrt K] [LawfulSqrt K] (bb : BlackBoxes K D)
    (data : List (Row K D)) (nof : PyVal) (types : Option (Fin D → FeatType)) (catLimit : ℕ)
    (names : Option (Fin D → String)) (fmt : K → String)
    (o : RegionalObj K D) (ho : regionalNew bb "pdp" data none nof none types catLimit names fmt = .ok o) (hne : o.cfg.data ≠ [])
    (kw : FitKw K D) (features : PyVal) (l : List (Fin D)) (hargs : FitArgsOk kw features l) (htypes : TypesOk data types catLimit kw)
    (hnof : ValidSample bb.choice kw.nof) (a : K) (hb : OutputsIn bb.model a 100000000) (st : RegionalState K D) :
    (regionalFit o st features kw).2 = .ok () := by
  have hse : startEffects bb "pdp" data none = none := rfl
  obtain ⟨hc, c1, c2, c3, -, -, c4, c5, c6, c7, -⟩ := C81_constructor bb "pdp" data none nof none types catLimit names fmt
    (fun e he => by rw [hse] at he; cases he) o ho
  have hax : axisLimitsAll data = .ok (o.axisLo, o.axisHi) := by
    rcases c7 with h | ⟨-, h⟩
    · cases h
    · exact h
  rw [C81_fit_returns o hc]
  refine ⟨hargs.minPoints, l, hargs.features, fun f hf => ?_⟩
  obtain ⟨r, hr⟩ := C71_pdp_any_model (regionsOf o.cfg (kw.toArgs o) f) hc.1 hne hargs.candidates (fun g _ hg => catFits htypes c3 c4 c5 c6 g hg) (hargs.depth f hf)
    (le_trans (by norm_num) hargs.minPoints) bb.choice bb.cast (.pdp bb.model) o.axisLo o.axisHi (fun r hr => axisLimits_within hax r (c4 r hr)) kw.centering kw.nof hnof kw.points kw.vec ⟨a, hb⟩
  refine ⟨r, ?_⟩
  unfold searchOf regionalHeter
  rw [c1, c2]
  exact hr

/-- **C71 through the API, RegionalDerPDP, any Jacobian or model**: partial derivatives in an interval of length 1e8, or, without Jacobian, outputs in an
interval of length 100. -/
theorem C71_derpdp_api_any_model [PySqrt K] [LawfulSqrt K] (bb : BlackBoxes K D)
    (data : List (Row K D)) (nof : PyVal) (types : Option (Fin D → FeatType)) (catLimit : ℕ)
    (names : Option (Fin D → String)) (fmt : K → String)
    (o : RegionalObj K D) (ho : regionalNew bb "d-pdp" data none nof none types catLimit names fmt = .ok o) (hne : o.cfg.data ≠ [])
    (kw : FitKw K D) (features : PyVal) (l : List (Fin D)) (hargs : FitArgsOk kw features l) (htypes : TypesOk data types catLimit kw)
    (hnof : ValidSample bb.choice kw.nof)
    (hb : (∃ j, bb.jac = some j ∧ ∀ f ∈ l, ∃ a, ∀ X, ∀ r ∈ j X, a ≤ r f ∧ r f ≤ a + 100000000) ∨ (bb.jac = none ∧ ∃ a, OutputsIn bb.model a 100))
    (st : RegionalState K D) :
    (regionalFit o st features kw).2 = .ok () := by
  have hse : startEffects bb "d-pdp" data none = none := rfl
  obtain ⟨hc, c1, c2, c3, -, -, c4, c5, c6, c7, -⟩ := C81_constructor bb "d-pdp" data none nof none types catLimit names fmt
    (fun e he => by rw [hse] at he; cases he) o ho
  have hax : axisLimitsAll data = .ok (o.axisLo, o.axisHi) := by
    rcases c7 with h | ⟨-, h⟩
    · cases h
    · exact h
  rw [C81_fit_returns o hc]
  refine ⟨hargs.minPoints, l, hargs.features, fun f hf => ?_⟩
  have hk : CurvesIn (match bb.jac with | some j => .derJac j | none => .derNum bb.model) f (100000000 : K) := by
    rcases hb with ⟨j, hj, h⟩ | ⟨hj, a, h⟩
    · rw [hj]
      exact h f hf
    · rw [hj]
      refine ⟨a, ?_⟩
      have : (100000000 / 10 ^ 6 : K) = 100 := by norm_num
      rw [this]
      exact h
  obtain ⟨r, hr⟩ := C71_pdp_any_model (regionsOf o.cfg (kw.toArgs o) f) hc.1 hne hargs.candidates (fun g _ hg => catFits htypes c3 c4 c5 c6 g hg) (hargs.depth f hf)
    (le_trans (by norm_num) hargs.minPoints) bb.choice bb.cast _ o.axisLo o.axisHi (fun r hr => axisLimits_within hax r (c4 r hr)) kw.centering kw.nof hnof kw.points kw.vec hk
  refine ⟨r, ?_⟩
  unfold searchOf regionalHeter
  rw [c1, c2]
  exact hr

/-! ### The hypotheses are met -/

/-- A model that looks at the whole batch: 1 for the rows above the batch's average of feature 0, 0 for the others. -/
noncomputable def aboveAverage (X : List (Row ℝ 2)) : List ℝ := X.map fun r => if r 0 * X.length ≤ (X.map (· 0)).sum then 0 else 1

/-- It does not work row by row: the answer for a row depends on the batch. -/
example : ¬ ∃ f : Row ℝ 2 → ℝ, aboveAverage = List.map f := by
  rintro ⟨f, hf⟩
  have h1 := congrFun hf [![1, 0]]
  have h2 := congrFun hf [![1, 0], ![0, 0]]
  simp [aboveAverage] at h1 h2
  rw [← h1] at h2
  norm_num at h2

theorem aboveAverage_one : OnePerRow aboveAverage := fun X => by simp [aboveAverage]

theorem aboveAverage_in : OutputsIn aboveAverage 0 1 := by
  intro X y hy
  obtain ⟨r, -, rfl⟩ := List.mem_map.mp hy
  split_ifs <;> norm_num

/-- `RegionalALE.fit` with that model raises nothing on the example. -/
example (choice : ℕ → ℕ → List ℕ) (centering : PyVal) :
    ∃ r, searchAllSplitsM (boundedCfg none) (aleHeter (mkAle choice id aboveAverage) 0 (.fixed 3 (some 2) 1) 2 centering) = .ok r := by
  refine C71_ale_any_model (boundedCfg none) ?_ (by simp [boundedCfg]) (by simp [boundedCfg]) (boundedCfg_cats _) (by simp [boundedCfg])
    (by simp [boundedCfg]) choice id _ aboveAverage_one 3 2 1 (by norm_num) (by norm_num) centering 0 1 (by norm_num) aboveAverage_in 0 2 1 3 (boundedCfg_range _)
    (by norm_num) ?_ (by norm_num) (by norm_num) (by norm_num) (by norm_num)
  · intro e he
    cases he
  · intro r hr r' hr' hlt
    simp only [boundedCfg, List.mem_cons, List.not_mem_nil, or_false] at hr hr'
    rcases hr with rfl | rfl | rfl | rfl | rfl | rfl <;> rcases hr' with rfl | rfl | rfl | rfl | rfl | rfl <;>
      first | (norm_num [boundedCfg] at hlt; done) | norm_num [boundedCfg] at hlt ⊢

/-- `RegionalPDP.fit` and (numerical) `RegionalDerPDP.fit` with that model, a sample of two rows per region, raise nothing on the example. -/
example (centering : PyVal) (points : ℕ) (vec : Bool) (kind : PdpKind ℝ 2) (hkind : kind = .pdp aboveAverage ∨ kind = .derNum aboveAverage) :
    ∃ r, searchAllSplitsM (boundedCfg none)
      (fun x _ => pdpHeter (fun _ n => List.range n) id kind (fun _ => 0) (fun _ => 2) 0 2 centering (.int 2) points vec x) = .ok r := by
  refine C71_pdp_any_model (boundedCfg none) ?_ (by simp [boundedCfg]) (by simp [boundedCfg]) (boundedCfg_cats _) (by simp [boundedCfg])
    (by simp [boundedCfg]) _ id _ _ _ ?_ centering _ (Or.inr ⟨2, rfl, by norm_num, fun N hN => ⟨by simp, fun i hi => ?_⟩⟩) points vec ?_
  · intro e he
    cases he
  · intro r hr
    simp only [boundedCfg, List.mem_cons, List.not_mem_nil, or_false] at hr
    intro g
    rcases hr with rfl | rfl | rfl | rfl | rfl | rfl <;> fin_cases g <;> norm_num
  · have := List.mem_range.mp hi
    omega
  · rcases hkind with rfl | rfl
    · refine ⟨0, fun X y hy => ?_⟩
      have := aboveAverage_in X y hy
      constructor <;> linarith
    · refine ⟨0, fun X y hy => ?_⟩
      have := aboveAverage_in X y hy
      constructor
      · linarith
      · norm_num
        linarith

end Effector
