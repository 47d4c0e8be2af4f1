import Verif.Props.BinningRules
import Verif.Props.Accumulate

/-! # Lemmas about fitted ALE / RHALE parameters -/

namespace Effector

set_option linter.unusedSectionVars false

open Spec

variable {K : Type} [Field K] [LinearOrder K] [IsStrictOrderedRing K] {D : ℕ}

/-- Well-formed parameters. -/
structure GoodParams (p : AleParams K) : Prop where
  inc : Increasing p.limits
  two : 2 ≤ p.limits.length
  dx : p.dx = diffs p.limits
  be : p.binEffect.length = p.limits.length - 1
  bv : p.binVariance.length = p.limits.length - 1

theorem widths_diffs {l : List K} (h : 2 ≤ l.length) : Widths l (diffs l) :=
  ⟨by rw [length_diffs]; omega, getElem?_diffs l⟩

/-- `compute_accumulated_effect` with any per-bin values on well-formed parameters, at any points. -/
theorem GoodParams.acc {p : AleParams K} (hp : GoodParams p) (es xs : List K) (hes : es.length = p.limits.length - 1) :
    ∃ el, es.getLast? = some el ∧ computeAccumulatedEffect xs p.limits es p.dx =
      .ok (xs.map fun x => stepIntegral p.limits es x +
        (if (∀ l ∈ p.limits, l ≤ x) ∧ BIG_M < x then (x - BIG_M) * el else 0)) := by
  have h2 := hp.two
  have hne : es ≠ [] := by intro h0; rw [h0] at hes; simp at hes; omega
  refine ⟨_, List.getLast?_eq_some_getLast hne, ?_⟩
  rw [hp.dx]
  exact C01_accumulated_effect_exact p.limits es (diffs p.limits) xs _ hp.inc (by omega)
    (List.getLast?_eq_some_getLast hne) (widths_diffs hp.two)

/-- The same, at points where the sentinel plays no role. -/
theorem GoodParams.acc_below {p : AleParams K} (hp : GoodParams p) (es xs : List K) (hes : es.length = p.limits.length - 1)
    (hxs : ∀ x ∈ xs, x ≤ BIG_M ∨ ∃ l ∈ p.limits, x < l) :
    computeAccumulatedEffect xs p.limits es p.dx = .ok (xs.map (stepIntegral p.limits es)) := by
  have h2 := hp.two
  have hne : es ≠ [] := by intro h0; rw [h0] at hes; simp at hes; omega
  rw [hp.dx]
  exact C01_accumulated_effect_partial p.limits es (diffs p.limits) xs hp.inc (by omega) hne (widths_diffs hp.two) hxs

/-- Facts about successful `compute_ale_params` on increasing limits that enclose the data. -/
theorem computeAleParams_good {limits xs eff : List K} {p : AleParams K} (hinc : Increasing limits)
    (htwo : 2 ≤ limits.length) (hin : Within limits xs) (hlen : eff.length = xs.length)
    (h : computeAleParams xs eff limits = .ok p) :
    GoodParams p ∧ p.limits = limits ∧
    (∃ be, fillNans be = .ok p.binEffect ∧ ∀ v, some v ∈ be → ∃ k, v = avg (binEffects limits xs eff k) ∧ binEffects limits xs eff k ≠ []) ∧
    (∃ bv, fillNans bv = .ok p.binVariance ∧ ∀ v, some v ∈ bv → ∃ k, v = popVar (binEffects limits xs eff k)) ∧
    (∀ k, k < limits.length - 1 → binEffects limits xs eff k ≠ [] → p.binEffect[k]? = some (avg (binEffects limits xs eff k))) := by
  have hset : BinSetting limits xs eff := ⟨hinc, htwo, hin, hlen⟩
  have hbe := computeBinEffect_eq hset
  have hbv := computeBinVariance_eq hset hbe
  unfold computeAleParams at h
  rw [hbe] at h
  simp only [bind, Except.bind] at h
  rw [hbv] at h
  simp only [] at h
  split at h
  · cases h
  · rename_i be' hbe'
    split at h
    · cases h
    · rename_i bv' hbv'
      split at h
      · cases h
      · cases h
        have hl1 : be'.length = limits.length - 1 := by
          rw [fillNans_eq] at hbe'
          split_ifs at hbe'
          cases hbe'
          rw [length_fillFrom]
          simp
        have hl2 : bv'.length = limits.length - 1 := by
          rw [fillNans_eq] at hbv'
          split_ifs at hbv'
          cases hbv'
          rw [length_fillFrom]
          simp
        refine ⟨⟨hinc, htwo, rfl, hl1, hl2⟩, rfl, ⟨_, hbe', ?_⟩, ⟨_, hbv', ?_⟩, ?_⟩
        · intro v hv
          obtain ⟨k, -, hk⟩ := List.mem_map.mp hv
          split_ifs at hk with h0
          exact ⟨k, (Option.some.inj hk).symm, h0⟩
        · intro v hv
          obtain ⟨k, -, hk⟩ := List.mem_map.mp hv
          split_ifs at hk with h0
          exact ⟨k, (Option.some.inj hk).symm⟩
        · intro k hk hne
          rw [fillNans_eq] at hbe'
          split_ifs at hbe'
          cases hbe'
          rw [getElem?_fillFrom, List.getElem?_map, List.getElem?_range hk]
          simp [hne]

/-! ### RHALE -/

theorem rhale_good {data eff : List (Row K D)} {lo hi : Fin D → K} {s : Fin D} {bm : BinMethod K} {p : AleParams K}
    (hlt : lo s < hi s) (hsafe : SafeMethod (rhaleCtx data eff lo hi s) bm)
    (h : rhaleFitFeature data eff lo hi s bm = .ok p) :
    GoodParams p ∧ Within p.limits (rhaleCtx data eff lo hi s).xs ∧
    computeAleParams (rhaleCtx data eff lo hi s).xs
        (col (((data.zip eff).filter fun p => inAxis (lo s) (hi s) s p.1).map (·.2)) s) p.limits = .ok p := by
  obtain ⟨hlen, L, hL, hp⟩ := rhaleFitFeature_ok h
  have hin := rhaleCtx_in data eff lo hi s
  obtain ⟨hinc, htwo, hwith, -⟩ := findLimits_good (rhaleCtx data eff lo hi s) bm hin hlt hsafe L hL
  obtain ⟨h1, h2, -⟩ := computeAleParams_good hinc htwo hwith (rhaleCtx_len data eff lo hi s hlen) hp
  rw [h2]
  exact ⟨h1, hwith, hp⟩

/-! ### ALE -/

/-- The binning problem `ALE._fit_feature` poses for feature `s`. -/
def aleCtx (data : List (Row K D)) (lo hi : Fin D → K) (s : Fin D) : BinCtx K where
  xs := col (data.filter (inAxis (lo s) (hi s) s)) s
  eff := none
  xmin := lo s
  xmax := hi s

theorem aleCtx_in (data : List (Row K D)) (lo hi : Fin D → K) (s : Fin D) :
    ∀ x ∈ (aleCtx data lo hi s).xs, lo s ≤ x ∧ x ≤ hi s := rhaleCtx_in data [] lo hi s

/-- ALE's binning method, the string replaced by the default parameters. -/
def aleMethod : BinMethod K → BinMethod K
  | .str _ => .fixed 20 (some 0) 15
  | b => b

/-- `ALE._fit_feature` in terms of `aleCtx` and `aleMethod`. -/
theorem aleFitFeature_eq (cast : K → K) (model : List (Row K D) → List K) (data : List (Row K D))
    (lo hi : Fin D → K) (s : Fin D) (bm : BinMethod K) :
    aleFitFeature cast model data lo hi s bm =
      if isFixedMethod bm then
        (findLimits (aleCtx data lo hi s) (aleMethod bm)).bind fun l => match l with
          | .impossible => .error .assertionError
          | .arr L => (computeLocalEffects cast (data.filter (inAxis (lo s) (hi s) s)) model L s).bind fun q =>
              computeAleParams (aleCtx data lo hi s).xs q.1 q.2
      else .error .assertionError := by
  unfold aleFitFeature pyAssert
  have key : ∀ q : Py (Lim K),
      (q.bind fun l => match l with
        | .impossible => (.error .assertionError : Py (AleParams K))
        | .arr limits => (computeLocalEffects cast (data.filter (inAxis (lo s) (hi s) s)) model limits s).bind fun x =>
            match x with
            | (eff, limits') => computeAleParams (col (data.filter (inAxis (lo s) (hi s) s)) s) eff limits') =
      (q.bind fun l => match l with
          | .impossible => .error .assertionError
          | .arr L => (computeLocalEffects cast (data.filter (inAxis (lo s) (hi s) s)) model L s).bind fun q =>
              computeAleParams (aleCtx data lo hi s).xs q.1 q.2) := by
    intro q
    rcases q with e | l
    · rfl
    · cases l <;> rfl
  cases bm with
  | fixed n mo cl => exact key _
  | greedy n mo d cl => rfl
  | dp n mo d cl => rfl
  | str t =>
    by_cases ht : t = "fixed"
    · subst ht; exact key _
    · simp [isFixedMethod, ht, bind, Except.bind]

theorem aleFitFeature_ok {cast : K → K} {model : List (Row K D) → List K} {data : List (Row K D)}
    {lo hi : Fin D → K} {s : Fin D} {bm : BinMethod K} {p : AleParams K}
    (h : aleFitFeature cast model data lo hi s bm = .ok p) :
    isFixedMethod bm = true ∧ ∃ L eff L', findLimits (aleCtx data lo hi s) (aleMethod bm) = .ok (.arr L) ∧
      computeLocalEffects cast (data.filter (inAxis (lo s) (hi s) s)) model L s = .ok (eff, L') ∧
      computeAleParams (aleCtx data lo hi s).xs eff L' = .ok p := by
  rw [aleFitFeature_eq] at h
  split_ifs at h with hf
  refine ⟨hf, ?_⟩
  cases hl : findLimits (aleCtx data lo hi s) (aleMethod bm) with
  | error e => rw [hl] at h; cases h
  | ok l =>
    rw [hl] at h
    cases l with
    | impossible => cases h
    | arr L =>
      simp only [Except.bind] at h
      cases hc : computeLocalEffects cast (data.filter (inAxis (lo s) (hi s) s)) model L s with
      | error e => rw [hc] at h; cases h
      | ok q =>
        rw [hc] at h
        exact ⟨L, q.1, q.2, rfl, hc, h⟩

theorem mem_le_foldl_max (l : List K) (a : K) : a ≤ l.foldl max a ∧ ∀ x ∈ l, x ≤ l.foldl max a := by
  induction l generalizing a with
  | nil => simp
  | cons b t ih =>
    obtain ⟨h1, h2⟩ := ih (max a b)
    refine ⟨(le_max_left a b).trans h1, ?_⟩
    intro x hx
    rcases List.mem_cons.mp hx with rfl | hx
    · exact (le_max_right a x).trans h1
    · exact h2 x hx

theorem foldl_max_mem (l : List K) (a : K) : l.foldl max a ∈ a :: l := by
  induction l generalizing a with
  | nil => simp
  | cons b t ih =>
    rcases List.mem_cons.mp (ih (max a b)) with h | h
    · simp only [List.foldl_cons]
      rw [h]
      rcases max_choice a b with h' | h' <;> simp [h']
    · simp only [List.foldl_cons]
      exact List.mem_cons_of_mem _ (List.mem_cons_of_mem _ h)

theorem foldl_min_le_mem (l : List K) (a : K) : l.foldl min a ≤ a ∧ ∀ x ∈ l, l.foldl min a ≤ x := by
  induction l generalizing a with
  | nil => simp
  | cons b t ih =>
    obtain ⟨h1, h2⟩ := ih (min a b)
    refine ⟨h1.trans (min_le_left a b), ?_⟩
    intro x hx
    rcases List.mem_cons.mp hx with rfl | hx
    · exact h1.trans (min_le_right a x)
    · exact h2 x hx

theorem foldl_min_mem (l : List K) (a : K) : l.foldl min a ∈ a :: l := by
  induction l generalizing a with
  | nil => simp
  | cons b t ih =>
    rcases List.mem_cons.mp (ih (min a b)) with h | h
    · simp only [List.foldl_cons]
      rw [h]
      rcases min_choice a b with h' | h' <;> simp [h']
    · simp only [List.foldl_cons]
      exact List.mem_cons_of_mem _ (List.mem_cons_of_mem _ h)

theorem setCol_map (cast : K → K) (data : List (Row K D)) (s : Fin D) (g : Row K D → K) :
    setCol cast data s (data.map g) = data.map fun r => Function.update r s (cast (g r)) := by
  unfold setCol
  rw [List.zipWith_map_right, List.zipWith_self]

/-- `compute_local_effects` inside the limits, for a row-wise model: instance by instance. -/
theorem computeLocalEffects_eq {cast : K → K} {f : Row K D → K} {data : List (Row K D)} {limits : List K} {s : Fin D}
    (hinc : Increasing limits) (htwo : 2 ≤ limits.length) (hin : Within limits (col data s)) (hne : data ≠ []) :
    ∃ l0 l1, (bumpLast EPS limits)[0]? = some l0 ∧ (bumpLast EPS limits)[1]? = some l1 ∧ l0 < l1 ∧
    computeLocalEffects cast data (List.map f) limits s =
      .ok (data.map (fun r =>
        (f (Function.update r s (cast ((bumpLast EPS limits).getD (binIdx limits (r s)) 0))) -
          f (Function.update r s (cast ((bumpLast EPS limits).getD (binIdx limits (r s) - 1) 0)))) / (l1 - l0)),
        bumpLast EPS limits) := by
  obtain ⟨lo, hi, hlo, hhi, hmem⟩ := hin
  have hlen : (bumpLast EPS limits).length = limits.length := length_bumpLast _ _
  have hincb := increasing_bumpLast (EPS_pos (K := K)).le hinc
  have e0 : (bumpLast EPS limits)[0]? = some (bumpLast EPS limits)[0] := List.getElem?_eq_getElem (by omega)
  have e1 : (bumpLast EPS limits)[1]? = some (bumpLast EPS limits)[1] := List.getElem?_eq_getElem (by omega)
  refine ⟨_, _, e0, e1, increasing_getElem?_lt hincb e0 e1 (by omega), ?_⟩
  obtain ⟨r0, rs, rfl⟩ : ∃ r rs, data = r :: rs := by
    cases data with
    | nil => exact absurd rfl hne
    | cons r rs => exact ⟨r, rs, rfl⟩
  have hcol : col (r0 :: rs) s = r0 s :: col rs s := rfl
  have hmin : lo ≤ (col rs s).foldl min (r0 s) := by
    have := foldl_min_mem (col rs s) (r0 s)
    rw [← hcol] at this
    exact (hmem _ this).1
  have hmax : (col rs s).foldl max (r0 s) ≤ hi := by
    have := foldl_max_mem (col rs s) (r0 s)
    rw [← hcol] at this
    exact (hmem _ this).2
  have hidx : ∀ r ∈ r0 :: rs, 0 < binIdx limits (r s) ∧ binIdx limits (r s) < limits.length := by
    intro r hr
    have := hmem (r s) (List.mem_map.mpr ⟨r, hr, rfl⟩)
    exact binIdx_lt hinc htwo hlo hhi this.1 this.2
  have hdig : digitize (col (r0 :: rs) s) (bumpLast EPS limits) = .ok ((r0 :: rs).map fun r => binIdx limits (r s)) := by
    rw [digitize_sorted (increasing_le hincb)]
    unfold col
    rw [List.map_map]
    rfl
  have hall : (((r0 :: rs).map fun r => binIdx limits (r s)).all (0 < ·)) = true := by
    rw [List.all_eq_true]
    intro i hi'
    obtain ⟨r, hr, rfl⟩ := List.mem_map.mp hi'
    simpa using (hidx r hr).1
  have hright : ((r0 :: rs).map fun r => binIdx limits (r s)).mapM (fun i => pyIndex (bumpLast EPS limits) i) =
      .ok ((r0 :: rs).map fun r => (bumpLast EPS limits).getD (binIdx limits (r s)) 0) := by
    rw [List.mapM_map]
    apply mapM_ok
    intro r hr
    apply pyIndex_ok
    have := hidx r hr
    rw [List.getD_eq_getElem?_getD, List.getElem?_eq_getElem (show binIdx limits (r s) < (bumpLast EPS limits).length by omega)]
    rfl
  have hleft : ((r0 :: rs).map fun r => binIdx limits (r s)).mapM (fun i => pyIndex (bumpLast EPS limits) (i - 1)) =
      .ok ((r0 :: rs).map fun r => (bumpLast EPS limits).getD (binIdx limits (r s) - 1) 0) := by
    rw [List.mapM_map]
    apply mapM_ok
    intro r hr
    apply pyIndex_ok
    have := hidx r hr
    rw [List.getD_eq_getElem?_getD, List.getElem?_eq_getElem (show binIdx limits (r s) - 1 < (bumpLast EPS limits).length by omega)]
    rfl
  unfold computeLocalEffects
  rw [pyIndex_ok (show limits[0]? = some lo by rw [← List.head?_eq_getElem?, hlo])]
  simp only [bind, Except.bind]
  rw [hcol]
  simp only [listMin, listMax]
  rw [pyAssert, if_pos (by simpa using hmin)]
  simp only []
  rw [pyIndex_ok (show limits[limits.length - 1]? = some hi by rw [← List.getLast?_eq_getElem?, hhi])]
  simp only []
  rw [pyAssert, if_pos (by simpa using hmax)]
  simp only []
  rw [← hcol, hdig]
  simp only []
  rw [pyAssert, if_pos hall]
  simp only []
  rw [hright]
  simp only []
  rw [hleft]
  simp only []
  rw [pyIndex_ok e0]
  simp only []
  rw [pyIndex_ok e1]
  simp only [pure, Except.pure]
  rw [setCol_map, setCol_map, List.map_map, List.map_map, List.zipWith_map, List.zipWith_self, List.map_map]
  rfl

/-- Enlarging the last limit does not change the bins of instances inside the original limits. -/
theorem inBin_bump {limits : List K} {hi x : K} (hhi : limits.getLast? = some hi) (h2 : x ≤ hi) (k : ℕ) :
    InBin (bumpLast EPS limits) k x ↔ InBin limits k x := by
  have hE := EPS_pos (K := K)
  unfold InBin
  rw [length_bumpLast, getElem?_bumpLast, getElem?_bumpLast]
  constructor
  · rintro ⟨a, ha, b, hb, hax, hxb⟩
    rw [Option.mem_def, Option.map_eq_some_iff] at ha hb
    obtain ⟨a', ha', rfl⟩ := ha
    obtain ⟨b', hb', rfl⟩ := hb
    have hk : k + 1 < limits.length := by
      by_contra hc
      rw [List.getElem?_eq_none (by omega)] at hb'
      cases hb'
    rw [if_neg (by omega)] at hax
    refine ⟨a', ha', b', hb', hax, ?_⟩
    split_ifs at hxb ⊢ with h3
    · rw [List.getLast?_eq_getElem?, show limits.length - 1 = k + 1 by omega, hb'] at hhi
      rw [Option.some.inj hhi]
      exact h2
    · exact hxb
  · rintro ⟨a, ha, b, hb, hax, hxb⟩
    rw [Option.mem_def] at ha hb
    have hk : k + 1 < limits.length := by
      by_contra hc
      rw [List.getElem?_eq_none (by omega)] at hb
      cases hb
    refine ⟨a, ?_, (if k + 1 + 1 = limits.length then b + EPS else b), by rw [hb]; rfl, hax, ?_⟩
    · rw [ha, Option.map_some, if_neg (by omega)]; rfl
    · split_ifs at hxb ⊢ with h3
      · linarith
      · exact hxb

theorem within_bump {limits xs : List K} (htwo : 2 ≤ limits.length) (h : Within limits xs) : Within (bumpLast EPS limits) xs := by
  obtain ⟨lo, hi, hlo, hhi, hmem⟩ := h
  have hE := EPS_pos (K := K)
  refine ⟨lo, hi + EPS, ?_, ?_, fun x hx => ⟨(hmem x hx).1, by have := (hmem x hx).2; linarith⟩⟩
  · rw [List.head?_eq_getElem?, getElem?_bumpLast, ← List.head?_eq_getElem?, hlo, Option.map_some, if_neg (by omega)]
  · rw [List.getLast?_eq_getElem?, length_bumpLast, getElem?_bumpLast, ← List.getLast?_eq_getElem?, hhi, Option.map_some,
      if_pos (by omega)]

theorem binEffects_bump {limits xs eff : List K} (h : Within limits xs) (k : ℕ) :
    binEffects (bumpLast EPS limits) xs eff k = binEffects limits xs eff k := by
  obtain ⟨lo, hi, hlo, hhi, hmem⟩ := h
  unfold binEffects
  congr 1
  apply List.filter_congr
  intro p hp
  have hx := hmem p.1 (List.of_mem_zip hp).1
  simp only [inBin_bump hhi hx.2 k]

theorem isFixed_params {bm : BinMethod K} (h : isFixedMethod bm = true) :
    ∃ n mo cl, aleMethod bm = .fixed n mo cl := by
  cases bm with
  | fixed n mo cl => exact ⟨n, mo, cl, rfl⟩
  | str s => exact ⟨20, some 0, 15, rfl⟩
  | greedy n mo d cl => simp [isFixedMethod] at h
  | dp n mo d cl => simp [isFixedMethod] at h

/-- A successful ALE fit of a row-wise model, unfolded. -/
theorem ale_fit_cases {cast : K → K} {f : Row K D → K} {data : List (Row K D)} {lo hi : Fin D → K} {s : Fin D}
    {bm : BinMethod K} {p : AleParams K} (hlt : lo s < hi s) (hsafe : SafeMethod (aleCtx data lo hi s) (aleMethod bm))
    (h : aleFitFeature cast (List.map f) data lo hi s bm = .ok p) :
    ∃ L l0 l1, findLimits (aleCtx data lo hi s) (aleMethod bm) = .ok (.arr L) ∧ Increasing L ∧ 2 ≤ L.length ∧
      Within L (aleCtx data lo hi s).xs ∧ (bumpLast EPS L)[0]? = some l0 ∧ (bumpLast EPS L)[1]? = some l1 ∧ l0 < l1 ∧
      computeAleParams (aleCtx data lo hi s).xs
        ((data.filter (inAxis (lo s) (hi s) s)).map fun r =>
          (f (Function.update r s (cast ((bumpLast EPS L).getD (binIdx L (r s)) 0))) -
            f (Function.update r s (cast ((bumpLast EPS L).getD (binIdx L (r s) - 1) 0)))) / (l1 - l0))
        (bumpLast EPS L) = .ok p ∧ GoodParams p ∧ p.limits = bumpLast EPS L := by
  obtain ⟨-, L, eff, L', hL, hc, hp⟩ := aleFitFeature_ok h
  obtain ⟨hinc, htwo, hwith, -⟩ := findLimits_good _ _ (aleCtx_in data lo hi s) hlt hsafe L hL
  have hne : data.filter (inAxis (lo s) (hi s) s) ≠ [] := by
    intro h0
    rw [h0] at hc
    have : ∀ L : List K, computeLocalEffects cast ([] : List (Row K D)) (List.map f) L s ≠ .ok (eff, L') := by
      intro L hcon
      unfold computeLocalEffects at hcon
      simp only [bind, Except.bind] at hcon
      cases hx : pyIndex L 0 with
      | error e => rw [hx] at hcon; cases hcon
      | ok v => rw [hx] at hcon; cases hcon
    exact this L hc
  obtain ⟨l0, l1, h0, h1, h01, hce⟩ := computeLocalEffects_eq (cast := cast) (f := f) hinc htwo hwith hne
  rw [hce] at hc
  cases hc
  have hg := computeAleParams_good (increasing_bumpLast (EPS_pos (K := K)).le hinc) (by rw [length_bumpLast]; exact htwo)
    (within_bump htwo hwith) (by simp [aleCtx, col]) hp
  exact ⟨L, l0, l1, hL, hinc, htwo, hwith, h0, h1, h01, hp, hg.1, hg.2.1⟩

end Effector
