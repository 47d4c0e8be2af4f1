import Verif.Model.NanOutput
import Verif.Props.Units
import Verif.Props.Missing
import Verif.Props.CallsAle
import Verif.Props.AnyModel

/-!
# C113: predictions that are NaN: ALE
-/

set_option linter.unusedSectionVars false

namespace Effector

variable {K : Type} [Field K] [LinearOrder K] [IsStrictOrderedRing K] {D : ℕ}

open Spec

namespace Spec

/-- The effects (numbers or NaN) of the instances in bin `k`. -/
def binOutputs (limits xs : List K) (eff : List (Option K)) (k : ℕ) : List (Option K) :=
  ((xs.zip eff).filter fun p => InBin limits k p.1).map (·.2)

/-- Some instance in the bin of `x` has a NaN effect. -/
def SpoiledAt (limits xs : List K) (eff : List (Option K)) (x : K) : Prop :=
  ∃ k, InBin limits k x ∧ none ∈ binOutputs limits xs eff k

open Classical in
/-- The instances, as pairs (value of the feature, effect), whose bin contains no NaN effect. -/
noncomputable def unspoiled (limits xs : List K) (eff : List (Option K)) : List (K × K) :=
  ((xs.zip eff).filter fun p => decide (¬ SpoiledAt limits xs eff p.1)).filterMap fun p => p.2.map fun e => (p.1, e)

/-- The effect of moving `x_s` of instance `r` from `left` to `right`: NaN when one of the two predictions is. -/
def outputStep (cast : K → K) (f : Row K D → Option K) (s : Fin D) (left right width : K) (r : Row K D) : Option K :=
  match f (Function.update r s (cast right)), f (Function.update r s (cast left)) with
  | some a, some b => some ((a - b) / width)
  | _, _ => none

/-- A whole session with an ALE object and a model that may return NaN. -/
def nAleSession [PySqrt K] (choice : ℕ → ℕ → List ℕ) (cast : K → K) (f : Row K D → Option K) (data : List (Row K D))
    (axisLimits : Option ((Fin D → K) × (Fin D → K))) (calls : List (AleOp K D)) (s : Fin D) (xs : List K) (het : Bool) (c : PyVal) :
    Py (List K × Option (List K)) :=
  (Base.init choice data (.str "all") axisLimits).bind fun b =>
    (aleEval (nAleCfg cast (List.map f) b) (aleRun (nAleCfg cast (List.map f) b) calls) s xs het c).2

end Spec

/-! ### Sums with NaN -/

theorem nanSum_known (l : List (Option K)) : nanSum l = if none ∈ l then none else some (known l).sum := by
  induction l with
  | nil => rfl
  | cons a t ih =>
    cases a with
    | none => simp [nanSum]
    | some v =>
      unfold nanSum
      rw [ih]
      by_cases h : none ∈ t
      · simp [h]
      · simp [h, known]

theorem known_length {K : Type} {l : List (Option K)} (h : none ∉ l) : (known l).length = l.length := by
  induction l with
  | nil => rfl
  | cons a t ih =>
    cases a with
    | none => simp at h
    | some v =>
      have := ih (by simpa using h)
      simp only [known, List.filterMap_cons, id_eq, List.length_cons] at this ⊢
      omega

theorem known_map_some {K : Type} {l : List (Option K)} (h : none ∉ l) : (known l).map some = l := by
  induction l with
  | nil => rfl
  | cons a t ih =>
    cases a with
    | none => simp at h
    | some v =>
      have := ih (by simpa using h)
      simp only [known, List.filterMap_cons, id_eq, List.map_cons] at this ⊢
      rw [this]

theorem known_map_map {K : Type} (g : K → K) (l : List (Option K)) : known (l.map (Option.map g)) = (known l).map g := by
  induction l with
  | nil => rfl
  | cons a t ih => cases a <;> simp_all [known]

/-! ### The bins -/

/-- The same bins, with the NaN effects replaced by 0. -/
theorem nSetting {limits xs : List K} {eff : List (Option K)} (hinc : Increasing limits) (htwo : 2 ≤ limits.length) (hin : Within limits xs)
    (hlen : eff.length = xs.length) : BinSetting limits xs (eff.map fun e => e.getD 0) := ⟨hinc, htwo, hin, by simpa using hlen⟩

section
variable {limits xs : List K} {eff : List (Option K)} (hinc : Increasing limits) (htwo : 2 ≤ limits.length) (hin : Within limits xs)
  (hlen : eff.length = xs.length)
include hinc htwo hin hlen

theorem nValuesAt (k : ℕ) : valuesAt (xs.map fun x => binIdx limits x - 1) eff k = binOutputs limits xs eff k := by
  have h := nSetting hinc htwo hin hlen
  rw [valuesAt_map]
  unfold binOutputs
  congr 1
  apply List.filter_congr
  intro p hp
  have := h.inBin (List.of_mem_zip hp).1 k
  simp only [this, beq_eq_decide]

theorem nCount (k : ℕ) : (binEffects limits xs (eff.map fun e => e.getD 0) k).length = (binOutputs limits xs eff k).length := by
  rw [← (nSetting hinc htwo hin hlen).valuesAt, ← nValuesAt hinc htwo hin hlen, valuesAt_map, valuesAt_map, List.length_map, List.length_map,
    filter_zip_fst xs _ (by simpa using hlen) fun x => binIdx limits x - 1 == k, filter_zip_fst xs _ hlen fun x => binIdx limits x - 1 == k]

theorem nBinEffect_eq : nBinEffect xs eff limits =
    .ok ((List.range (limits.length - 1)).map (fun k =>
          if binOutputs limits xs eff k = [] ∨ none ∈ binOutputs limits xs eff k then none else some (avg (known (binOutputs limits xs eff k)))),
        (List.range (limits.length - 1)).map fun k => (binOutputs limits xs eff k).length) := by
  have h := nSetting hinc htwo hin hlen
  unfold nBinEffect
  rw [h.idx]
  simp only [bind, Except.bind]
  rw [h.binIndices]
  simp only []
  unfold bincountNan
  rw [if_pos (by simp [hlen]), h.bincount, h.len_idx]
  simp only [pure, Except.pure, nCount hinc htwo hin hlen]
  congr 2
  rw [List.zipWith_map, List.zipWith_self]
  apply List.map_congr_left
  intro k _
  rw [nValuesAt hinc htwo hin hlen, nanSum_known]
  by_cases he : binOutputs limits xs eff k = []
  · simp [he]
  · by_cases hn : none ∈ binOutputs limits xs eff k
    · simp [hn]
    · simp [he, hn, avg, known_length hn]

theorem nBinVariance_eq : nBinVariance xs eff limits ((List.range (limits.length - 1)).map (fun k =>
      if binOutputs limits xs eff k = [] ∨ none ∈ binOutputs limits xs eff k then none else some (avg (known (binOutputs limits xs eff k))))) =
    .ok ((List.range (limits.length - 1)).map (fun k =>
          if 2 ≤ (binOutputs limits xs eff k).length ∧ none ∉ binOutputs limits xs eff k then some (popVar (known (binOutputs limits xs eff k))) else none),
        (List.range (limits.length - 1)).map fun k =>
          if 2 ≤ (binOutputs limits xs eff k).length ∧ none ∉ binOutputs limits xs eff k then
            some (popVar (known (binOutputs limits xs eff k)) / ((binOutputs limits xs eff k).length : K)) else none) := by
  have h := nSetting hinc htwo hin hlen
  unfold nBinVariance
  rw [h.idx]
  simp only [bind, Except.bind]
  rw [h.binIndices]
  simp only []
  set M : ℕ → Option K := fun k =>
    if binOutputs limits xs eff k = [] ∨ none ∈ binOutputs limits xs eff k then none else some (avg (known (binOutputs limits xs eff k))) with hM
  have hms : (xs.map fun x => binIdx limits x - 1).mapM (fun i => pyIndex ((List.range (limits.length - 1)).map M) i) =
      .ok ((xs.map fun x => binIdx limits x - 1).map M) := by
    apply mapM_ok
    intro i hi
    obtain ⟨x, hx, rfl⟩ := List.mem_map.mp hi
    have := h.lt hx
    apply pyIndex_ok
    rw [List.getElem?_map, List.getElem?_range (by omega)]
    rfl
  rw [hms]
  simp only []
  unfold bincountNan
  rw [if_pos (by simp [hlen]), h.bincount, h.len_idx]
  simp only [pure, Except.pure, nCount hinc htwo hin hlen]
  have key : ∀ k, (if 1 < (binOutputs limits xs eff k).length then
      (nanSum (valuesAt (xs.map fun x => binIdx limits x - 1)
        (List.zipWith nSqDev eff ((xs.map fun x => binIdx limits x - 1).map M)) k)).map
          (· / ((binOutputs limits xs eff k).length : K)) else none) =
      if 2 ≤ (binOutputs limits xs eff k).length ∧ none ∉ binOutputs limits xs eff k then some (popVar (known (binOutputs limits xs eff k))) else none := by
    intro k
    by_cases h2 : 2 ≤ (binOutputs limits xs eff k).length
    · have hne : binOutputs limits xs eff k ≠ [] := by
        intro h0; rw [h0] at h2; simp at h2
      have hv := valuesAt_zipWith (fun x => binIdx limits x - 1) M nSqDev xs eff k
      rw [if_pos (by omega), List.map_map, show (M ∘ fun x => binIdx limits x - 1) = fun x => M (binIdx limits x - 1) from rfl, hv, nValuesAt hinc htwo hin hlen]
      by_cases hn : none ∈ binOutputs limits xs eff k
      · rw [if_neg (by tauto)]
        have : none ∈ (binOutputs limits xs eff k).map fun e => nSqDev e (M k) := List.mem_map.mpr ⟨none, hn, rfl⟩
        rw [nanSum_known, if_pos this]
        rfl
      · rw [if_pos ⟨h2, hn⟩, ← known_map_some hn]
        simp only [hM, if_neg (not_or.mpr ⟨hne, hn⟩)]
        rw [List.map_map]
        have : ((fun e => nSqDev e (some (avg (known (binOutputs limits xs eff k))))) ∘ some) =
            fun a : K => some ((a - avg (known (binOutputs limits xs eff k))) ^ 2) := rfl
        rw [this, nanSum_map_some, List.length_map, known_some]
        rfl
    · rw [if_neg (by omega), if_neg (by tauto)]
  congr 2
  · rw [List.zipWith_map, List.zipWith_self]
    exact List.map_congr_left fun k _ => key k
  · rw [List.zipWith_map, List.zipWith_self, List.zipWith_map, List.zipWith_self]
    apply List.map_congr_left
    intro k _
    rw [key]
    by_cases h2 : 2 ≤ (binOutputs limits xs eff k).length
    · by_cases hn : none ∈ binOutputs limits xs eff k
      · simp [hn]
      · simp only [h2, hn, not_false_eq_true, and_self, if_true, if_pos (show 1 < (binOutputs limits xs eff k).length by omega), Option.map_some]
    · rw [if_neg (by omega), if_neg (by tauto)]

/-! ### The instances that count -/

omit hinc htwo hin hlen in
theorem unspoiled_fst_mem {p : K × K} (hp : p ∈ unspoiled limits xs eff) : p.1 ∈ xs := by
  unfold unspoiled at hp
  obtain ⟨q, hq, e⟩ := List.mem_filterMap.mp hp
  obtain ⟨x, e'⟩ := q
  cases e' with
  | none => cases e
  | some v =>
    cases e
    exact (List.of_mem_zip (List.mem_of_mem_filter hq)).1

omit hinc htwo hlen in
theorem unspoiled_setting (hinc : Increasing limits) (htwo : 2 ≤ limits.length) :
    BinSetting limits ((unspoiled limits xs eff).map (·.1)) ((unspoiled limits xs eff).map (·.2)) := by
  obtain ⟨lo, hi, h1, h2, h3⟩ := hin
  refine ⟨hinc, htwo, ⟨lo, hi, h1, h2, fun x hx => ?_⟩, by simp⟩
  obtain ⟨p, hp, rfl⟩ := List.mem_map.mp hx
  exact h3 _ (unspoiled_fst_mem hp)

theorem unspoiled_bin (k : ℕ) : binEffects limits ((unspoiled limits xs eff).map (·.1)) ((unspoiled limits xs eff).map (·.2)) k =
    if none ∈ binOutputs limits xs eff k then [] else known (binOutputs limits xs eff k) := by
  classical
  have h := nSetting hinc htwo hin hlen
  have hz : ((unspoiled limits xs eff).map (·.1)).zip ((unspoiled limits xs eff).map (·.2)) = unspoiled limits xs eff := by
    generalize unspoiled limits xs eff = l
    induction l with
    | nil => rfl
    | cons a t ih => rw [List.map_cons, List.map_cons, List.zip_cons_cons, ih]
  unfold binEffects
  rw [hz]
  unfold unspoiled
  have hsp : ∀ p ∈ xs.zip eff, InBin limits k p.1 → (SpoiledAt limits xs eff p.1 ↔ none ∈ binOutputs limits xs eff k) := by
    intro p hp hk
    have hx := (List.of_mem_zip hp).1
    constructor
    · rintro ⟨j, hj, hn⟩
      rw [h.inBin hx] at hk hj
      rw [← hk, hj]
      exact hn
    · exact fun hn => ⟨k, hk, hn⟩
  have hgen : ∀ l : List (K × Option K), (∀ p ∈ l, InBin limits k p.1 → (SpoiledAt limits xs eff p.1 ↔ none ∈ binOutputs limits xs eff k)) →
      (((l.filter fun p => decide (¬ SpoiledAt limits xs eff p.1)).filterMap fun p => p.2.map fun e => (p.1, e)).filter fun p => decide (InBin limits k p.1)).map (·.2) =
        if none ∈ binOutputs limits xs eff k then [] else known ((l.filter fun p => decide (InBin limits k p.1)).map (·.2)) := by
    intro l hl
    induction l with
    | nil => simp [known]
    | cons p t ih =>
      have ih' := ih fun q hq => hl q (List.mem_cons_of_mem _ hq)
      have hp := hl p List.mem_cons_self
      obtain ⟨x, e⟩ := p
      by_cases hk : InBin limits k x
      · have hp := hp hk
        by_cases hn : none ∈ binOutputs limits xs eff k
        · rw [if_pos hn] at ih' ⊢
          rw [List.filter_cons_of_neg (by simpa using hp.mpr hn)]
          exact ih'
        · rw [if_neg hn] at ih' ⊢
          rw [List.filter_cons_of_pos (by simpa using fun hs => hn (hp.mp hs)), List.filter_cons_of_pos (by simpa using hk), List.map_cons]
          cases e with
          | none =>
            rw [List.filterMap_cons_none (by rfl), ih']
            rfl
          | some v =>
            rw [List.filterMap_cons_some (b := (x, v)) (by rfl), List.filter_cons_of_pos (by simpa using hk), List.map_cons, ih']
            rfl
      · rw [List.filter_cons_of_neg (a := (x, e)) (p := fun p => decide (InBin limits k p.1)) (by simpa using hk), ← ih', List.filter_cons]
        split_ifs with hs
        · cases e with
          | none => rw [List.filterMap_cons_none (by rfl)]
          | some v => rw [List.filterMap_cons_some (b := (x, v)) (by rfl), List.filter_cons_of_neg (by simpa using hk)]
        · rfl
  rw [hgen _ hsp]
  rfl

/-- **C113, one NaN discards its bin.**  `compute_ale_params` on effects some of which are NaN computes exactly what it computes on the instances whose bin has no NaN effect
(only the stored number of points per bin counts everybody): one NaN prediction silently removes all the other instances of its bin, and the effect there is
interpolated from the neighbouring bins as if the bin had been empty. -/
theorem C113_nan_bin : nAleParams xs eff limits =
    (computeAleParams ((unspoiled limits xs eff).map (·.1)) ((unspoiled limits xs eff).map (·.2)) limits).map fun p =>
      { p with pointsPerBin := (List.range (limits.length - 1)).map fun k => (binOutputs limits xs eff k).length } := by
  rw [computeAleParams_eq (unspoiled_setting hin hinc htwo)]
  simp only [unspoiled_bin hinc htwo hin hlen]
  unfold nAleParams
  rw [nBinEffect_eq hinc htwo hin hlen]
  simp only [bind, Except.bind]
  rw [nBinVariance_eq hinc htwo hin hlen]
  simp only [pure, Except.pure]
  have e1 : ((List.range (limits.length - 1)).map fun k =>
      if binOutputs limits xs eff k = [] ∨ none ∈ binOutputs limits xs eff k then none else some (avg (known (binOutputs limits xs eff k)))) =
      (List.range (limits.length - 1)).map fun k => if (if none ∈ binOutputs limits xs eff k then [] else known (binOutputs limits xs eff k)) = [] then none else
        some (avg (if none ∈ binOutputs limits xs eff k then [] else known (binOutputs limits xs eff k))) := by
    apply List.map_congr_left
    intro k _
    by_cases hn : none ∈ binOutputs limits xs eff k
    · simp [hn]
    · have hl := known_length hn
      have : known (binOutputs limits xs eff k) = [] ↔ binOutputs limits xs eff k = [] := by
        rw [← List.length_eq_zero_iff, hl, List.length_eq_zero_iff]
      simp only [hn, or_false, if_false, this]
  have e2 : ∀ g : List K → ℕ → K, ((List.range (limits.length - 1)).map fun k =>
      if 2 ≤ (binOutputs limits xs eff k).length ∧ none ∉ binOutputs limits xs eff k then
        some (g (known (binOutputs limits xs eff k)) (binOutputs limits xs eff k).length) else none) =
      (List.range (limits.length - 1)).map fun k => if 2 ≤ (if none ∈ binOutputs limits xs eff k then [] else known (binOutputs limits xs eff k)).length then
        some (g (if none ∈ binOutputs limits xs eff k then [] else known (binOutputs limits xs eff k))
          (if none ∈ binOutputs limits xs eff k then [] else known (binOutputs limits xs eff k)).length) else none := by
    intro g
    apply List.map_congr_left
    intro k _
    by_cases hn : none ∈ binOutputs limits xs eff k
    · simp [hn]
    · simp only [hn, not_false_eq_true, and_true, if_false, known_length hn]
  rw [e1, e2 fun l _ => popVar l, e2 fun l n => popVar l / (n : K)]
  cases fillNans ((List.range (limits.length - 1)).map fun k => if (if none ∈ binOutputs limits xs eff k then [] else known (binOutputs limits xs eff k)) = [] then none else
        some (avg (if none ∈ binOutputs limits xs eff k then [] else known (binOutputs limits xs eff k)))) with
  | error e => rfl
  | ok be =>
    simp only []
    generalize fillNans ((List.range (limits.length - 1)).map fun k => if 2 ≤ (if none ∈ binOutputs limits xs eff k then [] else known (binOutputs limits xs eff k)).length then
        some (popVar (if none ∈ binOutputs limits xs eff k then [] else known (binOutputs limits xs eff k))) else none) = q
    generalize fillNans ((List.range (limits.length - 1)).map fun k => if 2 ≤ (if none ∈ binOutputs limits xs eff k then [] else known (binOutputs limits xs eff k)).length then
        some (popVar (if none ∈ binOutputs limits xs eff k then [] else known (binOutputs limits xs eff k)) /
          ((if none ∈ binOutputs limits xs eff k then [] else known (binOutputs limits xs eff k)).length : K)) else none) = q'
    cases q <;> [rfl; (cases q' <;> rfl)]

end

/-! ### The whole fit -/

/-- Lines 45-62 of `compute_local_effects` inside the limits. -/
theorem localEffectsHead_ok {data : List (Row K D)} {limits : List K} {s : Fin D}
    (hinc : Increasing limits) (htwo : 2 ≤ limits.length) (hin : Within limits (col data s)) (hne : data ≠ []) :
    ∃ l0 l1, (bumpLast EPS limits)[0]? = some l0 ∧ (bumpLast EPS limits)[1]? = some l1 ∧ l0 < l1 ∧
    localEffectsHead data limits s = .ok (bumpLast EPS limits, data.map (fun r => (bumpLast EPS limits).getD (binIdx limits (r s)) 0),
      data.map (fun r => (bumpLast EPS limits).getD (binIdx limits (r s) - 1) 0), l1 - l0) := by
  obtain ⟨lo, hi, hlo, hhi, hmem⟩ := hin
  have hlen : (bumpLast EPS limits).length = limits.length := length_bumpLast _ _
  have hincb := increasing_bumpLast (EPS_pos (K := K)).le hinc
  have e0 : (bumpLast EPS limits)[0]? = some (bumpLast EPS limits)[0] := List.getElem?_eq_getElem (by omega)
  have e1 : (bumpLast EPS limits)[1]? = some (bumpLast EPS limits)[1] := List.getElem?_eq_getElem (by omega)
  refine ⟨_, _, e0, e1, increasing_getElem?_lt hincb e0 e1 (by omega), ?_⟩
  obtain ⟨r0, rs, rfl⟩ : ∃ r rs, data = r :: rs := by
    cases data with
    | nil => exact absurd rfl hne
    | cons r rs => exact ⟨r, rs, rfl⟩
  have hcol : col (r0 :: rs) s = r0 s :: col rs s := rfl
  have hmin : lo ≤ (col rs s).foldl min (r0 s) := by
    have := foldl_min_mem (col rs s) (r0 s)
    rw [← hcol] at this
    exact (hmem _ this).1
  have hmax : (col rs s).foldl max (r0 s) ≤ hi := by
    have := foldl_max_mem (col rs s) (r0 s)
    rw [← hcol] at this
    exact (hmem _ this).2
  have hidx : ∀ r ∈ r0 :: rs, 0 < binIdx limits (r s) ∧ binIdx limits (r s) < limits.length := by
    intro r hr
    have := hmem (r s) (List.mem_map.mpr ⟨r, hr, rfl⟩)
    exact binIdx_lt hinc htwo hlo hhi this.1 this.2
  have hdig : digitize (col (r0 :: rs) s) (bumpLast EPS limits) = .ok ((r0 :: rs).map fun r => binIdx limits (r s)) := by
    rw [digitize_sorted (increasing_le hincb)]
    unfold col
    rw [List.map_map]
    rfl
  have hall : (((r0 :: rs).map fun r => binIdx limits (r s)).all (0 < ·)) = true := by
    rw [List.all_eq_true]
    intro i hi'
    obtain ⟨r, hr, rfl⟩ := List.mem_map.mp hi'
    simpa using (hidx r hr).1
  have hright : ((r0 :: rs).map fun r => binIdx limits (r s)).mapM (fun i => pyIndex (bumpLast EPS limits) i) =
      .ok ((r0 :: rs).map fun r => (bumpLast EPS limits).getD (binIdx limits (r s)) 0) := by
    rw [List.mapM_map]
    apply mapM_ok
    intro r hr
    apply pyIndex_ok
    have := hidx r hr
    rw [List.getD_eq_getElem?_getD, List.getElem?_eq_getElem (show binIdx limits (r s) < (bumpLast EPS limits).length by omega)]
    rfl
  have hleft : ((r0 :: rs).map fun r => binIdx limits (r s)).mapM (fun i => pyIndex (bumpLast EPS limits) (i - 1)) =
      .ok ((r0 :: rs).map fun r => (bumpLast EPS limits).getD (binIdx limits (r s) - 1) 0) := by
    rw [List.mapM_map]
    apply mapM_ok
    intro r hr
    apply pyIndex_ok
    have := hidx r hr
    rw [List.getD_eq_getElem?_getD, List.getElem?_eq_getElem (show binIdx limits (r s) - 1 < (bumpLast EPS limits).length by omega)]
    rfl
  unfold localEffectsHead
  rw [pyIndex_ok (show limits[0]? = some lo by rw [← List.head?_eq_getElem?, hlo])]
  simp only [bind, Except.bind]
  rw [hcol]
  simp only [listMin, listMax]
  rw [pyAssert, if_pos (by simpa using hmin)]
  simp only []
  rw [pyIndex_ok (show limits[limits.length - 1]? = some hi by rw [← List.getLast?_eq_getElem?, hhi])]
  simp only []
  rw [pyAssert, if_pos (by simpa using hmax)]
  simp only []
  rw [← hcol, hdig]
  simp only []
  rw [pyAssert, if_pos hall]
  simp only []
  rw [hright]
  simp only []
  rw [hleft]
  simp only []
  rw [pyIndex_ok e0]
  simp only []
  rw [pyIndex_ok e1]
  simp only [pure, Except.pure]


theorem aleBins_good {data : List (Row K D)} {lo hi : Fin D → K} {s : Fin D} {bm : BinMethod K} {L : List K} (hlt : lo s < hi s)
    (hsafe : SafeMethod (aleCtx data lo hi s) (aleMethod bm)) (h : aleBins data lo hi s bm = .ok L) : Increasing L ∧ 2 ≤ L.length ∧ Within L (col (data.filter (inAxis (lo s) (hi s) s)) s) := by
  unfold aleBins pyAssert at h
  cases hf : isFixedMethod bm with
  | false => rw [hf] at h; cases h
  | true =>
    have key : findLimits (aleCtx data lo hi s) (aleMethod bm) = .ok (.arr L) := by
      rw [hf] at h
      simp only [if_true, bind, Except.bind] at h
      cases bm with
      | str t =>
        dsimp only at h
        rcases hq : findLimits { xs := col (data.filter (inAxis (lo s) (hi s) s)) s, eff := none, xmin := lo s, xmax := hi s } ((.fixed 20 (some 0) 15) : BinMethod K) with x | l
        · rw [hq] at h; cases h
        · rw [hq] at h
          cases l with
          | impossible => cases h
          | arr L' => cases h; exact hq
      | fixed n m cl =>
        dsimp only at h
        rcases hq : findLimits { xs := col (data.filter (inAxis (lo s) (hi s) s)) s, eff := none, xmin := lo s, xmax := hi s } ((.fixed n m cl) : BinMethod K) with x | l
        · rw [hq] at h; cases h
        · rw [hq] at h
          cases l with
          | impossible => cases h
          | arr L' => cases h; exact hq
      | dp n m d cl => cases hf
      | greedy n m d cl => cases hf
    obtain ⟨h1, h2, h3, -⟩ := findLimits_good _ _ (aleCtx_in data lo hi s) hlt hsafe L key
    exact ⟨h1, h2, h3⟩

theorem nSteps (cast : K → K) (f : Row K D → Option K) (s : Fin D) (w : K) (d : List (Row K D)) (a b : Row K D → K) :
    (List.zipWith nanSub ((setCol cast d s (d.map a)).map f) ((setCol cast d s (d.map b)).map f)).map (Option.map (· / w)) =
      d.map fun r => outputStep cast f s (b r) (a r) w r := by
  unfold setCol
  induction d with
  | nil => rfl
  | cons r t ih =>
    simp only [List.map_cons, List.zipWith_cons_cons] at ih ⊢
    rw [ih]
    congr 1
    unfold outputStep nanSub
    cases f (Function.update r s (cast (a r))) <;> cases f (Function.update r s (cast (b r))) <;> rfl

/-- **C113, `ALE.fit`.**  Whatever the model returns, and whatever the fixed binning: the fit uses the same bins, the effect of an instance is NaN exactly when one of its two
predictions (`x_s` at the two limits of its bin) is, and the stored parameters are those of the instances whose bin has no NaN (`unspoiled`): the others are dropped without a word. -/
theorem C113_ale_fit (cast : K → K) (f : Row K D → Option K) (data : List (Row K D)) (lo hi : Fin D → K) (s : Fin D) (bm : BinMethod K) (hlt : lo s < hi s)
    (hsafe : SafeMethod (aleCtx data lo hi s) (aleMethod bm)) (hne : ∃ r ∈ data, lo s ≤ r s ∧ r s ≤ hi s) (L : List K) (hL : aleBins data lo hi s bm = .ok L) :
    ∃ (w : K) (E : Row K D → Option K), 0 < w ∧
      (∀ r ∈ inLimits data lo hi s, ∀ k, InBin L k (r s) → E r = outputStep cast f s ((bumpLast EPS L).getD k 0) ((bumpLast EPS L).getD (k + 1) 0) w r) ∧
      nAleFitFeature cast (List.map f) data lo hi s bm =
        (computeAleParams ((unspoiled (bumpLast EPS L) (col (inLimits data lo hi s) s) ((inLimits data lo hi s).map E)).map (·.1))
          ((unspoiled (bumpLast EPS L) (col (inLimits data lo hi s) s) ((inLimits data lo hi s).map E)).map (·.2)) (bumpLast EPS L)).map fun p =>
          { p with pointsPerBin := (List.range ((bumpLast EPS L).length - 1)).map fun k =>
              (binOutputs (bumpLast EPS L) (col (inLimits data lo hi s) s) ((inLimits data lo hi s).map E) k).length } := by
  obtain ⟨hinc, htwo, hwith⟩ := aleBins_good hlt hsafe hL
  have hd : data.filter (inAxis (lo s) (hi s) s) = inLimits data lo hi s := by
    unfold inLimits
    apply List.filter_congr
    intro r _
    unfold inAxis
    rw [Bool.decide_and]
  have hne' : inLimits data lo hi s ≠ [] := by
    obtain ⟨r, hr, h1⟩ := hne
    exact List.ne_nil_of_mem (List.mem_filter.mpr ⟨hr, by simpa using h1⟩)
  rw [hd] at hwith
  obtain ⟨l0, l1, -, -, hl, hhead⟩ := localEffectsHead_ok hinc htwo hwith hne'
  refine ⟨l1 - l0, fun r => outputStep cast f s ((bumpLast EPS L).getD (binIdx L (r s) - 1) 0) ((bumpLast EPS L).getD (binIdx L (r s)) 0) (l1 - l0) r, by linarith, ?_, ?_⟩
  · intro r hr k hk
    obtain ⟨a, b, ha, hb, hmem⟩ := hwith
    have hx := hmem (r s) (List.mem_map.mpr ⟨r, hr, rfl⟩)
    rw [inBin_iff hinc htwo ha hb hx.1 hx.2] at hk
    show outputStep cast f s _ _ _ r = _
    rw [hk]
    rfl
  · unfold nAleFitFeature nLocalEffects
    rw [hL]
    simp only [bind, Except.bind]
    rw [hd, hhead]
    simp only [pure, Except.pure]
    rw [nSteps]
    refine C113_nan_bin (increasing_bumpLast EPS_pos.le hinc) (by rw [length_bumpLast]; exact htwo) ?_ (by simp [col])
    obtain ⟨a, b, ha, hb, hmem⟩ := hwith
    refine ⟨a, b + EPS, ?_, ?_, ?_⟩
    · rw [List.head?_eq_getElem?, getElem?_bumpLast, ← List.head?_eq_getElem?, ha, Option.map_some, if_neg (by omega)]
    · rw [List.getLast?_eq_getElem?, length_bumpLast, getElem?_bumpLast, ← List.getLast?_eq_getElem?, hb, Option.map_some, if_pos (by omega)]
    · intro x hx
      have := EPS_pos (K := K)
      exact ⟨(hmem x hx).1, by linarith [(hmem x hx).2]⟩

/-- **C113, nothing left.**  `compute_ale_params` raises `ValueError` when every bin that has instances has a NaN effect. -/
theorem C113_ale_raises {limits xs : List K} {eff : List (Option K)} (hinc : Increasing limits) (htwo : 2 ≤ limits.length) (hin : Within limits xs)
    (hlen : eff.length = xs.length) (hall : ∀ x ∈ xs, SpoiledAt limits xs eff x) : nAleParams xs eff limits = .error .valueError := by
  have hu : unspoiled limits xs eff = [] := by
    unfold unspoiled
    rw [List.filter_eq_nil_iff.mpr]
    · rfl
    · intro p hp
      simpa using hall p.1 (List.of_mem_zip hp).1
  have hs := unspoiled_setting (eff := eff) hin hinc htwo
  rw [C113_nan_bin hinc htwo hin hlen, computeAleParams_eq hs]
  rw [hu]
  have : ∀ n : ℕ, fillNans ((List.range n).map fun _ => (none : Option K)) = .error .valueError := by
    intro n
    have hk : ∀ (l : List ℕ) i, knownFrom i (l.map fun _ => (none : Option K)) = [] := by
      intro l
      induction l with
      | nil => intro i; rfl
      | cons a t ih => intro i; exact ih _
    unfold fillNans
    rw [hk]
  simp only [binEffects, List.map_nil, List.zip_nil_left, List.filter_nil, if_true, this]
  rfl

/-- Effects that are all numbers. -/
theorem nAleParams_some (xs e limits : List K) : nAleParams xs (e.map some) limits = computeAleParams xs e limits := by
  have hb : ∀ (idx : List ℕ) (e : List K) (nb : ℕ), bincountNan idx (e.map some) nb = (bincountW idx e nb).map (List.map some) := by
    intro idx e nb
    unfold bincountNan bincountW
    rw [List.length_map]
    split_ifs
    · rw [Except.map, List.map_map]
      congr 1
      apply List.map_congr_left
      intro k _
      have : valuesAt idx (e.map some) k = (valuesAt idx e k).map some := by
        unfold valuesAt
        rw [List.zip_map_right, List.filter_map, List.map_map, List.map_map]
        rfl
      rw [this]
      simpa using nanSum_map_some (valuesAt idx e k) id
    · rfl
  have hbe : ∀ xs e limits : List K, nBinEffect xs (e.map some) limits = computeBinEffect xs e limits := by
    intro xs e limits
    unfold nBinEffect computeBinEffect
    simp only [bind, Except.bind, hb]
    cases digitize xs (bumpLast EPS limits) with
    | error e => rfl
    | ok ind =>
      simp only []
      cases binIndices ind with
      | error e => rfl
      | ok idx =>
        simp only []
        cases bincountW idx e (limits.length - 1) with
        | error e => rfl
        | ok agg =>
          simp only [Except.map, pure, Except.pure]
          rw [List.zipWith_map_left]
          rfl
  have hsq : ∀ (e : List K) (ms : List (Option K)), List.zipWith nSqDev (e.map some) ms = List.zipWith sqDev e ms := by
    intro e ms
    rw [List.zipWith_map_left]
    congr 1
    funext a m
    cases m <;> rfl
  unfold nAleParams computeAleParams
  rw [hbe]
  have : ∀ be, nBinVariance xs (e.map some) limits be = computeBinVariance xs e limits be := by
    intro be
    unfold nBinVariance computeBinVariance
    simp only [hsq]
  simp only [this]

/-- **C113, no NaN.**  With a model that always returns a number, nothing changes: every history of calls, every feature. -/
theorem C113_ale_clean [PySqrt K] (choice : ℕ → ℕ → List ℕ) (cast : K → K) (f : Row K D → Option K) (f0 : Row K D → K) (hf : ∀ r, f r = some (f0 r))
    (data : List (Row K D)) (axisLimits : Option ((Fin D → K) × (Fin D → K))) (calls : List (AleOp K D)) (s : Fin D) (xs : List K) (het : Bool) (c : PyVal) :
    nAleSession choice cast f data axisLimits calls s xs het c = aleSession choice cast f0 data axisLimits calls s xs het c := by
  obtain rfl : f = fun r => some (f0 r) := funext hf
  have hfit : ∀ (data : List (Row K D)) lo hi s bm, nAleFitFeature cast (List.map fun r => some (f0 r)) data lo hi s bm = aleFitFeature cast (List.map f0) data lo hi s bm := by
    intro data lo hi s bm
    have hsub : ∀ a b : List (Row K D), List.zipWith nanSub (a.map fun r => some (f0 r)) (b.map fun r => some (f0 r)) =
        (List.zipWith (· - ·) (a.map f0) (b.map f0)).map some := by
      intro a b
      rw [List.zipWith_map, List.zipWith_map, List.map_zipWith]
      rfl
    have hp := nAleParams_some (K := K)
    rw [aleFitFeature_bins]
    unfold nAleFitFeature nLocalEffects
    simp only [computeLocalEffects_prep, hsub, bind, Except.bind]
    cases aleBins data lo hi s bm with
    | error e => rfl
    | ok L =>
      simp only []
      cases localEffectsHead (data.filter (inAxis (lo s) (hi s) s)) L s with
      | error e => rfl
      | ok p =>
        simp only [pure, Except.pure]
        rw [List.map_map, show (Option.map (· / p.2.2.2) ∘ some) = (some ∘ fun x : K => x / p.2.2.2) from rfl, ← List.map_map, hp]
  have hc : ∀ b : Base K D, nAleCfg cast (List.map fun r => some (f0 r)) b = aleCfg cast (List.map f0) b := by
    intro b
    unfold nAleCfg aleCfg
    congr 1
    funext s bm
    exact hfit _ _ _ _ _
  unfold nAleSession aleSession
  simp only [hc]

/-! ### Counterexample -/

/-- `x_0 ^ 2`, but NaN for the instances with `x_1 = 0`. -/
def sometimesNan (r : Row ℚ 2) : Option ℚ := if r 1 = 0 then none else some (r 0 ^ 2)

/-- Five instances; the model is NaN for the last one only. -/
def nanExample : List (Row ℚ 2) := [![1/2, 1], ![1, 1], ![3, 1], ![5/2, 1], ![7/2, 0]]

/-- **C113 is false of ALE.**  The model returns NaN for one instance.  `eval` returns a number, without a word - and not the one the other instances give: its whole bin was dropped. -/
theorem C113_false_ale :
    (∃ r ∈ nanExample, ∀ v, sometimesNan (Function.update r 0 v) = none) ∧
    nAleSession (fun _ _ => []) id sometimesNan nanExample (some (fun _ => 0, fun _ => 4)) [.fit (.int 0) (.fixed 2 (some 1) 0) (.bool false)] 0 [1, 3] false (.bool false) =
      .ok ([2, 6], none) ∧
    nAleSession (fun _ _ => []) id sometimesNan (nanExample.take 4) (some (fun _ => 0, fun _ => 4)) [.fit (.int 0) (.fixed 2 (some 1) 0) (.bool false)] 0 [1, 3] false (.bool false) ≠
      .ok ([2, 6], none) := by
  refine ⟨⟨![7/2, 0], by simp [nanExample], fun v => ?_⟩, ?_, ?_⟩
  · simp [sometimesNan]
  · decide +kernel
  · decide +kernel

/-! ### Non-vacuity -/

/-- The hypotheses of `C113_ale_fit`. -/
example : aleBins nanExample (fun _ => 0) (fun _ => 4) 0 (.fixed 2 (some 1) 0) = .ok [0, 2, 4] ∧
    (∃ r ∈ nanExample, (0 : ℚ) ≤ r 0 ∧ r 0 ≤ 4) ∧ SafeMethod (aleCtx nanExample (fun _ => 0) (fun _ => 4) 0) (aleMethod (.fixed 2 (some 1) 0)) :=
  ⟨by decide +kernel, ⟨![1/2, 1], by simp [nanExample], by norm_num⟩, fixedOrGreedy_safe _ (show 1 ≤ 2 by norm_num)⟩

/-- `C113_nan_bin` on two bins, the second one with a NaN: two of the four instances count, the effect of the second bin is that of the first. -/
example : nAleParams [1/2, 1, 3, 5/2] [some 2, some 4, some 7, none] ([0, 2, 4] : List ℚ) =
    .ok { limits := [0, 2, 4], dx := [2, 2], pointsPerBin := [2, 2], binEffect := [3, 3], binVariance := [1, 1], binEstimatorVariance := [1/2, 1/2] } := by decide +kernel

/-- `C113_ale_raises`: every bin has a NaN. -/
example : nAleParams [1/2, 1, 3, 5/2] [some 2, none, some 7, none] ([0, 2, 4] : List ℚ) = .error .valueError := by decide +kernel

end Effector
