import Verif.Props.AleModels
import Verif.Props.AleHistory
import Verif.Props.PdpProps
import Verif.Props.OtherTerms
import Verif.Props.BinningRules

/-!
# C99: when ALE and PDP agree

ALE averages the finite differences of the instances *in* a bin, PDP averages over *all* instances.  When the two averages coincide in every bin (`Balanced`) — the model is
additive in the feature, or the other features have the same distribution in every bin, as in a full factorial design — the ALE curve is the piecewise linear interpolation of
the PDP curve at the bin limits, for every model.
-/

set_option linter.unusedSectionVars false

namespace Effector

open Spec

variable {K : Type} [Field K] [LinearOrder K] [IsStrictOrderedRing K] {D : ℕ}

namespace Spec

/-- The rows in bin `k` of `n` equal bins of `[lo, hi]` (the last bin is closed). -/
def rowsInBin (rows : List (Row K D)) (s : Fin D) (lo hi : K) (n k : ℕ) : List (Row K D) :=
  rows.filter fun r => gridPoint lo hi n k ≤ r s ∧ (if k + 1 = n then r s ≤ hi else r s < gridPoint lo hi n (k + 1))

/-- No bin is empty, and within every bin the average change of the model between two values of the feature is the average change over all rows. -/
def Balanced (f : Row K D → K) (rows : List (Row K D)) (s : Fin D) (lo hi : K) (n : ℕ) : Prop :=
  ∀ k, k < n → rowsInBin rows s lo hi n k ≠ [] ∧ ∀ a b,
    avg ((rowsInBin rows s lo hi n k).map fun r => f (Function.update r s b) - f (Function.update r s a)) =
      avg (rows.map fun r => f (Function.update r s b) - f (Function.update r s a))

/-- The limits ALE stores for `n` equal bins: the last one is `hi + 1e-8`. -/
def storedLimit (lo hi : K) (n k : ℕ) : K := gridPoint lo hi n k + if k = n then 1 / 10 ^ 8 else 0

/-- Every value of `vals` for feature `s` combined with every row of `rest`: a full factorial design. -/
def factorial (s : Fin D) (vals : List K) (rest : List (Row K D)) : List (Row K D) :=
  vals.flatMap fun v => rest.map fun r => Function.update r s v

end Spec

theorem avg_replicate_list (l : List K) (n : ℕ) (hn : n ≠ 0) : avg (List.replicate n l).flatten = avg l := by
  unfold avg
  rw [List.sum_flatten, List.map_replicate, List.sum_replicate, List.length_flatten, List.map_replicate, List.sum_replicate, nsmul_eq_mul, smul_eq_mul, Nat.cast_mul]
  exact mul_div_mul_left _ _ (Nat.cast_ne_zero.mpr hn)

/-- Averages over a factorial design of a quantity that does not use feature `s`. -/
theorem avg_factorial {s : Fin D} {vals : List K} {rest : List (Row K D)} {φ : Row K D → K} (hφ : FreeOf s φ) (hne : vals ≠ []) :
    avg ((factorial s vals rest).map φ) = avg (rest.map φ) := by
  have : (factorial s vals rest).map φ = (List.replicate vals.length (rest.map φ)).flatten := by
    unfold factorial
    rw [List.map_flatMap]
    simp only [List.map_map]
    have e : ∀ v : K, (rest.map (φ ∘ fun r => Function.update r s v)) = rest.map φ := fun v => List.map_congr_left fun r _ => hφ r v
    simp only [e]
    rw [List.flatMap_def, List.map_const']
  rw [this, avg_replicate_list _ _ (by simpa using hne)]

theorem filter_factorial {s : Fin D} (vals : List K) (rest : List (Row K D)) (P : K → Prop) [DecidablePred P] :
    (factorial s vals rest).filter (fun r => P (r s)) = factorial s (vals.filter fun v => P v) rest := by
  unfold factorial
  induction vals with
  | nil => rfl
  | cons v t ih =>
    rw [List.flatMap_cons, List.filter_append, ih, List.filter_cons]
    by_cases hv : P v
    · rw [if_pos (by simpa using hv), List.flatMap_cons]
      congr 1
      apply List.filter_eq_self.mpr
      intro r hr
      obtain ⟨r', -, rfl⟩ := List.mem_map.mp hr
      simpa using hv
    · rw [if_neg (by simpa using hv)]
      rw [List.filter_eq_nil_iff.mpr, List.nil_append]
      intro r hr
      obtain ⟨r', -, rfl⟩ := List.mem_map.mp hr
      simpa using hv

/-- A full factorial design is balanced for every model. -/
theorem balanced_factorial (f : Row K D → K) (s : Fin D) (vals : List K) (rest : List (Row K D)) (hrest : rest ≠ []) (lo hi : K) (n : ℕ)
    (hbin : ∀ k, k < n → ∃ v ∈ vals, gridPoint lo hi n k ≤ v ∧ (if k + 1 = n then v ≤ hi else v < gridPoint lo hi n (k + 1))) :
    Balanced f (factorial s vals rest) s lo hi n := by
  intro k hk
  obtain ⟨v, hv, hv'⟩ := hbin k hk
  have e : rowsInBin (factorial s vals rest) s lo hi n k =
      factorial s (vals.filter fun v => gridPoint lo hi n k ≤ v ∧ (if k + 1 = n then v ≤ hi else v < gridPoint lo hi n (k + 1))) rest := by
    unfold rowsInBin
    exact filter_factorial vals rest fun v => gridPoint lo hi n k ≤ v ∧ (if k + 1 = n then v ≤ hi else v < gridPoint lo hi n (k + 1))
  have hmem : v ∈ vals.filter fun v => gridPoint lo hi n k ≤ v ∧ (if k + 1 = n then v ≤ hi else v < gridPoint lo hi n (k + 1)) :=
    List.mem_filter.mpr ⟨hv, by simpa using hv'⟩
  rw [e]
  constructor
  · obtain ⟨r, hr⟩ := List.exists_mem_of_ne_nil _ hrest
    apply List.ne_nil_of_mem (a := Function.update r s v)
    exact List.mem_flatMap.mpr ⟨v, hmem, List.mem_map.mpr ⟨r, hr, rfl⟩⟩
  · intro a b
    have hfree : FreeOf s fun r => f (Function.update r s b) - f (Function.update r s a) := fun r v => by
      simp only [Function.update_idem]
    rw [avg_factorial hfree (List.ne_nil_of_mem hmem), avg_factorial hfree (List.ne_nil_of_mem hv)]

/-- A model that is additive in the feature is balanced on all data with no empty bin. -/
theorem balanced_additive (g : K → K) (h : Row K D → K) (s : Fin D) (hh : FreeOf s h) (rows : List (Row K D)) (lo hi : K) (n : ℕ)
    (hbin : ∀ k, k < n → rowsInBin rows s lo hi n k ≠ []) : Balanced (fun r => g (r s) + h r) rows s lo hi n := by
  intro k hk
  refine ⟨hbin k hk, fun a b => ?_⟩
  have e : (fun r : Row K D => g (Function.update r s b s) + h (Function.update r s b) - (g (Function.update r s a s) + h (Function.update r s a))) =
      fun _ => g b - g a := by
    funext r
    rw [Function.update_self, Function.update_self, hh r a, hh r b]
    ring
  have hne : rows ≠ [] := fun hc => hbin k hk (by rw [hc]; rfl)
  simp only [e]
  rw [avg_const (c := g b - g a), avg_const (c := g b - g a)]
  · simp
  · simpa using hne
  · simp
  · simpa using hbin k hk

theorem inBin_fixed_iff {lo hi : K} {n k : ℕ} (hn : 1 ≤ n) (hk : k < n) {x : K} (hx : x ≤ hi) :
    InBin (bumpLast EPS (linspace lo hi (n + 1))) k x ↔ gridPoint lo hi n k ≤ x ∧ (if k + 1 = n then x ≤ hi else x < gridPoint lo hi n (k + 1)) := by
  refine ⟨?_, fun h => inBin_fixed hn hk h.1 h.2⟩
  rintro ⟨a, ha, b, hb, h1, h2⟩
  rw [getElem?_fixed lo hi n k hk.le, if_neg (by omega), add_zero] at ha
  cases ha
  refine ⟨h1, ?_⟩
  split_ifs with hc
  · exact hx
  · rw [getElem?_fixed lo hi n (k + 1) hk, if_neg hc, add_zero] at hb
    cases hb
    rwa [length_bumpLast, length_linspace, if_neg (by omega)] at h2

/-- The bin effects of ALE with `n` equal bins, any model, any data without an empty bin. -/
theorem ale_fixed_binEffect (f : Row K D → K) {data : List (Row K D)} {lo hi : Fin D → K} {s : Fin D} {n : ℕ} {mo : Option ℕ} {cl : ℕ} {p : AleParams K}
    (hlt : lo s < hi s) (hn : 1 ≤ n) (hcat : cl < distinct ((inLimits data lo hi s).map fun r => r s))
    (hfit : aleFitFeature id (List.map f) data lo hi s (.fixed n mo cl) = .ok p) :
    GoodParams p ∧ p.limits = bumpLast EPS (linspace (lo s) (hi s) (n + 1)) ∧
      ∀ k, k < n → rowsInBin (inLimits data lo hi s) s (lo s) (hi s) n k ≠ [] → p.binEffect[k]? = some
        (avg ((rowsInBin (inLimits data lo hi s) s (lo s) (hi s) n k).map fun r =>
          f (Function.update r s (storedLimit (lo s) (hi s) n (k + 1))) - f (Function.update r s (gridPoint (lo s) (hi s) n k))) /
            (storedLimit (lo s) (hi s) n 1 - lo s)) := by
  have hrows : data.filter (inAxis (lo s) (hi s) s) = inLimits data lo hi s := by
    unfold inLimits
    apply List.filter_congr
    intro r _
    simp [inAxis]
  have hcat' : cl < distinct (col (data.filter (inAxis (lo s) (hi s) s)) s) := by rw [hrows]; exact hcat
  have hlim' := ale_fixed_limits hcat' hfit
  obtain ⟨L, l0, l1, hL, hinc, htwo, hwith, h0, h1, h01, hp, hg, hlim⟩ :=
    ale_fit_cases hlt (ale_safe (aleFitFeature_ok hfit).1 (by intro m c hc; cases hc; omega)) hfit
  refine ⟨hg, hlim', ?_⟩
  intro k hk hne
  obtain ⟨-, -, -, -, hbe⟩ := computeAleParams_good (increasing_bumpLast (EPS_pos (K := K)).le hinc)
    (by rw [length_bumpLast]; exact htwo) (within_bump htwo hwith) (by simp [aleCtx, col]) hp
  have hxs : (aleCtx data lo hi s).xs = col (data.filter (inAxis (lo s) (hi s) s)) s := rfl
  rw [hxs] at hbe hwith
  simp only [binEffects_rows] at hbe
  have hLL : bumpLast EPS L = bumpLast EPS (linspace (lo s) (hi s) (n + 1)) := by rw [← hlim, hlim']
  have hlen : (bumpLast EPS L).length = n + 1 := by rw [hLL, length_bumpLast, length_linspace]
  have hE : (EPS : K) = 1 / 10 ^ 8 := by norm_num [EPS]
  have hpt : ∀ i, i ≤ n → (bumpLast EPS L)[i]? = some (storedLimit (lo s) (hi s) n i) := fun i hi' => by
    rw [hLL, getElem?_fixed _ _ _ _ hi', hE]; rfl
  have hl0 : l0 = lo s := by
    have := hpt 0 (by omega)
    rw [h0] at this
    rw [Option.some.inj this]
    unfold storedLimit
    rw [if_neg (by omega), add_zero]
    exact gridPoint_zero _ _ _
  have hl1 : l1 = storedLimit (lo s) (hi s) n 1 := by
    have := hpt 1 hn
    rw [h1] at this
    exact Option.some.inj this
  have hak : storedLimit (lo s) (hi s) n k = gridPoint (lo s) (hi s) n k := by
    unfold storedLimit
    rw [if_neg (by omega), add_zero]
  have hfilt : ((data.filter (inAxis (lo s) (hi s) s)).filter fun r => InBin (bumpLast EPS L) k (r s)) =
      rowsInBin (inLimits data lo hi s) s (lo s) (hi s) n k := by
    rw [hrows]
    unfold rowsInBin
    apply List.filter_congr
    intro r hr
    have : r s ≤ hi s := by
      have := (List.mem_filter.mp hr).2
      simp only [decide_eq_true_eq] at this
      exact this.2
    rw [hLL]
    exact decide_eq_decide.mpr (inBin_fixed_iff hn hk this)
  rw [hbe k (by rw [hlen]; omega)]
  · congr 1
    rw [hl1, hl0]
    have hav : ∀ (l : List (Row K D)) (F : Row K D → K) (c : K), avg (l.map F) / c = avg (l.map fun r => F r / c) := by
      intro l F c
      unfold avg
      rw [List.length_map, List.length_map]
      have : (l.map fun r => F r / c).sum = (l.map F).sum / c := by
        induction l with
        | nil => simp
        | cons a t ih => rw [List.map_cons, List.sum_cons, ih, List.map_cons, List.sum_cons, add_div]
      rw [this, div_right_comm]
    rw [hav, ← hfilt]
    congr 1
    apply List.map_congr_left
    intro r hr
    obtain ⟨hr1, hr2⟩ := List.mem_filter.mp hr
    obtain ⟨lo', hi', hlo', hhi', hmem⟩ := hwith
    have hx := hmem (r s) (List.mem_map.mpr ⟨r, hr1, rfl⟩)
    have hidx := (inBin_iff hinc htwo hlo' hhi' hx.1 hx.2 k).mp ((inBin_bump hhi' hx.2 k).mp (by simpa using hr2))
    rw [hidx, Nat.add_sub_cancel, List.getD_eq_getElem?_getD, List.getD_eq_getElem?_getD, hpt k hk.le, hpt (k + 1) hk, hak]
    simp only [Option.getD_some, id_eq]
  · intro hc
    apply hne
    rw [← hfilt]
    exact List.map_eq_nil_iff.mp hc

/-- The averages of the two curves over all rows in the limits. -/
theorem avg_sub_rows {α : Type} (l : List α) (F G : α → K) : avg (l.map fun r => F r - G r) = avg (l.map F) - avg (l.map G) := by
  unfold avg
  rw [List.length_map, List.length_map, List.length_map, ← sub_div]
  congr 1
  induction l with
  | nil => simp
  | cons a t ih =>
    simp only [List.map_cons, List.sum_cons, ih]
    ring

/-- **C99.**  ALE with `n` equal bins (the fit in force) and PDP on the same model, data and axis limits, after any history of calls on either object.  If the data are balanced for
the model, then on bin `k` the values returned by ALE are, up to one constant `z`, the straight line through the values `P` that PDP returns at the two limits of that bin:
`P_k + (x - l_k) / w * (P_{k+1} - P_k)`, where `w` is the width of the bins; the last of the limits is `hi + 1e-8`. -/
theorem C99_interpolates [PySqrt K] (f : Row K D → K) (b : Base K D) (hlt : ∀ s, b.axisLo s < b.axisHi s) (s : Fin D)
    (calls : List (AleOp K D)) (hcalls : ∀ f bm c, AleOp.fit f bm c ∈ calls → ∀ m cl, bm ≠ .fixed 0 m cl)
    (n : ℕ) (hn : 2 ≤ n) (mp : Option ℕ) (cl : ℕ) (m0 : Centering) (hlast : lastFit (aleCfg id (List.map f) b) calls s = some (.fixed n mp cl, m0))
    (hcat : cl < distinct ((inLimits b.data b.axisLo b.axisHi s).map fun r => r s))
    (hbal : Balanced f (inLimits b.data b.axisLo b.axisHi s) s (b.axisLo s) (b.axisHi s) n)
    (c : PyVal) (hc : prepCentering c = .ok .off ∨ prepCentering c = .ok m0) (xs : List K) (het : Bool)
    (y : List K) (o : Option (List K)) (h : (aleEval (aleCfg id (List.map f) b) (aleRun (aleCfg id (List.map f) b) calls) s xs het c).2 = .ok (y, o))
    (pcalls : List (PdpOp K D)) (hpcalls : ∀ op ∈ pcalls, PdpCallOk b.data b.axisLo b.axisHi s op) (c' : PyVal) (vec : Bool) (P : List K)
    (hP : pdpEvalAfter (.pdp f) b.axisLo b.axisHi b.data pcalls s ((List.range (n + 1)).map (storedLimit (b.axisLo s) (b.axisHi s) n)) false c' false vec = .ok (.meanOnly P)) :
    ∃ z, ∀ (i k : ℕ) (x v u u' : K), xs[i]? = some x → y[i]? = some v → P[k]? = some u → P[k + 1]? = some u' →
      gridPoint (b.axisLo s) (b.axisHi s) n k ≤ x → x ≤ storedLimit (b.axisLo s) (b.axisHi s) n (k + 1) → x ≤ 10 ^ 8 →
        v = u + (x - gridPoint (b.axisLo s) (b.axisHi s) n k) / ((b.axisHi s - b.axisLo s) / n) * (u' - u) - z := by
  have hdef : ∀ m cl, (aleCfg id (List.map f) b).defaultBin ≠ .fixed 0 m cl := by intro m cl hc; cases hc
  have hgood := ale_goodFor id f b hlt
  have he := usesEvaluable_of (aleCfg id (List.map f) b) calls fun g bm c hm => (hgood bm (hcalls g bm c hm)).evaluable
  obtain ⟨m, p, U, z, hm, hp, hu, hz, rfl, -⟩ := eval_from_fit (hgood _ hdef).evaluable he h
  have hbm : effectiveBin (aleCfg id (List.map f) b) (lastFit (aleCfg id (List.map f) b) calls s) m = .fixed n mp cl := by
    rw [hlast]
    unfold effectiveBin
    simp only []
    rw [if_pos]
    rcases hc with hc | hc <;> rw [hc] at hm <;> cases hm
    · exact Or.inl rfl
    · exact Or.inr rfl
  rw [hbm] at hp
  obtain ⟨hgp, hlim, hbe⟩ := ale_fixed_binEffect f (hlt s) (by omega) hcat hp
  generalize hrows : inLimits b.data b.axisLo b.axisHi s = rows at *
  have hE : (EPS : K) = 1 / 10 ^ 8 := by norm_num [EPS]
  have hEpos := EPS_pos (K := K)
  have hn0 : (0 : K) < n := by exact_mod_cast (by omega : 0 < n)
  have hw : (0 : K) < (b.axisHi s - b.axisLo s) / n := div_pos (sub_pos.mpr (hlt s)) hn0
  have hpt : ∀ i, i ≤ n → p.limits[i]? = some (storedLimit (b.axisLo s) (b.axisHi s) n i) := fun i hi' => by
    rw [hlim, getElem?_fixed _ _ _ _ hi', hE]; rfl
  have hst : ∀ i, i < n → storedLimit (b.axisLo s) (b.axisHi s) n i = gridPoint (b.axisLo s) (b.axisHi s) n i := fun i hi' => by
    unfold storedLimit
    rw [if_neg (by omega), add_zero]
  -- the partial dependence
  let PD : K → K := fun v => avg (rows.map fun r => f (Function.update r s v))
  have hek : ∀ k, k < n → p.binEffect[k]? = some ((PD (storedLimit (b.axisLo s) (b.axisHi s) n (k + 1)) - PD (gridPoint (b.axisLo s) (b.axisHi s) n k)) / ((b.axisHi s - b.axisLo s) / n)) := by
    intro k hk
    rw [hbe k hk (hbal k hk).1, (hbal k hk).2, avg_sub_rows, hst 1 (by omega)]
    congr 2
    unfold gridPoint
    push_cast
    ring
  have hE1 : ∀ k, k < n → stepIntegral p.limits p.binEffect (gridPoint (b.axisLo s) (b.axisHi s) n k) = PD (gridPoint (b.axisLo s) (b.axisHi s) n k) - PD (b.axisLo s) := by
    intro k
    induction k with
    | zero =>
      intro _
      rw [gridPoint_zero, sub_self]
      refine C01_spec_zero_left _ _ hgp.inc (b.axisLo s) (b.axisLo s) ?_ le_rfl
      rw [hpt 0 (by omega), hst 0 (by omega), gridPoint_zero]
    | succ k ih =>
      intro hk
      have hlt' : gridPoint (b.axisLo s) (b.axisHi s) n k ≤ gridPoint (b.axisLo s) (b.axisHi s) n (k + 1) := by
        have := gridPoint_succ (b.axisLo s) (b.axisHi s) n k
        linarith
      have := C01_spec_linear_inside p.limits p.binEffect hgp.inc k _ _ _ (gridPoint (b.axisLo s) (b.axisHi s) n k) (gridPoint (b.axisLo s) (b.axisHi s) n (k + 1))
        (by rw [hpt k (by omega), hst k (by omega)]) (by rw [hpt (k + 1) (by omega), hst (k + 1) (by omega)]) (hek k (by omega)) le_rfl hlt' hlt' le_rfl
      rw [ih (by omega), hst (k + 1) hk] at this
      rw [gridPoint_succ, div_mul_cancel₀ _ hw.ne'] at this
      linarith
  -- what PDP returned
  have hinst : ∃ r ∈ b.data, b.axisLo s ≤ r s ∧ r s ≤ b.axisHi s := by
    obtain ⟨r, hr⟩ := List.exists_mem_of_ne_nil _ (hbal 0 (by omega)).1
    have hr' : r ∈ rows := (List.mem_filter.mp hr).1
    rw [← hrows] at hr'
    exact ⟨r, (List.mem_filter.mp hr').1, by simpa using (List.mem_filter.mp hr').2⟩
  obtain ⟨m', hm'⟩ : ∃ m', prepCentering c' = .ok m' := by
    unfold pdpEvalAfter at hP
    rw [pdp_eval_spec _ _ _ _ _ _ hpcalls] at hP
    cases hc' : prepCentering c' with
    | error e => rw [hc'] at hP; cases hP
    | ok m' => exact ⟨m', rfl⟩
  rw [evalAfter_ok (.pdp f) b.axisLo b.axisHi b.data s pcalls hpcalls _ false hm' false vec ⟨hlt s, Or.inr (by simp), hinst⟩, hrows] at hP
  let Z : K := avg (rows.map fun r => (PdpModel.pdp f).shift b.axisLo b.axisHi s r m')
  have hPk : ∀ (k : ℕ) (u : K), P[k]? = some u → k ≤ n ∧ u = PD (storedLimit (b.axisLo s) (b.axisHi s) n k) - Z := by
    intro k u hu
    have hP' : (PdpModel.ice (.pdp f) b.axisLo b.axisHi rows s m' ((List.range (n + 1)).map (storedLimit (b.axisLo s) (b.axisHi s) n))).map avg = P := by
      have := Except.ok.inj hP
      simpa [report] using this
    rw [← hP'] at hu
    unfold PdpModel.ice at hu
    rw [List.map_map, List.map_map, List.getElem?_map] at hu
    have hk : k < n + 1 := by
      by_contra hk
      rw [List.getElem?_eq_none (by simpa using hk)] at hu
      cases hu
    rw [List.getElem?_range hk] at hu
    refine ⟨by omega, ?_⟩
    rw [← Option.some.inj hu]
    exact avg_sub_rows rows (fun r => (PdpModel.pdp f).at s (storedLimit (b.axisLo s) (b.axisHi s) n k) r) (fun r => (PdpModel.pdp f).shift b.axisLo b.axisHi s r m')
  refine ⟨PD (b.axisLo s) - Z + z, ?_⟩
  intro i k x v u u' hi hv hu1 hu2 h1 h2 h3
  obtain ⟨-, rfl⟩ := hPk k u hu1
  obtain ⟨hk, rfl⟩ := hPk (k + 1) u' hu2
  obtain ⟨el, hel, hacc⟩ := hgp.acc p.binEffect xs hgp.be
  unfold evalUnnorm at hu
  rw [hacc] at hu
  cases hu
  simp only [List.getElem?_map, hi, Option.map_some, Option.some.injEq] at hv
  rw [if_neg (by unfold BIG_M; intro hc; exact absurd hc.2 (not_lt.mpr h3))] at hv
  have hle : gridPoint (b.axisLo s) (b.axisHi s) n k ≤ storedLimit (b.axisLo s) (b.axisHi s) n (k + 1) := h1.trans h2
  have := C01_spec_linear_inside p.limits p.binEffect hgp.inc k _ _ _ (gridPoint (b.axisLo s) (b.axisHi s) n k) x
    (by rw [hpt k (by omega), hst k (by omega)]) (hpt (k + 1) hk) (hek k (by omega)) le_rfl hle h1 h2
  rw [hE1 k (by omega)] at this
  rw [← hv, eq_add_of_sub_eq this, hst k (by omega)]
  ring

/-- Averaging over a factorial design is averaging the averages at each value. -/
theorem avg_factorial_dep {s : Fin D} (vals : List K) (rest : List (Row K D)) (φ : Row K D → K) (hrest : rest ≠ []) :
    avg ((factorial s vals rest).map φ) = avg (vals.map fun v => avg (rest.map fun r => φ (Function.update r s v))) := by
  have hr : (rest.length : K) ≠ 0 := by simpa using hrest
  have hlen : (factorial s vals rest).length = vals.length * rest.length := by
    unfold factorial
    induction vals with
    | nil => simp
    | cons v t ih => rw [List.flatMap_cons, List.length_append, ih, List.length_map, List.length_cons]; ring
  have hsum : ((factorial s vals rest).map φ).sum = (rest.length : K) * (vals.map fun v => avg (rest.map fun r => φ (Function.update r s v))).sum := by
    clear hlen
    unfold factorial
    induction vals with
    | nil => simp
    | cons v t ih =>
      rw [List.flatMap_cons, List.map_append, List.sum_append, ih, List.map_cons, List.sum_cons, mul_add]
      congr 1
      unfold avg
      rw [List.length_map, mul_div_cancel₀ _ hr, List.map_map]
      rfl
  unfold avg at hsum ⊢
  rw [hsum, List.length_map, List.length_map, hlen, Nat.cast_mul, mul_comm (vals.length : K)]
  exact mul_div_mul_left _ _ hr

/-- The bin effects of RHALE with `n` equal bins when the gradient of row `r` is `J r`. -/
theorem rhale_fixed_binEffect (J : Row K D → Row K D) {data : List (Row K D)} {lo hi : Fin D → K} {s : Fin D} {n : ℕ} {mo : Option ℕ} {cl : ℕ} {p : AleParams K}
    (hlt : lo s < hi s) (hn : 1 ≤ n) (hcat : cl < distinct ((inLimits data lo hi s).map fun r => r s))
    (hfit : rhaleFitFeature data (data.map J) lo hi s (.fixed n mo cl) = .ok p) :
    GoodParams p ∧ p.limits = linspace (lo s) (hi s) (n + 1) ∧
      ∀ k, k < n → rowsInBin (inLimits data lo hi s) s (lo s) (hi s) n k ≠ [] → p.binEffect[k]? = some
        (avg ((rowsInBin (inLimits data lo hi s) s (lo s) (hi s) n k).map fun r => J r s)) := by
  have hrows : data.filter (inAxis (lo s) (hi s) s) = inLimits data lo hi s := by
    unfold inLimits
    apply List.filter_congr
    intro r _
    simp [inAxis]
  obtain ⟨hlen, Lm, hLm, hpp⟩ := rhaleFitFeature_ok hfit
  have hcat' : cl < distinct (rhaleCtx data (data.map J) lo hi s).xs := by
    show cl < distinct (col (data.filter (inAxis (lo s) (hi s) s)) s)
    rw [hrows]
    exact hcat
  have hLe : Lm = linspace (lo s) (hi s) (n + 1) := by
    have hLm' : fixedFind (rhaleCtx data (data.map J) lo hi s) n mo cl = .ok (.arr Lm) := hLm
    unfold fixedFind at hLm'
    rw [isCategorical_not _ _ _ hcat'] at hLm'
    simp only [bind, Except.bind, pure, Except.pure] at hLm'
    cases hnv : noneValidBinning (rhaleCtx data (data.map J) lo hi s).xs mo with
    | error e => rw [hnv] at hLm'; cases hLm'
    | ok t =>
      rw [hnv] at hLm'
      simp only [] at hLm'
      cases mo with
      | none => cases hLm'; rfl
      | some k =>
        simp only [Except.ok.injEq] at hLm'
        split_ifs at hLm'
        cases hLm'; rfl
  subst hLe
  have hsp := spans_linspace (K := K) hlt hn
  obtain ⟨hg, hlim, -, -, hbe⟩ := computeAleParams_good hsp.1 hsp.2 ⟨_, _, hsp.3, hsp.4, rhaleCtx_in data (data.map J) lo hi s⟩
    (rhaleCtx_len data (data.map J) lo hi s hlen) hpp
  refine ⟨hg, hlim, ?_⟩
  intro k hk hne
  have hcol : col (((data.zip (data.map J)).filter fun p => inAxis (lo s) (hi s) s p.1).map (·.2)) s = (inLimits data lo hi s).map fun r => J r s := by
    rw [← hrows]
    have : data.zip (data.map J) = data.map fun r => (r, J r) := by
      have := List.zip_map' (f := (id : Row K D → Row K D)) (g := J) (l := data)
      rwa [List.map_id] at this
    rw [this, List.filter_map, List.map_map]
    unfold col
    rw [List.map_map]
    rfl
  have hx : (rhaleCtx data (data.map J) lo hi s).xs = col (inLimits data lo hi s) s := by rw [← hrows]; rfl
  rw [hx, hcol] at hbe
  simp only [binEffects_rows] at hbe
  have hfilt : ((inLimits data lo hi s).filter fun r => InBin (linspace (lo s) (hi s) (n + 1)) k (r s)) =
      rowsInBin (inLimits data lo hi s) s (lo s) (hi s) n k := by
    unfold rowsInBin
    apply List.filter_congr
    intro r hr
    apply decide_eq_decide.mpr
    have hpt : ∀ i, i ≤ n → (linspace (lo s) (hi s) (n + 1))[i]? = some (gridPoint (lo s) (hi s) n i) := fun i hi' => getElem?_linspace _ _ _ _ (by omega)
    unfold InBin
    rw [hpt k hk.le, hpt (k + 1) hk, length_linspace]
    by_cases hc : k + 1 = n
    · subst hc
      simp only [Option.mem_def, Option.some.injEq, exists_eq_left', gridPoint_last _ _ _ hn, if_true]
    · simp only [Option.mem_def, Option.some.injEq, exists_eq_left', if_neg hc, if_neg (show ¬ k + 2 = n + 1 by omega)]
  rw [hbe k (by rw [length_linspace]; omega), hfilt]
  rw [hfilt]
  intro hc
  exact hne (List.map_eq_nil_iff.mp hc)

/-- **C99, full factorial data.**  The other features take the same combinations at every value of the feature: ALE interpolates PDP, whatever the model (interactions included). -/
theorem C99_factorial [PySqrt K] (f : Row K D → K) (b : Base K D) (hlt : ∀ s, b.axisLo s < b.axisHi s) (s : Fin D) (vals : List K) (rest : List (Row K D)) (hrest : rest ≠ [])
    (hdata : inLimits b.data b.axisLo b.axisHi s = factorial s vals rest)
    (calls : List (AleOp K D)) (hcalls : ∀ f bm c, AleOp.fit f bm c ∈ calls → ∀ m cl, bm ≠ .fixed 0 m cl)
    (n : ℕ) (hn : 2 ≤ n) (mp : Option ℕ) (cl : ℕ) (m0 : Centering) (hlast : lastFit (aleCfg id (List.map f) b) calls s = some (.fixed n mp cl, m0))
    (hcat : cl < distinct ((inLimits b.data b.axisLo b.axisHi s).map fun r => r s))
    (hbin : ∀ k, k < n → ∃ v ∈ vals, gridPoint (b.axisLo s) (b.axisHi s) n k ≤ v ∧ (if k + 1 = n then v ≤ b.axisHi s else v < gridPoint (b.axisLo s) (b.axisHi s) n (k + 1)))
    (c : PyVal) (hc : prepCentering c = .ok .off ∨ prepCentering c = .ok m0) (xs : List K) (het : Bool)
    (y : List K) (o : Option (List K)) (h : (aleEval (aleCfg id (List.map f) b) (aleRun (aleCfg id (List.map f) b) calls) s xs het c).2 = .ok (y, o))
    (pcalls : List (PdpOp K D)) (hpcalls : ∀ op ∈ pcalls, PdpCallOk b.data b.axisLo b.axisHi s op) (c' : PyVal) (vec : Bool) (P : List K)
    (hP : pdpEvalAfter (.pdp f) b.axisLo b.axisHi b.data pcalls s ((List.range (n + 1)).map (storedLimit (b.axisLo s) (b.axisHi s) n)) false c' false vec = .ok (.meanOnly P)) :
    ∃ z, ∀ (i k : ℕ) (x v u u' : K), xs[i]? = some x → y[i]? = some v → P[k]? = some u → P[k + 1]? = some u' →
      gridPoint (b.axisLo s) (b.axisHi s) n k ≤ x → x ≤ storedLimit (b.axisLo s) (b.axisHi s) n (k + 1) → x ≤ 10 ^ 8 →
        v = u + (x - gridPoint (b.axisLo s) (b.axisHi s) n k) / ((b.axisHi s - b.axisLo s) / n) * (u' - u) - z :=
  C99_interpolates f b hlt s calls hcalls n hn mp cl m0 hlast hcat (by rw [hdata]; exact balanced_factorial f s vals rest hrest _ _ n hbin) c hc xs het y o h pcalls hpcalls c' vec P hP

/-- **C99, additive models.**  The model is `g(feature) + h(other features)`: ALE interpolates PDP on all data with no empty bin. -/
theorem C99_additive [PySqrt K] (g : K → K) (hh : Row K D → K) (b : Base K D) (hlt : ∀ s, b.axisLo s < b.axisHi s) (s : Fin D) (hfree : FreeOf s hh)
    (calls : List (AleOp K D)) (hcalls : ∀ f bm c, AleOp.fit f bm c ∈ calls → ∀ m cl, bm ≠ .fixed 0 m cl)
    (n : ℕ) (hn : 2 ≤ n) (mp : Option ℕ) (cl : ℕ) (m0 : Centering)
    (hlast : lastFit (aleCfg id (List.map fun r => g (r s) + hh r) b) calls s = some (.fixed n mp cl, m0))
    (hcat : cl < distinct ((inLimits b.data b.axisLo b.axisHi s).map fun r => r s))
    (hbin : ∀ k, k < n → rowsInBin (inLimits b.data b.axisLo b.axisHi s) s (b.axisLo s) (b.axisHi s) n k ≠ [])
    (c : PyVal) (hc : prepCentering c = .ok .off ∨ prepCentering c = .ok m0) (xs : List K) (het : Bool) (y : List K) (o : Option (List K))
    (h : (aleEval (aleCfg id (List.map fun r => g (r s) + hh r) b) (aleRun (aleCfg id (List.map fun r => g (r s) + hh r) b) calls) s xs het c).2 = .ok (y, o))
    (pcalls : List (PdpOp K D)) (hpcalls : ∀ op ∈ pcalls, PdpCallOk b.data b.axisLo b.axisHi s op) (c' : PyVal) (vec : Bool) (P : List K)
    (hP : pdpEvalAfter (.pdp fun r => g (r s) + hh r) b.axisLo b.axisHi b.data pcalls s ((List.range (n + 1)).map (storedLimit (b.axisLo s) (b.axisHi s) n)) false c' false vec = .ok (.meanOnly P)) :
    ∃ z, ∀ (i k : ℕ) (x v u u' : K), xs[i]? = some x → y[i]? = some v → P[k]? = some u → P[k + 1]? = some u' →
      gridPoint (b.axisLo s) (b.axisHi s) n k ≤ x → x ≤ storedLimit (b.axisLo s) (b.axisHi s) n (k + 1) → x ≤ 10 ^ 8 →
        v = u + (x - gridPoint (b.axisLo s) (b.axisHi s) n k) / ((b.axisHi s - b.axisLo s) / n) * (u' - u) - z :=
  C99_interpolates _ b hlt s calls hcalls n hn mp cl m0 hlast hcat (balanced_additive g hh s hfree _ _ _ n hbin) c hc xs het y o h pcalls hpcalls c' vec P hP

/-- **C99, RHALE and the derivative PDP.**  Full factorial data, `n` equal bins.  In bin `k` RHALE rises with slope the average of the values that the uncentred derivative PDP
returns at the feature values of that bin. -/
theorem C99_rhale [PySqrt K] (J : Row K D → Row K D) (b : Base K D) (hlt : ∀ s, b.axisLo s < b.axisHi s) (s : Fin D) (vals : List K) (rest : List (Row K D)) (hrest : rest ≠ [])
    (hdata : inLimits b.data b.axisLo b.axisHi s = factorial s vals rest)
    (calls : List (AleOp K D)) (hcalls : ∀ f bm c, AleOp.fit f bm c ∈ calls → ∀ t, SafeMethod (rhaleCtx b.data (b.data.map J) b.axisLo b.axisHi t) bm)
    (n : ℕ) (hn : 1 ≤ n) (mp : Option ℕ) (cl : ℕ) (m0 : Centering) (hlast : lastFit (rhaleCfg (b.data.map J) b) calls s = some (.fixed n mp cl, m0))
    (hcat : cl < distinct ((inLimits b.data b.axisLo b.axisHi s).map fun r => r s)) (k : ℕ) (hk : k < n)
    (Vk : List K) (hVk : Vk = vals.filter fun v => gridPoint (b.axisLo s) (b.axisHi s) n k ≤ v ∧ (if k + 1 = n then v ≤ b.axisHi s else v < gridPoint (b.axisLo s) (b.axisHi s) n (k + 1)))
    (hne : Vk ≠ [])
    (c : PyVal) (hc : prepCentering c = .ok .off ∨ prepCentering c = .ok m0) (xs : List K) (het : Bool)
    (y : List K) (o : Option (List K)) (h : (aleEval (rhaleCfg (b.data.map J) b) (aleRun (rhaleCfg (b.data.map J) b) calls) s xs het c).2 = .ok (y, o))
    (pcalls : List (PdpOp K D)) (hpcalls : ∀ op ∈ pcalls, PdpCallOk b.data b.axisLo b.axisHi s op) (vec : Bool) (Q : List K)
    (hQ : pdpEvalAfter (.derJac J) b.axisLo b.axisHi b.data pcalls s Vk false (.bool false) false vec = .ok (.meanOnly Q)) :
    ∀ (i j : ℕ) (x x' v v' : K), xs[i]? = some x → xs[j]? = some x' → y[i]? = some v → y[j]? = some v' →
      gridPoint (b.axisLo s) (b.axisHi s) n k ≤ x → x ≤ gridPoint (b.axisLo s) (b.axisHi s) n (k + 1) →
      gridPoint (b.axisLo s) (b.axisHi s) n k ≤ x' → x' ≤ gridPoint (b.axisLo s) (b.axisHi s) n (k + 1) → x ≤ 10 ^ 8 → x' ≤ 10 ^ 8 →
        v' - v = (x' - x) * avg Q := by
  have hdefs : ∀ t, SafeMethod (rhaleCtx b.data (b.data.map J) b.axisLo b.axisHi t) (rhaleCfg (b.data.map J) b).defaultBin := fun t hc => absurd hc (by decide)
  have hgood := rhale_goodFor (b.data.map J) b hlt
  have he := usesEvaluable_of (rhaleCfg (b.data.map J) b) calls fun f bm c hm => (hgood bm (hcalls f bm c hm)).evaluable
  obtain ⟨m, p, U, z, hm, hp, hu, hz, rfl, -⟩ := eval_from_fit (hgood _ hdefs).evaluable he h
  have hbm : effectiveBin (rhaleCfg (b.data.map J) b) (lastFit (rhaleCfg (b.data.map J) b) calls s) m = .fixed n mp cl := by
    rw [hlast]
    unfold effectiveBin
    simp only []
    rw [if_pos]
    rcases hc with hc | hc <;> rw [hc] at hm <;> cases hm
    · exact Or.inl rfl
    · exact Or.inr rfl
  rw [hbm] at hp
  obtain ⟨hgp, hlim, hbe⟩ := rhale_fixed_binEffect J (hlt s) hn hcat hp
  have hfac : rowsInBin (factorial s vals rest) s (b.axisLo s) (b.axisHi s) n k = factorial s Vk rest := by
    rw [hVk]
    unfold rowsInBin
    exact filter_factorial vals rest fun v => gridPoint (b.axisLo s) (b.axisHi s) n k ≤ v ∧ (if k + 1 = n then v ≤ b.axisHi s else v < gridPoint (b.axisLo s) (b.axisHi s) n (k + 1))
  obtain ⟨r0, hr0⟩ := List.exists_mem_of_ne_nil _ hrest
  obtain ⟨v0, hv0⟩ := List.exists_mem_of_ne_nil _ hne
  have hv0' : v0 ∈ vals := by rw [hVk] at hv0; exact (List.mem_filter.mp hv0).1
  rw [hdata] at hbe
  have hek := hbe k hk (by rw [hfac]; exact List.ne_nil_of_mem (List.mem_flatMap.mpr ⟨v0, hv0, List.mem_map.mpr ⟨r0, hr0, rfl⟩⟩))
  rw [hfac, avg_factorial_dep Vk rest (fun r => J r s) hrest] at hek
  -- what the derivative PDP returned
  have hinst : ∃ r ∈ b.data, b.axisLo s ≤ r s ∧ r s ≤ b.axisHi s := by
    have hr' : Function.update r0 s v0 ∈ inLimits b.data b.axisLo b.axisHi s := by
      rw [hdata]
      exact List.mem_flatMap.mpr ⟨v0, hv0', List.mem_map.mpr ⟨r0, hr0, rfl⟩⟩
    exact ⟨_, (List.mem_filter.mp hr').1, by simpa using (List.mem_filter.mp hr').2⟩
  rw [evalAfter_ok (.derJac J) b.axisLo b.axisHi b.data s pcalls hpcalls _ false (m := .off) rfl false vec ⟨hlt s, Or.inr hne, hinst⟩, hdata] at hQ
  have hQ' : Q = Vk.map fun v => avg (rest.map fun r => J (Function.update r s v) s) := by
    have := Except.ok.inj hQ
    have hQ2 : (PdpModel.ice (.derJac J) b.axisLo b.axisHi (factorial s vals rest) s .off Vk).map avg = Q := by simpa [report] using this
    rw [← hQ2]
    unfold PdpModel.ice
    rw [List.map_map]
    apply List.map_congr_left
    intro v _
    show avg ((factorial s vals rest).map fun r => J (Function.update r s v) s - 0) = _
    simp only [sub_zero]
    exact avg_factorial (φ := fun r => J (Function.update r s v) s) (fun r w => by simp only [Function.update_idem]) (List.ne_nil_of_mem hv0')
  rw [← hQ'] at hek
  intro i j x x' v v' hi hj hv hv' h1 h2 h1' h2' h3 h3'
  obtain ⟨el, hel, hacc⟩ := hgp.acc p.binEffect xs hgp.be
  unfold evalUnnorm at hu
  rw [hacc] at hu
  cases hu
  simp only [List.getElem?_map, hi, hj, Option.map_some, Option.some.injEq] at hv hv'
  rw [if_neg (by unfold BIG_M; intro hc; exact absurd hc.2 (not_lt.mpr h3))] at hv
  rw [if_neg (by unfold BIG_M; intro hc; exact absurd hc.2 (not_lt.mpr h3'))] at hv'
  have hpt : ∀ i, i ≤ n → p.limits[i]? = some (gridPoint (b.axisLo s) (b.axisHi s) n i) := fun i hi' => by
    rw [hlim]; exact getElem?_linspace _ _ _ _ (by omega)
  have := C01_spec_linear_inside p.limits p.binEffect hgp.inc k _ _ _ x x' (hpt k hk.le) (hpt (k + 1) hk) hek h1 h2 h1' h2'
  rw [← hv, ← hv', mul_comm, ← this]
  ring

/-- **C99, a linear feature.**  The model is `a * feature + h(other features)` and the gradient says so: between any two points where RHALE is inside its bins, RHALE (any binning
method in force), PDP (any centring) and `a` times the distance are all the same, and the uncentred derivative PDP is `a`. -/
theorem C99_linear [PySqrt K] [LawfulSqrt K] (a : K) (hh : Row K D → K) (J : Row K D → Row K D) (b : Base K D) (hlt : ∀ s, b.axisLo s < b.axisHi s) (s : Fin D) (hfree : FreeOf s hh)
    (hJ : ∀ r, J r s = a) (hin : ∃ r ∈ b.data, b.axisLo s ≤ r s ∧ r s ≤ b.axisHi s)
    (calls : List (AleOp K D)) (hcalls : ∀ f bm c, AleOp.fit f bm c ∈ calls → ∀ t, SafeMethod (rhaleCtx b.data (b.data.map J) b.axisLo b.axisHi t) bm) (c : PyVal)
    (hok : ∃ xs het r, (aleEval (rhaleCfg (b.data.map J) b) (aleRun (rhaleCfg (b.data.map J) b) calls) s xs het c).2 = .ok r)
    (pcalls : List (PdpOp K D)) (hpcalls : ∀ op ∈ pcalls, PdpCallOk b.data b.axisLo b.axisHi s op) (c' : PyVal) (m' : Centering) (hc' : prepCentering c' = .ok m') :
    ∃ lo hi z z' : K, lo < hi ∧ (∀ r ∈ b.data, b.axisLo s ≤ r s → r s ≤ b.axisHi s → lo ≤ r s ∧ r s ≤ hi) ∧
      ∀ xs vec, xs ≠ [] → (∀ x ∈ xs, lo ≤ x ∧ x ≤ hi ∧ x ≤ 10 ^ 8) →
        (aleEval (rhaleCfg (b.data.map J) b) (aleRun (rhaleCfg (b.data.map J) b) calls) s xs false c).2 = .ok (xs.map fun x => a * x - z, none) ∧
        pdpEvalAfter (.pdp fun r => a * r s + hh r) b.axisLo b.axisHi b.data pcalls s xs false c' false vec = .ok (.meanOnly (xs.map fun x => a * x - z')) ∧
        pdpEvalAfter (.derJac J) b.axisLo b.axisHi b.data pcalls s xs false (.bool false) false vec = .ok (.meanOnly (xs.map fun _ => a)) := by
  obtain ⟨lo, hi, z, hlh, hrange, hev⟩ := C08_eval_constant_gradient (b.data.map J) b hlt s a (by
    intro e he
    obtain ⟨r, -, rfl⟩ := List.mem_map.mp he
    exact hJ r) calls hcalls c hok
  have hne := used_ne hin
  refine ⟨lo, hi, a * lo + z, avg ((inLimits b.data b.axisLo b.axisHi s).map fun r => (PdpModel.pdp fun r => a * r s + hh r).shift b.axisLo b.axisHi s r m' - hh r), hlh, hrange, ?_⟩
  intro xs vec hxne hxs
  have ha : EvalArgsOk b.data b.axisLo b.axisHi s xs vec := ⟨hlt s, Or.inr hxne, hin⟩
  refine ⟨?_, ?_, ?_⟩
  · rw [hev xs false hxs]
    simp only [Bool.false_eq_true, if_false]
    congr 2
    apply List.map_congr_left
    intro x _
    ring
  · rw [evalAfter_ok _ _ _ _ _ pcalls hpcalls xs false hc' false vec ha]
    unfold report PdpModel.ice
    simp only [Bool.false_eq_true, if_false, List.map_map]
    congr 2
    apply List.map_congr_left
    intro x _
    show avg ((inLimits b.data b.axisLo b.axisHi s).map fun r => (a * (Function.update r s x) s + hh (Function.update r s x)) - _) = _
    have e : ∀ r : Row K D, a * (Function.update r s x) s + hh (Function.update r s x) - (PdpModel.pdp fun r => a * r s + hh r).shift b.axisLo b.axisHi s r m' =
        a * x - ((PdpModel.pdp fun r => a * r s + hh r).shift b.axisLo b.axisHi s r m' - hh r) := fun r => by
      rw [Function.update_self, hfree r x]
      ring
    simp only [e]
    rw [avg_sub_rows, avg_const (c := a * x)]
    · simp
    · simpa using hne
  · rw [evalAfter_ok _ _ _ _ _ pcalls hpcalls xs false (m := .off) rfl false vec ha]
    unfold report PdpModel.ice
    simp only [Bool.false_eq_true, if_false, List.map_map]
    congr 2
    apply List.map_congr_left
    intro x _
    show avg ((inLimits b.data b.axisLo b.axisHi s).map fun r => J (Function.update r s x) s - 0) = a
    simp only [hJ, sub_zero]
    rw [avg_const (c := a)]
    · simp
    · simpa using hne

/-! ### Concrete objects -/

/-- Every value 0, 1, 2, 4 of the first feature with every value 1, 3 of the second. -/
def crossBase : Base ℚ 2 where
  data := factorial 0 [0, 1, 2, 4] [![0, 1], ![0, 3]]
  indices := List.range 8
  axisLo := ![0, 1]
  axisHi := ![4, 3]

/-- `x0² x1 + x1`: the features interact. -/
def crossModel (r : Row ℚ 2) : ℚ := r 0 * r 0 * r 1 + r 1

def crossJac (r : Row ℚ 2) : Row ℚ 2 := ![2 * r 0 * r 1, r 0 * r 0 + 1]

/-- `fit(0, binning_method=Fixed(nof_bins=2, min_points_per_bin=1, cat_limit=1), centering=False)`. -/
def crossCalls : List (AleOp ℚ 2) := [.fit (.int 0) (.fixed 2 (some 1) 1) (.bool false)]

/-- The hypotheses of the theorems of this file are met, and the values are not trivial. -/
example : (∀ s, crossBase.axisLo s < crossBase.axisHi s) ∧
    inLimits crossBase.data crossBase.axisLo crossBase.axisHi 0 = factorial 0 [0, 1, 2, 4] [![0, 1], ![0, 3]] ∧
    lastFit (aleCfg id (List.map crossModel) crossBase) crossCalls 0 = some (.fixed 2 (some 1) 1, .off) ∧
    1 < distinct ((inLimits crossBase.data crossBase.axisLo crossBase.axisHi 0).map fun r => r 0) ∧
    (aleEval (aleCfg id (List.map crossModel) crossBase) (aleRun (aleCfg id (List.map crossModel) crossBase) crossCalls) 0 [0, 1, 2, 4] false (.bool false)).2 =
      .ok ([0, 4, 8, 32 + (16 * 10 ^ 8 + 2) / 10 ^ 16], none) ∧
    pdpEvalAfter (.pdp crossModel) crossBase.axisLo crossBase.axisHi crossBase.data [] 0 ((List.range 3).map (storedLimit (crossBase.axisLo 0) (crossBase.axisHi 0) 2)) false (.bool false) false true =
      .ok (.meanOnly [2, 10, 34 + (16 * 10 ^ 8 + 2) / 10 ^ 16]) ∧
    (aleEval (rhaleCfg (crossBase.data.map crossJac) crossBase) (aleRun (rhaleCfg (crossBase.data.map crossJac) crossBase) crossCalls) 0 [0, 1, 2, 4] false (.bool false)).2 = .ok ([0, 2, 4, 28], none) ∧
    pdpEvalAfter (.derJac crossJac) crossBase.axisLo crossBase.axisHi crossBase.data [] 0 [0, 1] false (.bool false) false true = .ok (.meanOnly [0, 4]) := by
  refine ⟨by decide +kernel, by decide +kernel, by decide +kernel, by decide +kernel, by decide +kernel, by decide +kernel, by decide +kernel, by decide +kernel⟩

/-- The same values of the two features, but they rise together. -/
def diagonalBase : Base ℚ 2 where
  data := [![0, 1], ![1, 1], ![2, 3], ![4, 3]]
  indices := List.range 4
  axisLo := ![0, 1]
  axisHi := ![4, 3]

/-- **C99, balance is needed.**  On correlated data the two methods differ for the same model: no constant turns the ALE values at the first two limits into the PDP values. -/
theorem C99_correlated_false :
    (aleEval (aleCfg id (List.map crossModel) diagonalBase) (aleRun (aleCfg id (List.map crossModel) diagonalBase) crossCalls) 0 [0, 2] false (.bool false)).2 = .ok ([0, 4], none) ∧
    pdpEvalAfter (.pdp crossModel) diagonalBase.axisLo diagonalBase.axisHi diagonalBase.data [] 0 [0, 2] false (.bool false) false true = .ok (.meanOnly [2, 10]) := by
  refine ⟨by decide +kernel, by decide +kernel⟩

/-- A linear feature: `3 x0 + x1²`. -/
example : (∃ xs het r, (aleEval (rhaleCfg (diagonalBase.data.map fun r => ![3, 2 * r 1]) diagonalBase)
      (aleRun (rhaleCfg (diagonalBase.data.map fun r => ![3, 2 * r 1]) diagonalBase) crossCalls) 0 xs het (.bool false)).2 = .ok r) ∧
    FreeOf (K := ℚ) (D := 2) 0 (fun r => r 1 * r 1) := by
  refine ⟨⟨[0, 1], false, ([0, 3], none), by decide +kernel⟩, fun r v => ?_⟩
  simp

end Effector
