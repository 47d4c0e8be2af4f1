import Verif.Lemmas.AleFit
import Mathlib.Data.Fin.VecNotation
import Mathlib.Tactic.FieldSimp

/-!
# C55 and C63: compute_local_effects changes its argument, and which difference quotient it computes
-/

set_option linter.unusedSectionVars false

namespace Effector

open Spec

section

variable {K : Type} [Field K] [LinearOrder K] [IsStrictOrderedRing K] {D : ℕ}

/-! ## C63 -/

/-- **C63, what is computed.** For a row-wise model and increasing limits that enclose the data, the effect of an instance in bin `k = [a, b]` is the difference of
the model between the limits of its bin, the very last limit being enlarged by 1e-8, divided by the width of the *first* bin. -/
theorem C63_exact_value (f : Row K D → K) (data : List (Row K D)) (limits : List K) (s : Fin D) (hinc : Increasing limits) (htwo : 2 ≤ limits.length)
    (hin : Within limits (col data s)) (hne : data ≠ []) :
    ∃ eff lim, computeLocalEffects id data (List.map f) limits s = .ok (eff, lim) ∧ eff.length = data.length ∧
      ∀ (i : ℕ) (r : Row K D) (k : ℕ) (a b l0 l1 : K), data[i]? = some r → InBin limits k (r s) → limits[k]? = some a → limits[k + 1]? = some b →
        limits[0]? = some l0 → limits[1]? = some l1 →
        eff[i]? = some ((f (Function.update r s (if k + 2 = limits.length then b + (1 / 10 ^ 8) else b)) - f (Function.update r s a)) /
          ((if limits.length = 2 then l1 + (1 / 10 ^ 8) else l1) - l0)) := by
  simp only [EPS_lit] at *
  obtain ⟨l0', l1', h0, h1, h01, hc⟩ := computeLocalEffects_eq (cast := id) (f := f) hinc htwo hin hne
  refine ⟨_, _, hc, by simp, ?_⟩
  intro i r k a b l0 l1 hi hk ha hb hl0 hl1
  obtain ⟨lo, hi', hlo, hhi, hmem⟩ := hin
  have hm := hmem (r s) (List.mem_map.mpr ⟨r, List.mem_of_getElem? hi, rfl⟩)
  have hidx := (inBin_iff hinc htwo hlo hhi hm.1 hm.2 k).mp hk
  rw [getElem?_bumpLast, hl0] at h0
  rw [getElem?_bumpLast, hl1] at h1
  simp only [Option.map_some, Option.some.injEq] at h0 h1
  have e0 : l0' = l0 := by rw [← h0, if_neg (by omega)]
  have e1 : l1' = if limits.length = 2 then l1 + EPS else l1 := by
    rw [← h1]
    by_cases h : limits.length = 2
    · rw [if_pos h, if_pos (by omega)]
    · rw [if_neg h, if_neg (by omega)]
  have hlen : k + 1 < limits.length := (List.getElem?_eq_some_iff.mp hb).1
  rw [List.getElem?_map, hi, Option.map_some, hidx, e0, e1]
  have eb : (bumpLast EPS limits).getD (k + 1) 0 = if k + 2 = limits.length then b + EPS else b := by
    rw [List.getD_eq_getElem?_getD, getElem?_bumpLast, hb]
    rfl
  have ea : (bumpLast EPS limits).getD (k + 1 - 1) 0 = a := by
    rw [List.getD_eq_getElem?_getD, Nat.add_sub_cancel, getElem?_bumpLast, ha]
    simp only [Option.map_some, Option.getD_some]
    rw [if_neg (by omega)]
  rw [eb, ea]
  rfl

/-- **C63, positive part.** An instance of a bin that is not the last one and is as wide as the first one gets the documented difference quotient. -/
theorem C63_documented_quotient_partial (f : Row K D → K) (data : List (Row K D)) (limits : List K) (s : Fin D) (hinc : Increasing limits)
    (hin : Within limits (col data s)) (i : ℕ) (r : Row K D) (hi : data[i]? = some r) (k : ℕ) (hk : InBin limits k (r s)) (hlast : k + 2 < limits.length)
    (a b l0 l1 : K) (ha : limits[k]? = some a) (hb : limits[k + 1]? = some b) (hl0 : limits[0]? = some l0) (hl1 : limits[1]? = some l1)
    (hw : b - a = l1 - l0) (eff lim : List K) (h : computeLocalEffects id data (List.map f) limits s = .ok (eff, lim)) :
    eff[i]? = some ((f (Function.update r s b) - f (Function.update r s a)) / (b - a)) := by
  have hne : data ≠ [] := by rintro rfl; simp at hi
  obtain ⟨eff', lim', h', -, hall⟩ := C63_exact_value f data limits s hinc (by omega) hin hne
  rw [h] at h'
  cases h'
  rw [hall i r k a b l0 l1 hi hk ha hb hl0 hl1, if_neg (by omega), if_neg (by omega), hw]

/-- **C63 fails in the last bin**, even for the model `f(x) = x_s` on equal bins: the effect of every instance of the last bin is not 1. -/
theorem C63_false_last_bin (data : List (Row K D)) (limits : List K) (s : Fin D) (hinc : Increasing limits)
    (hin : Within limits (col data s)) (i : ℕ) (r : Row K D) (hi : data[i]? = some r) (k : ℕ) (hk : InBin limits k (r s)) (hlast : k + 2 = limits.length)
    (hthree : 3 ≤ limits.length) (a b l0 l1 : K) (ha : limits[k]? = some a) (hb : limits[k + 1]? = some b) (hl0 : limits[0]? = some l0)
    (hl1 : limits[1]? = some l1) (hw : b - a = l1 - l0) (eff lim : List K)
    (h : computeLocalEffects id data (List.map fun r => r s) limits s = .ok (eff, lim)) :
    eff[i]? = some (1 + (1 / 10 ^ 8) / (b - a)) ∧ eff[i]? ≠ some ((b - a) / (b - a)) := by
  simp only [EPS_lit] at *
  have hne : data ≠ [] := by rintro rfl; simp at hi
  obtain ⟨eff', lim', h', -, hall⟩ := C63_exact_value (fun r => r s) data limits s hinc (by omega) hin hne
  rw [h] at h'
  cases h'
  have hab : a < b := increasing_getElem?_lt hinc ha hb (by omega)
  have e := hall i r k a b l0 l1 hi hk ha hb hl0 hl1
  rw [if_pos hlast, if_neg (by omega), ← hw] at e
  simp only [Function.update_self] at e
  have hne' : b - a ≠ 0 := ne_of_gt (sub_pos.mpr hab)
  have e2 : (b + EPS - a) / (b - a) = 1 + EPS / (b - a) := by
    field_simp
    ring
  rw [EPS_lit, e2] at e
  refine ⟨e, ?_⟩
  rw [e, div_self hne']
  intro hc
  have hc : (1 : K) + EPS / (b - a) = 1 := Option.some.inj hc
  have : (0 : K) < EPS / (b - a) := div_pos EPS_pos (sub_pos.mpr hab)
  linarith

/-! ## C55 -/

namespace Spec

/-- The caller's `limits` array after `n` calls of `compute_local_effects` with it, if none of them raises. -/
def limitsAfterCalls (cast : K → K) (data : List (Row K D)) (model : List (Row K D) → List K) (s : Fin D) : ℕ → List K → Py (List K)
  | 0, limits => .ok limits
  | n + 1, limits =>
    match computeLocalEffects cast data model limits s with
    | .ok (_, limits') => limitsAfterCalls cast data model s n limits'
    | .error e => .error e

end Spec

theorem localEffects_limits {cast : K → K} {data : List (Row K D)} {model : List (Row K D) → List K} {limits : List K} {s : Fin D} {eff lim : List K}
    (h : computeLocalEffects cast data model limits s = .ok (eff, lim)) : lim = bumpLast EPS limits ∧ limits ≠ [] := by
  unfold computeLocalEffects at h
  simp only [bind, Except.bind, pure, Except.pure] at h
  rcases h1 : pyIndex limits 0 with e | v
  · rw [h1] at h; cases h
  rw [h1] at h
  have hne : limits ≠ [] := by rintro rfl; cases h1
  simp only at h
  rcases h2 : listMin (col data s) with e | v2
  · rw [h2] at h; cases h
  rw [h2] at h
  simp only at h
  rcases h3 : pyAssert (decide (v ≤ v2)) with e | v3
  · rw [h3] at h; cases h
  rw [h3] at h
  simp only at h
  rcases h4 : pyIndex limits (limits.length - 1) with e | v4
  · rw [h4] at h; cases h
  rw [h4] at h
  simp only at h
  rcases h5 : listMax (col data s) with e | v5
  · rw [h5] at h; cases h
  rw [h5] at h
  simp only at h
  rcases h6 : pyAssert (decide (v5 ≤ v4)) with e | v6
  · rw [h6] at h; cases h
  rw [h6] at h
  simp only at h
  rcases h7 : digitize (col data s) (bumpLast EPS limits) with e | v7
  · rw [h7] at h; cases h
  rw [h7] at h
  simp only at h
  rcases h8 : pyAssert (v7.all (0 < ·)) with e | v8
  · rw [h8] at h; cases h
  rw [h8] at h
  simp only at h
  rcases h9 : v7.mapM (fun i => pyIndex (bumpLast EPS limits) i) with e | v9
  · rw [h9] at h; cases h
  rw [h9] at h
  simp only at h
  rcases h10 : v7.mapM (fun i => pyIndex (bumpLast EPS limits) (i - 1)) with e | v10
  · rw [h10] at h; cases h
  rw [h10] at h
  simp only at h
  rcases h11 : pyIndex (bumpLast EPS limits) 0 with e | v11
  · rw [h11] at h; cases h
  rw [h11] at h
  simp only at h
  rcases h12 : pyIndex (bumpLast EPS limits) 1 with e | v12
  · rw [h12] at h; cases h
  rw [h12] at h
  simp only [Except.ok.injEq, Prod.mk.injEq] at h
  exact ⟨h.2.symm, hne⟩

theorem bumpLast_append (e : K) (l : List K) (x : K) : bumpLast e (l ++ [x]) = l ++ [x + e] := by
  induction l with
  | nil => rfl
  | cons a t ih =>
    cases t with
    | nil => rfl
    | cons b t =>
      rw [List.cons_append, List.cons_append, bumpLast_cons_cons, List.cons_append, List.cons_append, ← List.cons_append, ih]
      rfl

/-- **C55 is false**: whatever the data, the model and the limits, every call that returns has changed the caller's array: its last entry grew by 1e-8.  All other
entries are untouched. -/
theorem C55_false_argument_changed (cast : K → K) (data : List (Row K D)) (model : List (Row K D) → List K) (limits : List K) (s : Fin D) (eff lim : List K)
    (h : computeLocalEffects cast data model limits s = .ok (eff, lim)) :
    ∃ init last, limits = init ++ [last] ∧ lim = init ++ [last + (1 / 10 ^ 8)] ∧ lim ≠ limits := by
  simp only [EPS_lit] at *
  obtain ⟨h1, h2⟩ := localEffects_limits h
  obtain ⟨init, last, rfl⟩ : ∃ init last, limits = init ++ [last] := ⟨_, _, (List.dropLast_append_getLast h2).symm⟩
  rw [bumpLast_append] at h1
  refine ⟨init, last, rfl, h1, ?_⟩
  rw [h1]
  intro hc
  have := List.append_cancel_left hc
  simp only [List.cons.injEq, and_true] at this
  have := EPS_pos (K := K)
  linarith

/-- After `n` calls with the same array the last limit has grown by `n` times 1e-8. -/
theorem C55_limits_drift (cast : K → K) (data : List (Row K D)) (model : List (Row K D) → List K) (s : Fin D) (n : ℕ) (init : List K) (last : K) (lim : List K)
    (h : Spec.limitsAfterCalls cast data model s n (init ++ [last]) = .ok lim) : lim = init ++ [last + n * (1 / 10 ^ 8)] := by
  simp only [EPS_lit] at *
  induction n generalizing last with
  | zero =>
    unfold Spec.limitsAfterCalls at h
    cases h
    simp
  | succ n ih =>
    unfold Spec.limitsAfterCalls at h
    rcases h1 : computeLocalEffects cast data model (init ++ [last]) s with e | ⟨eff, lim'⟩
    · rw [h1] at h; cases h
    · rw [h1] at h
      simp only at h
      obtain ⟨h2, -⟩ := localEffects_limits h1
      rw [bumpLast_append] at h2
      subst h2
      rw [ih _ h]
      congr 2
      push_cast
      ring

/-- For a row-wise model a second call with the same array also returns, and gives every instance outside the last bin the same effect as the first call (if there is
more than one bin). -/
theorem C55_second_call_partial (f : Row K D → K) (data : List (Row K D)) (limits : List K) (s : Fin D) (hinc : Increasing limits)
    (hthree : 3 ≤ limits.length) (hin : Within limits (col data s)) (hne : data ≠ []) :
    ∃ eff lim eff2 lim2, computeLocalEffects id data (List.map f) limits s = .ok (eff, lim) ∧
      computeLocalEffects id data (List.map f) lim s = .ok (eff2, lim2) ∧
      ∀ (i : ℕ) (r : Row K D) (k : ℕ), data[i]? = some r → InBin limits k (r s) → k + 2 < limits.length → eff2[i]? = eff[i]? := by
  obtain ⟨eff, lim, h1, hlen, hall⟩ := C63_exact_value f data limits s hinc (by omega) hin hne
  obtain ⟨hlim, -⟩ := localEffects_limits h1
  have hinc' : Increasing lim := by rw [hlim]; exact increasing_bumpLast (EPS_pos (K := K)).le hinc
  have hl' : lim.length = limits.length := by rw [hlim, length_bumpLast]
  have hin' : Within lim (col data s) := by rw [hlim]; exact within_bump (by omega) hin
  obtain ⟨eff2, lim2, h2, hlen2, hall2⟩ := C63_exact_value f data lim s hinc' (by omega) hin' hne
  refine ⟨eff, lim, eff2, lim2, h1, h2, ?_⟩
  intro i r k hi hk hlast
  have hget : ∀ j, j + 1 < limits.length → lim[j]? = limits[j]? := by
    intro j hj
    rw [hlim, getElem?_bumpLast]
    rcases limits[j]? with _ | v
    · rfl
    · simp only [Option.map_some]; rw [if_neg (by omega)]
  obtain ⟨a, ha, b, hb, hax, hxb⟩ := hk
  rw [if_neg (by omega)] at hxb
  have e0 : limits[0]? = some limits[0] := List.getElem?_eq_getElem (by omega)
  have e1 : limits[1]? = some limits[1] := List.getElem?_eq_getElem (by omega)
  have ha' : lim[k]? = some a := by rw [hget k (by omega)]; exact ha
  have hb' : lim[k + 1]? = some b := by rw [hget (k + 1) (by omega)]; exact hb
  rw [hall i r k a b _ _ hi ⟨a, ha, b, hb, hax, by rw [if_neg (by omega)]; exact hxb⟩ ha hb e0 e1,
    hall2 i r k a b limits[0] limits[1] hi ⟨a, ha', b, hb', hax, by rw [if_neg (by omega)]; exact hxb⟩ ha' hb' (by rw [hget 0 (by omega), e0])
      (by rw [hget 1 (by omega), e1]), if_neg (by omega), if_neg (by omega), if_neg (by omega), if_neg (by omega)]

/-- The change is visible in the API: the bin limits that a fitted ALE stores end 1e-8 beyond the limits that the binning method returned. -/
theorem C55_ale_stores_changed_limits (cast : K → K) (model : List (Row K D) → List K) (data : List (Row K D)) (lo hi : Fin D → K) (s : Fin D) (bm : BinMethod K)
    (p : AleParams K) (h : aleFitFeature cast model data lo hi s bm = .ok p) :
    ∃ L init last, findLimits (aleCtx data lo hi s) (aleMethod bm) = .ok (.arr L) ∧ L = init ++ [last] ∧ p.limits = init ++ [last + (1 / 10 ^ 8)] := by
  simp only [EPS_lit] at *
  obtain ⟨-, L, eff, L', hL, hc, hp⟩ := aleFitFeature_ok h
  obtain ⟨init, last, h1, h2, -⟩ := C55_false_argument_changed _ _ _ _ _ _ _ hc
  refine ⟨L, init, last, hL, h1, ?_⟩
  rw [← EPS_lit, ← h2]
  unfold computeAleParams at hp
  simp only [bind, Except.bind, pure, Except.pure] at hp
  rcases e1 : computeBinEffect (aleCtx data lo hi s).xs eff L' with e | ⟨be, ppb⟩
  · rw [e1] at hp; cases hp
  rw [e1] at hp
  simp only at hp
  rcases e2 : computeBinVariance (aleCtx data lo hi s).xs eff L' be with e | ⟨bv, bev⟩
  · rw [e2] at hp; cases hp
  rw [e2] at hp
  simp only at hp
  rcases e3 : fillNans be with e | be'
  · rw [e3] at hp; cases hp
  rw [e3] at hp
  simp only at hp
  rcases e4 : fillNans bv with e | bv'
  · rw [e4] at hp; cases hp
  rw [e4] at hp
  simp only at hp
  rcases e5 : fillNans bev with e | bev'
  · rw [e5] at hp; cases hp
  rw [e5] at hp
  cases hp
  rfl

end

/-- Two instances, one bin, the model `x²`. -/
theorem local_twice : (match computeLocalEffects id [![(0 : ℚ)], ![1]] (List.map fun r => r 0 ^ 2) [0, 1] (0 : Fin 1) with
    | .ok (e, l) => match computeLocalEffects id [![(0 : ℚ)], ![1]] (List.map fun r => r 0 ^ 2) l (0 : Fin 1) with
      | .ok (e2, _) => some (e, e2)
      | .error _ => none
    | .error _ => none) = some ([100000001 / 100000000, 100000001 / 100000000], [100000002 / 100000000, 100000002 / 100000000]) := by
  decide +kernel

/-- **C55 is false, in the results too**: a second call with the same array gives other effects. -/
theorem C55_false_second_call : ¬ ∀ (data : List (Row ℚ 1)) (f : Row ℚ 1 → ℚ) (limits eff lim eff2 lim2 : List ℚ),
    computeLocalEffects id data (List.map f) limits 0 = .ok (eff, lim) → computeLocalEffects id data (List.map f) lim 0 = .ok (eff2, lim2) → eff2 = eff := by
  intro hall
  have h := local_twice
  rcases h1 : computeLocalEffects id [![(0 : ℚ)], ![1]] (List.map fun r => r 0 ^ 2) [0, 1] (0 : Fin 1) with e | ⟨e, l⟩
  · rw [h1] at h; cases h
  rw [h1] at h
  simp only at h
  rcases h2 : computeLocalEffects id [![(0 : ℚ)], ![1]] (List.map fun r => r 0 ^ 2) l (0 : Fin 1) with e' | ⟨e2, l2⟩
  · rw [h2] at h; cases h
  rw [h2] at h
  simp only [Option.some.injEq, Prod.mk.injEq] at h
  have := hall _ _ _ _ _ _ _ h1 h2
  rw [h.1, h.2] at this
  norm_num at this

theorem ok_fst {r : Py (List ℚ × List ℚ)} {e : List ℚ} (h : (match r with
    | .ok (e, _) => some e
    | .error _ => none) = some e) : ∃ lim, r = .ok (e, lim) := by
  rcases r with er | ⟨e', l⟩
  · cases h
  · simp only [Option.some.injEq] at h
    exact ⟨l, by rw [h]⟩

/-- **C63 fails for uneven bins**: the instance in the bin `[1, 3]` of `[0, 1, 3, 4]` gets the effect 2 for the model `x`. -/
theorem C63_false_uneven_bins : ∃ lim, computeLocalEffects id [![(1 / 2 : ℚ)], ![2]] (List.map fun r => r 0) [0, 1, 3, 4] (0 : Fin 1) = .ok ([1, 2], lim) :=
  ok_fst (by decide +kernel)

/-- The hypotheses of C63 and C55 hold for this data set. -/
theorem C63_hypotheses_met : Increasing [(0 : ℚ), 1, 2, 3] ∧ Within [(0 : ℚ), 1, 2, 3] (col [![(1 / 2 : ℚ)], ![3 / 2]] (0 : Fin 1)) ∧
    InBin [(0 : ℚ), 1, 2, 3] 1 (3 / 2) ∧ ∃ lim, computeLocalEffects id [![(1 / 2 : ℚ)], ![3 / 2]] (List.map fun r => r 0 ^ 2) [0, 1, 2, 3] (0 : Fin 1) = .ok ([1, 3], lim) := by
  refine ⟨by unfold Increasing; decide +kernel, ⟨0, 3, rfl, rfl, ?_⟩, by decide +kernel, ok_fst (by decide +kernel)⟩
  intro x hx
  simp [col] at hx
  rcases hx with rfl | rfl <;> norm_num

end Effector
