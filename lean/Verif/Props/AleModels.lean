import Verif.Props.AleEffects

/-!
# C07, C10: ALE of additive models; linearity in the model
-/

namespace Effector

set_option linter.unusedSectionVars false

open Spec

variable {K : Type} [Field K] [LinearOrder K] [IsStrictOrderedRing K] {D : ℕ}

/-! ### C07 -/

theorem binEffects_rows {limits : List K} (rows : List (Row K D)) (s : Fin D) (F : Row K D → K) (k : ℕ) :
    binEffects limits (col rows s) (rows.map F) k = (rows.filter fun r => InBin limits k (r s)).map F := by
  unfold binEffects col
  rw [List.zip_map', List.filter_map, List.map_map]
  rfl

/-- The bin effects of ALE for an additive model. -/
theorem ale_additive_binEffect {s : Fin D} {g : K → K} {h : Row K D → K} (hh : ∀ r v, h (Function.update r s v) = h r)
    {data : List (Row K D)} {lo hi : Fin D → K} {bm : BinMethod K} {p : AleParams K} (hlt : lo s < hi s)
    (hn : ∀ m cl, bm ≠ .fixed 0 m cl)
    (hfit : aleFitFeature id (List.map fun r => g (r s) + h r) data lo hi s bm = .ok p) :
    GoodParams p ∧ ∃ l0 l1, p.limits[0]? = some l0 ∧ p.limits[1]? = some l1 ∧ l0 < l1 ∧
      ∀ (k : ℕ) (a b : K), p.limits[k]? = some a → p.limits[k + 1]? = some b →
        (∃ r ∈ data, lo s ≤ r s ∧ r s ≤ hi s ∧ InBin p.limits k (r s)) → p.binEffect[k]? = some ((g b - g a) / (l1 - l0)) := by
  obtain ⟨L, l0, l1, hL, hinc, htwo, hwith, h0, h1, h01, hp, hg, hlim⟩ :=
    ale_fit_cases hlt (ale_safe (aleFitFeature_ok hfit).1 hn) hfit
  refine ⟨hg, l0, l1, by rw [hlim]; exact h0, by rw [hlim]; exact h1, h01, ?_⟩
  intro k a b ha hb hex
  obtain ⟨-, -, -, -, hbe⟩ := computeAleParams_good (increasing_bumpLast (EPS_pos (K := K)).le hinc)
    (by rw [length_bumpLast]; exact htwo) (within_bump htwo hwith) (by simp [aleCtx, col]) hp
  have hk : k < (bumpLast EPS L).length - 1 := by
    rw [hlim] at hb
    have := (List.getElem?_eq_some_iff.mp hb).1
    omega
  have hxs : (aleCtx data lo hi s).xs = col (data.filter (inAxis (lo s) (hi s) s)) s := rfl
  rw [hxs] at hbe hwith
  simp only [binEffects_rows] at hbe
  rw [hlim] at ha hb hex
  rw [hbe k hk]
  · rw [avg_const (c := (g b - g a) / (l1 - l0))]
    · intro y hy
      obtain ⟨r, hr, rfl⟩ := List.mem_map.mp hy
      obtain ⟨hr1, hr2⟩ := List.mem_filter.mp hr
      obtain ⟨lo', hi', hlo', hhi', hmem⟩ := hwith
      have hx := hmem (r s) (List.mem_map.mpr ⟨r, hr1, rfl⟩)
      have hidx := (inBin_iff hinc htwo hlo' hhi' hx.1 hx.2 k).mp ((inBin_bump hhi' hx.2 k).mp (by simpa using hr2))
      rw [hidx, Nat.add_sub_cancel, List.getD_eq_getElem?_getD, List.getD_eq_getElem?_getD, ha, hb]
      simp only [Option.getD_some, id_eq, Function.update_self, hh]
      congr 1
      ring
    · obtain ⟨r, hr, hr1, hr2, hr3⟩ := hex
      apply List.ne_nil_of_mem (a := _)
      exact List.mem_map.mpr ⟨r, List.mem_filter.mpr ⟨List.mem_filter.mpr ⟨hr, by simp [inAxis, hr1, hr2]⟩, by simpa using hr3⟩, rfl⟩
  · obtain ⟨r, hr, hr1, hr2, hr3⟩ := hex
    apply List.ne_nil_of_mem (a := _)
    exact List.mem_map.mpr ⟨r, List.mem_filter.mpr ⟨List.mem_filter.mpr ⟨hr, by simp [inAxis, hr1, hr2]⟩, by simpa using hr3⟩, rfl⟩

/-- **C07, what ALE computes for any limits.**  For an additive model and non-empty bins, the uncentred ALE curve `E` starts at 0 at
the first limit and grows linearly over bin `k` by the true increment of `g`, multiplied by the ratio of the width of bin `k` to the width of
the *first* bin. -/
theorem C07_any_limits (g : K → K) (h : Row K D → K) (data : List (Row K D)) (lo hi : Fin D → K) (s : Fin D) (bm : BinMethod K)
    (p : AleParams K) (hlt : lo s < hi s) (hn : ∀ m cl, bm ≠ .fixed 0 m cl) (hh : ∀ r v, h (Function.update r s v) = h r)
    (hfit : aleFitFeature id (List.map fun r => g (r s) + h r) data lo hi s bm = .ok p)
    (hne : ∀ k, k + 1 < p.limits.length → ∃ r ∈ data, lo s ≤ r s ∧ r s ≤ hi s ∧ InBin p.limits k (r s)) :
    ∃ E : K → K, (∀ xs, (∀ x ∈ xs, x ≤ 10 ^ 8 ∨ ∃ l ∈ p.limits, x < l) → evalUnnorm p xs = .ok (xs.map E)) ∧
      ∃ l0 l1, p.limits[0]? = some l0 ∧ p.limits[1]? = some l1 ∧ l0 < l1 ∧ E l0 = 0 ∧
      ∀ (k : ℕ) (a b : K), p.limits[k]? = some a → p.limits[k + 1]? = some b → ∀ x, a ≤ x → x ≤ b →
        E x - E a = (g b - g a) / (b - a) * (x - a) * ((b - a) / (l1 - l0)) := by
  obtain ⟨hg, l0, l1, h0, h1, h01, hbe⟩ := ale_additive_binEffect hh hlt hn hfit
  refine ⟨stepIntegral p.limits p.binEffect, fun xs hxs => hg.acc_below _ xs hg.be hxs, l0, l1, h0, h1, h01,
    C01_spec_zero_left _ _ hg.inc l0 l0 h0 le_rfl, ?_⟩
  intro k a b ha hb x hax hxb
  have hab := increasing_getElem?_lt hg.inc ha hb (by omega)
  have hk := (List.getElem?_eq_some_iff.mp hb).1
  rw [C01_spec_linear_inside p.limits p.binEffect hg.inc k a b _ a x ha hb (hbe k a b ha hb (hne k hk)) le_rfl hab.le hax hxb]
  have : b - a ≠ 0 := (sub_pos.mpr hab).ne'
  have : l1 - l0 ≠ 0 := (sub_pos.mpr h01).ne'
  field_simp

/-- Fixed binning of a non-categorical feature: the limits ALE stores. -/
theorem ale_fixed_limits {model : List (Row K D) → List K} {cast : K → K} {data : List (Row K D)} {lo hi : Fin D → K} {s : Fin D}
    {n : ℕ} {mo : Option ℕ} {cl : ℕ} {p : AleParams K}
    (hcat : cl < distinct (col (data.filter (inAxis (lo s) (hi s) s)) s))
    (h : aleFitFeature cast model data lo hi s (.fixed n mo cl) = .ok p) :
    p.limits = bumpLast EPS (linspace (lo s) (hi s) (n + 1)) := by
  obtain ⟨-, L, eff, L', hL, hc, hp⟩ := aleFitFeature_ok h
  have hL' : L' = bumpLast EPS L := by
    unfold computeLocalEffects at hc
    simp only [bind, Except.bind, pure, Except.pure] at hc
    repeat' split at hc
    all_goals first | (cases hc; rfl) | cases hc
  have hpl : p.limits = L' := by
    unfold computeAleParams at hp
    simp only [bind, Except.bind, pure, Except.pure] at hp
    repeat' split at hp
    all_goals first | (cases hp; rfl) | cases hp
  have hLL : L = linspace (lo s) (hi s) (n + 1) := by
    simp only [aleMethod, findLimits] at hL
    unfold fixedFind at hL
    rw [show (aleCtx data lo hi s).xs = col (data.filter (inAxis (lo s) (hi s) s)) s from rfl, isCategorical_not _ _ _ hcat] at hL
    cases mo with
    | none => simp [noneValidBinning, bind, Except.bind] at hL
    | some m =>
      rw [noneValid_eq] at hL
      simp only [bind, Except.bind, pure, Except.pure] at hL
      split_ifs at hL
      · cases hL; rfl
      · cases hL
  rw [hpl, hL', hLL]

/-- The instances of bin `k` of the equal-width binning of `[lo, hi]` into `n` bins. -/
def Spec.FixedBinNonempty (xs : List K) (lo hi : K) (n k : ℕ) : Prop :=
  ∃ x ∈ xs, gridPoint lo hi n k ≤ x ∧ (if k + 1 = n then x ≤ hi else x < gridPoint lo hi n (k + 1))

theorem getElem?_fixed (lo hi : K) (n k : ℕ) (hk : k ≤ n) :
    (bumpLast EPS (linspace lo hi (n + 1)))[k]? = some (gridPoint lo hi n k + if k = n then EPS else 0) := by
  rw [getElem?_bumpLast, getElem?_linspace lo hi n k (by omega), length_linspace, Option.map_some]
  unfold gridPoint
  by_cases h : k = n
  · simp [h]
  · rw [if_neg (by omega), if_neg h, add_zero]

theorem inBin_fixed {lo hi : K} {n k : ℕ} (hn : 1 ≤ n) (hk : k < n) {x : K} (h1 : gridPoint lo hi n k ≤ x)
    (h2 : if k + 1 = n then x ≤ hi else x < gridPoint lo hi n (k + 1)) :
    InBin (bumpLast EPS (linspace lo hi (n + 1))) k x := by
  have hE := EPS_pos (K := K)
  refine ⟨_, getElem?_fixed lo hi n k hk.le, _, getElem?_fixed lo hi n (k + 1) hk, ?_, ?_⟩
  · rw [if_neg (by omega), add_zero]; exact h1
  · rw [length_bumpLast, length_linspace]
    by_cases h : k + 1 = n
    · rw [if_pos h] at h2
      rw [if_pos (by omega), if_pos h, h, gridPoint_last lo hi n hn]
      linarith
    · rw [if_neg h] at h2
      rw [if_neg (by omega), if_neg h, add_zero]
      exact h2

theorem gridPoint_succ (lo hi : K) (n k : ℕ) : gridPoint lo hi n (k + 1) - gridPoint lo hi n k = (hi - lo) / (n : K) := by
  unfold gridPoint
  push_cast
  ring

/-- What `C07_any_limits` gives for `Fixed` binning. -/
theorem ale_fixed_additive {g : K → K} {h : Row K D → K} {data : List (Row K D)} {lo hi : Fin D → K} {s : Fin D} {n : ℕ}
    {mo : Option ℕ} {cl : ℕ} {p : AleParams K} (hlt : lo s < hi s) (hn : 1 ≤ n) (hh : ∀ r v, h (Function.update r s v) = h r)
    (hcat : cl < distinct (col (data.filter (inAxis (lo s) (hi s) s)) s))
    (hne : ∀ k, k < n → FixedBinNonempty (col data s) (lo s) (hi s) n k)
    (hfit : aleFitFeature id (List.map fun r => g (r s) + h r) data lo hi s (.fixed n mo cl) = .ok p) :
    p.limits = bumpLast EPS (linspace (lo s) (hi s) (n + 1)) ∧
    ∃ E : K → K, (∀ xs, (∀ x ∈ xs, x ≤ 10 ^ 8 ∨ x ≤ hi s) → evalUnnorm p xs = .ok (xs.map E)) ∧ E (lo s) = 0 ∧
      (∀ k, k + 1 < n → ∀ x, gridPoint (lo s) (hi s) n k ≤ x → x ≤ gridPoint (lo s) (hi s) n (k + 1) →
        E x - E (gridPoint (lo s) (hi s) n k) = (g (gridPoint (lo s) (hi s) n (k + 1)) - g (gridPoint (lo s) (hi s) n k)) /
          ((hi s - lo s) / (n : K)) * (x - gridPoint (lo s) (hi s) n k)) ∧
      ∀ k, k + 1 = n → ∀ x, gridPoint (lo s) (hi s) n k ≤ x → x ≤ hi s + EPS →
        E x - E (gridPoint (lo s) (hi s) n k) = (g (hi s + EPS) - g (gridPoint (lo s) (hi s) n k)) /
          ((hi s - lo s) / (n : K) + if n = 1 then EPS else 0) * (x - gridPoint (lo s) (hi s) n k) := by
  have hE := EPS_pos (K := K)
  have hlim := ale_fixed_limits hcat hfit
  refine ⟨hlim, ?_⟩
  have hlen : p.limits.length = n + 1 := by rw [hlim, length_bumpLast, length_linspace]
  have hw : 0 < (hi s - lo s) / (n : K) := div_pos (by linarith) (by exact_mod_cast hn)
  obtain ⟨E, hev, l0, l1, h0, h1, h01, hE0, hstep⟩ := C07_any_limits g h data lo hi s (.fixed n mo cl) p hlt
    (by intro m c hc; cases hc; omega) hh hfit (by
      intro k hk
      obtain ⟨x, hx, hx1, hx2⟩ := hne k (by omega)
      obtain ⟨r, hr, rfl⟩ := List.mem_map.mp hx
      refine ⟨r, hr, ?_, ?_, by rw [hlim]; exact inBin_fixed hn (by omega) hx1 hx2⟩
      · refine le_trans ?_ hx1
        unfold gridPoint
        have : (0 : K) ≤ (k : K) := Nat.cast_nonneg k
        nlinarith
      · split_ifs at hx2 with hc
        · exact hx2
        · refine hx2.le.trans (le_of_le_of_eq ?_ (gridPoint_last (lo s) (hi s) n hn))
          rcases Nat.lt_or_ge (k + 1) n with h' | h'
          · exact (gridPoint_lt hlt hn h').le
          · exact absurd h' (by omega))
  rw [hlim, getElem?_fixed _ _ _ _ (by omega)] at h0 h1
  have hl0 : l0 = lo s := by
    rw [if_neg (by omega), add_zero, gridPoint_zero] at h0
    exact (Option.some.inj h0).symm
  have hl1 : l1 - l0 = (hi s - lo s) / (n : K) + if n = 1 then EPS else 0 := by
    rw [← Option.some.inj h1, hl0]
    have := gridPoint_succ (lo s) (hi s) n 0
    rw [gridPoint_zero, zero_add] at this
    rw [← this]
    by_cases hc : n = 1
    · rw [if_pos hc, if_pos hc.symm]; ring
    · rw [if_neg hc, if_neg (Ne.symm hc)]; ring
  refine ⟨E, fun xs hxs => hev xs fun x hx => ?_, by rw [← hl0]; exact hE0, ?_, ?_⟩
  · rcases hxs x hx with h' | h'
    · exact Or.inl h'
    · refine Or.inr ⟨hi s + EPS, ?_, by linarith⟩
      rw [hlim]
      apply List.mem_of_getElem? (i := n)
      rw [getElem?_fixed _ _ _ _ le_rfl, if_pos rfl, gridPoint_last _ _ _ hn]
  · intro k hk x hx1 hx2
    have h3 := hstep k _ _ (by rw [hlim]; exact getElem?_fixed _ _ _ _ (by omega))
      (by rw [hlim]; exact getElem?_fixed _ _ _ _ (by omega)) x (by rw [if_neg (by omega), add_zero]; exact hx1)
      (by rw [if_neg (by omega), add_zero]; exact hx2)
    rw [if_neg (show ¬ k = n by omega), if_neg (show ¬ k + 1 = n by omega), add_zero, add_zero, hl1, if_neg (by omega), add_zero,
      gridPoint_succ, div_self hw.ne', mul_one] at h3
    exact h3
  · intro k hk x hx1 hx2
    have h3 := hstep k _ _ (by rw [hlim]; exact getElem?_fixed _ _ _ _ (by omega))
      (by rw [hlim]; exact getElem?_fixed _ _ _ _ (by omega)) x (by rw [if_neg (by omega), add_zero]; exact hx1)
      (by rw [if_pos hk, hk, gridPoint_last _ _ _ hn]; exact hx2)
    rw [if_neg (show ¬ k = n by omega), if_pos hk, add_zero, hk, gridPoint_last _ _ _ hn, hl1] at h3
    rw [h3]
    have h4 : hi s + EPS - gridPoint (lo s) (hi s) n k ≠ 0 := by
      have := gridPoint_lt (i := k) (j := n) hlt hn (by omega)
      rw [gridPoint_last _ _ _ hn] at this
      have : 0 < hi s + EPS - gridPoint (lo s) (hi s) n k := by linarith
      exact this.ne'
    have h5 : (hi s - lo s) / (n : K) + (if n = 1 then (EPS : K) else 0) ≠ 0 := by
      have : 0 ≤ (if n = 1 then (EPS : K) else 0) := by split_ifs <;> linarith
      exact (by linarith : 0 < (hi s - lo s) / (n : K) + (if n = 1 then (EPS : K) else 0)).ne'
    field_simp

/-- **C07, equal-width bins.**  For `f(x) = g(x_s) + h(other features)`, a feature that is not treated as categorical, `Fixed` binning with
`n` bins none of which is empty: the uncentred ALE at every inner bin limit (and the first) is exactly `g(limit) - g(first limit)`. -/
theorem C07_additive_at_limits_partial (g : K → K) (h : Row K D → K) (data : List (Row K D)) (lo hi : Fin D → K) (s : Fin D) (n : ℕ)
    (mo : Option ℕ) (cl : ℕ) (p : AleParams K) (hlt : lo s < hi s) (hn : 1 ≤ n) (hh : ∀ r v, h (Function.update r s v) = h r)
    (hcat : cl < distinct (col (data.filter (inAxis (lo s) (hi s) s)) s))
    (hne : ∀ k, k < n → FixedBinNonempty (col data s) (lo s) (hi s) n k)
    (hfit : aleFitFeature id (List.map fun r => g (r s) + h r) data lo hi s (.fixed n mo cl) = .ok p)
    (ks : List ℕ) (hks : ∀ k ∈ ks, k < n) :
    evalUnnorm p (ks.map (gridPoint (lo s) (hi s) n)) = .ok (ks.map fun k => g (gridPoint (lo s) (hi s) n k) - g (lo s)) := by
  obtain ⟨-, E, hev, hE0, hstep, -⟩ := ale_fixed_additive hlt hn hh hcat hne hfit
  have hw : 0 < (hi s - lo s) / (n : K) := div_pos (by linarith) (by exact_mod_cast hn)
  have key : ∀ k, k < n → E (gridPoint (lo s) (hi s) n k) = g (gridPoint (lo s) (hi s) n k) - g (lo s) := by
    intro k
    induction k with
    | zero => intro _; rw [gridPoint_zero, hE0, sub_self]
    | succ k ih =>
      intro hk
      have h3 := hstep k hk (gridPoint (lo s) (hi s) n (k + 1)) (gridPoint_lt hlt hn (by omega)).le le_rfl
      rw [ih (by omega), gridPoint_succ, div_mul_cancel₀ _ hw.ne'] at h3
      linear_combination h3
  rw [hev]
  · rw [List.map_map]
    congr 1
    exact List.map_congr_left fun k hk => key k (hks k hk)
  · intro x hx
    obtain ⟨k, hk, rfl⟩ := List.mem_map.mp hx
    refine Or.inr (le_of_le_of_eq ?_ (gridPoint_last (lo s) (hi s) n hn))
    exact (gridPoint_lt hlt hn (hks k hk)).le

/-- **C07, linear main effect.**  If `g(x) = α x + β`, the uncentred ALE at every `x` between the axis limits differs from `α (x - lo)` by
at most `|α| * 1e-8` (the widening of the last bin), and not at all up to the last but one limit. -/
theorem C07_linear_main_effect (α β : K) (h : Row K D → K) (data : List (Row K D)) (lo hi : Fin D → K) (s : Fin D) (n : ℕ)
    (mo : Option ℕ) (cl : ℕ) (p : AleParams K) (hlt : lo s < hi s) (hn : 1 ≤ n) (hh : ∀ r v, h (Function.update r s v) = h r)
    (hcat : cl < distinct (col (data.filter (inAxis (lo s) (hi s) s)) s))
    (hne : ∀ k, k < n → FixedBinNonempty (col data s) (lo s) (hi s) n k)
    (hfit : aleFitFeature id (List.map fun r => (α * r s + β) + h r) data lo hi s (.fixed n mo cl) = .ok p) :
    ∃ E : K → K, (∀ xs, (∀ x ∈ xs, lo s ≤ x ∧ x ≤ hi s) → evalUnnorm p xs = .ok (xs.map E)) ∧
      (∀ x, lo s ≤ x → x ≤ gridPoint (lo s) (hi s) n (n - 1) → E x = α * (x - lo s)) ∧
      ∀ x, lo s ≤ x → x ≤ hi s → |E x - α * (x - lo s)| ≤ |α| * (1 / 10 ^ 8) := by
  obtain ⟨-, E, hev, hE0, hstep, hlast⟩ := ale_fixed_additive (g := fun x => α * x + β) hlt hn hh hcat hne hfit
  have hw : 0 < (hi s - lo s) / (n : K) := div_pos (by linarith) (by exact_mod_cast hn)
  have hEps := EPS_pos (K := K)
  have hstep' : ∀ k, k + 1 < n → ∀ x, gridPoint (lo s) (hi s) n k ≤ x → x ≤ gridPoint (lo s) (hi s) n (k + 1) →
      E x - E (gridPoint (lo s) (hi s) n k) = α * (x - gridPoint (lo s) (hi s) n k) := by
    intro k hk x hx1 hx2
    rw [hstep k hk x hx1 hx2, show α * gridPoint (lo s) (hi s) n (k + 1) + β - (α * gridPoint (lo s) (hi s) n k + β) =
      α * (gridPoint (lo s) (hi s) n (k + 1) - gridPoint (lo s) (hi s) n k) by ring, gridPoint_succ, mul_div_cancel_right₀ _ hw.ne']
  have key : ∀ k, k < n → E (gridPoint (lo s) (hi s) n k) = α * (gridPoint (lo s) (hi s) n k - lo s) := by
    intro k
    induction k with
    | zero => intro _; rw [gridPoint_zero, hE0, sub_self, mul_zero]
    | succ k ih =>
      intro hk
      have h3 := hstep' k hk (gridPoint (lo s) (hi s) n (k + 1)) (gridPoint_lt hlt hn (by omega)).le le_rfl
      rw [ih (by omega)] at h3
      linear_combination h3
  have hfront : ∀ j, j < n → ∀ x, lo s ≤ x → x ≤ gridPoint (lo s) (hi s) n j → E x = α * (x - lo s) := by
    intro j
    induction j with
    | zero =>
      intro _ x h1 h2
      rw [gridPoint_zero] at h2
      rw [le_antisymm h2 h1, hE0, sub_self, mul_zero]
    | succ j ih =>
      intro hj x h1 h2
      rcases le_total x (gridPoint (lo s) (hi s) n j) with h3 | h3
      · exact ih (by omega) x h1 h3
      · have := hstep' j hj x h3 h2
        rw [key j (by omega)] at this
        linear_combination this
  refine ⟨E, fun xs hxs => hev xs fun x hx => Or.inr (hxs x hx).2, hfront (n - 1) (by omega), ?_⟩
  intro x h1 h2
  have hnn : 0 ≤ |α| * (1 / 10 ^ 8) := by positivity
  rcases le_total x (gridPoint (lo s) (hi s) n (n - 1)) with h3 | h3
  · rw [hfront (n - 1) (by omega) x h1 h3, sub_self, abs_zero]
    exact hnn
  · have h4 := hlast (n - 1) (by omega) x h3 (by linarith)
    rw [key (n - 1) (by omega)] at h4
    have h5 := gridPoint_succ (lo s) (hi s) n (n - 1)
    rw [Nat.sub_add_cancel hn, gridPoint_last _ _ _ hn] at h5
    by_cases hc : n = 1
    · rw [if_pos hc, show (α * (hi s + EPS) + β - (α * gridPoint (lo s) (hi s) n (n - 1) + β)) =
        α * ((hi s - lo s) / (n : K) + EPS) by rw [← h5]; ring, mul_div_cancel_right₀ _ (by positivity)] at h4
      rw [show E x - α * (x - lo s) = 0 by linear_combination h4, abs_zero]
      exact hnn
    · rw [if_neg hc, add_zero, show (α * (hi s + EPS) + β - (α * gridPoint (lo s) (hi s) n (n - 1) + β)) =
        α * ((hi s - lo s) / (n : K) + EPS) by rw [← h5]; ring] at h4
      have h6 : E x - α * (x - lo s) = α * (EPS * ((x - gridPoint (lo s) (hi s) n (n - 1)) / ((hi s - lo s) / (n : K)))) := by
        have h7 : α * ((hi s - lo s) / (n : K) + EPS) / ((hi s - lo s) / (n : K)) * (x - gridPoint (lo s) (hi s) n (n - 1)) =
            α * (x - gridPoint (lo s) (hi s) n (n - 1)) +
            α * (EPS * ((x - gridPoint (lo s) (hi s) n (n - 1)) / ((hi s - lo s) / (n : K)))) := by
          generalize (hi s - lo s) / (n : K) = w at *
          have := hw.ne'
          field_simp
        rw [h7] at h4
        linear_combination h4
      rw [h6, abs_mul]
      refine mul_le_mul_of_nonneg_left ?_ (abs_nonneg α)
      have h8 : 0 ≤ (x - gridPoint (lo s) (hi s) n (n - 1)) / ((hi s - lo s) / (n : K)) := div_nonneg (by linarith) hw.le
      have h9 : (x - gridPoint (lo s) (hi s) n (n - 1)) / ((hi s - lo s) / (n : K)) ≤ 1 := by
        rw [div_le_one hw]
        linarith
      rw [abs_of_nonneg (mul_nonneg hEps.le h8)]
      calc EPS * _ ≤ EPS * 1 := mul_le_mul_of_nonneg_left h9 hEps.le
        _ = 1 / 10 ^ 8 := by rw [mul_one]; rfl

/-- **C07 is false for categorical features with unevenly spaced values**: values 0, 1, 3, model `f(x) = x`; the ALE at the limit 2 is
`13/4`, while `g(2) - g(-1/2) = 5/2`. -/
theorem C07_false_uneven_categories :
    ∃ p : AleParams ℚ, aleFitFeature id (List.map fun r : Row ℚ 1 => r 0) (rows1 [0, 0, 1, 1, 3, 3]) (fun _ => 0) (fun _ => 3) 0
        (.fixed 20 (some 0) 15) = .ok p ∧ p.limits[0]? = some (-1 / 2 : ℚ) ∧ p.limits[2]? = some (2 : ℚ) ∧
      (∀ k, k + 1 < p.limits.length → ∃ r ∈ rows1 [0, 0, 1, 1, 3, 3], InBin p.limits k (r 0)) ∧
      evalUnnorm p [2] = .ok [13 / 4] := by
  refine ⟨{ limits := [-1 / 2, 1 / 2, 2, 4 + 1 / 10 ^ 8], dx := [1, 3 / 2, 2 + 1 / 10 ^ 8], pointsPerBin := [2, 2, 2],
            binEffect := [1, 3 / 2, 2 + 1 / 10 ^ 8], binVariance := [0, 0, 0], binEstimatorVariance := [0, 0, 0] },
    by decide +kernel, by decide +kernel, by decide +kernel, ?_, by decide +kernel⟩
  intro k hk
  simp only [List.length_cons, List.length_nil] at hk
  have : k = 0 ∨ k = 1 ∨ k = 2 := by omega
  rcases this with rfl | rfl | rfl
  · exact ⟨fun _ => 0, by simp [rows1], by decide +kernel⟩
  · exact ⟨fun _ => 1, by simp [rows1], by decide +kernel⟩
  · exact ⟨fun _ => 3, by simp [rows1], by decide +kernel⟩

/-! ### C10 -/

theorem interp_lin (T : List (K × K × K)) (a b x : K) :
    interp (T.map fun t => (t.1, a * t.2.1 + b * t.2.2)) x =
      a * interp (T.map fun t => (t.1, t.2.1)) x + b * interp (T.map fun t => (t.1, t.2.2)) x := by
  induction T with
  | nil => simp [interp]
  | cons t T ih =>
    cases T with
    | nil => simp [interp]
    | cons t' T =>
      simp only [List.map_cons, interp] at ih ⊢
      split_ifs
      · rfl
      · ring
      · exact ih

theorem knownFrom_lin (L : List (Option (K × K))) (a b : K) (i : ℕ) : ∃ T : List (K × K × K),
    knownFrom i (L.map (Option.map fun t => t.1)) = T.map (fun t => (t.1, t.2.1)) ∧
    knownFrom i (L.map (Option.map fun t => t.2)) = T.map (fun t => (t.1, t.2.2)) ∧
    knownFrom i (L.map (Option.map fun t => a * t.1 + b * t.2)) = T.map (fun t => (t.1, a * t.2.1 + b * t.2.2)) := by
  induction L generalizing i with
  | nil => exact ⟨[], rfl, rfl, rfl⟩
  | cons o L ih =>
    obtain ⟨T, h1, h2, h3⟩ := ih (i + 1)
    cases o with
    | none => exact ⟨T, by simp [knownFrom, h1], by simp [knownFrom, h2], by simp [knownFrom, h3]⟩
    | some t => exact ⟨((i : K), t) :: T, by simp [knownFrom, h1], by simp [knownFrom, h2], by simp [knownFrom, h3]⟩

theorem fillFrom_lin (kn kn1 kn2 : List (K × K)) (a b : K) (h : ∀ x, interp kn x = a * interp kn1 x + b * interp kn2 x)
    (L : List (Option (K × K))) (i : ℕ) :
    fillFrom kn i (L.map (Option.map fun t => a * t.1 + b * t.2)) =
      List.zipWith (fun x y => a * x + b * y) (fillFrom kn1 i (L.map (Option.map fun t => t.1)))
        (fillFrom kn2 i (L.map (Option.map fun t => t.2))) := by
  induction L generalizing i with
  | nil => rfl
  | cons o L ih => cases o <;> simp [fillFrom, h, ih]

/-- The bin effects of `compute_ale_params`, with the interpolation written out. -/
theorem computeAleParams_binEffect {limits xs eff : List K} {p : AleParams K} (hinc : Increasing limits)
    (htwo : 2 ≤ limits.length) (hin : Within limits xs) (hlen : eff.length = xs.length)
    (h : computeAleParams xs eff limits = .ok p) :
    p.binEffect = fillFrom (knownFrom 0 ((List.range (limits.length - 1)).map (fun k =>
          if binEffects limits xs eff k = [] then none else some (avg (binEffects limits xs eff k))))) 0
        ((List.range (limits.length - 1)).map (fun k =>
          if binEffects limits xs eff k = [] then none else some (avg (binEffects limits xs eff k)))) := by
  have hset : BinSetting limits xs eff := ⟨hinc, htwo, hin, hlen⟩
  unfold computeAleParams at h
  rw [computeBinEffect_eq hset] at h
  simp only [bind, Except.bind] at h
  split at h
  · cases h
  · split at h
    · cases h
    · rename_i be' hbe'
      split at h
      · cases h
      · split at h
        · cases h
        · cases h
          rw [fillNans_eq] at hbe'
          split_ifs at hbe'
          cases hbe'
          rfl

theorem avg_lin {α : Type} (l : List α) (F G : α → K) (a b : K) :
    avg (l.map fun r => a * F r + b * G r) = a * avg (l.map F) + b * avg (l.map G) := by
  have : (l.map fun r => a * F r + b * G r).sum = a * (l.map F).sum + b * (l.map G).sum := by
    induction l with
    | nil => simp
    | cons x t ih => simp only [List.map_cons, List.sum_cons, ih]; ring
  unfold avg
  simp only [List.length_map, this]
  ring

theorem stepIntegral_lin (limits es fs : List K) (hlen : es.length = fs.length) (a b x : K) :
    stepIntegral limits (List.zipWith (fun u v => a * u + b * v) es fs) x =
      a * stepIntegral limits es x + b * stepIntegral limits fs x := by
  induction limits generalizing es fs with
  | nil => cases es <;> cases fs <;> simp [stepIntegral]
  | cons l0 t ih =>
    cases t with
    | nil => cases es <;> cases fs <;> simp [stepIntegral]
    | cons l1 t =>
      cases es with
      | nil => cases fs <;> simp [stepIntegral] at hlen ⊢
      | cons e es =>
        cases fs with
        | nil => simp at hlen
        | cons g gs =>
          simp only [List.zipWith_cons_cons, stepIntegral]
          rw [ih es gs (by simpa using hlen)]
          ring

/-- **C10.**  If ALE can be fitted (same data, same binning) for the models `f` and `g`, then it can be fitted for `a f + b g`, with the same
limits, bin effects `a * (those of f) + b * (those of g)`, and the uncentred curve is the same combination at every point. -/
theorem C10_linear (cast : K → K) (f g : Row K D → K) (a b : K) (data : List (Row K D)) (lo hi : Fin D → K) (s : Fin D)
    (bm : BinMethod K) (p q : AleParams K) (hlt : lo s < hi s) (hn : ∀ m cl, bm ≠ .fixed 0 m cl)
    (hf : aleFitFeature cast (List.map f) data lo hi s bm = .ok p) (hg : aleFitFeature cast (List.map g) data lo hi s bm = .ok q) :
    ∃ r, aleFitFeature cast (List.map fun x => a * f x + b * g x) data lo hi s bm = .ok r ∧
      r.limits = p.limits ∧ q.limits = p.limits ∧
      r.binEffect = List.zipWith (fun u v => a * u + b * v) p.binEffect q.binEffect ∧
      ∃ E F : K → K, ∀ xs, evalUnnorm p xs = .ok (xs.map E) ∧ evalUnnorm q xs = .ok (xs.map F) ∧
        evalUnnorm r xs = .ok (xs.map fun x => a * E x + b * F x) := by
  have hfix := (aleFitFeature_ok hf).1
  obtain ⟨L, l0, l1, hL, hinc, htwo, hwith, h0, h1, h01, hp, hgp, hpl⟩ := ale_fit_cases hlt (ale_safe hfix hn) hf
  obtain ⟨L', l0', l1', hL', -, -, -, h0', h1', -, hq, hgq, hql⟩ := ale_fit_cases hlt (ale_safe hfix hn) hg
  obtain rfl : L = L' := by rw [hL] at hL'; cases hL'; rfl
  rw [h0] at h0'
  rw [h1] at h1'
  cases h0'
  cases h1'
  have hincb := increasing_bumpLast (EPS_pos (K := K)).le hinc
  have htwob : 2 ≤ (bumpLast EPS L).length := by rw [length_bumpLast]; exact htwo
  have hwithb := within_bump htwo hwith
  have hne : data.filter (inAxis (lo s) (hi s) s) ≠ [] := by
    intro hc
    rw [show (aleCtx data lo hi s).xs = col (data.filter (inAxis (lo s) (hi s) s)) s from rfl, hc] at hp
    have := (C06_ale_params (bumpLast EPS L) [] [] hincb htwob ⟨_, _, (head_getLast_lt hincb htwob).choose_spec.choose_spec.1,
      (head_getLast_lt hincb htwob).choose_spec.choose_spec.2.1, by simp⟩ rfl).1 (by simp)
    simp only [col, List.map_nil] at hp
    rw [this] at hp
    cases hp
  obtain ⟨m0, m1, hm0, hm1, -, hce⟩ := computeLocalEffects_eq (cast := cast) (f := fun x => a * f x + b * g x) hinc htwo hwith hne
  rw [h0] at hm0
  rw [h1] at hm1
  cases hm0
  cases hm1
  have hbin : ∃ k, k < (bumpLast EPS L).length - 1 ∧ 2 ≤ (aleCtx data lo hi s).xs.countP (fun x => InBin (bumpLast EPS L) k x) := by
    by_contra hc
    push Not at hc
    rw [(C06_ale_params (bumpLast EPS L) _ _ hincb htwob hwithb (by simp [aleCtx, col])).1 hc] at hp
    cases hp
  obtain ⟨r, hr, -⟩ := (C06_ale_params (bumpLast EPS L) (aleCtx data lo hi s).xs
    ((data.filter (inAxis (lo s) (hi s) s)).map fun r =>
        ((a * f (Function.update r s (cast ((bumpLast EPS L).getD (binIdx L (r s)) 0))) +
          b * g (Function.update r s (cast ((bumpLast EPS L).getD (binIdx L (r s)) 0)))) -
          (a * f (Function.update r s (cast ((bumpLast EPS L).getD (binIdx L (r s) - 1) 0))) +
            b * g (Function.update r s (cast ((bumpLast EPS L).getD (binIdx L (r s) - 1) 0))))) / (l1 - l0))
    hincb htwob hwithb (by simp [aleCtx, col])).2 hbin
  have hfitr : aleFitFeature cast (List.map fun x => a * f x + b * g x) data lo hi s bm = .ok r := by
    rw [aleFitFeature_eq, if_pos hfix, hL]
    simp only [Except.bind]
    rw [hce]
    exact hr
  have hgr := computeAleParams_good hincb htwob hwithb (by simp [aleCtx, col]) hr
  have hrl := hgr.2.1
  have hbe : r.binEffect = List.zipWith (fun u v => a * u + b * v) p.binEffect q.binEffect := by
    rw [computeAleParams_binEffect hincb htwob hwithb (by simp [aleCtx, col]) hr,
      computeAleParams_binEffect hincb htwob hwithb (by simp [aleCtx, col]) hp,
      computeAleParams_binEffect hincb htwob hwithb (by simp [aleCtx, col]) hq]
    have hxs : (aleCtx data lo hi s).xs = col (data.filter (inAxis (lo s) (hi s) s)) s := rfl
    simp only [hxs, binEffects_rows, List.map_eq_nil_iff]
    generalize hR : data.filter (inAxis (lo s) (hi s) s) = R
    generalize hFu : (fun r : Row K D => (f (Function.update r s (cast ((bumpLast EPS L).getD (binIdx L (r s)) 0))) -
          f (Function.update r s (cast ((bumpLast EPS L).getD (binIdx L (r s) - 1) 0)))) / (l1 - l0)) = F
    generalize hGu : (fun r : Row K D => (g (Function.update r s (cast ((bumpLast EPS L).getD (binIdx L (r s)) 0))) -
          g (Function.update r s (cast ((bumpLast EPS L).getD (binIdx L (r s) - 1) 0)))) / (l1 - l0)) = G
    rw [show (fun r : Row K D => (a * f (Function.update r s (cast ((bumpLast EPS L).getD (binIdx L (r s)) 0))) +
          b * g (Function.update r s (cast ((bumpLast EPS L).getD (binIdx L (r s)) 0))) -
          (a * f (Function.update r s (cast ((bumpLast EPS L).getD (binIdx L (r s) - 1) 0))) +
            b * g (Function.update r s (cast ((bumpLast EPS L).getD (binIdx L (r s) - 1) 0))))) / (l1 - l0)) =
        fun r => a * F r + b * G r by rw [← hFu, ← hGu]; funext r; ring]
    have hL3 : ∀ h : K × K → K, (∀ k, h (avg ((R.filter fun r => InBin (bumpLast EPS L) k (r s)).map F),
          avg ((R.filter fun r => InBin (bumpLast EPS L) k (r s)).map G)) = h (avg ((R.filter fun r => InBin (bumpLast EPS L) k (r s)).map F),
          avg ((R.filter fun r => InBin (bumpLast EPS L) k (r s)).map G))) →
        ((List.range ((bumpLast EPS L).length - 1)).map fun k =>
          if (R.filter fun r => InBin (bumpLast EPS L) k (r s)) = [] then none else
            some (h (avg ((R.filter fun r => InBin (bumpLast EPS L) k (r s)).map F),
              avg ((R.filter fun r => InBin (bumpLast EPS L) k (r s)).map G)))) =
        ((List.range ((bumpLast EPS L).length - 1)).map fun k =>
          if (R.filter fun r => InBin (bumpLast EPS L) k (r s)) = [] then none else
            some (avg ((R.filter fun r => InBin (bumpLast EPS L) k (r s)).map F),
              avg ((R.filter fun r => InBin (bumpLast EPS L) k (r s)).map G))).map (Option.map h) := by
      intro h _
      rw [List.map_map]
      apply List.map_congr_left
      intro k _
      simp only [Function.comp]
      split_ifs <;> rfl
    simp only [avg_lin]
    rw [hL3 (fun t => a * t.1 + b * t.2) (fun _ => rfl), hL3 (fun t => t.1) (fun _ => rfl), hL3 (fun t => t.2) (fun _ => rfl)]
    apply fillFrom_lin
    intro x
    obtain ⟨T, e1, e2, e3⟩ := knownFrom_lin ((List.range ((bumpLast EPS L).length - 1)).map fun k =>
          if (R.filter fun r => InBin (bumpLast EPS L) k (r s)) = [] then none else
            some (avg ((R.filter fun r => InBin (bumpLast EPS L) k (r s)).map F),
              avg ((R.filter fun r => InBin (bumpLast EPS L) k (r s)).map G))) a b 0
    rw [e1, e2, e3]
    exact interp_lin T a b x
  refine ⟨r, hfitr, hrl.trans hpl.symm, hql.trans hpl.symm, hbe, ?_⟩
  obtain ⟨ep, hep, -⟩ := hgp.acc p.binEffect [] hgp.be
  obtain ⟨eq, heq, -⟩ := hgq.acc q.binEffect [] hgq.be
  have her : r.binEffect.getLast? = some (a * ep + b * eq) := by
    have hl1 := hgp.be
    have hl2 := hgq.be
    rw [hpl] at hl1
    rw [hql] at hl2
    rw [List.getLast?_eq_getElem?] at hep heq ⊢
    rw [hbe, List.getElem?_zipWith, List.length_zipWith, hl1, hl2, min_self]
    rw [hl1] at hep
    rw [hl2] at heq
    rw [hep, heq]
  refine ⟨fun x => stepIntegral p.limits p.binEffect x + (if (∀ l ∈ p.limits, l ≤ x) ∧ BIG_M < x then (x - BIG_M) * ep else 0),
    fun x => stepIntegral q.limits q.binEffect x + (if (∀ l ∈ q.limits, l ≤ x) ∧ BIG_M < x then (x - BIG_M) * eq else 0),
    fun xs => ⟨?_, ?_, ?_⟩⟩
  · obtain ⟨e', he', hacc⟩ := hgp.acc p.binEffect xs hgp.be
    rw [hep] at he'; cases he'
    exact hacc
  · obtain ⟨e', he', hacc⟩ := hgq.acc q.binEffect xs hgq.be
    rw [heq] at he'; cases he'
    exact hacc
  · obtain ⟨e', he', hacc⟩ := hgr.1.acc r.binEffect xs hgr.1.be
    rw [her] at he'; cases he'
    unfold evalUnnorm
    rw [hacc]
    congr 1
    apply List.map_congr_left
    intro x _
    simp only [hbe, hrl, hpl, hql]
    rw [stepIntegral_lin _ _ _ (by rw [hgp.be, hgq.be, hpl, hql])]
    by_cases hc : (∀ l ∈ bumpLast EPS L, l ≤ x) ∧ BIG_M < x
    · simp only [if_pos hc]; ring
    · simp only [if_neg hc]; ring

/-- **C10, constants.**  Adding a constant to the model changes nothing, not even an exception. -/
theorem C10_constant_shift (cast : K → K) (f : Row K D → K) (c : K) (data : List (Row K D)) (lo hi : Fin D → K) (s : Fin D)
    (bm : BinMethod K) :
    aleFitFeature cast (List.map fun x => f x + c) data lo hi s bm = aleFitFeature cast (List.map f) data lo hi s bm := by
  have hsub : ∀ A B : List (Row K D), List.zipWith (· - ·) (A.map fun x => f x + c) (B.map fun x => f x + c) =
      List.zipWith (· - ·) (A.map f) (B.map f) := by
    intro A
    induction A with
    | nil => intro B; rfl
    | cons x A ih =>
      intro B
      cases B with
      | nil => rfl
      | cons y B => simp only [List.map_cons, List.zipWith_cons_cons, ih]; congr 1; ring
  have : ∀ d : List (Row K D), ∀ L, computeLocalEffects cast d (List.map fun x => f x + c) L s =
      computeLocalEffects cast d (List.map f) L s := by
    intro d L
    unfold computeLocalEffects
    simp only [hsub]
  rw [aleFitFeature_eq, aleFitFeature_eq]
  simp only [this]

/-! ### Concrete instances -/

/-- `f(x) = x_0² + x_1`, two bins on `[0, 2]`: the hypotheses of C07 and C10 are met and the values are the expected ones. -/
example :
    let data : List (Row ℚ 2) := [![0, 5], ![1 / 2, 1], ![3 / 2, 2], ![2, 7]]
    (∀ k, k < 2 → FixedBinNonempty (col data 0) 0 2 2 k) ∧ 0 < distinct (col data 0) ∧
    ∃ p, aleFitFeature id (List.map fun r : Row ℚ 2 => (fun x => x ^ 2) (r 0) + (fun r : Row ℚ 2 => r 1) r) data (fun _ => 0) (fun _ => 2) 0
        (.fixed 2 (some 1) 0) = .ok p ∧ evalUnnorm p [0, 1] = .ok [0, 1] := by
  refine ⟨?_, by decide +kernel, ?_⟩
  · intro k hk
    have : k = 0 ∨ k = 1 := by omega
    rcases this with rfl | rfl
    · exact ⟨1 / 2, by decide +kernel, by decide +kernel, by decide +kernel⟩
    · exact ⟨3 / 2, by decide +kernel, by decide +kernel, by decide +kernel⟩
  · exact ⟨{ limits := [0, 1, 2 + 1 / 10 ^ 8], dx := [1, 1 + 1 / 10 ^ 8], pointsPerBin := [2, 2],
             binEffect := [1, (2 + 1 / 10 ^ 8) ^ 2 - 1], binVariance := [0, 0], binEstimatorVariance := [0, 0] },
      by decide +kernel, by decide +kernel⟩

/-- A RHALE fit of a model with constant derivative 3 (C08), and an ALE fit of a model that ignores the feature (C09). -/
example : rhaleFitFeature (rows1 [0, 1, 2, 4]) (rows1 [3, 3, 3, 3]) (fun _ => 0) (fun _ => 4) 0 (.greedy 4 (some 2) 0 0) =
      .ok { limits := [0, 4], dx := [4], pointsPerBin := [4], binEffect := [3], binVariance := [0], binEstimatorVariance := [0] } ∧
    ∃ p, aleFitFeature id (List.map fun _ : Row ℚ 1 => 7) (rows1 [0, 1, 2, 4]) (fun _ => 0) (fun _ => 4) 0 (.fixed 2 (some 1) 0) = .ok p ∧
      p.binEffect = [0, 0] := by
  exact ⟨by decide +kernel,
    { limits := [0, 2, 4 + 1 / 10 ^ 8], dx := [2, 2 + 1 / 10 ^ 8], pointsPerBin := [2, 2],
      binEffect := [0, 0], binVariance := [0, 0], binEstimatorVariance := [0, 0] }, by decide +kernel, rfl⟩

end Effector
