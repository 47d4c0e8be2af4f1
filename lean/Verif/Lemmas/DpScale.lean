import Verif.Props.BinningRules

/-! # The dynamic programming search when the costs of valid bins are multiplied by a constant

The penalty of an invalid bin, 1e8, is not multiplied; as long as the valid costs stay below it, the search finds the same bins. -/

set_option linter.unusedSectionVars false

namespace Effector

open Spec

variable {K : Type} [Field K] [LinearOrder K] [IsStrictOrderedRing K]

/-- `y` is at most `B` and `y' = q y`, or both are at least the penalty. -/
def SimCost (q B y y' : K) : Prop := (y' = q * y ∧ 0 ≤ y ∧ y ≤ B) ∨ ((10 : K) ^ 8 ≤ y ∧ (10 : K) ^ 8 ≤ y')

theorem npArgminFrom_sim {q B : K} (hq : 0 < q) (hB : B < 10 ^ 8) (hqB : q * B < 10 ^ 8) (l : List (K × K)) :
    ∀ (m m' : K) (best best' i : ℕ), SimCost q B m m' → (m < 10 ^ 8 → best = best') → (∀ p ∈ l, SimCost q B p.1 p.2) →
      ∃ v v', npMinFrom m (l.map fun p => some p.1) = some v ∧ npMinFrom m' (l.map fun p => some p.2) = some v' ∧ SimCost q B v v' ∧
        (v < 10 ^ 8 → npArgminFrom m best i (l.map fun p => some p.1) = npArgminFrom m' best' i (l.map fun p => some p.2)) := by
  induction l with
  | nil => exact fun m m' best best' i h hb _ => ⟨m, m', rfl, rfl, h, hb⟩
  | cons p t ih =>
    intro m m' best best' i h hb hl
    obtain ⟨y, y'⟩ := p
    have hy : SimCost q B y y' := hl (y, y') List.mem_cons_self
    have ht : ∀ p ∈ t, SimCost q B p.1 p.2 := fun p hp => hl p (List.mem_cons_of_mem _ hp)
    simp only [List.map_cons, npMinFrom, npArgminFrom]
    rcases h with ⟨rfl, m0, mB⟩ | ⟨hm, hm'⟩
    · rcases hy with ⟨rfl, y0, yB⟩ | ⟨hy, hy'⟩
      · by_cases hlt : y < m
        · have hlt' : q * y < q * m := mul_lt_mul_of_pos_left hlt hq
          simp only [if_pos hlt, if_pos hlt']
          exact ih y _ i i _ (Or.inl ⟨rfl, y0, yB⟩) (fun _ => rfl) ht
        · have hlt' : ¬ q * y < q * m := not_lt.mpr (mul_le_mul_of_nonneg_left (not_lt.mp hlt) hq.le)
          simp only [if_neg hlt, if_neg hlt']
          exact ih m _ best best' _ (Or.inl ⟨rfl, m0, mB⟩) hb ht
      · have h1 : ¬ y < m := by linarith
        have h2 : q * m ≤ q * B := mul_le_mul_of_nonneg_left mB hq.le
        have h3 : ¬ y' < q * m := by linarith
        simp only [if_neg h1, if_neg h3]
        exact ih m _ best best' _ (Or.inl ⟨rfl, m0, mB⟩) hb ht
    · rcases hy with ⟨rfl, y0, yB⟩ | ⟨hy, hy'⟩
      · have h2 : q * y ≤ q * B := mul_le_mul_of_nonneg_left yB hq.le
        have h1 : y < m := by linarith
        have h3 : q * y < m' := by linarith
        simp only [if_pos h1, if_pos h3]
        exact ih y _ i i _ (Or.inl ⟨rfl, y0, yB⟩) (fun _ => rfl) ht
      · by_cases h1 : y < m <;> by_cases h2 : y' < m' <;> simp only [h1, h2, if_true, if_false]
        · exact ih y y' _ _ _ (Or.inr ⟨hy, hy'⟩) (fun h => absurd h (not_lt.mpr hy)) ht
        · exact ih y m' _ _ _ (Or.inr ⟨hy, hm'⟩) (fun h => absurd h (not_lt.mpr hy)) ht
        · exact ih m y' _ _ _ (Or.inr ⟨hm, hy'⟩) (fun h => absurd h (not_lt.mpr hm)) ht
        · exact ih m m' _ _ _ (Or.inr ⟨hm, hm'⟩) (fun h => absurd h (not_lt.mpr hm)) ht

theorem npArgmin_sim {q B : K} (hq : 0 < q) (hB : B < 10 ^ 8) (hqB : q * B < 10 ^ 8) {l : List (K × K)} (hne : l ≠ []) (hl : ∀ p ∈ l, SimCost q B p.1 p.2) :
    ∃ v v', npMin (l.map fun p => some p.1) = some v ∧ npMin (l.map fun p => some p.2) = some v' ∧ SimCost q B v v' ∧
      (v < 10 ^ 8 → npArgmin (l.map fun p => some p.1) = npArgmin (l.map fun p => some p.2)) := by
  cases l with
  | nil => exact absurd rfl hne
  | cons p t =>
    exact npArgminFrom_sim hq hB hqB t p.1 p.2 0 0 1 (hl p List.mem_cons_self) (fun _ => rfl) fun p hp => hl p (List.mem_cons_of_mem _ hp)

section

variable {cost cost' : ℕ → ℕ → Option K} {f f' : ℕ → ℕ → K} {k : ℕ} {q : K} {w : ℕ → K}

/-- The search with costs `f` and with costs `f'` back-tracks along the same limits. -/
theorem dpBack_sim (hc : ∀ i j, i ≤ k → j ≤ k → cost i j = some (f i j)) (hc' : ∀ i j, i ≤ k → j ≤ k → cost' i j = some (f' i j)) (hq : 0 < q)
    (hw : ∀ j, j ≤ k → w j - w 0 < 10 ^ 8 ∧ q * (w j - w 0) < 10 ^ 8) (hf : ∀ i j, i ≤ k → j ≤ k → SimCost q (w j - w i) (f i j) (f' i j)) (b : ℕ) :
    ∀ j, j ≤ k → ∃ v v', (dpMatrix cost k b).getD j none = some v ∧ (dpMatrix cost' k b).getD j none = some v' ∧ SimCost q (w j - w 0) v v' ∧
      (v < 10 ^ 8 → dpBack cost k b j = dpBack cost' k b j) := by
  induction b with
  | zero =>
    intro j hj
    exact ⟨_, _, dpMatrix_getD_zero hc j hj, dpMatrix_getD_zero hc' j hj, hf 0 j (by omega) hj, fun _ => rfl⟩
  | succ b ih =>
    intro j hj
    choose v v' h1 h2 h3 h4 using ih
    let l : List (K × K) := (List.range (k + 1)).map fun i => if h : i ≤ k then (v i h + f i j, v' i h + f' i j) else (0, 0)
    have hmem : ∀ i ∈ List.range (k + 1), i ≤ k := fun i hi => by simp at hi; omega
    have ht : dpTmp cost k (dpMatrix cost k b) j = l.map fun p => some p.1 := by
      unfold dpTmp
      rw [List.map_map]
      refine List.map_congr_left fun i hi => ?_
      simp only [Function.comp, dif_pos (hmem i hi), h1 i (hmem i hi), hc i j (hmem i hi) hj, nanAdd]
    have ht' : dpTmp cost' k (dpMatrix cost' k b) j = l.map fun p => some p.2 := by
      unfold dpTmp
      rw [List.map_map]
      refine List.map_congr_left fun i hi => ?_
      simp only [Function.comp, dif_pos (hmem i hi), h2 i (hmem i hi), hc' i j (hmem i hi) hj, nanAdd]
    have hnn : ∀ {B y y'}, SimCost q B y y' → 0 ≤ y ∧ 0 ≤ y' := by
      rintro B y y' (⟨rfl, h, -⟩ | ⟨h, h'⟩)
      · exact ⟨h, mul_nonneg hq.le h⟩
      · exact ⟨le_trans (by positivity) h, le_trans (by positivity) h'⟩
    have hl : ∀ p ∈ l, SimCost q (w j - w 0) p.1 p.2 := by
      rintro p hp
      obtain ⟨i, hi, rfl⟩ := List.mem_map.mp hp
      have hik := hmem i hi
      simp only [dif_pos hik]
      rcases h3 i hik with ⟨e, a1, a2⟩ | ⟨a1, a2⟩
      · rcases hf i j hik hj with ⟨e', b1, b2⟩ | ⟨b1, b2⟩
        · exact Or.inl ⟨by rw [e, e']; ring, by linarith, by linarith⟩
        · exact Or.inr ⟨by linarith, by have := (hnn (h3 i hik)).2; linarith⟩
      · exact Or.inr ⟨by have := (hnn (hf i j hik hj)).1; linarith, by have := (hnn (hf i j hik hj)).2; linarith⟩
    obtain ⟨y, y', e1, e2, e3, e4⟩ := npArgmin_sim hq (hw j hj).1 (hw j hj).2 (l := l) (by simp [l]) hl
    have hM : ∀ cost : ℕ → ℕ → Option K, (dpMatrix cost k (b + 1)).getD j none = npMin (dpTmp cost k (dpMatrix cost k b) j) := fun cost => by
      rw [dpMatrix, List.getD_eq_getElem?_getD, List.getElem?_map, List.getElem?_range (by omega)]
      rfl
    have hA : ∀ cost : ℕ → ℕ → Option K, (dpArg cost k b).getD j 0 = npArgmin (dpTmp cost k (dpMatrix cost k b) j) := fun cost => by
      unfold dpArg
      rw [List.getD_eq_getElem?_getD, List.getElem?_map, List.getElem?_range (by omega)]
      rfl
    refine ⟨y, y', by rw [hM, ht, e1], by rw [hM, ht', e2], e3, fun hy => ?_⟩
    have e5 := e4 hy
    show dpBack cost k b ((dpArg cost k b).getD j 0) ++ [(dpArg cost k b).getD j 0] = dpBack cost' k b ((dpArg cost' k b).getD j 0) ++ [(dpArg cost' k b).getD j 0]
    rw [hA, hA, ht, ht', ← e5]
    obtain ⟨z, z1, -, z2⟩ := npArgmin_spec (l.map (·.1)) (by simp [l])
    have hmm : (l.map (·.1)).map some = l.map fun p => some p.1 := List.map_map
    rw [hmm] at z1 z2
    replace z1 : (l.map (·.1))[npArgmin (l.map fun p => some p.1)]? = some z := z1
    replace z2 : npMin (l.map fun p => some p.1) = some z := z2
    obtain rfl : z = y := Option.some.inj (z2.symm.trans e1)
    generalize npArgmin (l.map fun p => some p.1) = a at z1 ⊢
    have hak : a ≤ k := by
      by_contra hcon
      rw [List.getElem?_eq_none (by simp [l]; omega)] at z1
      cases z1
    have : v a hak + f a j = z := by
      rw [List.map_map, List.getElem?_map, List.getElem?_range (by omega)] at z1
      simpa [hak] using z1
    rw [h4 a hak (by have := (hnn (hf a j hak hj)).1; linarith)]

/-- The limits found by the search do not change. -/
theorem dpIndices_sim (hc : ∀ i j, i ≤ k → j ≤ k → cost i j = some (f i j)) (hc' : ∀ i j, i ≤ k → j ≤ k → cost' i j = some (f' i j)) (hq : 0 < q)
    (hw : ∀ j, j ≤ k → w j - w 0 < 10 ^ 8 ∧ q * (w j - w 0) < 10 ^ 8) (hf : ∀ i j, i ≤ k → j ≤ k → SimCost q (w j - w i) (f i j) (f' i j))
    (h0 : ∀ i, f i i = 0) (hwhole : f 0 k < 10 ^ 8) :
    dpIndices cost k = dpIndices cost' k := by
  unfold dpIndices
  obtain ⟨v, v', h1, -, -, h4⟩ := dpBack_sim hc hc' hq hw hf (k - 1) k le_rfl
  rw [h4]
  obtain ⟨-, -, h5, h6⟩ := dp_attained hc (k - 1) k le_rfl
  rw [h1, Option.some.injEq] at h5
  rw [h5]
  refine lt_of_le_of_lt (h6 (List.replicate (k - 1) 0) (by simp) (fun i hi => by have := (List.mem_replicate.mp hi).2; omega)) ?_
  have h2 := chainCost_stay f h0 0 (k - 1) [k]
  have h3 : (0 :: List.replicate (k - 1) 0 ++ [k] : List ℕ) = List.replicate (k - 1) 0 ++ 0 :: [k] := by
    rw [← List.replicate_succ, List.replicate_succ']
    simp
  rw [h3, h2]
  simpa [chainCost] using hwhole

end

/-! ### The costs -/

/-- Values at distance at most `R` have variance at most `R²`. -/
theorem popVar_le_sq {l : List K} {R : K} (hR : ∀ x ∈ l, ∀ y ∈ l, |x - y| ≤ R) : popVar l ≤ R ^ 2 := by
  rcases eq_or_ne l [] with rfl | hne
  · simp only [popVar, List.map_nil, List.sum_nil, zero_div]; positivity
  have hpos : (0 : K) < l.length := by exact_mod_cast List.length_pos_of_ne_nil hne
  have hsum : ∀ (t : List K) (g : K → K) (c : K), (∀ x ∈ t, g x ≤ c) → (t.map g).sum ≤ t.length * c := by
    intro t g c
    induction t with
    | nil => intro _; simp
    | cons a t ih =>
      intro h
      have := ih fun x hx => h x (List.mem_cons_of_mem _ hx)
      have := h a List.mem_cons_self
      simp only [List.map_cons, List.sum_cons, List.length_cons, Nat.cast_add, Nat.cast_one, add_mul, one_mul]
      linarith
  have hsub : ∀ (t : List K) (x : K), (t.map fun y => x - y).sum = t.length * x - t.sum ∧ (t.map fun y => y - x).sum = t.sum - t.length * x := by
    intro t x
    induction t with
    | nil => simp
    | cons a t ih =>
      simp only [List.map_cons, List.sum_cons, List.length_cons, Nat.cast_add, Nat.cast_one, add_mul, one_mul, ih]
      constructor <;> ring
  have hmul : avg l * l.length = l.sum := by unfold avg; field_simp
  have hdist : ∀ x ∈ l, (x - avg l) ^ 2 ≤ R ^ 2 := by
    intro x hx
    have h1 := hsum l (fun y => x - y) R fun y hy => (le_abs_self _).trans (hR x hx y hy)
    have h2 := hsum l (fun y => y - x) R fun y hy => by
      have := (neg_abs_le (x - y)).trans' (neg_le_neg (hR x hx y hy))
      linarith
    rw [(hsub l x).1] at h1
    rw [(hsub l x).2] at h2
    rw [← hmul] at h1 h2
    have h3 : x - avg l ≤ R := by
      have : (l.length : K) * (x - avg l) ≤ l.length * R := by linarith
      exact le_of_mul_le_mul_left this hpos
    have h4 : -R ≤ x - avg l := by
      have : (l.length : K) * (-R) ≤ l.length * (x - avg l) := by linarith
      exact le_of_mul_le_mul_left this hpos
    exact sq_le_sq' h4 h3
  unfold popVar
  rw [div_le_iff₀ hpos]
  have := hsum l (fun y => (y - avg l) ^ 2) (R ^ 2) hdist
  linarith

/-- A valid bin costs at most `R²` times its width. -/
theorem specBinCost_le (xs e : List K) (m : ℕ) {d a b R : K} (hd0 : 0 ≤ d) (hab : a ≤ b) (hR : ∀ x ∈ e, ∀ y ∈ e, |x - y| ≤ R)
    (hm : ¬ closedCount xs a b < m) : Spec.binCost xs e m d a b ≤ R ^ 2 * (b - a) := by
  unfold Spec.binCost
  rw [if_neg hm]
  have h1 : (0 : K) ≤ (closedCount xs a b : K) / (xs.length : K) := div_nonneg (Nat.cast_nonneg _) (Nat.cast_nonneg _)
  have h2 : (closedCount xs a b : K) / (xs.length : K) ≤ 1 := by
    apply div_le_one_of_le₀
    · exact_mod_cast List.countP_le_length
    · exact Nat.cast_nonneg _
  have h3 : popVar (closedEffects xs e a b) ≤ R ^ 2 := by
    have hmem : ∀ x ∈ closedEffects xs e a b, x ∈ e := by
      intro x hx
      unfold closedEffects at hx
      obtain ⟨p, hp, rfl⟩ := List.mem_map.mp hx
      exact (List.of_mem_zip (List.mem_of_mem_filter hp)).2
    exact popVar_le_sq fun x hx y hy => hR x (hmem x hx) y (hmem y hy)
  have h4 := popVar_nonneg (closedEffects xs e a b)
  have h5 : 0 ≤ popVar (closedEffects xs e a b) * (b - a) := mul_nonneg h4 (by linarith)
  have h6 : popVar (closedEffects xs e a b) * (b - a) ≤ R ^ 2 * (b - a) := mul_le_mul_of_nonneg_right h3 (by linarith)
  have h7 : 0 ≤ d * ((closedCount xs a b : K) / (xs.length : K)) := mul_nonneg hd0 h1
  nlinarith

/-- Whenever the costs of valid moves are multiplied by `q`, the same limits are found. -/
theorem dpIndices_scaled {c c' : BinCtx K} {e e' : List K} {m k : ℕ} {d q R : K} (hq : 0 < q) (hm : 1 ≤ m) (hk : 1 ≤ k) (hd0 : 0 ≤ d) (hd : d ≤ 1)
    (hlen : e.length = c.xs.length) (hlen' : e'.length = c'.xs.length) (hlt : c.xmin < c.xmax) (hlt' : c'.xmin < c'.xmax)
    (hin : ∀ x ∈ c.xs, c.xmin ≤ x ∧ x ≤ c.xmax) (hml : m ≤ c.xs.length) (hR : ∀ x ∈ e, ∀ y ∈ e, |x - y| ≤ R)
    (hsmall : R ^ 2 * (c.xmax - c.xmin) < 10 ^ 8) (hsmall' : q * (R ^ 2 * (c.xmax - c.xmin)) < 10 ^ 8)
    (hcount : ∀ i j, closedCount c'.xs (gridPoint c'.xmin c'.xmax k i) (gridPoint c'.xmin c'.xmax k j) =
      closedCount c.xs (gridPoint c.xmin c.xmax k i) (gridPoint c.xmin c.xmax k j))
    (hcost : ∀ i j, i < j → ¬ closedCount c.xs (gridPoint c.xmin c.xmax k i) (gridPoint c.xmin c.xmax k j) < m →
      Spec.binCost c'.xs e' m d (gridPoint c'.xmin c'.xmax k i) (gridPoint c'.xmin c'.xmax k j) =
        q * Spec.binCost c.xs e m d (gridPoint c.xmin c.xmax k i) (gridPoint c.xmin c.xmax k j)) :
    dpIndices (costOfMove c' e' m d k) k = dpIndices (costOfMove c e m d k) k := by
  have hkp : (0 : K) < k := by exact_mod_cast hk
  have hw : ∀ i j, i ≤ j → gridPoint c.xmin c.xmax k i ≤ gridPoint c.xmin c.xmax k j := by
    intro i j hij
    rcases Nat.lt_or_ge i j with h | h
    · exact (gridPoint_lt hlt hk h).le
    · obtain rfl : i = j := by omega
      exact le_rfl
  have hend : gridPoint c.xmin c.xmax k 0 = c.xmin ∧ gridPoint c.xmin c.xmax k k = c.xmax := by
    unfold gridPoint
    constructor
    · simp
    · field_simp; ring
  refine (dpIndices_sim (f := dpCost c.xs e m d c.xmin c.xmax k) (f' := dpCost c'.xs e' m d c'.xmin c'.xmax k) (w := fun i => R ^ 2 * gridPoint c.xmin c.xmax k i)
    (costOfMove_eq c e m k d hlen hlt (Or.inl hm)) (costOfMove_eq c' e' m k d hlen' hlt' (Or.inl hm)) hq ?_ ?_ (fun i => by simp [dpCost]) ?_).symm
  · intro j hj
    have h1 := hw j k hj
    have h0 := hw 0 j (by omega)
    rw [hend.2] at h1
    rw [hend.1] at h0
    have h2 : R ^ 2 * gridPoint c.xmin c.xmax k j - R ^ 2 * gridPoint c.xmin c.xmax k 0 ≤ R ^ 2 * (c.xmax - c.xmin) := by
      rw [hend.1, ← mul_sub]
      exact mul_le_mul_of_nonneg_left (by linarith) (sq_nonneg R)
    exact ⟨by linarith, lt_of_le_of_lt (mul_le_mul_of_nonneg_left h2 hq.le) hsmall'⟩
  · intro i j hi hj
    unfold dpCost
    by_cases h1 : j < i
    · simp only [if_pos h1]
      exact Or.inr ⟨le_rfl, le_rfl⟩
    · simp only [if_neg h1]
      by_cases h2 : i = j
      · subst h2
        simp only [if_true]
        exact Or.inl ⟨by ring, le_rfl, by linarith⟩
      · simp only [if_neg h2]
        by_cases h3 : closedCount c.xs (gridPoint c.xmin c.xmax k i) (gridPoint c.xmin c.xmax k j) < m
        · right
          unfold Spec.binCost
          rw [hcount, if_pos h3, if_pos h3]
          exact ⟨le_rfl, le_rfl⟩
        · left
          refine ⟨hcost i j (by omega) h3, specBinCost_nonneg _ _ _ _ _ _ hd (hw i j (by omega)), ?_⟩
          rw [← mul_sub]
          exact specBinCost_le _ _ _ hd0 (hw i j (by omega)) hR h3
  · unfold dpCost
    rw [if_neg (by omega), if_neg (by omega), hend.1, hend.2]
    refine lt_of_le_of_lt (specBinCost_le _ _ _ hd0 hlt.le hR ?_) hsmall
    have : closedCount c.xs c.xmin c.xmax = c.xs.length := by
      unfold closedCount
      rw [List.countP_eq_length]
      exact fun x hx => by simpa using hin x hx
    omega

/-! ### When the penalty is large enough -/

namespace Spec

/-- Dynamic programming with at least one bin, a discount in [0, 1], and at least one point required per bin. -/
def ProperDp : BinMethod K → Prop
  | .dp n m d _ => 1 ≤ n ∧ 0 ≤ d ∧ d ≤ 1 ∧ ∀ m', m = some m' → 1 ≤ m'
  | _ => False

/-- The effects differ by at most `R`, and the cost `R² w` of a bin of width `w` stays below the penalty 1e8 of an invalid bin, also when multiplied by `q`. -/
def SmallSpread (q w : K) (effects : List K) : Prop := ∃ R, (∀ x ∈ effects, ∀ y ∈ effects, |x - y| ≤ R) ∧ R ^ 2 * w < 10 ^ 8 ∧ q * (R ^ 2 * w) < 10 ^ 8

end Spec

theorem SmallSpread.mono {q w : K} {l l' : List K} (h : SmallSpread q w l) (hl : ∀ x ∈ l', x ∈ l) : SmallSpread q w l' := by
  obtain ⟨R, hR, h1, h2⟩ := h
  exact ⟨R, fun x hx y hy => hR x (hl x hx) y (hl y hy), h1, h2⟩

/-- Then the limits found are well formed. -/
theorem dp_good_small {q : K} {c : BinCtx K} {e : List K} (he : c.eff = some e) (hlen : e.length = c.xs.length) (hin : ∀ x ∈ c.xs, c.xmin ≤ x ∧ x ≤ c.xmax)
    (hlt : c.xmin < c.xmax) {bm : BinMethod K} (hb : ProperDp bm) (hs : SmallSpread q (c.xmax - c.xmin) e) {L : List K}
    (hL : findLimits c bm = .ok (.arr L)) : Increasing L ∧ 2 ≤ L.length ∧ Within L c.xs := by
  obtain ⟨R, hR, hs, -⟩ := hs
  cases bm with
  | fixed n m cl => exact hb.elim
  | greedy n m d cl => exact hb.elim
  | str t => exact hb.elim
  | dp n mo d cl =>
    cases mo with
    | none => rw [(C23_false_min_points_none c n cl d).2.2] at hL; cases hL
    | some m =>
      by_cases hdeg : distinct c.xs = 1 ∨ c.xs.length < m
      · rw [(C22_greedy_dp_impossible_partial c n m cl d hdeg).2] at hL; cases hL
      · push Not at hdeg
        obtain ⟨hn, hd0, hd1, hm⟩ := hb
        have hsafe : DpSafe c n m d := by
          have hkp : (n : K) ≠ 0 := by exact_mod_cast (by omega : n ≠ 0)
          refine ⟨e, he, hlen, hd1, Or.inl (hm m rfl), [c.xmin, c.xmax], ⟨spans_pair hlt, fun l hl => ?_⟩, ?_⟩
          · rcases List.mem_cons.mp hl with rfl | hl
            · exact ⟨0, by omega, by simp [gridPoint]⟩
            · obtain rfl := List.mem_singleton.mp hl
              exact ⟨n, le_rfl, by unfold gridPoint; field_simp; ring⟩
          · simp only [binningCost, add_zero]
            refine lt_of_le_of_lt (specBinCost_le _ _ _ hd0 hlt.le hR ?_) hs
            have : closedCount c.xs c.xmin c.xmax = c.xs.length := by
              unfold closedCount
              rw [List.countP_eq_length]
              exact fun x hx => by simpa using hin x hx
            omega
        obtain ⟨h1, h2, h3, -⟩ := findLimits_good c (.dp n (some m) d cl) hin hlt (fun m' h => by obtain rfl := Option.some.inj h; exact hsafe) L hL
        exact ⟨h1, h2, h3⟩

end Effector
