import Verif.Lemmas.Accum

/-!
# C01, C13 (first part): the accumulated effect
-/

namespace Effector

open Spec

set_option linter.unusedSectionVars false

variable {K : Type} [Field K] [LinearOrder K] [IsStrictOrderedRing K]

/-- `dx` lists the bin widths of `limits`. -/
def Spec.Widths (limits dx : List K) : Prop :=
  dx.length + 1 = limits.length ∧ ∀ k a b, limits[k]? = some a → limits[k + 1]? = some b → dx[k]? = some (b - a)

/-- The value computed, with the name of the constant. -/
theorem accumulated_effect_value (limits be dx xs : List K) (el : K) (hinc : Increasing limits)
    (hlen : be.length + 1 = limits.length) (hel : be.getLast? = some el) (hdx : Widths limits dx) :
    computeAccumulatedEffect xs limits be dx =
      .ok (xs.map fun x => stepIntegral limits be x +
        (if (∀ l ∈ limits, l ≤ x) ∧ BIG_M < x then (x - BIG_M) * el else 0)) := by
  cases limits with
  | nil => simp at hlen
  | cons l0 ls =>
    rw [eq_diffs hdx.1 hdx.2,
      computeAccumulatedEffect_eq l0 ls be xs (hinc.imp le_of_lt) (by simpa using hlen) el hel]
    congr 1
    apply List.map_congr_left
    intro x _
    congr 1
    have hiff : countLe (l0 :: ls) x = ls.length + 1 ↔ ∀ l ∈ l0 :: ls, l ≤ x := by
      constructor
      · intro h l hl
        by_contra hlt
        have : countLe (l0 :: ls) x < (l0 :: ls).length := by
          unfold countLe
          rcases Nat.lt_or_ge ((l0 :: ls).countP fun l => decide (l ≤ x)) (l0 :: ls).length with h1 | h1
          · exact h1
          · have := List.countP_eq_length.mp (le_antisymm List.countP_le_length h1) l hl
            simp at this
            exact absurd this hlt
        simp [h] at this
      · intro h
        rw [countLe_eq_length h]
        rfl
    by_cases h1 : ∀ l ∈ l0 :: ls, l ≤ x
    · rw [if_pos (hiff.mpr h1)]
      by_cases h2 : BIG_M < x
      · rw [if_neg (show ¬ (x - BIG_M < 0) by simpa using h2.le),
          if_pos (show (∀ l ∈ l0 :: ls, l ≤ x) ∧ BIG_M < x from ⟨h1, h2⟩)]
      · rw [if_neg (show ¬ ((∀ l ∈ l0 :: ls, l ≤ x) ∧ BIG_M < x) from fun h => h2 h.2)]
        rcases lt_or_eq_of_le (not_lt.mp h2) with h3 | h3
        · rw [if_pos (show x - BIG_M < 0 by simpa using h3), zero_mul]
        · rw [if_neg (show ¬ (x - BIG_M < 0) by simp [h3]), h3, sub_self, zero_mul]
    · rw [if_neg fun h => h1 (hiff.mp h), if_neg fun h => h1 h.1]

/-- **C01 (exact value).**  For increasing limits, one effect per bin (at least one bin) and the matching widths,
`compute_accumulated_effect` returns at every `x` the integral of the step function, plus `(x - 1e8) * last effect` when `x`
is right of the last limit *and* larger than `1e8`. -/
theorem C01_accumulated_effect_exact (limits be dx xs : List K) (el : K) (hinc : Increasing limits)
    (hlen : be.length + 1 = limits.length) (hel : be.getLast? = some el) (hdx : Widths limits dx) :
    computeAccumulatedEffect xs limits be dx =
      .ok (xs.map fun x => stepIntegral limits be x +
        (if (∀ l ∈ limits, l ≤ x) ∧ 10 ^ 8 < x then (x - 10 ^ 8) * el else 0)) :=
  accumulated_effect_value limits be dx xs el hinc hlen hel hdx

/-- **C01.**  `compute_accumulated_effect` is the exact integral of the step function, at all points that are at most
`1e8` or left of the last limit.  (Missing for the full claim: points right of the last limit and beyond `1e8`, where it is
false, see `C01_false_beyond_sentinel`.) -/
theorem C01_accumulated_effect_partial (limits be dx xs : List K) (hinc : Increasing limits)
    (hlen : be.length + 1 = limits.length) (hne : be ≠ []) (hdx : Widths limits dx)
    (hxs : ∀ x ∈ xs, x ≤ 10 ^ 8 ∨ ∃ l ∈ limits, x < l) :
    computeAccumulatedEffect xs limits be dx = .ok (xs.map (stepIntegral limits be)) := by
  simp only [BIG_M_lit] at *
  obtain ⟨el, hel⟩ : ∃ el, be.getLast? = some el := ⟨_, List.getLast?_eq_some_getLast hne⟩
  rw [accumulated_effect_value limits be dx xs el hinc hlen hel hdx]
  congr 1
  apply List.map_congr_left
  intro x hx
  rw [if_neg, add_zero]
  rintro ⟨h1, h2⟩
  rcases hxs x hx with h | ⟨l, hl, h⟩
  · exact absurd h2 (not_lt.mpr h)
  · exact absurd (h1 l hl) (not_le.mpr h)

/-- **C01 is false** for every point right of all limits and beyond `1e8`, whenever the last bin effect is not 0. -/
theorem C01_false_beyond_sentinel (limits be dx : List K) (el x : K) (hinc : Increasing limits)
    (hlen : be.length + 1 = limits.length) (hel : be.getLast? = some el) (hdx : Widths limits dx)
    (hel0 : el ≠ 0) (hx : ∀ l ∈ limits, l ≤ x) (hbig : 10 ^ 8 < x) :
    computeAccumulatedEffect [x] limits be dx ≠ .ok [stepIntegral limits be x] := by
  simp only [BIG_M_lit] at *
  rw [accumulated_effect_value limits be dx [x] el hinc hlen hel hdx]
  simp only [List.map_cons, List.map_nil, ne_eq, Except.ok.injEq, List.cons.injEq, and_true, add_eq_left]
  rw [if_pos ⟨hx, hbig⟩]
  exact mul_ne_zero (sub_ne_zero.mpr (ne_of_gt hbig)) hel0

/-- What the integral of a step function means, 1: it is 0 left of the first limit. -/
theorem C01_spec_zero_left (limits es : List K) (hinc : Increasing limits) (l0 x : K) (h0 : limits[0]? = some l0)
    (hx : x ≤ l0) : stepIntegral limits es x = 0 := by
  apply stepIntegral_left
  cases limits with
  | nil => simp at h0
  | cons a t =>
    simp only [List.getElem?_cons_zero, Option.some.injEq] at h0
    subst h0
    intro b hb
    rcases List.mem_cons.mp hb with rfl | hb
    · exact hx
    · exact le_trans hx ((List.pairwise_cons.mp hinc).1 b hb).le

/-- 2: inside bin `k` it grows linearly with slope `es[k]`. -/
theorem C01_spec_linear_inside (limits es : List K) (hinc : Increasing limits) (k : ℕ) (a b e x y : K)
    (ha : limits[k]? = some a) (hb : limits[k + 1]? = some b) (he : es[k]? = some e)
    (hax : a ≤ x) (hxb : x ≤ b) (hay : a ≤ y) (hyb : y ≤ b) :
    stepIntegral limits es y - stepIntegral limits es x = e * (y - x) := by
  induction limits generalizing es k with
  | nil => simp at ha
  | cons l0 t ih =>
    cases t with
    | nil => simp at hb
    | cons l1 t =>
      cases es with
      | nil => simp at he
      | cons e0 es =>
        have hinc' := (List.pairwise_cons.mp hinc).2
        cases k with
        | zero =>
          simp only [List.getElem?_cons_zero, Option.some.injEq, zero_add, List.getElem?_cons_succ] at ha hb he
          subst ha hb he
          unfold stepIntegral
          rw [C01_spec_zero_left (l1 :: t) es hinc' l1 x rfl hxb, C01_spec_zero_left (l1 :: t) es hinc' l1 y rfl hyb,
            min_eq_left hxb, min_eq_left hyb, min_eq_right hax, min_eq_right hay]
          ring
        | succ k =>
          simp only [List.getElem?_cons_succ] at ha hb he
          have hl1 : l1 ≤ a := by
            cases k with
            | zero => simp at ha; exact ha.le
            | succ k =>
              have : a ∈ t := List.mem_of_getElem? (by simpa using ha)
              exact ((List.pairwise_cons.mp hinc').1 a this).le
          have hl0 : l0 ≤ a := le_trans ((List.pairwise_cons.mp hinc).1 l1 (by simp)).le hl1
          have := ih es hinc' k ha hb he
          unfold stepIntegral
          rw [min_eq_right (le_trans hl1 hax), min_eq_right (le_trans hl1 hay), min_eq_right (le_trans hl0 hax),
            min_eq_right (le_trans hl0 hay)]
          linarith

/-- 3: right of the last limit it is constant. -/
theorem C01_spec_constant_right (limits es : List K) (x y : K) (hx : ∀ l ∈ limits, l ≤ x)
    (hy : ∀ l ∈ limits, l ≤ y) : stepIntegral limits es x = stepIntegral limits es y := by
  induction limits generalizing es with
  | nil => cases es <;> rfl
  | cons l0 t ih =>
    cases t with
    | nil => cases es <;> rfl
    | cons l1 t =>
      cases es with
      | nil => rfl
      | cons e0 es =>
        unfold stepIntegral
        rw [ih es (fun l hl => hx l (by simp [hl])) (fun l hl => hy l (by simp [hl])),
          min_eq_right (hx l0 (by simp)), min_eq_right (hx l1 (by simp)), min_eq_right (hy l0 (by simp)),
          min_eq_right (hy l1 (by simp))]

/-- **C13 (core).**  With non-negative bin heights the integral never decreases, hence is never negative. -/
theorem C13_stepIntegral_mono (limits es : List K) (hinc : Increasing limits) (hes : ∀ e ∈ es, 0 ≤ e) (x y : K)
    (hxy : x ≤ y) : stepIntegral limits es x ≤ stepIntegral limits es y := by
  induction limits generalizing es with
  | nil => cases es <;> exact le_rfl
  | cons l0 t ih =>
    cases t with
    | nil => cases es <;> exact le_rfl
    | cons l1 t =>
      cases es with
      | nil => exact le_rfl
      | cons e0 es =>
        have h01 : l0 ≤ l1 := ((List.pairwise_cons.mp hinc).1 l1 (by simp)).le
        have := ih es (List.pairwise_cons.mp hinc).2 (fun e he => hes e (by simp [he]))
        unfold stepIntegral
        refine add_le_add (mul_le_mul_of_nonneg_left ?_ (hes e0 (by simp))) this
        rcases le_total x l0 with h | h
        · rw [min_eq_left h, min_eq_left (le_trans h h01), sub_self]
          exact sub_nonneg.mpr (min_le_min_left y h01)
        · rw [min_eq_right h, min_eq_right (le_trans h hxy)]
          exact sub_le_sub_right (min_le_min_right l1 hxy) l0

/-- The hypotheses of C01 are met by the documented example, with points left of, inside and right of the bins. -/
example : Increasing [(0 : ℚ), 3 / 2, 2] ∧ Widths [(0 : ℚ), 3 / 2, 2] [3 / 2, 1 / 2] ∧
    computeAccumulatedEffect [-1, 0, 1 / 2, 3 / 2, 7 / 4, 2, 3] [(0 : ℚ), 3 / 2, 2] [1, -1] [3 / 2, 1 / 2] =
      .ok ([-1, 0, 1 / 2, 3 / 2, 7 / 4, 2, 3].map (stepIntegral [(0 : ℚ), 3 / 2, 2] [1, -1])) := by
  refine ⟨by unfold Increasing; decide +kernel, ⟨rfl, ?_⟩, by decide +kernel⟩
  intro k a b ha hb
  match k with
  | 0 => simp at ha hb; subst ha hb; norm_num
  | 1 => simp at ha hb; subst ha hb; norm_num
  | k + 2 => simp at hb

/-- The counterexample to the unrestricted C01 at a concrete point. -/
example : computeAccumulatedEffect [10 ^ 8 + 5] [(0 : ℚ), 1] [2] [1] = .ok [12] ∧
    stepIntegral [(0 : ℚ), 1] [2] (10 ^ 8 + 5) = 2 := by
  constructor <;> decide +kernel

end Effector
