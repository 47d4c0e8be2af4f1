import Verif.Model.Utils
import Verif.Spec

/-! # Lemmas about digitize and the accumulated effect -/

namespace Effector

set_option linter.unusedSectionVars false

open Spec

variable {K : Type} [Field K] [LinearOrder K]

/-- The literals of the statements and the names of helpers.py. -/
theorem BIG_M_lit : (10 ^ 8 : K) = BIG_M := rfl

theorem EPS_lit : (1 / 10 ^ 8 : K) = EPS := rfl

section digitize

theorem countLe_cons (a : K) (l : List K) (x : K) :
    countLe (a :: l) x = countLe l x + (if a ≤ x then 1 else 0) := by
  unfold countLe
  rw [List.countP_cons]
  simp

theorem countLe_eq_zero {l : List K} {x : K} (h : ∀ a ∈ l, x < a) : countLe l x = 0 := by
  unfold countLe
  rw [List.countP_eq_zero]
  intro a ha
  simpa using h a ha

theorem countLe_eq_length {l : List K} {x : K} (h : ∀ a ∈ l, a ≤ x) : countLe l x = l.length := by
  unfold countLe
  rw [List.countP_eq_length]
  intro a ha
  simpa using h a ha

theorem countLe_le_length (l : List K) (x : K) : countLe l x ≤ l.length := List.countP_le_length

theorem digitize_sorted {xs bins : List K} (h : bins.Pairwise (· ≤ ·)) :
    digitize xs bins = .ok (xs.map (countLe bins)) := by
  unfold digitize
  rw [if_pos h]

end digitize

theorem pyIndex_ok {α : Type} {l : List α} {i : ℕ} {a : α} (h : l[i]? = some a) : pyIndex l i = .ok a := by
  unfold pyIndex
  rw [h]

theorem mapM_ok {α β : Type} {f : α → Py β} {g : α → β} {l : List α} (h : ∀ a ∈ l, f a = .ok (g a)) :
    l.mapM f = .ok (l.map g) := by
  induction l with
  | nil => rfl
  | cons a t ih =>
    rw [List.mapM_cons, h a (by simp), ih fun b hb => h b (by simp [hb])]
    rfl

variable [IsStrictOrderedRing K]

theorem stepIntegral_left {limits es : List K} {x : K} (h : ∀ a ∈ limits, x ≤ a) :
    stepIntegral limits es x = 0 := by
  induction limits generalizing es with
  | nil => cases es <;> rfl
  | cons l0 t ih =>
    cases t with
    | nil => cases es <;> rfl
    | cons l1 t =>
      cases es with
      | nil => rfl
      | cons e es =>
        have h0 : x ≤ l0 := h l0 (by simp)
        have h1 : x ≤ l1 := h l1 (by simp)
        unfold stepIntegral
        rw [min_eq_left h0, min_eq_left h1, ih fun a ha => h a (by simp [ha])]
        simp

/-- The quantities looked up by `compute_accumulated_effect` at position `k` right of the first limit. -/
theorem acc_core (B el x : K) (l0 : K) (ls be : List K) (acc : K)
    (hs : (l0 :: ls).Pairwise (· ≤ ·)) (hlen : be.length = ls.length) (h0 : l0 ≤ x) :
    ∃ F t e, (acc :: cumsumFrom acc (List.zipWith (· * ·) be (diffs (l0 :: ls))))[countLe ls x]? = some F ∧
      ((l0 :: ls).dropLast ++ [B])[countLe ls x]? = some t ∧
      (be ++ [el])[countLe ls x]? = some e ∧
      F + (if x - t < 0 then 0 else x - t) * e =
        acc + stepIntegral (l0 :: ls) be x +
          (if countLe ls x = ls.length then (if x - B < 0 then 0 else x - B) * el else 0) := by
  induction ls generalizing l0 be acc with
  | nil =>
    have hbe : be = [] := List.length_eq_zero_iff.mp (by simpa using hlen)
    subst hbe
    refine ⟨acc, B, el, ?_, ?_, ?_, ?_⟩ <;> simp [countLe, stepIntegral]
  | cons l1 ls ih =>
    cases be with
    | nil => simp at hlen
    | cons b be =>
      have hs' : (l1 :: ls).Pairwise (· ≤ ·) := (List.pairwise_cons.mp hs).2
      by_cases h1 : l1 ≤ x
      · obtain ⟨F, t, e, hF, ht, he, heq⟩ := ih l1 be (acc + b * (l1 - l0)) hs' (by simpa using hlen) h1
        have hc : countLe (l1 :: ls) x = countLe ls x + 1 := by rw [countLe_cons, if_pos h1]
        refine ⟨F, t, e, ?_, ?_, ?_, ?_⟩
        · rw [hc]
          simpa [diffs, cumsumFrom] using hF
        · rw [hc]
          simpa using ht
        · rw [hc]
          simpa using he
        · rw [heq, hc]
          simp only [List.length_cons, Nat.add_right_cancel_iff, stepIntegral]
          rw [min_eq_right h1, min_eq_right h0]
          ring
      · have hx : x < l1 := lt_of_not_ge h1
        have hall : ∀ a ∈ l1 :: ls, x < a := by
          intro a ha
          rcases List.mem_cons.mp ha with rfl | ha
          · exact hx
          · exact lt_of_lt_of_le hx ((List.pairwise_cons.mp hs').1 a ha)
        have hc : countLe (l1 :: ls) x = 0 := countLe_eq_zero hall
        refine ⟨acc, l0, b, ?_, ?_, ?_, ?_⟩
        · rw [hc]; simp
        · rw [hc]; simp
        · rw [hc]; simp
        · rw [hc]
          unfold stepIntegral
          rw [stepIntegral_left fun a ha => (hall a ha).le, min_eq_left hx.le, min_eq_right h0]
          rw [if_neg (by simpa using h0)]
          simp only [List.length_cons, Nat.right_eq_add, Nat.add_eq_zero_iff, one_ne_zero, and_false, if_false]
          ring

/-- `compute_accumulated_effect` at one point, exactly. -/
theorem accAt_eq (l0 : K) (ls be : List K) (x : K) (hs : (l0 :: ls).Pairwise (· ≤ ·))
    (hlen : be.length = ls.length) (el : K) (hel : be.getLast? = some el) :
    accAt (l0 :: ls) be (diffs (l0 :: ls)) false x (countLe (l0 :: ls) x) =
      .ok (stepIntegral (l0 :: ls) be x +
        (if countLe (l0 :: ls) x = ls.length + 1 then (if x - BIG_M < 0 then 0 else x - BIG_M) * el else 0)) := by
  have hne : be ≠ [] := by intro h; simp [h] at hel
  have hlast : be[be.length - 1]? = some el := by rw [← hel, List.getLast?_eq_getElem?]
  unfold accAt
  by_cases h0 : l0 ≤ x
  · have hc : countLe (l0 :: ls) x = countLe ls x + 1 := by rw [countLe_cons, if_pos h0]
    obtain ⟨F, t, e, hF, ht, he, heq⟩ := acc_core BIG_M el x l0 ls be 0 hs hlen h0
    rw [hc]
    have hF' : (0 :: 0 :: cumsum (List.zipWith (· * ·) be (diffs (l0 :: ls))))[countLe ls x + 1]? = some F := by
      simpa [cumsum] using hF
    have ht' : (l0 :: (l0 :: ls).dropLast ++ [BIG_M])[countLe ls x + 1]? = some t := by
      simpa using ht
    have he' : (0 :: be ++ [el])[countLe ls x + 1]? = some e := by simpa using he
    simp only [Bool.false_eq_true, if_false]
    rw [pyIndex_ok hF', pyIndex_ok (show (l0 :: ls)[0]? = some l0 from rfl)]
    simp only [bind, Except.bind]
    rw [pyIndex_ok ht', pyIndex_ok hlast]
    simp only []
    rw [pyIndex_ok he']
    simp only [pure, Except.pure, Nat.add_right_cancel_iff]
    rw [heq, zero_add]
  · have hx : x < l0 := lt_of_not_ge h0
    have hall : ∀ a ∈ l0 :: ls, x < a := by
      intro a ha
      rcases List.mem_cons.mp ha with rfl | ha
      · exact hx
      · exact lt_of_lt_of_le hx ((List.pairwise_cons.mp hs).1 a ha)
    have hc : countLe (l0 :: ls) x = 0 := countLe_eq_zero hall
    rw [hc]
    simp only [Bool.false_eq_true, if_false]
    rw [pyIndex_ok hlast]
    have e1 : ∀ l : List K, pyIndex (0 :: l) 0 = .ok 0 := fun _ => rfl
    have e2 : ∀ l : List K, pyIndex (l0 :: l) 0 = .ok l0 := fun _ => rfl
    simp only [bind, Except.bind, List.cons_append, e1, e2, pure, Except.pure]
    rw [stepIntegral_left fun a ha => (hall a ha).le]
    simp

theorem length_diffs (l : List K) : (diffs l).length = l.length - 1 := by
  induction l with
  | nil => rfl
  | cons a t ih =>
    cases t with
    | nil => rfl
    | cons b t => simp [diffs, ih]

theorem getElem?_diffs (l : List K) (k : ℕ) (a b : K) (ha : l[k]? = some a) (hb : l[k + 1]? = some b) :
    (diffs l)[k]? = some (b - a) := by
  induction l generalizing k with
  | nil => simp at ha
  | cons c t ih =>
    cases t with
    | nil => simp at hb
    | cons d t =>
      cases k with
      | zero =>
        simp only [List.getElem?_cons_zero, Option.some.injEq] at ha
        simp only [zero_add, List.getElem?_cons_succ, List.getElem?_cons_zero, Option.some.injEq] at hb
        subst ha hb
        rfl
      | succ k =>
        simp only [diffs, List.getElem?_cons_succ]
        exact ih k ha hb

/-- `dx` given pointwise is `diffs limits`. -/
theorem eq_diffs {l dx : List K} (hlen : dx.length + 1 = l.length)
    (h : ∀ k a b, l[k]? = some a → l[k + 1]? = some b → dx[k]? = some (b - a)) : dx = diffs l := by
  apply List.ext_getElem?
  intro k
  by_cases hk : k < dx.length
  · have h1 : k < l.length := by omega
    have h2 : k + 1 < l.length := by omega
    have ha := List.getElem?_eq_getElem h1
    have hb := List.getElem?_eq_getElem h2
    rw [h k _ _ ha hb, getElem?_diffs l k _ _ ha hb]
  · rw [List.getElem?_eq_none (by omega), List.getElem?_eq_none (by rw [length_diffs]; omega)]

/-- `compute_accumulated_effect`, exactly, for weakly increasing limits. -/
theorem computeAccumulatedEffect_eq (l0 : K) (ls be xs : List K) (hs : (l0 :: ls).Pairwise (· ≤ ·))
    (hlen : be.length = ls.length) (el : K) (hel : be.getLast? = some el) :
    computeAccumulatedEffect xs (l0 :: ls) be (diffs (l0 :: ls)) =
      .ok (xs.map fun x => stepIntegral (l0 :: ls) be x +
        (if countLe (l0 :: ls) x = ls.length + 1 then (if x - BIG_M < 0 then 0 else x - BIG_M) * el else 0)) := by
  have hd : (diffs (l0 :: ls)).length = ls.length := by rw [length_diffs]; simp
  unfold computeAccumulatedEffect
  rw [digitize_sorted hs]
  simp only [bind, Except.bind, hd, hlen, ne_eq, not_true_eq_false, if_false]
  have hz : xs.zip (xs.map (countLe (l0 :: ls))) = xs.map fun x => (x, countLe (l0 :: ls) x) := by
    induction xs with
    | nil => rfl
    | cons x t ih => simp [ih]
  rw [hz, List.mapM_map]
  apply mapM_ok
  intro x _
  exact accAt_eq l0 ls be x hs hlen el hel

end Effector
