import Verif.Props.Envelope
import Verif.Props.AleInvariance
import Mathlib.Tactic.LinearCombination

/-!
# C122: a PDP has every shape that all ICE curves have
-/

namespace Effector

set_option linter.unusedSectionVars false

open Spec

variable {K : Type} [Field K] [LinearOrder K] [IsStrictOrderedRing K] {D : ℕ}

namespace Spec

/-- `w_0 y_0 + w_1 y_1 + ...` -/
def weighted (w y : List K) : K := (List.zipWith (· * ·) w y).sum

/-- On any three of the points `xs`, the values `y` lie as those of a convex function: the middle one not above the chord. -/
def ConvexAlong (xs y : List K) : Prop :=
  ∀ (i j k : ℕ) (a b c u v z : K), xs[i]? = some a → xs[j]? = some b → xs[k]? = some c → y[i]? = some u → y[j]? = some v → y[k]? = some z → a ≤ b → b ≤ c →
    (c - a) * v ≤ (c - b) * u + (b - a) * z

/-- For the instance `r`, as a function of feature `s` alone, what is averaged (the output, or for d-PDP the derivative) is convex. -/
def ConvexIn (M : PdpModel K D) (s : Fin D) (r : Row K D) : Prop := ∀ a b c, a ≤ b → b ≤ c → (c - a) * M.at s b r ≤ (c - b) * M.at s a r + (b - a) * M.at s c r

end Spec

theorem weighted_avg {α : Type} (w : List K) (xs : List K) (d : List α) (g : K → α → K) (hlen : w.length = xs.length) :
    weighted w (xs.map fun v => avg (d.map (g v))) = avg (d.map fun r => weighted w (xs.map fun v => g v r)) := by
  unfold weighted
  induction w generalizing xs with
  | nil =>
    simp only [List.zipWith_nil_left, List.sum_nil]
    unfold avg
    simp
  | cons a t ih =>
    cases xs with
    | nil => simp at hlen
    | cons x xs =>
      simp only [List.map_cons, List.zipWith_cons_cons, List.sum_cons]
      rw [ih xs (by simpa using hlen)]
      unfold avg
      rw [List.length_map, List.length_map, List.length_map, List.sum_map_add, ← mul_div_assoc, ← add_div]
      congr 2
      rw [← List.sum_map_mul_left]

theorem weighted_shift (w ys : List K) (hlen : w.length = ys.length) (z : K) : weighted w (ys.map fun y => y - z) = weighted w ys - w.sum * z := by
  unfold weighted
  induction w generalizing ys with
  | nil => simp
  | cons a t ih =>
    cases ys with
    | nil => simp at hlen
    | cons y ys =>
      simp only [List.map_cons, List.zipWith_cons_cons, List.sum_cons]
      rw [ih ys (by simpa using hlen)]
      ring

/-- **C122.**  After any calls that respect the axis limits: an inequality `t ≤ w_0 y(x_0) + w_1 y(x_1) + ...` between the values at the evaluated positions that every instance in use satisfies is
satisfied by the PDP (or d-PDP); for a centred one, if the weights add up to 0 (that is, if the inequality is about the shape, not the level). -/
theorem C122_shape [PySqrt K] (M : PdpModel K D) (lo hi : Fin D → K) (data : List (Row K D)) (s : Fin D) (calls : List (PdpOp K D))
    (hcalls : ∀ op ∈ calls, PdpCallOk data lo hi s op) (xs : List K) (vec : Bool) (ha : EvalArgsOk data lo hi s xs vec) (c : PyVal) (m : Centering)
    (hc : prepCentering c = .ok m) (w : List K) (t : K) (hlen : w.length = xs.length) (hw : m = .off ∨ w.sum = 0)
    (hice : ∀ r ∈ data, lo s ≤ r s → r s ≤ hi s → t ≤ weighted w (xs.map fun v => M.at s v r)) :
    ∃ mu, pdpEvalAfter M lo hi data calls s xs false c false vec = .ok (.meanOnly mu) ∧ mu.length = xs.length ∧ t ≤ weighted w mu := by
  refine ⟨_, evalAfter_ok M lo hi data s calls hcalls xs false hc false vec ha, by simp [PdpModel.ice], ?_⟩
  have e1 : (M.ice lo hi (inLimits data lo hi s) s m xs).map avg = xs.map fun v => avg ((inLimits data lo hi s).map fun r => M.at s v r - M.shift lo hi s r m) := by
    simp [PdpModel.ice, Function.comp_def]
  rw [e1, weighted_avg w xs _ (fun v r => M.at s v r - M.shift lo hi s r m) hlen]
  have hne : inLimits data lo hi s ≠ [] := used_ne ha.instances
  have hb : ∀ y ∈ (inLimits data lo hi s).map fun r => weighted w (xs.map fun v => M.at s v r - M.shift lo hi s r m), t ≤ y := by
    intro y hy
    obtain ⟨r, hr, rfl⟩ := List.mem_map.mp hy
    have hr' := List.mem_filter.mp hr
    have hr2 : lo s ≤ r s ∧ r s ≤ hi s := by simpa using hr'.2
    have := weighted_shift w (xs.map fun v => M.at s v r) (by simpa using hlen) (M.shift lo hi s r m)
    rw [List.map_map] at this
    simp only [Function.comp_def] at this
    rw [this]
    have hz : w.sum * M.shift lo hi s r m = 0 := by
      rcases hw with rfl | hw
      · simp [PdpModel.shift]
      · rw [hw, zero_mul]
    rw [hz, sub_zero]
    exact hice r hr'.1 hr2.1 hr2.2
  have hpos : (0 : K) < (((inLimits data lo hi s).map fun r => weighted w (xs.map fun v => M.at s v r - M.shift lo hi s r m)).length : K) := by
    rw [List.length_map]
    exact_mod_cast List.length_pos_of_ne_nil hne
  unfold avg
  rw [le_div_iff₀ hpos, mul_comm]
  generalize (inLimits data lo hi s).map (fun r => weighted w (xs.map fun v => M.at s v r - M.shift lo hi s r m)) = l at hb
  clear hpos
  induction l with
  | nil => simp
  | cons y l ih =>
    have h1 := hb y (by simp)
    have h2 := ih fun y hy => hb y (by simp [hy])
    rw [List.sum_cons, List.length_cons]
    push_cast
    linarith

/-- **C122, convexity**: if for every instance in use the model (its derivative) is convex in the feature, the PDP is convex, centred or not. -/
theorem C122_convex [PySqrt K] (M : PdpModel K D) (lo hi : Fin D → K) (data : List (Row K D)) (s : Fin D) (calls : List (PdpOp K D))
    (hcalls : ∀ op ∈ calls, PdpCallOk data lo hi s op) (xs : List K) (vec : Bool) (ha : EvalArgsOk data lo hi s xs vec) (c : PyVal) (m : Centering)
    (hc : prepCentering c = .ok m) (hice : ∀ r ∈ data, lo s ≤ r s → r s ≤ hi s → ConvexIn M s r) :
    ∃ mu, pdpEvalAfter M lo hi data calls s xs false c false vec = .ok (.meanOnly mu) ∧ mu.length = xs.length ∧ ConvexAlong xs mu := by
  refine ⟨_, evalAfter_ok M lo hi data s calls hcalls xs false hc false vec ha, by simp [PdpModel.ice], ?_⟩
  intro i j k a b q u v z hi' hj hk hu hv hz hab hbc
  simp only [PdpModel.ice, List.getElem?_map, hi', hj, hk, Option.map_some, Option.some.injEq] at hu hv hz
  subst hu hv hz
  have key : ∀ l : List (Row K D), (∀ r ∈ l, ConvexIn M s r) →
      (q - a) * (l.map fun r => M.at s b r - M.shift lo hi s r m).sum ≤
        (q - b) * (l.map fun r => M.at s a r - M.shift lo hi s r m).sum + (b - a) * (l.map fun r => M.at s q r - M.shift lo hi s r m).sum := by
    intro l hl
    induction l with
    | nil => simp
    | cons r l ih =>
      have h1 := hl r (by simp) a b q hab hbc
      have h2 := ih fun r hr => hl r (by simp [hr])
      simp only [List.map_cons, List.sum_cons]
      linarith
  have h1 := key (inLimits data lo hi s) fun r hr => by
    have hr' := List.mem_filter.mp hr
    have hr2 : lo s ≤ r s ∧ r s ≤ hi s := by simpa using hr'.2
    exact hice r hr'.1 hr2.1 hr2.2
  have hpos : (0 : K) < ((inLimits data lo hi s).length : K) := by exact_mod_cast List.length_pos_of_ne_nil (used_ne ha.instances)
  unfold avg
  simp only [List.length_map]
  rw [← mul_div_assoc, ← mul_div_assoc, ← mul_div_assoc, ← add_div, div_le_div_iff_of_pos_right hpos]
  exact h1

/-- **C122, equal values**: positions between which no instance in use distinguishes (the feature is periodic, a step function, symmetric, ...) get the same value. -/
theorem C122_equal [PySqrt K] (M : PdpModel K D) (lo hi : Fin D → K) (data : List (Row K D)) (s : Fin D) (calls : List (PdpOp K D))
    (hcalls : ∀ op ∈ calls, PdpCallOk data lo hi s op) (xs : List K) (vec : Bool) (ha : EvalArgsOk data lo hi s xs vec) (c : PyVal) (m : Centering)
    (hc : prepCentering c = .ok m) (i j : ℕ) (a b : K) (hi' : xs[i]? = some a) (hj : xs[j]? = some b) (hice : ∀ r ∈ data, lo s ≤ r s → r s ≤ hi s → M.at s a r = M.at s b r) :
    ∃ mu std, pdpEvalAfter M lo hi data calls s xs true c false vec = .ok (.meanStd mu std) ∧ (∃ u, mu[i]? = some u ∧ mu[j]? = some u) ∧ ∃ u, std[i]? = some u ∧ std[j]? = some u := by
  refine ⟨_, _, evalAfter_ok M lo hi data s calls hcalls xs true hc false vec ha, ?_, ?_⟩
  all_goals
    have e : ((inLimits data lo hi s).map fun r => M.at s a r - M.shift lo hi s r m) = (inLimits data lo hi s).map fun r => M.at s b r - M.shift lo hi s r m := by
      refine List.map_congr_left fun r hr => ?_
      have hr' := List.mem_filter.mp hr
      have hr2 : lo s ≤ r s ∧ r s ≤ hi s := by simpa using hr'.2
      rw [hice r hr'.1 hr2.1 hr2.2]
    simp [PdpModel.ice, List.getElem?_map, hi', hj, e]

/-! ### Concrete cases -/

/-- `PDP` of `x_0 ^ 2 x_1 + x_0` for `x_1 ≥ 0` is convex. -/
example : ∀ r : Row ℚ 2, 0 ≤ r 1 → ConvexIn (.pdp fun r => r 0 ^ 2 * r 1 + r 0) 0 r := by
  intro r hr a b c hab hbc
  simp only [PdpModel.at, Function.update_self, Function.update_of_ne (show (1 : Fin 2) ≠ 0 by decide)]
  nlinarith [mul_nonneg hr (mul_nonneg (mul_nonneg (sub_nonneg.mpr hab) (sub_nonneg.mpr hbc)) (sub_nonneg.mpr (hab.trans hbc)))]

/-- Instances in which the second feature falls while the first grows. -/
def falling : List (Row ℚ 2) := [![0, 2], ![1, 1], ![2, 0]]

/-- ALE has no such property: the output of `x_0 x_1` is a straight line in `x_0`, with a positive slope or flat, for every instance, but the ALE curve through the two bins has slope 3/2, then 0
(PDP: a straight line). -/
theorem C122_not_ale : (∀ r ∈ falling, ConvexIn (.pdp fun r => r 0 * r 1) 0 r) ∧
    aleSession (fun _ _ => []) id (fun r : Row ℚ 2 => r 0 * r 1) falling (some (fun _ => 0, fun _ => 4)) [.fit (.int 0) (.fixed 2 (some 1) 0) (.bool false)] 0 [0, 1, 2, 3, 4] false (.bool false) =
      .ok ([0, 3 / 2, 3, 3, 3], none) ∧ ¬ ConvexAlong [0, 1, 2, 3, (4 : ℚ)] [0, 3 / 2, 3, 3, 3] := by
  refine ⟨?_, by decide +kernel, ?_⟩
  · intro r _ a b c _ _
    simp only [PdpModel.at, Function.update_self, Function.update_of_ne (show (1 : Fin 2) ≠ 0 by decide)]
    apply le_of_eq
    ring
  · intro h
    have := h 1 2 3 1 2 3 (3 / 2) 3 3 rfl rfl rfl rfl rfl rfl (by norm_num) (by norm_num)
    norm_num at this

end Effector
