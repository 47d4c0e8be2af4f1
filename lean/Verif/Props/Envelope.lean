import Verif.Props.Levels
import Verif.Props.PdpProps
import Verif.Props.Monotone

/-!
# C92: PDP stays within the range of the model and one instance has little influence; C93: pooling data sets
-/

set_option linter.unusedSectionVars false

namespace Effector

open Spec

variable {K : Type} [Field K] [LinearOrder K] [IsStrictOrderedRing K] {D : ℕ}

/-! ### Means, deviations -/

/-- Popoviciu's inequality. -/
theorem popVar_le_half {l : List K} {a b : K} (h : ∀ y ∈ l, a ≤ y ∧ y ≤ b) : popVar l ≤ ((b - a) / 2) ^ 2 := by
  by_cases hne : l = []
  · rw [hne]; simp [popVar]; positivity
  · have hpos : (0 : K) < l.length := by exact_mod_cast List.length_pos_of_ne_nil hne
    have h1 := sum_sq_dev l ((a + b) / 2)
    have h2 : (l.map fun y => (y - (a + b) / 2) ^ 2).sum ≤ l.length * ((b - a) / 2) ^ 2 := by
      have h3 := (avg_bounds (l := l.map fun y => (y - (a + b) / 2) ^ 2) (g1 := 0) (g2 := ((b - a) / 2) ^ 2) (fun z hz => ?_) (by simpa using hne)).2
      · unfold avg at h3
        rw [List.length_map, div_le_iff₀ hpos] at h3
        linarith
      · obtain ⟨y, hy, rfl⟩ := List.mem_map.mp hz
        obtain ⟨y1, y2⟩ := h y hy
        exact ⟨sq_nonneg _, sq_le_sq' (by linarith) (by linarith)⟩
    rw [h1] at h2
    have h4 := le_of_mul_le_mul_left h2 hpos
    linarith [sq_nonneg (avg l - (a + b) / 2)]

/-- Exchanging one entry moves the mean by the difference of the entries, divided by the number of entries. -/
theorem avg_exchange (u v : List K) (x y : K) : avg (u ++ x :: v) - avg (u ++ y :: v) = (x - y) / ((u ++ x :: v).length : K) := by
  unfold avg
  simp only [List.sum_append, List.sum_cons, List.length_append, List.length_cons]
  rw [← sub_div]
  congr 1
  ring

/-! ### C92 -/

namespace Spec

/-- For every instance, whatever the value of feature `s`, what is averaged lies between `a` and `b` (for PDP: the model's output; for d-PDP: its derivative). -/
def RangeIn (M : PdpModel K D) (s : Fin D) (a b : K) : Prop := ∀ r v, a ≤ M.at s v r ∧ M.at s v r ≤ b

end Spec

theorem shift_in {M : PdpModel K D} {s : Fin D} {a b : K} (h : RangeIn M s a b) (lo hi : Fin D → K) (r : Row K D) (m : Centering) (hm : m ≠ .off) :
    a ≤ M.shift lo hi s r m ∧ M.shift lo hi s r m ≤ b := by
  cases m with
  | off => exact absurd rfl hm
  | zeroStart => exact h r _
  | zeroIntegral =>
    refine avg_bounds (fun y hy => ?_) ?_
    · obtain ⟨v, -, rfl⟩ := List.mem_map.mp hy
      exact h r v
    · simp [evenly]

/-- **C92, range**: after any (non-interfering) history, an uncentred PDP lies between the smallest and the largest output of the model, and its heterogeneity is at most
half their distance; a centred one is at most that distance away from 0, and so is its heterogeneity. -/
theorem C92_range [PySqrt K] [LawfulSqrt K] (M : PdpModel K D) (lo hi : Fin D → K) (data : List (Row K D)) (s : Fin D) (calls : List (PdpOp K D))
    (hcalls : ∀ op ∈ calls, PdpCallOk data lo hi s op) (xs : List K) (vec : Bool) (ha : EvalArgsOk data lo hi s xs vec) (c : PyVal) (m : Centering)
    (hc : prepCentering c = .ok m) (a b : K) (hM : RangeIn M s a b) :
    ∃ mu std, pdpEvalAfter M lo hi data calls s xs true c false vec = .ok (.meanStd mu std) ∧ mu.length = xs.length ∧ std.length = xs.length ∧
      (m = .off → (∀ y ∈ mu, a ≤ y ∧ y ≤ b) ∧ ∀ z ∈ std, z ≤ (b - a) / 2) ∧
      (m ≠ .off → (∀ y ∈ mu, |y| ≤ b - a) ∧ ∀ z ∈ std, z ≤ b - a) := by
  have hne : inLimits data lo hi s ≠ [] := used_ne ha.instances
  obtain ⟨r0, -⟩ := List.exists_mem_of_ne_nil _ hne
  have hab : 0 ≤ b - a := by have := hM r0 0; linarith
  refine ⟨_, _, evalAfter_ok M lo hi data s calls hcalls xs true hc false vec ha, by simp [PdpModel.ice], by simp [PdpModel.ice], fun hoff => ?_, fun hon => ?_⟩
  · subst hoff
    have hrow : ∀ row ∈ M.ice lo hi (inLimits data lo hi s) s .off xs, row ≠ [] ∧ ∀ y ∈ row, a ≤ y ∧ y ≤ b := by
      intro row hr
      obtain ⟨v, -, rfl⟩ := List.mem_map.mp hr
      refine ⟨by simpa using hne, fun y hy => ?_⟩
      obtain ⟨r, -, rfl⟩ := List.mem_map.mp hy
      simpa [PdpModel.shift] using hM r v
    refine ⟨fun y hy => ?_, fun z hz => ?_⟩
    · obtain ⟨row, hr, rfl⟩ := List.mem_map.mp hy
      exact avg_bounds (hrow row hr).2 (hrow row hr).1
    · obtain ⟨row, hr, rfl⟩ := List.mem_map.mp hz
      exact sqrt_le_of_sq (by linarith) (popVar_nonneg _) (popVar_le_half (hrow row hr).2)
  · have hrow : ∀ row ∈ M.ice lo hi (inLimits data lo hi s) s m xs, row ≠ [] ∧ ∀ y ∈ row, a - b ≤ y ∧ y ≤ b - a := by
      intro row hr
      obtain ⟨v, -, rfl⟩ := List.mem_map.mp hr
      refine ⟨by simpa using hne, fun y hy => ?_⟩
      obtain ⟨r, -, rfl⟩ := List.mem_map.mp hy
      have h1 := hM r v
      have h2 := shift_in hM lo hi r m hon
      exact ⟨by linarith, by linarith⟩
    refine ⟨fun y hy => ?_, fun z hz => ?_⟩
    · obtain ⟨row, hr, rfl⟩ := List.mem_map.mp hy
      have := avg_bounds (hrow row hr).2 (hrow row hr).1
      exact abs_le.mpr ⟨by linarith, by linarith⟩
    · obtain ⟨row, hr, rfl⟩ := List.mem_map.mp hz
      refine sqrt_le_of_sq hab (popVar_nonneg _) ((popVar_le_half (hrow row hr).2).trans (le_of_eq ?_))
      congr 1
      ring

/-- **C92, influence**: two data sets that differ in one instance, both with `n` instances within the limits: their uncentred PDPs differ nowhere by more than the range of
the model divided by `n`, centred ones by no more than twice that. -/
theorem C92_influence [PySqrt K] (M : PdpModel K D) (lo hi : Fin D → K) (u v : List (Row K D)) (r r' : Row K D) (s : Fin D)
    (hr : lo s ≤ r s ∧ r s ≤ hi s) (hr' : lo s ≤ r' s ∧ r' s ≤ hi s) (calls calls' : List (PdpOp K D))
    (hcalls : ∀ op ∈ calls, PdpCallOk (u ++ r :: v) lo hi s op) (hcalls' : ∀ op ∈ calls', PdpCallOk (u ++ r' :: v) lo hi s op)
    (xs : List K) (vec : Bool) (hlim : lo s < hi s) (hpos : vec = true ∨ xs ≠ []) (c : PyVal) (m : Centering)
    (hc : prepCentering c = .ok m) (a b : K) (hM : RangeIn M s a b) :
    ∃ mu mu', pdpEvalAfter M lo hi (u ++ r :: v) calls s xs false c false vec = .ok (.meanOnly mu) ∧
      pdpEvalAfter M lo hi (u ++ r' :: v) calls' s xs false c false vec = .ok (.meanOnly mu') ∧ mu.length = xs.length ∧ mu'.length = xs.length ∧
      ∀ (i : ℕ) (y y' : K), mu[i]? = some y → mu'[i]? = some y' →
        |y - y'| ≤ (if m = .off then b - a else 2 * (b - a)) / (((u ++ r :: v).filter fun q => lo s ≤ q s ∧ q s ≤ hi s).length : K) := by
  refine ⟨_, _, evalAfter_ok M lo hi _ s calls hcalls xs false hc false vec ⟨hlim, hpos, r, by simp, hr⟩,
    evalAfter_ok M lo hi _ s calls' hcalls' xs false hc false vec ⟨hlim, hpos, r', by simp, hr'⟩, by simp [PdpModel.ice], by simp [PdpModel.ice], fun i y y' hy hy' => ?_⟩
  have e : ∀ q : Row K D, lo s ≤ q s ∧ q s ≤ hi s → inLimits (u ++ q :: v) lo hi s = inLimits u lo hi s ++ q :: inLimits v lo hi s := by
    intro q hq
    unfold inLimits
    rw [List.filter_append, List.filter_cons_of_pos (by simpa using hq)]
  rw [e r hr] at hy
  rw [e r' hr'] at hy'
  simp only [PdpModel.ice, List.getElem?_map, Option.map_map, Option.map_eq_some_iff, Function.comp] at hy hy'
  obtain ⟨x, hx, rfl⟩ := hy
  obtain ⟨x', hx', rfl⟩ := hy'
  rw [hx] at hx'
  cases hx'
  rw [List.map_append, List.map_cons, List.map_append, List.map_cons, avg_exchange]
  have hlen : (((u ++ r :: v).filter fun q => lo s ≤ q s ∧ q s ≤ hi s).length : K) = ((inLimits u lo hi s ++ r :: inLimits v lo hi s).length : K) := by
    rw [← e r hr]; rfl
  rw [hlen]
  simp only [List.length_append, List.length_cons, List.length_map]
  have hp : (0 : K) < (((inLimits u lo hi s).length + ((inLimits v lo hi s).length + 1) : ℕ) : K) := by exact_mod_cast Nat.succ_pos _
  rw [abs_div, abs_of_pos hp]
  apply div_le_div_of_nonneg_right _ hp.le
  have h1 := hM r x
  have h2 := hM r' x
  by_cases hoff : m = .off
  · subst hoff
    simp only [PdpModel.shift, sub_zero, if_true]
    exact abs_le.mpr ⟨by linarith, by linarith⟩
  · rw [if_neg hoff]
    have h3 := shift_in hM lo hi r m hoff
    have h4 := shift_in hM lo hi r' m hoff
    exact abs_le.mpr ⟨by linarith, by linarith⟩

/-! ### C93 -/

/-- **C93**: a data set cut into parts in any way (every part with an instance within the limits of the feature): the PDP of the whole, centred or not, is the average of the
PDPs of the parts, weighted by their numbers of instances within the limits; its squared heterogeneity is the weighted average of those of the parts plus the weighted
mean of their squared distances from it. -/
theorem C93_pooling [PySqrt K] [LawfulSqrt K] (M : PdpModel K D) (lo hi : Fin D → K) (parts : List (List (Row K D))) (data : List (Row K D)) (hparts : parts.flatten.Perm data)
    (s : Fin D) (calls : List (PdpOp K D)) (hcalls : ∀ op ∈ calls, PdpCallOk data lo hi s op) (xs : List K) (vec : Bool)
    (hne : parts ≠ []) (ha : ∀ p ∈ parts, EvalArgsOk p lo hi s xs vec) (c : PyVal) (m : Centering) (hc : prepCentering c = .ok m) :
    ∃ mu std, pdpEvalAfter M lo hi data calls s xs true c false vec = .ok (.meanStd mu std) ∧
      ∃ of : List (Row K D) → List K × List K, (∀ p ∈ parts, ∀ calls', (∀ op ∈ calls', PdpCallOk p lo hi s op) →
          pdpEvalAfter M lo hi p calls' s xs true c false vec = .ok (.meanStd (of p).1 (of p).2)) ∧
        ∀ (i : ℕ) (x : K), xs[i]? = some x → ∃ y z, mu[i]? = some y ∧ std[i]? = some z ∧ ∃ yz : List (Row K D) → K × K,
          (∀ p ∈ parts, (of p).1[i]? = some (yz p).1 ∧ (of p).2[i]? = some (yz p).2) ∧
          y = (parts.map fun p => ((p.filter fun q => lo s ≤ q s ∧ q s ≤ hi s).length : K) / ((data.filter fun q => lo s ≤ q s ∧ q s ≤ hi s).length : K) * (yz p).1).sum ∧
          z ^ 2 = (parts.map fun p => ((p.filter fun q => lo s ≤ q s ∧ q s ≤ hi s).length : K) / ((data.filter fun q => lo s ≤ q s ∧ q s ≤ hi s).length : K) *
            ((yz p).2 ^ 2 + ((yz p).1 - y) ^ 2)).sum := by
  obtain ⟨p0, hp0⟩ := List.exists_mem_of_ne_nil _ hne
  have ha' : EvalArgsOk data lo hi s xs vec := by
    obtain ⟨r, hr, hrin⟩ := (ha p0 hp0).instances
    exact ⟨(ha p0 hp0).limits, (ha p0 hp0).positions, r, hparts.subset (List.mem_flatten.mpr ⟨p0, hp0, hr⟩), hrin⟩
  refine ⟨_, _, evalAfter_ok M lo hi data s calls hcalls xs true hc false vec ha',
    fun p => ((M.ice lo hi (inLimits p lo hi s) s m xs).map avg, (M.ice lo hi (inLimits p lo hi s) s m xs).map fun row => PySqrt.sqrt (popVar row)),
    fun p hp calls' hcalls' => evalAfter_ok M lo hi p s calls' hcalls' xs true hc false vec (ha p hp), fun i x hx => ?_⟩
  have hperm : (parts.map fun p => inLimits p lo hi s).flatten.Perm (inLimits data lo hi s) := by
    have := hparts.filter fun q => decide (lo s ≤ q s ∧ q s ≤ hi s)
    rw [List.filter_flatten] at this
    exact this
  let g : Row K D → K := fun r => M.at s x r - M.shift lo hi s r m
  refine ⟨avg ((inLimits data lo hi s).map g), PySqrt.sqrt (popVar ((inLimits data lo hi s).map g)), by simp [PdpModel.ice, hx, g], by simp [PdpModel.ice, hx, g],
    fun p => (avg ((inLimits p lo hi s).map g), PySqrt.sqrt (popVar ((inLimits p lo hi s).map g))), fun p hp => ⟨by simp [PdpModel.ice, hx, g], by simp [PdpModel.ice, hx, g]⟩, ?_, ?_⟩
  · rw [avg_parts _ _ hperm g, List.map_map]
    rfl
  · rw [pow_two, LawfulSqrt.sqrt_mul_self _ (popVar_nonneg _), popVar_parts _ _ hperm g, List.map_map]
    congr 1
    apply List.map_congr_left
    intro p hp
    simp only [Function.comp]
    rw [pow_two (PySqrt.sqrt _), LawfulSqrt.sqrt_mul_self _ (popVar_nonneg _)]
    rfl

/-- Two parts of a data set, the model `x_0 x_1`: `6 = 1/3 · 2 + 2/3 · 8`; and changing one of three instances moves the PDP by a third of the change. -/
theorem C93_example :
    pdpEvalAfter (.pdp fun r : Row ℚ 2 => r 0 * r 1) ![0, 0] ![2, 5] [![0, 1], ![1, 3], ![2, 5]] [] 0 [2] false (.bool false) false true = .ok (.meanOnly [6]) ∧
    pdpEvalAfter (.pdp fun r : Row ℚ 2 => r 0 * r 1) ![0, 0] ![2, 5] [![0, 1]] [] 0 [2] false (.bool false) false true = .ok (.meanOnly [2]) ∧
    pdpEvalAfter (.pdp fun r : Row ℚ 2 => r 0 * r 1) ![0, 0] ![2, 5] [![1, 3], ![2, 5]] [] 0 [2] false (.bool false) false true = .ok (.meanOnly [8]) ∧
    pdpEvalAfter (.pdp fun r : Row ℚ 2 => r 0 * r 1) ![0, 0] ![2, 5] [![0, 1], ![1, 0], ![2, 5]] [] 0 [2] false (.bool false) false true = .ok (.meanOnly [4]) := by
  decide +kernel

/-- The hypotheses of `C92_range` hold for a bounded model. -/
example : RangeIn (.pdp fun r : Row ℚ 2 => if r 0 ≤ r 1 then 1 else 3) 0 1 3 := by
  intro r v
  simp only [PdpModel.at]
  split <;> norm_num

end Effector
