import Verif.Props.Pdp
import Verif.Props.AleEffects
import Mathlib.Data.Fin.VecNotation

/-!
# C25, C26, C31, C33-C38, C60 for PDP and d-PDP

`Spec.pdpEvalAfter` is what a user sees: build the object on float data, make any calls, then `eval`.
-/

set_option linter.unusedSectionVars false

namespace Effector

open Spec

variable {K : Type} [Field K] [LinearOrder K] [IsStrictOrderedRing K] {D : ℕ}

namespace Spec

/-- `obj = PDP(data, ...)` (or `DerPDP`) with the axis limits `lo`, `hi`; the `calls`; then `obj.eval(s, xs, het, c, all, vec)`. -/
def pdpEvalAfter [PySqrt K] (M : PdpModel K D) (lo hi : Fin D → K) (data : List (Row K D)) (calls : List (PdpOp K D)) (s : Fin D) (xs : List K)
    (het : Bool) (c : PyVal) (all vec : Bool) : Py (PdpOut K) :=
  (pdpEval (pdpCfgOf M lo hi) (pdpRun (pdpCfgOf M lo hi) data calls) s xs het c all vec).2

/-- `eval` is neither refused nor without data: proper limits, positions given (unless the batch implementation is used), and at least one
instance within the limits (numpy's mean over no instances is NaN). -/
structure EvalArgsOk (data : List (Row K D)) (lo hi : Fin D → K) (s : Fin D) (xs : List K) (vec : Bool) : Prop where
  limits : lo s < hi s
  positions : vec = true ∨ xs ≠ []
  instances : ∃ r ∈ data, lo s ≤ r s ∧ r s ≤ hi s

end Spec

theorem evalAfter_ok [PySqrt K] (M : PdpModel K D) (lo hi : Fin D → K) (data : List (Row K D)) (s : Fin D) (calls : List (PdpOp K D))
    (hcalls : ∀ op ∈ calls, PdpCallOk data lo hi s op) (xs : List K) (het : Bool) {c : PyVal} {m : Centering} (hc : prepCentering c = .ok m)
    (all vec : Bool) (ha : EvalArgsOk data lo hi s xs vec) :
    pdpEvalAfter M lo hi data calls s xs het c all vec = .ok (report het all (M.ice lo hi (inLimits data lo hi s) s m xs)) := by
  unfold pdpEvalAfter
  rw [pdp_eval_spec M lo hi data s calls hcalls, hc]
  unfold PdpModel.value
  have h2 : ¬ (vec = false ∧ xs = []) := by
    rintro ⟨rfl, rfl⟩
    simpa using ha.positions
  simp only [ha.limits, not_true_eq_false, if_false, if_neg h2]

/-! ### C33 -/

/-- **C33.**  After any (non-interfering) history, uncentred: `return_all` gives the ICE values, i.e. the model output with the feature set to
`xs[t]` and everything else unchanged; the PDP is their average over the instances, the heterogeneity their population standard deviation. -/
theorem C33_pdp_is_mean_of_ice [PySqrt K] (f : Row K D → K) (lo hi : Fin D → K) (data : List (Row K D)) (s : Fin D) (calls : List (PdpOp K D))
    (hcalls : ∀ op ∈ calls, PdpCallOk data lo hi s op) (xs : List K) (vec : Bool) (ha : EvalArgsOk data lo hi s xs vec) :
    let used := data.filter fun r => lo s ≤ r s ∧ r s ≤ hi s
    let ice := xs.map fun v => used.map fun r => f (Function.update r s v)
    pdpEvalAfter (.pdp f) lo hi data calls s xs false (.bool false) true vec = .ok (.all ice) ∧
    pdpEvalAfter (.pdp f) lo hi data calls s xs false (.bool false) false vec = .ok (.meanOnly (ice.map avg)) ∧
    pdpEvalAfter (.pdp f) lo hi data calls s xs true (.bool false) false vec =
      .ok (.meanStd (ice.map avg) (ice.map fun row => PySqrt.sqrt (popVar row))) := by
  intro used ice
  have hi : (PdpModel.pdp f).ice lo hi (inLimits data lo hi s) s .off xs = ice := by
    unfold PdpModel.ice
    simp only [PdpModel.shift, sub_zero]
    rfl
  refine ⟨?_, ?_, ?_⟩ <;>
  · rw [evalAfter_ok _ lo _ data s calls hcalls xs _ (m := .off) rfl _ vec ha, hi]
    rfl

/-- **C33**, the heterogeneity is never negative. -/
theorem C33_std_nonneg [PySqrt K] [LawfulSqrt K] (M : PdpModel K D) (lo hi : Fin D → K) (data : List (Row K D)) (s : Fin D)
    (calls : List (PdpOp K D)) (hcalls : ∀ op ∈ calls, PdpCallOk data lo hi s op) (xs : List K) (c : PyVal) (vec : Bool) (mu std : List K)
    (h : pdpEvalAfter M lo hi data calls s xs true c false vec = .ok (.meanStd mu std)) : std.length = xs.length ∧ ∀ z ∈ std, 0 ≤ z := by
  unfold pdpEvalAfter at h
  rw [pdp_eval_spec M lo hi data s calls hcalls] at h
  cases hm : prepCentering c with
  | error e => rw [hm] at h; cases h
  | ok m =>
    rw [hm] at h
    simp only [] at h
    unfold PdpModel.value at h
    by_cases h1 : lo s < hi s
    · by_cases h2 : vec = false ∧ xs = []
      · simp only [h1, not_true_eq_false, if_false, if_pos h2] at h
        cases h
      · simp only [h1, not_true_eq_false, if_false, if_neg h2, report] at h
        cases h
        refine ⟨by simp [PdpModel.ice], fun z hz => ?_⟩
        obtain ⟨row, -, rfl⟩ := List.mem_map.1 hz
        exact LawfulSqrt.sqrt_nonneg _
    · simp only [h1, not_false_eq_true, if_true] at h
      cases h

/-! ### C25, C26 -/

/-- **C25 for PDP / d-PDP.**  With `zero_start`, at every requested position equal to the left axis limit all (d-)ICE values, their mean and
their standard deviation are 0. -/
theorem C25_pdp_zero_start [PySqrt K] [LawfulSqrt K] (M : PdpModel K D) (lo hi : Fin D → K) (data : List (Row K D)) (s : Fin D)
    (calls : List (PdpOp K D)) (hcalls : ∀ op ∈ calls, PdpCallOk data lo hi s op) (xs : List K) (vec : Bool)
    (ha : EvalArgsOk data lo hi s xs vec) :
    ∃ ice mu std, pdpEvalAfter M lo hi data calls s xs false (.str "zero_start") true vec = .ok (.all ice) ∧
      pdpEvalAfter M lo hi data calls s xs true (.str "zero_start") false vec = .ok (.meanStd mu std) ∧
      ∀ (t : ℕ), xs[t]? = some (lo s) →
        (∃ row, ice[t]? = some row ∧ ∀ z ∈ row, z = 0) ∧ mu[t]? = some (0 : K) ∧ std[t]? = some (0 : K) := by
  have hc : prepCentering (.str "zero_start") = .ok .zeroStart := by rfl
  refine ⟨_, _, _, evalAfter_ok M lo hi data s calls hcalls xs false hc true vec ha, evalAfter_ok M lo hi data s calls hcalls xs true hc false vec ha,
    fun t ht => ?_⟩
  have hrow : ∀ z ∈ (inLimits data lo hi s).map (fun r => M.at s (lo s) r - M.shift lo hi s r .zeroStart), z = 0 := by
    intro z hz
    obtain ⟨r, -, rfl⟩ := List.mem_map.1 hz
    simp [PdpModel.shift]
  have havg : avg ((inLimits data lo hi s).map (fun r => M.at s (lo s) r - M.shift lo hi s r .zeroStart)) = 0 := by
    rcases Classical.em ((inLimits data lo hi s).map (fun r => M.at s (lo s) r - M.shift lo hi s r .zeroStart) = []) with h | h
    · rw [h]; simp [avg]
    · exact avg_const hrow h
  refine ⟨⟨_, by simp [PdpModel.ice, ht], hrow⟩, ?_, ?_⟩
  · simp only [PdpModel.ice, List.getElem?_map, ht, Option.map_some, havg]
  · simp only [PdpModel.ice, List.getElem?_map, ht, Option.map_some, popVar_const hrow, sqrt_zero]

theorem sum_avg_swap {α β : Type} (xs : List α) (d : List β) (g : α → β → K) (h : ∀ r ∈ d, (xs.map fun v => g v r).sum = 0) :
    (xs.map fun v => avg (d.map (g v))).sum = 0 := by
  have : (xs.map fun v => avg (d.map (g v))).sum = (xs.map fun v => (d.map (g v)).sum).sum / (d.length : K) := by
    unfold avg
    simp only [List.length_map]
    induction xs with
    | nil => simp
    | cons a t ih =>
      have : ∀ t : List α, (t.map fun v => (d.map (g v)).sum / (d.length : K)).sum = (t.map fun v => (d.map (g v)).sum).sum / (d.length : K) := by
        intro t
        induction t with
        | nil => simp
        | cons a t ih => simp [ih, add_div]
      simp [this, add_div]
  rw [this]
  have h2 : (xs.map fun v => (d.map (g v)).sum).sum = (d.map fun r => (xs.map fun v => g v r).sum).sum := by
    clear h this
    induction xs with
    | nil => simp
    | cons a t ih =>
      simp only [List.map_cons, List.sum_cons, ih]
      rw [← List.sum_map_add]
  rw [h2, List.map_congr_left (fun r hr => h r hr)]
  simp

/-- **C26 for PDP / d-PDP.**  Evaluated on the centring grid (100 equidistant points from the left to the right axis limit), every centred
(d-)ICE curve sums to 0, hence so does the mean curve. -/
theorem C26_pdp_zero_integral [PySqrt K] (M : PdpModel K D) (lo hi : Fin D → K) (data : List (Row K D)) (s : Fin D)
    (calls : List (PdpOp K D)) (hcalls : ∀ op ∈ calls, PdpCallOk data lo hi s op) (vec : Bool) (h : lo s < hi s)
    (hne : ∃ r ∈ data, lo s ≤ r s ∧ r s ≤ hi s) (c : PyVal)
    (hc : c = .bool true ∨ c = .str "zero_integral") :
    ∃ ice mu, pdpEvalAfter M lo hi data calls s (evenly (lo s) (hi s) 100) false c true vec = .ok (.all ice) ∧
      pdpEvalAfter M lo hi data calls s (evenly (lo s) (hi s) 100) false c false vec = .ok (.meanOnly mu) ∧
      ice.length = 100 ∧ (∀ row ∈ ice, row.length = (inLimits data lo hi s).length) ∧
      (∀ (i : ℕ), i < (inLimits data lo hi s).length → (ice.map fun row => row.getD i 0).sum = 0) ∧ mu.sum = 0 := by
  have hc' : prepCentering c = .ok .zeroIntegral := by rcases hc with rfl | rfl <;> rfl
  have ha : EvalArgsOk data lo hi s (evenly (lo s) (hi s) 100) vec := ⟨h, Or.inr (by unfold evenly; simp), hne⟩
  refine ⟨_, _, evalAfter_ok M lo hi data s calls hcalls _ false hc' true vec ha, evalAfter_ok M lo hi data s calls hcalls _ false hc' false vec ha,
    by simp [PdpModel.ice, evenly], ?_, ?_, ?_⟩
  · intro row hrow
    obtain ⟨v, -, rfl⟩ := List.mem_map.1 hrow
    simp
  · intro i hi'
    unfold PdpModel.ice
    rw [List.map_map]
    have : ((fun row : List K => row.getD i 0) ∘ fun v => (inLimits data lo hi s).map fun r => M.at s v r - M.shift lo hi s r .zeroIntegral) =
        fun v => M.at s v (inLimits data lo hi s)[i] - M.shift lo hi s (inLimits data lo hi s)[i] .zeroIntegral := by
      funext v
      simp [hi']
    rw [this]
    have := sum_map_sub_avg ((evenly (lo s) (hi s) 100).map fun v => M.at s v (inLimits data lo hi s)[i])
    rw [List.map_map] at this
    exact this
  · unfold PdpModel.ice
    rw [List.map_map]
    refine sum_avg_swap _ _ (fun v r => M.at s v r - M.shift lo hi s r .zeroIntegral) fun r _ => ?_
    have := sum_map_sub_avg ((evenly (lo s) (hi s) 100).map fun v => M.at s v r)
    rw [List.map_map] at this
    exact this

/-- **C28 for PDP / d-PDP.**  Centring subtracts from each ICE curve a constant that does not depend on the position. -/
theorem C28_pdp_centring_is_a_shift [PySqrt K] (M : PdpModel K D) (lo hi : Fin D → K) (data : List (Row K D)) (s : Fin D)
    (calls : List (PdpOp K D)) (hcalls : ∀ op ∈ calls, PdpCallOk data lo hi s op) (xs : List K) (vec : Bool) (ha : EvalArgsOk data lo hi s xs vec)
    (c : PyVal) (m : Centering) (hc : prepCentering c = .ok m) :
    ∃ z : List K, ∃ raw cen, pdpEvalAfter M lo hi data calls s xs false (.bool false) true vec = .ok (.all raw) ∧
      pdpEvalAfter M lo hi data calls s xs false c true vec = .ok (.all cen) ∧ z.length = (inLimits data lo hi s).length ∧
      cen = raw.map fun row => List.zipWith (· - ·) row z := by
  refine ⟨(inLimits data lo hi s).map fun r => M.shift lo hi s r m, _, _,
    evalAfter_ok M lo hi data s calls hcalls xs false (m := .off) rfl true vec ha,
    evalAfter_ok M lo hi data s calls hcalls xs false hc true vec ha, by simp, ?_⟩
  unfold PdpModel.ice
  rw [List.map_map]
  apply List.map_congr_left
  intro v _
  simp only [Function.comp, PdpModel.shift, sub_zero]
  rw [List.zipWith_map, List.zipWith_self]

end Effector
