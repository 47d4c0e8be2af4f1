import Verif.Props.Unbiased
import Verif.Lemmas.RealSqrt

/-!
# C118: concrete cases, and the methods for which it fails
-/

set_option linter.unusedSectionVars false

namespace Effector

open Spec

/-- Averages over the outcomes, as a sum over injective functions (which can be computed). -/
theorem expected_functions {K : Type} [Field K] (N n : ℕ) (v : (Fin n ↪ Fin N) → K) :
    expected N n v = (∑ f : {f : Fin n → Fin N // Function.Injective f}, v ⟨f.1, f.2⟩) / (Fintype.card {f : Fin n → Fin N // Function.Injective f} : K) := by
  unfold expected
  congr 1
  · exact (Fintype.sum_equiv (Equiv.subtypeInjectiveEquivEmbedding (Fin n) (Fin N)) _ _ fun f => rfl).symm
  · rw [Fintype.card_congr (Equiv.subtypeInjectiveEquivEmbedding (Fin n) (Fin N))]

/-! ### The hypotheses are met -/

/-- Three instances. -/
noncomputable def threeReal : List (Row ℝ 2) := [![0, 0], ![1, 2], ![2, 1]]

/-- `PDP` of `x_0 x_1` with two of three instances, centred, with heterogeneity, after another `fit` and an `eval`: right on average. -/
example : ∃ (res : (Fin 2 ↪ Fin threeReal.length) → EvalOut ℝ) (all : EvalOut ℝ),
    (∀ e, pdpSampled (.pdp fun r => r 0 * r 1) (outcome e) threeReal (.int (2 : ℕ)) (some (fun _ => 0, fun _ => 2)) [.fit (.int 1) (.bool true) 100 true, .eval 0 [1] false (.bool false) false true]
      0 [0, 1, 2] true (.str "zero_integral") true = .ok (res e)) ∧
    pdpSampled (.pdp fun r => r 0 * r 1) (fun _ _ => []) threeReal (.str "all") (some (fun _ => 0, fun _ => 2)) [.fit (.int 1) (.bool true) 100 true, .eval 0 [1] false (.bool false) false true]
      0 [0, 1, 2] true (.str "zero_integral") true = .ok all ∧
    (∀ e, (res e).2.isSome = true) ∧ all.2.isSome = true ∧ RightOnAverage 3 res all := by
  refine C118_given_limits (.pdp fun r => r 0 * r 1) threeReal 2 (by norm_num) (by simp [threeReal]) (fun _ => 0) (fun _ => 2) ?_ _ 0 (by norm_num) ?_ [0, 1, 2] (by simp) true
    (fun _ => inferInstance) (.str "zero_integral") .zeroIntegral rfl true _
  · intro r hr t
    simp only [threeReal, List.mem_cons, List.not_mem_nil, or_false] at hr
    rcases hr with rfl | rfl | rfl <;> fin_cases t <;> norm_num
  · intro f c points vec h _
    simp at h
    exact h.2.2.1

/-- With default limits there is an answer for every outcome. -/
example : ∀ v : ℝ, threeReal.countP (fun r => r 0 = v) < 2 := by
  intro v
  simp only [threeReal, List.countP_cons, List.countP_nil]
  by_cases h0 : v = 0
  · subst h0; norm_num
  · by_cases h1 : v = 1
    · subst h1; norm_num
    · have h2 : ¬ (0 : ℝ) = v := fun h => h0 h.symm
      have h3 : ¬ (1 : ℝ) = v := fun h => h1 h.symm
      simp only [Matrix.cons_val_zero, h2, h3, decide_false, Bool.false_eq_true, if_false]
      by_cases h4 : (2 : ℝ) = v <;> simp [h4]

/-- The object of `C96_false_large` after `fit(0)`: the root is a region of 302 instances, and `eval` answers for every draw of 300 of them. -/
example : ∃ (o : RegionalObj ℚ 2) (nd : Node ℚ 2),
    regionalNew crowdBB "pdp" crowd none (.str "all") none none 3 none (fun q => toString q) = .ok o ∧ RegionalPdpOf o (.pdp fun r => r 1) ∧ o.cfg.bb.cast = id ∧
    (regRunM o [.fit (.int 0) crowdKw]).fitted 0 = true ∧ getNodeInfo (regRunM o [.fit (.int 0) crowdKw]) 0 0 = .ok nd ∧ 300 < nd.rows.length ∧
    ∀ v, nd.rows.countP (fun r => r 0 = v) < 300 := by
  have h : (match regionalNew crowdBB "pdp" crowd none (.str "all") none none 3 none (fun q => toString q) with
    | .ok o => o.cfg.methodName == "pdp" && (regRunM o [.fit (.int 0) crowdKw]).fitted 0 &&
      match getNodeInfo (regRunM o [.fit (.int 0) crowdKw]) 0 0 with
      | .ok nd => decide (nd.rows.length = 302) && nd.rows.all (fun r => decide (r 0 ∈ ([0, 1, 2] : List ℚ))) &&
        ([0, 1, 2] : List ℚ).all fun v => decide (nd.rows.countP (fun r => r 0 = v) < 300)
      | .error _ => false
    | .error _ => false) = true := by decide +kernel
  have hbb : ∀ o, regionalNew crowdBB "pdp" crowd none (.str "all") none none 3 none (fun q => toString q) = .ok o → o.cfg.bb = crowdBB := by
    intro o ho
    exact (C81_constructor crowdBB "pdp" crowd none (.str "all") none none 3 none _ (by intro e he; cases he) o ho).2.1
  cases ho : regionalNew crowdBB "pdp" crowd none (.str "all") none none 3 none (fun q => toString q) with
  | error e => rw [ho] at h; cases h
  | ok o =>
    rw [ho] at h
    simp only at h
    cases hn : getNodeInfo (regRunM o [.fit (.int 0) crowdKw]) 0 0 with
    | error e => rw [hn] at h; simp at h
    | ok nd =>
      rw [hn] at h
      simp only [Bool.and_eq_true, beq_iff_eq, decide_eq_true_eq, List.all_eq_true] at h
      obtain ⟨⟨h1, h2⟩, ⟨h3, h4⟩, h5⟩ := h
      refine ⟨o, nd, rfl, ⟨h1, by rw [hbb o ho]; rfl⟩, by rw [hbb o ho]; rfl, h2, hn, by omega, fun v => ?_⟩
      by_cases hv : v ∈ ([0, 1, 2] : List ℚ)
      · exact h5 v hv
      · rw [List.countP_eq_zero.mpr]
        · norm_num
        · intro r hr
          simp only [decide_eq_true_eq]
          rintro rfl
          exact hv (h4 r hr)

/-! ### ALE is not right on average -/

/-- Four instances, of which only one is in the middle third of the range. -/
def fourPoints : List (Row ℚ 2) := [![1 / 2, 0], ![1 / 2, 1], ![1 / 2, 2], ![3 / 2, 4]]

/-- `ALE(data, x_0 x_1, nof_instances=nof, axis_limits=[[0, 0], [3, 4]])`, `fit` with three bins, `eval(0, [1])`, `eval(0, [3/2])`. -/
def aleAt (choice : ℕ → ℕ → List ℕ) (nof : PyVal) (x : ℚ) : Option ℚ :=
  match Base.init choice fourPoints nof (some (fun _ => 0, ![3, 4])) with
  | .ok b =>
    match (aleEval (aleCfg id (List.map fun r => r 0 * r 1) b) (aleRun (aleCfg id (List.map fun r => r 0 * r 1) b) [.fit (.int 0) (.fixed 3 (some 0) 0) (.bool false)]) 0 [x] false
      (.bool false)).2 with
    | .ok ([v], none) => some v
    | _ => none
  | .error _ => none

/-- **C118 is false for ALE.**  Four instances, three of them drawn, three bins: a draw can leave a bin without instances, whose effect is then taken from another bin.  ALE of all four
instances is 3 at `3/2`; on average over the outcomes it is 2.625.  At `1`, the end of the first bin, the two agree. -/
theorem C118_false_ale :
    (∀ e : Fin 3 ↪ Fin 4, (aleAt (outcome e) (.int 3) 1).isSome = true ∧ (aleAt (outcome e) (.int 3) (3 / 2)).isSome = true) ∧
    aleAt (fun _ _ => []) (.str "all") (3 / 2) = some 3 ∧
    expected 4 3 (fun e => (aleAt (outcome e) (.int 3) (3 / 2)).getD 0) = 21 / 8 ∧
    aleAt (fun _ _ => []) (.str "all") 1 = some 1 ∧ expected 4 3 (fun e => (aleAt (outcome e) (.int 3) 1).getD 0) = 1 := by
  refine ⟨fun e => ?_, by decide +kernel, ?_, by decide +kernel, ?_⟩
  · have h : ∀ f : {f : Fin 3 → Fin 4 // Function.Injective f}, (aleAt (outcome ⟨f.1, f.2⟩) (.int 3) 1).isSome = true ∧ (aleAt (outcome ⟨f.1, f.2⟩) (.int 3) (3 / 2)).isSome = true := by
      decide +kernel
    exact h ⟨e, e.injective⟩
  · rw [expected_functions]
    decide +kernel
  · rw [expected_functions]
    decide +kernel

end Effector
