import Verif.Props.UnbiasedAle
import Verif.Props.UnbiasedExamples

/-!
# C119: concrete cases
-/

set_option linter.unusedSectionVars false

namespace Effector

open Spec

/-- A value that more than `N - n` instances have is among any `n` of them. -/
theorem kept_value {K : Type} [Field K] [LinearOrder K] {D : ℕ} {data d : List (Row K D)} (hd : d.Subperm data) {n : ℕ} (hn : n ≤ d.length) {s : Fin D} {v : K}
    (hv : data.length - n < data.countP fun r => r s = v) : v ∈ d.map (· s) := by
  obtain ⟨l0, hl0, hsub⟩ := hd
  obtain ⟨rest, hp0⟩ := hsub.exists_perm_append
  have hp : data.Perm (d ++ rest) := hp0.trans (hl0.append_right rest)
  have h1 := hp.length_eq
  have h2 := hp.countP_eq fun r => decide (r s = v)
  rw [List.length_append] at h1
  rw [List.countP_append] at h2
  have h3 : rest.countP (fun r => decide (r s = v)) ≤ rest.length := List.countP_le_length
  have h4 : 0 < d.countP fun r => decide (r s = v) := by omega
  obtain ⟨r, hr, hrv⟩ := List.countP_pos_iff.mp h4
  exact List.mem_map.mpr ⟨r, hr, by simpa using hrv⟩

/-- Two instances in each half of the range. -/
def pairsOfPoints : List (Row ℚ 2) := [![1 / 2, 0], ![1 / 2, 1], ![3 / 2, 2], ![3 / 2, 4]]

theorem pairsOfPoints_bins : NoBinLost pairsOfPoints 3 (fun _ => 0) ![2, 4] 0 2 1 where
  range := by intro t; fin_cases t <;> norm_num
  inside := by
    intro r hr
    simp only [pairsOfPoints, List.mem_cons, List.not_mem_nil, or_false] at hr
    rcases hr with rfl | rfl | rfl | rfl <;> norm_num
  some_bin := by norm_num
  many := by decide +kernel
  values := by
    intro d hd hn
    have h1 : (1 / 2 : ℚ) ∈ d.map (· 0) := kept_value hd hn (by decide +kernel)
    have h2 : (3 / 2 : ℚ) ∈ d.map (· 0) := kept_value hd hn (by decide +kernel)
    unfold distinct
    have : ({1 / 2, 3 / 2} : Finset ℚ).card ≤ (d.map (· 0)).toFinset.card := by
      apply Finset.card_le_card
      intro x hx
      simp only [Finset.mem_insert, Finset.mem_singleton] at hx
      rw [List.mem_toFinset]
      rcases hx with rfl | rfl
      · exact h1
      · exact h2
    rw [List.card_toFinset] at this
    have h3 : ({1 / 2, 3 / 2} : Finset ℚ).card = 2 := by decide +kernel
    omega

/-- `ALE` of `x_0² x_1` with three of the four instances, two fixed bins, centred: right on average. -/
example : ∃ (res : (Fin 3 ↪ Fin pairsOfPoints.length) → EvalOut ℚ) (all : EvalOut ℚ),
    (∀ e, aleSampled id (fun r => r 0 * r 0 * r 1) (outcome e) pairsOfPoints (.int (3 : ℕ)) (fun _ => 0) ![2, 4] 0 2 (some 0) 1 [0, 1, 2] true (.str "zero_integral") = .ok (res e)) ∧
    aleSampled id (fun r => r 0 * r 0 * r 1) (fun _ _ => []) pairsOfPoints (.str "all") (fun _ => 0) ![2, 4] 0 2 (some 0) 1 [0, 1, 2] true (.str "zero_integral") = .ok all ∧
    CurveRightOnAverage 3 res all := by
  obtain ⟨h1, all, h2⟩ := C119_ale_answers id (fun r => r 0 * r 0 * r 1) pairsOfPoints 3 (by decide) _ _ 0 2 1 pairsOfPoints_bins (by norm_num) [0, 1, 2] true (.str "zero_integral")
    .zeroIntegral rfl fun _ _ => []
  choose res hres using h1
  exact ⟨res, all, hres, h2, C119_ale id _ pairsOfPoints 3 (by decide) _ _ 0 2 (some 0) 1 pairsOfPoints_bins [0, 1, 2] true _ _ res all hres h2⟩

/-- `RHALE` with the effects `[1, 0], [2, 0], [5, 0], [9, 0]` given: right on average. -/
example : ∃ (res : (Fin 3 ↪ Fin pairsOfPoints.length) → EvalOut ℚ) (all : EvalOut ℚ),
    (∀ e, rhaleSampled (fun r => r 0 * r 1) none (some [![1, 0], ![2, 0], ![5, 0], ![9, 0]]) (outcome e) pairsOfPoints (.int (3 : ℕ)) (fun _ => 0) ![2, 4] 0 2 (some 0) 1 [0, 1, 2] true
      (.str "zero_start") = .ok (res e)) ∧
    rhaleSampled (fun r => r 0 * r 1) none (some [![1, 0], ![2, 0], ![5, 0], ![9, 0]]) (fun _ _ => []) pairsOfPoints (.str "all") (fun _ => 0) ![2, 4] 0 2 (some 0) 1 [0, 1, 2] true
      (.str "zero_start") = .ok all ∧ CurveRightOnAverage 3 res all := by
  have hg : ∀ g, some [(![1, 0] : Row ℚ 2), ![2, 0], ![5, 0], ![9, 0]] = some g → g.length = pairsOfPoints.length := by
    intro g hg
    cases hg
    rfl
  obtain ⟨h1, all, h2⟩ := C119_rhale_answers (fun r => r 0 * r 1) none pairsOfPoints _ hg 3 (by decide) _ _ 0 2 1 pairsOfPoints_bins (by norm_num) [0, 1, 2] true (.str "zero_start")
    .zeroStart rfl fun _ _ => []
  choose res hres using h1
  exact ⟨res, all, hres, h2, C119_rhale _ none pairsOfPoints _ hg 3 (by decide) _ _ 0 2 (some 0) 1 pairsOfPoints_bins [0, 1, 2] true _ _ res all hres h2⟩

/-- The value of the RHALE curve at `x`. -/
def rhaleAt (choice : ℕ → ℕ → List ℕ) (nof : PyVal) (x : ℚ) : Option ℚ :=
  match rhaleSampled (fun r => r 0 * r 1) none (some [![1, 0], ![2, 0], ![5, 0], ![9, 0]]) choice pairsOfPoints nof (fun _ => 0) ![2, 4] 0 2 (some 0) 1 [x] false (.bool false) with
  | .ok ([v], none) => some v
  | _ => none

/-- The single draws do give other values. -/
example : rhaleAt (fun _ _ => []) (.str "all") 2 = some (17 / 2) ∧ rhaleAt (fun _ _ => [0, 1, 2]) (.int 3) 2 = some (13 / 2) ∧ rhaleAt (fun _ _ => [0, 3, 2]) (.int 3) 2 = some 8 := by
  refine ⟨?_, ?_, ?_⟩ <;> decide +kernel

end Effector
