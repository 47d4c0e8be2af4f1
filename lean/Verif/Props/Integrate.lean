import Verif.Lemmas.Binning
import Verif.Model.Utils
import Mathlib.Tactic.FieldSimp

/-!
# C58: the numerical integrals of effector/utils_integrate.py
-/

set_option linter.unusedSectionVars false

namespace Effector

section

variable {K : Type} [Field K] [LinearOrder K] [IsStrictOrderedRing K]

theorem sum_range_odd (n : ℕ) : ((List.range n).map fun i : ℕ => (2 * (i : K) + 1)).sum = (n : K) ^ 2 := by
  induction n with
  | zero => simp
  | succ n ih =>
    rw [List.range_succ, List.map_append, List.sum_append, ih]
    push_cast
    simp
    ring

theorem sum_map_affine {α : Type} (l : List α) (g : α → K) (p q : K) :
    (l.map fun i => p + q * g i).sum = (l.length : K) * p + q * (l.map g).sum := by
  induction l with
  | nil => simp
  | cons a t ih =>
    simp only [List.map_cons, List.sum_cons, ih, List.length_cons]
    push_cast
    ring

/-- **C58 (mean).** `mean_1d_linspace` is exact for affine functions, with any number of points of at least two; constants are the case `p = 0`. -/
theorem C58_mean_exact_affine (p q a b : K) (n : ℕ) (hn : 2 ≤ n) :
    mean1dLinspace (fun xs => .ok (xs.map fun x => p * x + q)) a b n = .ok (p * ((a + b) / 2) + q) := by
  obtain ⟨n, rfl⟩ : ∃ m, n = m + 1 := ⟨n - 1, by omega⟩
  unfold mean1dLinspace
  rw [C58_grid_is_cell_centres a b n (by omega), Spec.centres]
  simp only [bind, Except.bind, pure, Except.pure, mean, List.map_map, List.length_map, List.length_range]
  have h : (n : K) ≠ 0 := by exact_mod_cast (by omega : n ≠ 0)
  have e : ((fun x => p * x + q) ∘ Spec.cellCentre a b n) = fun i : ℕ => (p * a + q) + (p * (b - a) / (2 * (n : K))) * (2 * (i : K) + 1) := by
    funext i
    simp only [Function.comp, Spec.cellCentre]
    field_simp
    ring
  rw [e, sum_map_affine, sum_range_odd, List.length_range]
  congr 1
  field_simp
  ring

theorem C58_mean_exact_const (c a b : K) (n : ℕ) (hn : 2 ≤ n) :
    mean1dLinspace (fun xs => .ok (xs.map fun _ => c)) a b n = .ok c := by
  have := C58_mean_exact_affine (0 : K) c a b n hn
  simpa using this

/-- The mean rule stays between the bounds of the function on the interval. -/
theorem C58_mean_within_bounds (g : K → K) (lo hi a b : K) (hab : a ≤ b) (n : ℕ) (hn : 2 ≤ n) (hg : ∀ x, a ≤ x → x ≤ b → lo ≤ g x ∧ g x ≤ hi) :
    ∃ m, mean1dLinspace (fun xs => .ok (xs.map g)) a b n = .ok m ∧ lo ≤ m ∧ m ≤ hi := by
  obtain ⟨n, rfl⟩ : ∃ m, n = m + 1 := ⟨n - 1, by omega⟩
  unfold mean1dLinspace
  rw [C58_grid_is_cell_centres a b n (by omega), Spec.centres]
  refine ⟨_, rfl, ?_⟩
  have hn0 : (0 : K) < n := by exact_mod_cast (by omega : 0 < n)
  have hb : ∀ x ∈ ((List.range n).map (Spec.cellCentre a b n)).map g, lo ≤ x ∧ x ≤ hi := by
    intro y hy
    simp only [List.mem_map, List.mem_range] at hy
    obtain ⟨x, ⟨i, hi', rfl⟩, rfl⟩ := hy
    apply hg
    · unfold Spec.cellCentre
      have : 0 ≤ (2 * (i : K) + 1) * (b - a) / (2 * (n : K)) := by
        apply div_nonneg
        · exact mul_nonneg (by positivity) (by linarith)
        · positivity
      linarith
    · unfold Spec.cellCentre
      have : (2 * (i : K) + 1) * (b - a) / (2 * (n : K)) ≤ b - a := by
        rw [div_le_iff₀ (by positivity), mul_comm]
        apply mul_le_mul_of_nonneg_left _ (by linarith)
        have : (i : K) + 1 ≤ n := by exact_mod_cast hi'
        linarith
      linarith
  have hs : ∀ l : List K, (∀ x ∈ l, lo ≤ x ∧ x ≤ hi) → (l.length : K) * lo ≤ l.sum ∧ l.sum ≤ (l.length : K) * hi := by
    intro l
    induction l with
    | nil => simp
    | cons x t ih =>
      intro h
      obtain ⟨i1, i2⟩ := ih fun y hy => h y (List.mem_cons_of_mem _ hy)
      obtain ⟨j1, j2⟩ := h x (List.mem_cons_self ..)
      simp only [List.length_cons, List.sum_cons]
      push_cast
      constructor <;> nlinarith
  obtain ⟨s1, s2⟩ := hs _ hb
  simp only [mean]
  simp only [List.length_map, List.length_range] at s1 s2 ⊢
  constructor
  · rw [le_div_iff₀ hn0]; linarith
  · rw [div_le_iff₀ hn0]; linarith

/-- **C58 (integral).** `integrate_1d_linspace` sums 999 cells of width `(stop - start) / 1000`: for affine functions the result is 999/1000 of the integral. -/
theorem C58_integral_partial (p q a b : K) :
    integrate1dLinspace (fun xs => .ok (xs.map fun x => p * x + q)) a b = .ok (999 / 1000 * ((p * ((a + b) / 2) + q) * (b - a))) := by
  unfold integrate1dLinspace
  rw [C58_grid_is_cell_centres a b 999 (by omega), Spec.centres]
  simp only [bind, Except.bind, pure, Except.pure, List.map_map]
  have e : ((fun x => p * x + q) ∘ Spec.cellCentre a b 999) = fun i : ℕ => (p * a + q) + (p * (b - a) / (2 * 999)) * (2 * (i : K) + 1) := by
    funext i
    simp only [Function.comp, Spec.cellCentre]
    push_cast
    ring
  rw [e, sum_map_affine, sum_range_odd, List.length_range]
  congr 1
  push_cast
  field_simp
  ring

/-- **C58 is false for `integrate_1d_linspace`**: it is exact for no non-zero constant on an interval of positive length. -/
theorem C58_false_integral (c a b : K) (hc : c ≠ 0) (hab : a ≠ b) :
    integrate1dLinspace (fun xs => .ok (xs.map fun _ => c)) a b ≠ .ok (c * (b - a)) := by
  have h := C58_integral_partial (0 : K) c a b
  simp only [zero_mul, zero_add] at h
  rw [h]
  intro e
  have e := Except.ok.inj e
  have h1 : c * (b - a) ≠ 0 := mul_ne_zero hc (sub_ne_zero.mpr (Ne.symm hab))
  apply h1
  linarith

end

/-- The hypotheses hold for the default `nof_points = 100`. -/
theorem C58_hypotheses_met : mean1dLinspace (K := ℚ) (fun xs => .ok (xs.map fun x => 3 * x + 1)) 0 2 100 = .ok 4 := by
  rw [C58_mean_exact_affine 3 1 0 2 100 (by norm_num)]
  norm_num

end Effector
