import Verif.Props.PdpModels
import Verif.Lemmas.RealSqrt
import Mathlib.Analysis.Calculus.Deriv.MeanValue

/-!
# C74: DerPDP is the derivative of PDP

Over the real numbers.  With the Jacobian the curve of `DerPDP` is exactly the derivative of the curve of `PDP`; without it (`model_jac=None`) the finite
differences with step 1e-6 are off by at most `L * 1e-6` for a derivative with Lipschitz constant `L`; the numerical Jacobian of RHALE by at most `L * eps`.
-/

set_option linter.unusedSectionVars false

namespace Effector

open Spec

variable {D : ℕ}

theorem hasDerivAt_avg {α : Type} (l : List α) (g : α → ℝ → ℝ) (g' : α → ℝ) (x : ℝ) (h : ∀ a ∈ l, HasDerivAt (g a) (g' a) x) :
    HasDerivAt (fun t => avg (l.map fun a => g a t)) (avg (l.map g')) x := by
  have hs : ∀ l : List α, (∀ a ∈ l, HasDerivAt (g a) (g' a) x) → HasDerivAt (fun t => (l.map fun a => g a t).sum) (l.map g').sum x := by
    intro l
    induction l with
    | nil => intro _; simpa using hasDerivAt_const x (0 : ℝ)
    | cons a t ih =>
      intro h
      simp only [List.map_cons, List.sum_cons]
      exact (h a (by simp)).fun_add (ih fun b hb => h b (by simp [hb]))
  unfold avg
  simp only [List.length_map]
  exact (hs l h).div_const _

/-- What `eval` returns (heterogeneity not asked for) is the mean of the shifted curves. -/
theorem evalAfter_mean (M : PdpModel ℝ D) (lo hi : Fin D → ℝ) (data : List (Row ℝ D)) (s : Fin D) (calls : List (PdpOp ℝ D))
    (hcalls : ∀ op ∈ calls, PdpCallOk data lo hi s op) {c : PyVal} {m : Centering} (hc : prepCentering c = .ok m) (xs : List ℝ) (vec : Bool)
    (ha : EvalArgsOk data lo hi s xs vec) :
    pdpEvalAfter M lo hi data calls s xs false c false vec =
      .ok (.meanOnly (xs.map fun v => avg ((inLimits data lo hi s).map fun r => M.at s v r - M.shift lo hi s r m))) := by
  rw [evalAfter_ok M lo hi data s calls hcalls xs false hc false vec ha]
  unfold PdpModel.ice report
  simp [Function.comp_def]

namespace Spec

/-- `j` is the gradient of `f` along feature `s`. -/
def GradientAlong (f : Row ℝ D → ℝ) (j : Row ℝ D → Row ℝ D) (s : Fin D) : Prop :=
  ∀ (r : Row ℝ D) (v : ℝ), HasDerivAt (fun t => f (Function.update r s t)) (j (Function.update r s v) s) v

/-- The gradient along `s` changes by at most `L` times the distance. -/
def GradientLipschitz (j : Row ℝ D → Row ℝ D) (s : Fin D) (L : ℝ) : Prop :=
  ∀ (r : Row ℝ D) (v w : ℝ), |j (Function.update r s v) s - j (Function.update r s w) s| ≤ L * |v - w|

end Spec

/-- **C74.**  After any (non-interfering) histories, with any centring of the PDP: there are functions `F`, `F'` such that `PDP.eval` returns the values of
`F`, the uncentred `DerPDP.eval` with the Jacobian returns the values of `F'`, and `F'` is the derivative of `F`. -/
theorem C74_derpdp_is_derivative (f : Row ℝ D → ℝ) (j : Row ℝ D → Row ℝ D) (s : Fin D) (hj : GradientAlong f j s) (lo hi : Fin D → ℝ)
    (data : List (Row ℝ D)) (calls calls' : List (PdpOp ℝ D)) (hcalls : ∀ op ∈ calls, PdpCallOk data lo hi s op)
    (hcalls' : ∀ op ∈ calls', PdpCallOk data lo hi s op) (c : PyVal) (m : Centering) (hc : prepCentering c = .ok m) :
    ∃ F F' : ℝ → ℝ,
      (∀ xs vec, EvalArgsOk data lo hi s xs vec → pdpEvalAfter (.pdp f) lo hi data calls s xs false c false vec = .ok (.meanOnly (xs.map F))) ∧
      (∀ xs vec, EvalArgsOk data lo hi s xs vec →
        pdpEvalAfter (.derJac j) lo hi data calls' s xs false (.bool false) false vec = .ok (.meanOnly (xs.map F'))) ∧
      ∀ v, HasDerivAt F (F' v) v := by
  refine ⟨fun v => avg ((inLimits data lo hi s).map fun r => (PdpModel.pdp f).at s v r - (PdpModel.pdp f).shift lo hi s r m),
    fun v => avg ((inLimits data lo hi s).map fun r => j (Function.update r s v) s), ?_, ?_, ?_⟩
  · intro xs vec ha
    exact evalAfter_mean _ lo hi data s calls hcalls hc xs vec ha
  · intro xs vec ha
    rw [evalAfter_mean _ lo hi data s calls' hcalls' (c := .bool false) (m := .off) rfl xs vec ha]
    simp [PdpModel.at, PdpModel.shift]
  · intro v
    exact hasDerivAt_avg _ (fun r t => (PdpModel.pdp f).at s t r - (PdpModel.pdp f).shift lo hi s r m) _ v fun r _ => (hj r v).sub_const _

/-- Finite differences of a function with Lipschitz derivative. -/
theorem finite_difference_error (g g' : ℝ → ℝ) (hg : ∀ x, HasDerivAt g (g' x) x) (L : ℝ) (hL : ∀ x y, |g' x - g' y| ≤ L * |x - y|) (a b v : ℝ)
    (hab : a < b) (ha : a ≤ v) (hb : v ≤ b) : |(g b - g a) / (b - a) - g' v| ≤ L * max (v - a) (b - v) := by
  obtain ⟨c, ⟨hc1, hc2⟩, hc⟩ := exists_hasDerivAt_eq_slope g g' hab (fun x _ => (hg x).continuousAt.continuousWithinAt) fun x _ => hg x
  rw [← hc]
  refine (hL c v).trans ?_
  have hL0 : 0 ≤ L := by
    have := (abs_nonneg _).trans (hL 0 1)
    simpa using this
  refine mul_le_mul_of_nonneg_left ?_ hL0
  rw [abs_le]
  constructor
  · have := le_max_left (v - a) (b - v); linarith
  · have := le_max_right (v - a) (b - v); linarith

theorem avg_abs_sub_le {α : Type} (l : List α) (g h : α → ℝ) (e : ℝ) (hne : l ≠ []) (hh : ∀ a ∈ l, |g a - h a| ≤ e) :
    |avg (l.map g) - avg (l.map h)| ≤ e := by
  have hpos : (0 : ℝ) < l.length := by
    have := List.length_pos_iff.mpr hne
    exact_mod_cast this
  have hs : ∀ l : List α, (∀ a ∈ l, |g a - h a| ≤ e) → |(l.map g).sum - (l.map h).sum| ≤ l.length * e := by
    intro l
    induction l with
    | nil => intro _; simp
    | cons a t ih =>
      intro hh
      have h1 := ih fun b hb => hh b (by simp [hb])
      have h2 := hh a (by simp)
      simp only [List.map_cons, List.sum_cons, List.length_cons]
      push_cast
      have : g a + (t.map g).sum - (h a + (t.map h).sum) = (g a - h a) + ((t.map g).sum - (t.map h).sum) := by ring
      rw [this]
      refine (abs_add_le _ _).trans ?_
      linarith
  unfold avg
  rw [List.length_map, List.length_map, ← sub_div, abs_div, abs_of_pos hpos, div_le_iff₀ hpos]
  have := hs l hh
  linarith

/-- **C74 without a Jacobian.**  `DerPDP.eval` by finite differences is at most `L * 1e-6` away from the derivative of the PDP curve, at every point. -/
theorem C74_numeric_derpdp (f : Row ℝ D → ℝ) (j : Row ℝ D → Row ℝ D) (s : Fin D) (hj : GradientAlong f j s) (L : ℝ) (hL : GradientLipschitz j s L)
    (lo hi : Fin D → ℝ) (data : List (Row ℝ D)) (calls calls' : List (PdpOp ℝ D)) (hcalls : ∀ op ∈ calls, PdpCallOk data lo hi s op)
    (hcalls' : ∀ op ∈ calls', PdpCallOk data lo hi s op) (hin : ∃ r ∈ data, lo s ≤ r s ∧ r s ≤ hi s) :
    ∃ F F' G : ℝ → ℝ,
      (∀ xs vec, EvalArgsOk data lo hi s xs vec →
        pdpEvalAfter (.pdp f) lo hi data calls s xs false (.bool false) false vec = .ok (.meanOnly (xs.map F))) ∧
      (∀ xs vec, EvalArgsOk data lo hi s xs vec →
        pdpEvalAfter (.derNum f) lo hi data calls' s xs false (.bool false) false vec = .ok (.meanOnly (xs.map G))) ∧
      (∀ v, HasDerivAt F (F' v) v) ∧ ∀ v, |G v - F' v| ≤ L / 10 ^ 6 := by
  obtain ⟨F, F', h1, -, h3⟩ := C74_derpdp_is_derivative f j s hj lo hi data calls calls' hcalls hcalls' (.bool false) .off rfl
  have hF : ∀ v, HasDerivAt (fun t => avg ((inLimits data lo hi s).map fun r => f (Function.update r s t)))
      (avg ((inLimits data lo hi s).map fun r => j (Function.update r s v) s)) v := fun v => hasDerivAt_avg _ _ _ v fun r _ => hj r v
  refine ⟨fun t => avg ((inLimits data lo hi s).map fun r => f (Function.update r s t)), _,
    fun v => avg ((inLimits data lo hi s).map fun r => (PdpModel.derNum f).at s v r), ?_, ?_, hF, ?_⟩
  · intro xs vec ha
    rw [evalAfter_mean _ lo hi data s calls hcalls (c := .bool false) (m := .off) rfl xs vec ha]
    simp [PdpModel.at, PdpModel.shift]
  · intro xs vec ha
    rw [evalAfter_mean _ lo hi data s calls' hcalls' (c := .bool false) (m := .off) rfl xs vec ha]
    simp [PdpModel.shift]
  · intro v
    refine avg_abs_sub_le _ _ _ _ (used_ne hin) fun r _ => ?_
    have := finite_difference_error (fun t => f (Function.update r s t)) (fun t => j (Function.update r s t) s) (hj r) L (hL r)
      (v - 1 / 10 ^ 6) (v + 1 / 10 ^ 6) v (by norm_num; linarith) (by norm_num) (by norm_num)
    simp only [PdpModel.at]
    have e1 : v + 1 / 10 ^ 6 - (v - 1 / 10 ^ 6) = 2 * (1 / 10 ^ 6 : ℝ) := by ring
    have e2 : max (v - (v - 1 / 10 ^ 6)) (v + 1 / 10 ^ 6 - v) = (1 / 10 ^ 6 : ℝ) := by
      rw [show v - (v - 1 / 10 ^ 6) = (1 / 10 ^ 6 : ℝ) by ring, show v + 1 / 10 ^ 6 - v = (1 / 10 ^ 6 : ℝ) by ring, max_self]
    rw [e1, e2] at this
    rw [div_eq_mul_one_div L]
    exact this

/-- **C74, the numerical Jacobian of RHALE** (`model_jac=None`): every entry is at most `L * eps` away from the gradient. -/
theorem C74_numeric_jacobian (f : Row ℝ D → ℝ) (j : Row ℝ D → Row ℝ D) (s : Fin D) (hj : GradientAlong f j s) (L : ℝ) (hL : GradientLipschitz j s L)
    (data : List (Row ℝ D)) (eps : ℝ) (he : 0 < eps) :
    ∀ (i : ℕ) (r e : Row ℝ D), data[i]? = some r → (computeJacobianNumerically (List.map f) data eps)[i]? = some e → |e s - j r s| ≤ L * eps := by
  intro i r e hr he'
  rw [jacobian_rowwise, List.getElem?_map, hr] at he'
  simp only [Option.map_some, Option.some.injEq] at he'
  subst he'
  have := finite_difference_error (fun t => f (Function.update r s t)) (fun t => j (Function.update r s t) s) (hj r) L (hL r)
    (r s) (r s + eps) (r s) (by linarith) le_rfl (by linarith)
  simp only [Function.update_eq_self, sub_self, add_sub_cancel_left] at this
  rwa [max_eq_right he.le] at this

/-- The hypotheses are met: `f = x_0² + x_1` has the gradient `(2 x_0, 1)`, with Lipschitz constant 2 along feature 0. -/
example : GradientAlong (fun r : Row ℝ 2 => r 0 ^ 2 + r 1) (fun r => ![2 * r 0, 1]) 0 ∧ GradientLipschitz (fun r : Row ℝ 2 => ![2 * r 0, 1]) 0 2 := by
  constructor
  · intro r v
    have h1 : HasDerivAt (fun t : ℝ => t ^ 2 + r 1) (2 * v) v := by
      simpa using (hasDerivAt_pow 2 v).add_const (r 1)
    simpa using h1
  · intro r v w
    simp only [Function.update_self, Matrix.cons_val_zero]
    rw [← mul_sub, abs_mul, abs_of_pos (by norm_num : (0 : ℝ) < 2)]

end Effector
