import Verif.Props.Replication
import Verif.Props.Units
import Verif.Props.AleModels

/-!
# C10 for whole objects, C87: the effects of a linear combination of models
-/

namespace Effector

set_option linter.unusedSectionVars false

open Spec

variable {K : Type} [Field K] [LinearOrder K] [IsStrictOrderedRing K] {D : ℕ}

namespace Spec

/-- The model `a * f + b * g`. -/
def mixed (a b : K) (f g : Row K D → K) : Row K D → K := fun r => a * f r + b * g r

/-- Entrywise `a * u + b * v`. -/
def mix (a b : K) (u v : List K) : List K := List.zipWith (fun x y => a * x + b * y) u v

/-- The third PDP or d-PDP explains `a * f + b * g`, where the first explains `f` and the second `g`.  (For d-PDP with a Jacobian: the Jacobian is `a * Jf + b * Jg`.) -/
def MixedPdp (a b : K) : PdpModel K D → PdpModel K D → PdpModel K D → Prop
  | .pdp f, .pdp g, .pdp h => h = mixed a b f g
  | .derJac j, .derJac k, .derJac h => h = fun r i => a * j r i + b * k r i
  | .derNum f, .derNum g, .derNum h => h = mixed a b f g
  | _, _, _ => False

end Spec

theorem mix_map (a b : K) {α : Type} (l : List α) (F G : α → K) : mix a b (l.map F) (l.map G) = l.map fun x => a * F x + b * G x := by
  unfold mix
  rw [List.zipWith_map, List.zipWith_self]

/-! ### PDP -/

theorem list_cauchy {α : Type} (l : List α) (F G : α → K) :
    ((l.map fun x => F x * G x).sum) ^ 2 ≤ (l.map fun x => F x ^ 2).sum * (l.map fun x => G x ^ 2).sum := by
  induction l with
  | nil => simp
  | cons x t ih =>
    simp only [List.map_cons, List.sum_cons]
    generalize (t.map fun x => F x * G x).sum = S at ih ⊢
    have hA : 0 ≤ (t.map fun x => F x ^ 2).sum := List.sum_nonneg (by intro y hy; obtain ⟨z, -, rfl⟩ := List.mem_map.mp hy; exact sq_nonneg _)
    have hB : 0 ≤ (t.map fun x => G x ^ 2).sum := List.sum_nonneg (by intro y hy; obtain ⟨z, -, rfl⟩ := List.mem_map.mp hy; exact sq_nonneg _)
    generalize (t.map fun x => F x ^ 2).sum = A at ih hA ⊢
    generalize (t.map fun x => G x ^ 2).sum = B at ih hB ⊢
    generalize F x = u
    generalize G x = v
    have h1 : 0 ≤ u ^ 2 * B + v ^ 2 * A := add_nonneg (mul_nonneg (sq_nonneg _) hB) (mul_nonneg (sq_nonneg _) hA)
    have h2 : (2 * (u * v) * S) ^ 2 ≤ (u ^ 2 * B + v ^ 2 * A) ^ 2 := by
      have e1 : (2 * (u * v) * S) ^ 2 = 4 * (u * v) ^ 2 * S ^ 2 := by ring
      have e2 : (u ^ 2 * B + v ^ 2 * A) ^ 2 = (u ^ 2 * B - v ^ 2 * A) ^ 2 + 4 * (u * v) ^ 2 * (A * B) := by ring
      rw [e1, e2]
      have := mul_le_mul_of_nonneg_left ih (by positivity : 0 ≤ 4 * (u * v) ^ 2)
      nlinarith [sq_nonneg (u ^ 2 * B - v ^ 2 * A)]
    have h3 : 2 * (u * v) * S ≤ u ^ 2 * B + v ^ 2 * A := le_of_abs_le ((sq_le_sq.mp h2).trans (abs_of_nonneg h1).le)
    nlinarith

/-- The spread of a sum is at most the sum of the spreads. -/
theorem popStd_mix [PySqrt K] [LawfulSqrt K] (a b : K) {α : Type} (l : List α) (F G : α → K) :
    PySqrt.sqrt (popVar (l.map fun x => a * F x + b * G x)) ≤ |a| * PySqrt.sqrt (popVar (l.map F)) + |b| * PySqrt.sqrt (popVar (l.map G)) := by
  have hv1 := popVar_nonneg (l.map F)
  have hv2 := popVar_nonneg (l.map G)
  have hv := popVar_nonneg (l.map fun x => a * F x + b * G x)
  have s1 := LawfulSqrt.sqrt_nonneg (popVar (l.map F))
  have s2 := LawfulSqrt.sqrt_nonneg (popVar (l.map G))
  have q1 := LawfulSqrt.sqrt_mul_self _ hv1
  have q2 := LawfulSqrt.sqrt_mul_self _ hv2
  have q := LawfulSqrt.sqrt_mul_self _ hv
  generalize hσ1 : PySqrt.sqrt (popVar (l.map F)) = σ1 at *
  generalize hσ2 : PySqrt.sqrt (popVar (l.map G)) = σ2 at *
  have hr : 0 ≤ |a| * σ1 + |b| * σ2 := add_nonneg (mul_nonneg (abs_nonneg _) s1) (mul_nonneg (abs_nonneg _) s2)
  refine le_of_sq_le_sq ?_ hr
  rw [pow_two, q]
  -- the covariance
  let X : α → K := fun x => F x - avg (l.map F)
  let Y : α → K := fun x => G x - avg (l.map G)
  have hX : popVar (l.map F) = (l.map fun x => X x ^ 2).sum / l.length := by
    unfold popVar
    rw [List.map_map, List.length_map]
    rfl
  have hY : popVar (l.map G) = (l.map fun x => Y x ^ 2).sum / l.length := by
    unfold popVar
    rw [List.map_map, List.length_map]
    rfl
  have hZ : popVar (l.map fun x => a * F x + b * G x) =
      a ^ 2 * popVar (l.map F) + b ^ 2 * popVar (l.map G) + 2 * (a * b) * ((l.map fun x => X x * Y x).sum / l.length) := by
    rw [hX, hY]
    unfold popVar
    rw [List.map_map, List.length_map, avg_lin]
    have : ∀ t : List α, (t.map ((fun x => (x - (a * avg (l.map F) + b * avg (l.map G))) ^ 2) ∘ fun x => a * F x + b * G x)).sum =
        a ^ 2 * (t.map fun x => X x ^ 2).sum + b ^ 2 * (t.map fun x => Y x ^ 2).sum + 2 * (a * b) * (t.map fun x => X x * Y x).sum := by
      intro t
      induction t with
      | nil => simp
      | cons x t ih =>
        simp only [List.map_cons, List.sum_cons, ih, Function.comp, X, Y]
        ring
    rw [this]
    ring
  have hcs : ((l.map fun x => X x * Y x).sum / l.length) ^ 2 ≤ (σ1 * σ2) ^ 2 := by
    have h := list_cauchy l X Y
    have e : (σ1 * σ2) ^ 2 = (l.map fun x => X x ^ 2).sum / l.length * ((l.map fun x => Y x ^ 2).sum / l.length) := by
      rw [← hX, ← hY, ← q1, ← q2]; ring
    rw [e, div_pow, div_mul_div_comm, pow_two (l.length : K)]
    exact div_le_div_of_nonneg_right h (mul_nonneg (Nat.cast_nonneg _) (Nat.cast_nonneg _))
  have hc : |(l.map fun x => X x * Y x).sum / l.length| ≤ σ1 * σ2 := (sq_le_sq.mp hcs).trans (abs_of_nonneg (mul_nonneg s1 s2)).le
  rw [hZ, ← q1, ← q2]
  have h1 : 2 * (a * b) * ((l.map fun x => X x * Y x).sum / l.length) ≤ 2 * (|a| * |b|) * (σ1 * σ2) := by
    have e1 : a * b * ((l.map fun x => X x * Y x).sum / l.length) ≤ |a * b| * |(l.map fun x => X x * Y x).sum / l.length| := by
      rw [← abs_mul]; exact le_abs_self _
    have e2 := mul_le_mul_of_nonneg_left hc (abs_nonneg (a * b))
    rw [abs_mul a b] at e1 e2
    nlinarith
  have h2 : |a| ^ 2 = a ^ 2 := sq_abs a
  have h3 : |b| ^ 2 = b ^ 2 := sq_abs b
  nlinarith

theorem at_mix {a b : K} {M₁ M₂ M : PdpModel K D} (h : MixedPdp a b M₁ M₂ M) (s : Fin D) (v : K) (r : Row K D) :
    M.at s v r = a * M₁.at s v r + b * M₂.at s v r := by
  cases M₁ <;> cases M₂ <;> cases M <;> simp only [MixedPdp] at h <;> subst h <;> simp only [PdpModel.at, mixed]
  ring

theorem shift_mix {a b : K} {M₁ M₂ M : PdpModel K D} (h : MixedPdp a b M₁ M₂ M) (lo hi : Fin D → K) (s : Fin D) (r : Row K D) (m : Centering) :
    M.shift lo hi s r m = a * M₁.shift lo hi s r m + b * M₂.shift lo hi s r m := by
  cases m with
  | off => simp [PdpModel.shift]
  | zeroStart => simp only [PdpModel.shift, at_mix h]
  | zeroIntegral => simp only [PdpModel.shift, at_mix h, avg_lin]

theorem ice_mix {a b : K} {M₁ M₂ M : PdpModel K D} (h : MixedPdp a b M₁ M₂ M) (lo hi : Fin D → K) (d : List (Row K D)) (s : Fin D) (m : Centering) (xs : List K) :
    M.ice lo hi d s m xs = xs.map fun v => d.map fun r => a * (M₁.at s v r - M₁.shift lo hi s r m) + b * (M₂.at s v r - M₂.shift lo hi s r m) := by
  unfold PdpModel.ice
  refine List.map_congr_left fun v _ => List.map_congr_left fun r _ => ?_
  rw [at_mix h, shift_mix h]
  ring

/-- **C87 for PDP and d-PDP.**  The ICE curves and the average of `a * f + b * g` are `a *` those of `f` plus `b *` those of `g`, whatever the centring and the earlier calls on the three
objects, and its heterogeneity is at most `|a| *` that of `f` plus `|b| *` that of `g`. -/
theorem C87_pdp_linear [PySqrt K] [LawfulSqrt K] (a b : K) (M₁ M₂ M : PdpModel K D) (hM : MixedPdp a b M₁ M₂ M) (lo hi : Fin D → K) (data : List (Row K D)) (s : Fin D)
    (calls₁ calls₂ calls : List (PdpOp K D)) (h₁ : ∀ op ∈ calls₁, PdpCallOk data lo hi s op) (h₂ : ∀ op ∈ calls₂, PdpCallOk data lo hi s op)
    (h : ∀ op ∈ calls, PdpCallOk data lo hi s op) (xs : List K) (vec : Bool) (hargs : EvalArgsOk data lo hi s xs vec) (c : PyVal) (m : Centering)
    (hc : prepCentering c = .ok m) :
    ∃ ice₁ ice₂ mu₁ mu₂ sd₁ sd₂ sd,
      pdpEvalAfter M₁ lo hi data calls₁ s xs false c true vec = .ok (.all ice₁) ∧
      pdpEvalAfter M₂ lo hi data calls₂ s xs false c true vec = .ok (.all ice₂) ∧
      pdpEvalAfter M lo hi data calls s xs false c true vec = .ok (.all (List.zipWith (mix a b) ice₁ ice₂)) ∧
      pdpEvalAfter M₁ lo hi data calls₁ s xs true c false vec = .ok (.meanStd mu₁ sd₁) ∧
      pdpEvalAfter M₂ lo hi data calls₂ s xs true c false vec = .ok (.meanStd mu₂ sd₂) ∧
      pdpEvalAfter M lo hi data calls s xs true c false vec = .ok (.meanStd (mix a b mu₁ mu₂) sd) ∧
      mu₁.length = xs.length ∧ mu₂.length = xs.length ∧ sd₁.length = xs.length ∧ sd₂.length = xs.length ∧ sd.length = xs.length ∧
      ∀ (i : ℕ) (u v w : K), sd₁[i]? = some u → sd₂[i]? = some v → sd[i]? = some w → w ≤ |a| * u + |b| * v := by
  refine ⟨_, _, _, _, _, _, xs.map fun v => PySqrt.sqrt (popVar ((inLimits data lo hi s).map fun r => a * (M₁.at s v r - M₁.shift lo hi s r m) + b * (M₂.at s v r - M₂.shift lo hi s r m))),
    evalAfter_ok _ lo hi data s calls₁ h₁ xs false hc true vec hargs, evalAfter_ok _ lo hi data s calls₂ h₂ xs false hc true vec hargs, ?_,
    evalAfter_ok _ lo hi data s calls₁ h₁ xs true hc false vec hargs, evalAfter_ok _ lo hi data s calls₂ h₂ xs true hc false vec hargs, ?_, ?_, ?_, ?_, ?_, ?_, ?_⟩
  · rw [evalAfter_ok _ lo hi data s calls h xs false hc true vec hargs, ice_mix hM]
    unfold PdpModel.ice
    rw [List.zipWith_map, List.zipWith_self]
    simp only [mix_map]
    rfl
  · rw [evalAfter_ok _ lo hi data s calls h xs true hc false vec hargs, ice_mix hM]
    unfold PdpModel.ice report
    simp only [Bool.false_eq_true, if_false, if_true, List.map_map]
    rw [mix_map]
    simp only [Function.comp_def, avg_lin]
  · simp [PdpModel.ice]
  · simp [PdpModel.ice]
  · simp [PdpModel.ice]
  · simp [PdpModel.ice]
  · simp
  · intro i u v w hu hv hw
    simp only [PdpModel.ice, List.map_map, List.getElem?_map, Option.map_eq_some_iff] at hu hv hw
    obtain ⟨x, hx, rfl⟩ := hu
    obtain ⟨x', hx', rfl⟩ := hv
    obtain ⟨x'', hx'', rfl⟩ := hw
    rw [hx] at hx' hx''
    cases hx'
    cases hx''
    exact popStd_mix a b _ _ _

/-- `f(x) = x_0 * x_1` and `g(x) = x_0`, combined to `2 f - g`, and the same for their Jacobians; data, limits and calls as in the examples of `Props/PdpModels.lean`. -/
example : MixedPdp (2 : ℚ) (-1) (.pdp fun r : Row ℚ 2 => r 0 * r 1) (.pdp fun r => r 0) (.pdp fun r => 2 * (r 0 * r 1) + -1 * r 0) ∧
    MixedPdp (2 : ℚ) (-1) (.derJac fun r : Row ℚ 2 => ![r 1, r 0]) (.derJac fun _ => ![1, 0]) (.derJac fun r i => 2 * (![r 1, r 0] : Row ℚ 2) i + -1 * (![1, 0] : Row ℚ 2) i) ∧
    EvalArgsOk exData exLo exHi 0 [0, 1, 2] true :=
  ⟨rfl, rfl, by decide +kernel, by simp, ![0, 1], by simp [exData], by decide +kernel⟩

/-! ### The parameters of a fit -/

/-- `w` is at most the square of `|a| √u + |b| √v`, said without roots. -/
def Tri (a b u v w : K) : Prop := 0 ≤ u ∧ 0 ≤ v ∧ 0 ≤ w ∧ ∃ c, 0 ≤ c ∧ c * c ≤ u * v ∧ w ≤ a ^ 2 * u + b ^ 2 * v + 2 * (|a| * |b|) * c

theorem Tri.smul {a b u v w : K} (h : Tri a b u v w) {t : K} (ht : 0 ≤ t) : Tri a b (t * u) (t * v) (t * w) := by
  obtain ⟨h1, h2, h3, c, hc, hcc, hw⟩ := h
  refine ⟨mul_nonneg ht h1, mul_nonneg ht h2, mul_nonneg ht h3, t * c, mul_nonneg ht hc, ?_, ?_⟩
  · have := mul_le_mul_of_nonneg_left hcc (mul_nonneg ht ht)
    nlinarith
  · have := mul_le_mul_of_nonneg_left hw ht
    nlinarith

theorem Tri.add {a b u v w u' v' w' : K} (h : Tri a b u v w) (h' : Tri a b u' v' w') : Tri a b (u + u') (v + v') (w + w') := by
  obtain ⟨h1, h2, h3, c, hc, hcc, hw⟩ := h
  obtain ⟨h1', h2', h3', c', hc', hcc', hw'⟩ := h'
  refine ⟨add_nonneg h1 h1', add_nonneg h2 h2', add_nonneg h3 h3', c + c', add_nonneg hc hc', ?_, ?_⟩
  · have e0 : 0 ≤ u * v' + u' * v := add_nonneg (mul_nonneg h1 h2') (mul_nonneg h1' h2)
    have e1 : (2 * (c * c')) ^ 2 ≤ (u * v' + u' * v) ^ 2 := by
      have := mul_le_mul hcc hcc' (mul_nonneg hc' hc') (mul_nonneg h1 h2)
      nlinarith [sq_nonneg (u * v' - u' * v)]
    have e2 : 2 * (c * c') ≤ u * v' + u' * v := le_of_abs_le ((sq_le_sq.mp e1).trans (abs_of_nonneg e0).le)
    nlinarith
  · nlinarith

theorem Tri.std [PySqrt K] [LawfulSqrt K] {a b u v w : K} (h : Tri a b u v w) : PySqrt.sqrt w ≤ |a| * PySqrt.sqrt u + |b| * PySqrt.sqrt v := by
  obtain ⟨h1, h2, h3, c, hc, hcc, hw⟩ := h
  have s1 := LawfulSqrt.sqrt_nonneg u
  have s2 := LawfulSqrt.sqrt_nonneg v
  have q1 := LawfulSqrt.sqrt_mul_self _ h1
  have q2 := LawfulSqrt.sqrt_mul_self _ h2
  have q := LawfulSqrt.sqrt_mul_self _ h3
  generalize PySqrt.sqrt u = p at *
  generalize PySqrt.sqrt v = r at *
  generalize PySqrt.sqrt w = y at *
  refine le_of_sq_le_sq ?_ (add_nonneg (mul_nonneg (abs_nonneg _) s1) (mul_nonneg (abs_nonneg _) s2))
  rw [pow_two, q]
  have hcr : c ≤ p * r := by
    refine le_of_sq_le_sq ?_ (mul_nonneg s1 s2)
    calc c ^ 2 = c * c := pow_two c
      _ ≤ u * v := hcc
      _ = (p * r) ^ 2 := by rw [← q1, ← q2]; ring
  have := mul_le_mul_of_nonneg_left hcr (mul_nonneg (mul_nonneg (by norm_num : (0 : K) ≤ 2) (abs_nonneg a)) (abs_nonneg b))
  have h2 : |a| ^ 2 = a ^ 2 := sq_abs a
  have h3 : |b| ^ 2 = b ^ 2 := sq_abs b
  nlinarith

theorem tri_popVar [PySqrt K] [LawfulSqrt K] (a b : K) {α : Type} (l : List α) (F G : α → K) :
    Tri a b (popVar (l.map F)) (popVar (l.map G)) (popVar (l.map fun x => a * F x + b * G x)) := by
  have hv1 := popVar_nonneg (l.map F)
  have hv2 := popVar_nonneg (l.map G)
  have hv := popVar_nonneg (l.map fun x => a * F x + b * G x)
  have s1 := LawfulSqrt.sqrt_nonneg (popVar (l.map F))
  have s2 := LawfulSqrt.sqrt_nonneg (popVar (l.map G))
  have s := LawfulSqrt.sqrt_nonneg (popVar (l.map fun x => a * F x + b * G x))
  have q1 := LawfulSqrt.sqrt_mul_self _ hv1
  have q2 := LawfulSqrt.sqrt_mul_self _ hv2
  have q := LawfulSqrt.sqrt_mul_self _ hv
  have h := popStd_mix a b l F G
  refine ⟨hv1, hv2, hv, PySqrt.sqrt (popVar (l.map F)) * PySqrt.sqrt (popVar (l.map G)), mul_nonneg s1 s2, ?_, ?_⟩
  · rw [← q1, ← q2]
    simp only [q1, q2]
    nlinarith
  · have := mul_le_mul h h s (s.trans h)
    rw [q] at this
    refine this.trans (le_of_eq ?_)
    have h2 : |a| ^ 2 = a ^ 2 := sq_abs a
    have h3 : |b| ^ 2 = b ^ 2 := sq_abs b
    rw [← h2, ← h3]
    calc _ = |a| ^ 2 * (PySqrt.sqrt (popVar (l.map F)) * PySqrt.sqrt (popVar (l.map F))) + |b| ^ 2 * (PySqrt.sqrt (popVar (l.map G)) * PySqrt.sqrt (popVar (l.map G))) +
          2 * (|a| * |b|) * (PySqrt.sqrt (popVar (l.map F)) * PySqrt.sqrt (popVar (l.map G))) := by ring
      _ = _ := by rw [q1, q2]

theorem interp_tri (a b : K) (T : List (K × K × K × K)) (hT : ∀ t ∈ T, Tri a b t.2.1 t.2.2.1 t.2.2.2) (hne : T ≠ []) (x : K) :
    Tri a b (interp (T.map fun t => (t.1, t.2.1)) x) (interp (T.map fun t => (t.1, t.2.2.1)) x) (interp (T.map fun t => (t.1, t.2.2.2)) x) := by
  induction T with
  | nil => exact absurd rfl hne
  | cons t T ih =>
    cases T with
    | nil => exact hT t List.mem_cons_self
    | cons t' T =>
      simp only [List.map_cons, interp] at ih ⊢
      by_cases h1 : x ≤ t.1
      · simp only [if_pos h1]
        exact hT t List.mem_cons_self
      · by_cases h2 : x < t'.1
        · simp only [if_neg h1, if_pos h2]
          have hd : 0 < t'.1 - t.1 := by linarith [not_le.mp h1]
          have e : ∀ u v : K, u + (x - t.1) * ((v - u) / (t'.1 - t.1)) = (t'.1 - x) / (t'.1 - t.1) * u + (x - t.1) / (t'.1 - t.1) * v := by
            intro u v
            field_simp
            ring
          simp only [e]
          exact ((hT t List.mem_cons_self).smul (div_nonneg (by linarith) hd.le)).add
            ((hT t' (by simp)).smul (div_nonneg (by linarith [not_le.mp h1]) hd.le))
        · simp only [if_neg h1, if_neg h2]
          exact ih (fun t ht => hT t (List.mem_cons_of_mem _ ht)) (by simp)

theorem knownFrom_tri (L : List (Option (K × K × K))) (i : ℕ) : ∃ T : List (K × K × K × K),
    knownFrom i (L.map (Option.map fun t => t.1)) = T.map (fun t => (t.1, t.2.1)) ∧
    knownFrom i (L.map (Option.map fun t => t.2.1)) = T.map (fun t => (t.1, t.2.2.1)) ∧
    knownFrom i (L.map (Option.map fun t => t.2.2)) = T.map (fun t => (t.1, t.2.2.2)) ∧ ∀ t ∈ T, some t.2 ∈ L := by
  induction L generalizing i with
  | nil => exact ⟨[], rfl, rfl, rfl, by simp⟩
  | cons o L ih =>
    obtain ⟨T, h1, h2, h3, h4⟩ := ih (i + 1)
    cases o with
    | none => exact ⟨T, by simp [knownFrom, h1], by simp [knownFrom, h2], by simp [knownFrom, h3], fun t ht => List.mem_cons_of_mem _ (h4 t ht)⟩
    | some t =>
      refine ⟨((i : K), t) :: T, by simp [knownFrom, h1], by simp [knownFrom, h2], by simp [knownFrom, h3], ?_⟩
      intro t' ht'
      rcases List.mem_cons.mp ht' with rfl | h
      · exact List.mem_cons_self
      · exact List.mem_cons_of_mem _ (h4 t' h)

theorem fillFrom_tri (a b : K) (T : List (K × K × K × K)) (hT : ∀ t ∈ T, Tri a b t.2.1 t.2.2.1 t.2.2.2) (hne : T ≠ []) (L : List (Option (K × K × K)))
    (hL : ∀ t, some t ∈ L → Tri a b t.1 t.2.1 t.2.2) (i j : ℕ) (u v w : K)
    (hu : (fillFrom (T.map fun t => (t.1, t.2.1)) i (L.map (Option.map fun t => t.1)))[j]? = some u)
    (hv : (fillFrom (T.map fun t => (t.1, t.2.2.1)) i (L.map (Option.map fun t => t.2.1)))[j]? = some v)
    (hw : (fillFrom (T.map fun t => (t.1, t.2.2.2)) i (L.map (Option.map fun t => t.2.2)))[j]? = some w) : Tri a b u v w := by
  induction L generalizing i j with
  | nil => simp [fillFrom] at hu
  | cons o L ih =>
    cases j with
    | zero =>
      cases o with
      | none =>
        simp only [List.map_cons, Option.map_none, fillFrom, List.getElem?_cons_zero, Option.some.injEq] at hu hv hw
        subst hu hv hw
        exact interp_tri a b T hT hne _
      | some t =>
        simp only [List.map_cons, Option.map_some, fillFrom, List.getElem?_cons_zero, Option.some.injEq] at hu hv hw
        subst hu hv hw
        exact hL t List.mem_cons_self
    | succ j =>
      refine ih (fun t ht => hL t (List.mem_cons_of_mem _ ht)) (i + 1) j ?_ ?_ ?_ <;>
        cases o <;> simpa only [List.map_cons, Option.map_none, Option.map_some, fillFrom, List.getElem?_cons_succ] using ‹_›

/-- The parameters `r` belong to `a *` the effects of `p` plus `b *` the effects of `q`. -/
structure MixedParams (a b : K) (p q r : AleParams K) : Prop where
  gp : GoodParams p
  gq : GoodParams q
  gr : GoodParams r
  lq : q.limits = p.limits
  lr : r.limits = p.limits
  be : r.binEffect = mix a b p.binEffect q.binEffect
  bv : ∀ (i : ℕ) (u v w : K), p.binVariance[i]? = some u → q.binVariance[i]? = some v → r.binVariance[i]? = some w → Tri a b u v w

theorem binEffects_map {α : Type} (L : List K) (Z : List α) (X F : α → K) (k : ℕ) :
    binEffects L (Z.map X) (Z.map F) k = (Z.filter fun z => InBin L k (X z)).map F := by
  unfold binEffects
  rw [List.zip_map', List.filter_map, List.map_map]
  rfl

theorem computeAleParams_bv {limits xs eff : List K} {p : AleParams K} (hset : BinSetting limits xs eff) (h : computeAleParams xs eff limits = .ok p) :
    p.binVariance = fillFrom (knownFrom 0 ((List.range (limits.length - 1)).map (fun k =>
          if 2 ≤ (binEffects limits xs eff k).length then some (popVar (binEffects limits xs eff k)) else none))) 0
        ((List.range (limits.length - 1)).map (fun k =>
          if 2 ≤ (binEffects limits xs eff k).length then some (popVar (binEffects limits xs eff k)) else none)) ∧
      ∃ k, k < limits.length - 1 ∧ 2 ≤ (binEffects limits xs eff k).length := by
  rw [computeAleParams_eq hset] at h
  simp only [Except.bind] at h
  split at h
  · cases h
  · split at h
    · cases h
    · rename_i bv hbv
      split at h
      · cases h
      · cases h
        rw [fillNans_eq] at hbv
        split_ifs at hbv with hn
        cases hbv
        refine ⟨rfl, ?_⟩
        by_contra hc
        push Not at hc
        apply hn
        intro o ho
        obtain ⟨k, hk, rfl⟩ := List.mem_map.mp ho
        rw [if_neg (by have := hc k (List.mem_range.mp hk); omega)]

/-- `compute_ale_params` on the effects `a F + b G`. -/
theorem params_mix [PySqrt K] [LawfulSqrt K] (a b : K) {α : Type} (Z : List α) (X F G : α → K) {L : List K} (hinc : Increasing L) (htwo : 2 ≤ L.length) (hw : Within L (Z.map X)) :
    (∃ p q r, computeAleParams (Z.map X) (Z.map F) L = .ok p ∧ computeAleParams (Z.map X) (Z.map G) L = .ok q ∧
      computeAleParams (Z.map X) (Z.map fun z => a * F z + b * G z) L = .ok r ∧ MixedParams a b p q r) ∨
    (computeAleParams (Z.map X) (Z.map F) L = .error .valueError ∧ computeAleParams (Z.map X) (Z.map G) L = .error .valueError ∧
      computeAleParams (Z.map X) (Z.map fun z => a * F z + b * G z) L = .error .valueError) := by
  have hl : ∀ H : α → K, (Z.map H).length = (Z.map X).length := fun H => by simp
  by_cases hbin : ∃ k, k < L.length - 1 ∧ 2 ≤ (Z.map X).countP (fun x => InBin L k x)
  · left
    obtain ⟨p, hp, -⟩ := (C06_ale_params L _ (Z.map F) hinc htwo hw (hl F)).2 hbin
    obtain ⟨q, hq, -⟩ := (C06_ale_params L _ (Z.map G) hinc htwo hw (hl G)).2 hbin
    obtain ⟨r, hr, -⟩ := (C06_ale_params L _ (Z.map fun z => a * F z + b * G z) hinc htwo hw (hl _)).2 hbin
    have gp := computeAleParams_good hinc htwo hw (hl F) hp
    have gq := computeAleParams_good hinc htwo hw (hl G) hq
    have gr := computeAleParams_good hinc htwo hw (hl _) hr
    refine ⟨p, q, r, hp, hq, hr, gp.1, gq.1, gr.1, gq.2.1.trans gp.2.1.symm, gr.2.1.trans gp.2.1.symm, ?_, ?_⟩
    · rw [computeAleParams_binEffect hinc htwo hw (hl _) hr, computeAleParams_binEffect hinc htwo hw (hl F) hp,
        computeAleParams_binEffect hinc htwo hw (hl G) hq]
      simp only [binEffects_map, List.map_eq_nil_iff, avg_lin]
      have key : ∀ h : K × K → K,
          ((List.range (L.length - 1)).map fun k => if (Z.filter fun z => InBin L k (X z)) = [] then none else
            some (h (avg ((Z.filter fun z => InBin L k (X z)).map F), avg ((Z.filter fun z => InBin L k (X z)).map G)))) =
          ((List.range (L.length - 1)).map fun k => if (Z.filter fun z => InBin L k (X z)) = [] then none else
            some (avg ((Z.filter fun z => InBin L k (X z)).map F), avg ((Z.filter fun z => InBin L k (X z)).map G))).map (Option.map h) := by
        intro h
        rw [List.map_map]
        apply List.map_congr_left
        intro k _
        simp only [Function.comp]
        split_ifs <;> rfl
      rw [key (fun t => a * t.1 + b * t.2), key (fun t => t.1), key (fun t => t.2)]
      apply fillFrom_lin
      intro x
      obtain ⟨T, e1, e2, e3⟩ := knownFrom_lin ((List.range (L.length - 1)).map fun k => if (Z.filter fun z => InBin L k (X z)) = [] then none else
            some (avg ((Z.filter fun z => InBin L k (X z)).map F), avg ((Z.filter fun z => InBin L k (X z)).map G))) a b 0
      rw [e1, e2, e3]
      exact interp_lin T a b x
    · intro i u v w hu hv hw'
      obtain ⟨e1, k0, hk0, h2⟩ := computeAleParams_bv ⟨hinc, htwo, hw, hl F⟩ hp
      have e2 := (computeAleParams_bv ⟨hinc, htwo, hw, hl G⟩ hq).1
      have e3 := (computeAleParams_bv ⟨hinc, htwo, hw, hl _⟩ hr).1
      rw [e1] at hu
      rw [e2] at hv
      rw [e3] at hw'
      simp only [binEffects_map, List.length_map] at hu hv hw' h2
      have key : ∀ h : K × K × K → K,
          ((List.range (L.length - 1)).map fun k => if 2 ≤ (Z.filter fun z => InBin L k (X z)).length then
            some (h (popVar ((Z.filter fun z => InBin L k (X z)).map F), popVar ((Z.filter fun z => InBin L k (X z)).map G),
              popVar ((Z.filter fun z => InBin L k (X z)).map fun z => a * F z + b * G z))) else none) =
          ((List.range (L.length - 1)).map fun k => if 2 ≤ (Z.filter fun z => InBin L k (X z)).length then
            some (popVar ((Z.filter fun z => InBin L k (X z)).map F), popVar ((Z.filter fun z => InBin L k (X z)).map G),
              popVar ((Z.filter fun z => InBin L k (X z)).map fun z => a * F z + b * G z)) else none).map (Option.map h) := by
        intro h
        rw [List.map_map]
        apply List.map_congr_left
        intro k _
        simp only [Function.comp]
        split_ifs <;> rfl
      rw [key (fun t => t.1)] at hu
      rw [key (fun t => t.2.1)] at hv
      rw [key (fun t => t.2.2)] at hw'
      have hmem : ∀ t : K × K × K, some t ∈ ((List.range (L.length - 1)).map fun k => if 2 ≤ (Z.filter fun z => InBin L k (X z)).length then
            some (popVar ((Z.filter fun z => InBin L k (X z)).map F), popVar ((Z.filter fun z => InBin L k (X z)).map G),
              popVar ((Z.filter fun z => InBin L k (X z)).map fun z => a * F z + b * G z)) else none) → Tri a b t.1 t.2.1 t.2.2 := by
        intro t ht
        obtain ⟨k, -, hk⟩ := List.mem_map.mp ht
        split_ifs at hk
        cases hk
        exact tri_popVar a b _ F G
      obtain ⟨T, t1, t2, t3, t4⟩ := knownFrom_tri ((List.range (L.length - 1)).map fun k => if 2 ≤ (Z.filter fun z => InBin L k (X z)).length then
            some (popVar ((Z.filter fun z => InBin L k (X z)).map F), popVar ((Z.filter fun z => InBin L k (X z)).map G),
              popVar ((Z.filter fun z => InBin L k (X z)).map fun z => a * F z + b * G z)) else none) 0
      rw [t1] at hu
      rw [t2] at hv
      rw [t3] at hw'
      refine fillFrom_tri a b T (fun t ht => hmem _ (t4 t ht)) ?_ _ hmem 0 i u v w hu hv hw'
      rintro rfl
      rw [List.map_nil, knownFrom_eq_nil_iff] at t1
      have := t1 (some (popVar ((Z.filter fun z => InBin L k0 (X z)).map F))) (by
        rw [List.map_map]
        refine List.mem_map.mpr ⟨k0, List.mem_range.mpr hk0, ?_⟩
        simp only [Function.comp]
        rw [if_pos h2, Option.map_some])
      cases this
  · right
    push Not at hbin
    exact ⟨(C06_ale_params L _ (Z.map F) hinc htwo hw (hl F)).1 hbin, (C06_ale_params L _ (Z.map G) hinc htwo hw (hl G)).1 hbin,
      (C06_ale_params L _ (Z.map fun z => a * F z + b * G z) hinc htwo hw (hl _)).1 hbin⟩

/-! ### Evaluation -/

theorem mix_getLast {a b : K} {u v : List K} (h : u.length = v.length) {x y : K} (hx : u.getLast? = some x) (hy : v.getLast? = some y) :
    (mix a b u v).getLast? = some (a * x + b * y) := by
  rw [List.getLast?_eq_getElem?] at hx hy ⊢
  unfold mix
  rw [List.getElem?_zipWith, List.length_zipWith, ← h, min_self, hx]
  rw [← h] at hy
  rw [hy]

theorem stepIntegral_tri (a b : K) (limits : List K) (hinc : Increasing limits) (es fs gs : List K) (h1 : es.length = fs.length) (h2 : es.length = gs.length)
    (h : ∀ (i : ℕ) (u v w : K), es[i]? = some u → fs[i]? = some v → gs[i]? = some w → w ≤ |a| * u + |b| * v) (x : K) :
    stepIntegral limits gs x ≤ |a| * stepIntegral limits es x + |b| * stepIntegral limits fs x := by
  induction limits generalizing es fs gs with
  | nil => simp [stepIntegral]
  | cons l0 t ih =>
    cases t with
    | nil => cases es <;> cases fs <;> cases gs <;> simp [stepIntegral]
    | cons l1 t =>
      match es, fs, gs, h1, h2, h with
      | [], [], [], _, _, _ => simp [stepIntegral]
      | e :: es, f :: fs, g :: gs, h1, h2, h =>
        simp only [stepIntegral]
        have h0 := h 0 e f g rfl rfl rfl
        have hrec := ih (List.Pairwise.of_cons hinc) es fs gs (by simpa using h1) (by simpa using h2) fun i u v w hu hv hw => h (i + 1) u v w hu hv hw
        have hlt : l0 < l1 := by
          have := hinc
          simp [Increasing] at this
          exact this.1.1
        have hm : 0 ≤ min x l1 - min x l0 := sub_nonneg.mpr (min_le_min le_rfl hlt.le)
        have := mul_le_mul_of_nonneg_right h0 hm
        nlinarith

/-- The curves and heterogeneities of mixed parameters. -/
theorem MixedParams.eval [PySqrt K] [LawfulSqrt K] {a b : K} {p q r : AleParams K} (h : MixedParams a b p q r) :
    ∃ E F P Q R : K → K, (∀ xs, evalUnnorm p xs = .ok (xs.map E)) ∧ (∀ xs, evalUnnorm q xs = .ok (xs.map F)) ∧
      (∀ xs, evalUnnorm r xs = .ok (xs.map fun x => a * E x + b * F x)) ∧ (∀ xs, evalHet p xs = .ok (xs.map P)) ∧ (∀ xs, evalHet q xs = .ok (xs.map Q)) ∧
      (∀ xs, evalHet r xs = .ok (xs.map R)) ∧ ∀ x, R x ≤ |a| * P x + |b| * Q x := by
  have key : ∀ {t : AleParams K}, GoodParams t → ∀ es : List K, es.length = t.limits.length - 1 → ∃ el, es.getLast? = some el ∧ ∀ xs,
      computeAccumulatedEffect xs t.limits es t.dx = .ok (xs.map fun x => stepIntegral t.limits es x +
        (if (∀ l ∈ t.limits, l ≤ x) ∧ BIG_M < x then (x - BIG_M) * el else 0)) := by
    intro t ht es hes
    obtain ⟨el, hel, -⟩ := ht.acc es [] hes
    refine ⟨el, hel, fun xs => ?_⟩
    obtain ⟨el', hel', hacc⟩ := ht.acc es xs hes
    rw [hel] at hel'
    cases hel'
    exact hacc
  have lr := h.lr
  have lq := h.lq
  have lbe : p.binEffect.length = q.binEffect.length := by rw [h.gp.be, h.gq.be, lq]
  have lbv : p.binVariance.length = q.binVariance.length := by rw [h.gp.bv, h.gq.bv, lq]
  have lbv' : p.binVariance.length = r.binVariance.length := by rw [h.gp.bv, h.gr.bv, lr]
  obtain ⟨e1, he1, hE⟩ := key h.gp p.binEffect h.gp.be
  obtain ⟨e2, he2, hF⟩ := key h.gq q.binEffect h.gq.be
  obtain ⟨e3, he3, hG⟩ := key h.gr r.binEffect h.gr.be
  obtain ⟨v1, hv1, hP⟩ := key h.gp (p.binVariance.map PySqrt.sqrt) (by rw [List.length_map]; exact h.gp.bv)
  obtain ⟨v2, hv2, hQ⟩ := key h.gq (q.binVariance.map PySqrt.sqrt) (by rw [List.length_map]; exact h.gq.bv)
  obtain ⟨v3, hv3, hR⟩ := key h.gr (r.binVariance.map PySqrt.sqrt) (by rw [List.length_map]; exact h.gr.bv)
  have hstd : ∀ (i : ℕ) (u v w : K), (p.binVariance.map PySqrt.sqrt)[i]? = some u → (q.binVariance.map PySqrt.sqrt)[i]? = some v →
      (r.binVariance.map PySqrt.sqrt)[i]? = some w → w ≤ |a| * u + |b| * v := by
    intro i u v w hu hv hw
    simp only [List.getElem?_map, Option.map_eq_some_iff] at hu hv hw
    obtain ⟨u', hu', rfl⟩ := hu
    obtain ⟨v', hv', rfl⟩ := hv
    obtain ⟨w', hw', rfl⟩ := hw
    exact (h.bv i u' v' w' hu' hv' hw').std
  refine ⟨_, _, _, _, _, hE, hF, fun xs => ?_, hP, hQ, hR, fun x => ?_⟩
  · rw [h.be, mix_getLast lbe he1 he2] at he3
    cases he3
    unfold evalUnnorm
    rw [hG]
    congr 1
    apply List.map_congr_left
    intro x _
    rw [h.be, lr, lq]
    unfold mix
    rw [stepIntegral_lin _ _ _ lbe]
    by_cases hc : (∀ l ∈ p.limits, l ≤ x) ∧ BIG_M < x
    · simp only [if_pos hc]; ring
    · simp only [if_neg hc]; ring
  · have h1 := stepIntegral_tri a b p.limits h.gp.inc _ _ _ (by simpa using lbv) (by simpa using lbv') hstd x
    have h2 : v3 ≤ |a| * v1 + |b| * v2 := by
      rw [List.getLast?_eq_getElem?, List.length_map] at hv1 hv2 hv3
      rw [← lbv] at hv2
      rw [← lbv'] at hv3
      exact hstd _ _ _ _ hv1 hv2 hv3
    rw [lr, lq]
    by_cases hc : (∀ l ∈ p.limits, l ≤ x) ∧ BIG_M < x
    · simp only [if_pos hc]
      have := mul_le_mul_of_nonneg_left h2 (sub_nonneg.mpr hc.2.le)
      nlinarith
    · simp only [if_neg hc, add_zero]
      exact h1

/-! ### Whole objects -/

/-- Three fits that all fail alike or give mixed parameters. -/
def FitMix (a b : K) (p q r : Py (AleParams K)) : Prop :=
  (∃ p' q' r', p = .ok p' ∧ q = .ok q' ∧ r = .ok r' ∧ MixedParams a b p' q' r') ∨ ∃ e, p = .error e ∧ q = .error e ∧ r = .error e

namespace Spec

/-- Three results of `eval`: either all raise the same exception, or the third curve is `a *` the first plus `b *` the second, and the third heterogeneity (if asked for) is at every point at most
`|a| *` the first plus `|b| *` the second. -/
def EvalMix (a b : K) (r₁ r₂ r : Py (List K × Option (List K))) : Prop :=
  (∃ e, r₁ = .error e ∧ r₂ = .error e ∧ r = .error e) ∨
  (∃ y₁ y₂, r₁ = .ok (y₁, none) ∧ r₂ = .ok (y₂, none) ∧ y₂.length = y₁.length ∧ r = .ok (mix a b y₁ y₂, none)) ∨
  ∃ y₁ y₂ h₁ h₂ h, r₁ = .ok (y₁, some h₁) ∧ r₂ = .ok (y₂, some h₂) ∧ r = .ok (mix a b y₁ y₂, some h) ∧
    y₂.length = y₁.length ∧ h₁.length = y₁.length ∧ h₂.length = y₁.length ∧ h.length = y₁.length ∧
    ∀ (i : ℕ) (u v w : K), h₁[i]? = some u → h₂[i]? = some v → h[i]? = some w → w ≤ |a| * u + |b| * v

end Spec

/-- The three objects differ only in the fit. -/
structure CfgMix (a b : K) (P : BinMethod K → Prop) (c₁ c₂ c : AleCfg K D) : Prop where
  lo₂ : c₂.axisLo = c₁.axisLo
  lo : c.axisLo = c₁.axisLo
  hi₂ : c₂.axisHi = c₁.axisHi
  hi : c.axisHi = c₁.axisHi
  def₂ : c₂.defaultBin = c₁.defaultBin
  def' : c.defaultBin = c₁.defaultBin
  al₂ : c₂.allowed = c₁.allowed
  al : c.allowed = c₁.allowed
  fit : ∀ s bm, P bm → FitMix a b (c₁.fitF s bm) (c₂.fitF s bm) (c.fitF s bm)

theorem avg_lin_sub {α : Type} (a b : K) (l : List α) (E F : α → K) : avg (l.map fun x => a * E x + b * F x) = a * avg (l.map E) + b * avg (l.map F) := avg_lin l E F a b

theorem valueOf_mix [PySqrt K] [LawfulSqrt K] {a b : K} {P : BinMethod K → Prop} {c₁ c₂ c : AleCfg K D} (h : CfgMix a b P c₁ c₂ c) {bm : BinMethod K} (hbm : P bm)
    (m : Centering) (s : Fin D) (xs : List K) (het : Bool) : EvalMix a b (valueOf c₁ bm m s xs het) (valueOf c₂ bm m s xs het) (valueOf c bm m s xs het) := by
  rcases h.fit s bm hbm with ⟨p, q, r, hp, hq, hr, hm⟩ | ⟨e, hp, hq, hr⟩
  · obtain ⟨E, F, P', Q, R, hE, hF, hG, hP, hQ, hR, hle⟩ := hm.eval
    have hs : ∃ z₁ z₂, shift c₁ p s m = .ok z₁ ∧ shift c₂ q s m = .ok z₂ ∧ shift c r s m = .ok (a * z₁ + b * z₂) := by
      cases m with
      | off => exact ⟨0, 0, rfl, rfl, by simp [shift]⟩
      | zeroStart =>
        refine ⟨E (c₁.axisLo s), F (c₁.axisLo s), ?_, ?_, ?_⟩ <;> simp only [shift, hE, hF, hG, h.lo, h.lo₂] <;> rfl
      | zeroIntegral =>
        refine ⟨_, _, by simp only [shift, hE]; rfl, by simp only [shift, hF, h.lo₂, h.hi₂]; rfl, ?_⟩
        simp only [shift, hG, h.lo, h.hi, Except.map]
        rw [avg_lin_sub]
    obtain ⟨z₁, z₂, hz₁, hz₂, hz⟩ := hs
    unfold valueOf
    rw [hp, hq, hr, h.lo₂, h.lo, h.hi₂, h.hi]
    simp only [bind, Except.bind, pure, Except.pure, hE, hF, hG, hz₁, hz₂, hz]
    by_cases hlt : c₁.axisLo s < c₁.axisHi s
    · simp only [hlt, decide_true, pyAssert, if_true]
      have hy : (xs.map fun x => a * E x + b * F x).map (fun x => x - (a * z₁ + b * z₂)) = mix a b ((xs.map E).map fun x => x - z₁) ((xs.map F).map fun x => x - z₂) := by
        simp only [List.map_map]
        rw [mix_map]
        apply List.map_congr_left
        intro x _
        simp only [Function.comp]
        ring
      cases het with
      | false =>
        right; left
        exact ⟨_, _, rfl, rfl, by simp, by simp only [Bool.false_eq_true, if_false]; rw [hy]⟩
      | true =>
        right; right
        simp only [if_true, hP, hQ, hR, Except.map]
        refine ⟨_, _, _, _, _, rfl, rfl, by rw [hy], by simp, by simp, by simp, by simp, ?_⟩
        intro i u v w hu hv hw
        simp only [List.getElem?_map, Option.map_eq_some_iff] at hu hv hw
        obtain ⟨x, hx, rfl⟩ := hu
        obtain ⟨x', hx', rfl⟩ := hv
        obtain ⟨x'', hx'', rfl⟩ := hw
        rw [hx] at hx' hx''
        cases hx'
        cases hx''
        exact hle x
    · left
      simp only [hlt, decide_false, pyAssert, Bool.false_eq_true, if_false]
      exact ⟨_, rfl, rfl, rfl⟩
  · left
    refine ⟨e, ?_, ?_, ?_⟩ <;> unfold valueOf <;> simp only [hp, hq, hr, bind, Except.bind]

theorem afterFit_mix {a b : K} {P : BinMethod K → Prop} {c₁ c₂ c : AleCfg K D} (h : CfgMix a b P c₁ c₂ c) {bm : BinMethod K} (hbm : P bm) (m : Centering)
    (l : List (Fin D)) (L : LastFit K D) : afterFit c₂ bm m L l = afterFit c₁ bm m L l ∧ afterFit c bm m L l = afterFit c₁ bm m L l := by
  induction l generalizing L with
  | nil => exact ⟨rfl, rfl⟩
  | cons s t ih =>
    rcases h.fit s bm hbm with ⟨p, q, r, hp, hq, hr, -⟩ | ⟨e, hp, hq, hr⟩
    · simp only [afterFit, hp, hq, hr]
      exact ih _
    · simp only [afterFit, hp, hq, hr, and_self]

theorem afterEval_mix {a b : K} {P : BinMethod K → Prop} {c₁ c₂ c : AleCfg K D} (h : CfgMix a b P c₁ c₂ c) (hdef : P c₁.defaultBin) (m : Centering)
    (s : Fin D) (L : LastFit K D) : afterEval c₂ L s m = afterEval c₁ L s m ∧ afterEval c L s m = afterEval c₁ L s m := by
  have := fun l => afterFit_mix h hdef m l L
  unfold afterEval
  simp only [h.def₂, h.def']
  cases L s with
  | none => exact this [s]
  | some q =>
    simp only
    split_ifs
    · exact ⟨rfl, rfl⟩
    · exact this [s]

theorem lastFit_mix {a b : K} {P : BinMethod K → Prop} {c₁ c₂ c : AleCfg K D} (h : CfgMix a b P c₁ c₂ c) (hdef : P c₁.defaultBin) (calls : List (AleOp K D))
    (hcalls : ∀ f bm c', AleOp.fit f bm c' ∈ calls → P bm) : lastFit c₂ calls = lastFit c₁ calls ∧ lastFit c calls = lastFit c₁ calls := by
  unfold lastFit
  generalize (fun _ => none : LastFit K D) = L
  induction calls generalizing L with
  | nil => exact ⟨rfl, rfl⟩
  | cons op t ih =>
    have hstep : afterCall c₂ L op = afterCall c₁ L op ∧ afterCall c L op = afterCall c₁ L op := by
      cases op with
      | fit f bm c' =>
        have hb := hcalls f bm c' List.mem_cons_self
        simp only [afterCall, h.al₂, h.al]
        by_cases ha : c₁.allowed bm = true
        · simp only [ha, if_true]
          cases (prepFeatures f D).bind (resolveFeatures D) with
          | error e => exact ⟨rfl, rfl⟩
          | ok l =>
            cases prepCentering c' with
            | error e => exact ⟨rfl, rfl⟩
            | ok m => exact afterFit_mix h hb m l L
        · simp only [if_neg ha, and_self]
      | eval s xs het c' =>
        simp only [afterCall]
        cases prepCentering c' with
        | error e => exact ⟨rfl, rfl⟩
        | ok m => exact afterEval_mix h hdef m s L
      | plot s c' =>
        simp only [afterCall]
        cases prepCentering c' with
        | error e => exact ⟨rfl, rfl⟩
        | ok m => exact afterEval_mix h hdef m s L
    simp only [List.foldl_cons, hstep]
    exact ih (fun f bm c' hm => hcalls f bm c' (List.mem_cons_of_mem _ hm)) _

/-- `eval` of the three objects after the same calls. -/
theorem aleEval_mix [PySqrt K] [LawfulSqrt K] {a b : K} {P : BinMethod K → Prop} {c₁ c₂ c : AleCfg K D} (h : CfgMix a b P c₁ c₂ c) (hdef : P c₁.defaultBin)
    (calls : List (AleOp K D)) (hcalls : ∀ f bm c', AleOp.fit f bm c' ∈ calls → P bm) (s : Fin D) (xs : List K) (het : Bool) (cen : PyVal) :
    EvalMix a b (aleEval c₁ (aleRun c₁ calls) s xs het cen).2 (aleEval c₂ (aleRun c₂ calls) s xs het cen).2 (aleEval c (aleRun c calls) s xs het cen).2 := by
  have g₁ : ∀ bm, P bm → GoodFor c₁ bm := by
    intro bm hb s p hp
    rcases h.fit s bm hb with ⟨p', q, r, hp', hq, hr, hm⟩ | ⟨e, hp', hq, hr⟩
    · rw [hp] at hp'; cases hp'; exact hm.gp
    · rw [hp] at hp'; cases hp'
  have g₂ : ∀ bm, P bm → GoodFor c₂ bm := by
    intro bm hb s p hp
    rcases h.fit s bm hb with ⟨p', q, r, hp', hq, hr, hm⟩ | ⟨e, hp', hq, hr⟩
    · rw [hp] at hq; cases hq; exact hm.gq
    · rw [hp] at hq; cases hq
  have g : ∀ bm, P bm → GoodFor c bm := by
    intro bm hb s p hp
    rcases h.fit s bm hb with ⟨p', q, r, hp', hq, hr, hm⟩ | ⟨e, hp', hq, hr⟩
    · rw [hp] at hr; cases hr; exact hm.gr
    · rw [hp] at hr; cases hr
  obtain ⟨l₂, l⟩ := lastFit_mix h hdef calls hcalls
  rw [C29_eval_is_function_of_last_fit c₁ (g₁ _ hdef).evaluable calls (usesEvaluable_of c₁ calls fun f bm c' hm => (g₁ _ (hcalls f bm c' hm)).evaluable),
    C29_eval_is_function_of_last_fit c₂ (g₂ _ (h.def₂ ▸ hdef)).evaluable calls (usesEvaluable_of c₂ calls fun f bm c' hm => (g₂ _ (hcalls f bm c' hm)).evaluable),
    C29_eval_is_function_of_last_fit c (g _ (h.def' ▸ hdef)).evaluable calls (usesEvaluable_of c calls fun f bm c' hm => (g _ (hcalls f bm c' hm)).evaluable), l₂, l]
  cases hm : prepCentering cen with
  | error e => exact Or.inl ⟨e, rfl, rfl, rfl⟩
  | ok m =>
    simp only
    have hb : P (effectiveBin c₁ (lastFit c₁ calls s) m) := effectiveBin_mem c₁ calls P hdef hcalls s m
    have e₂ : effectiveBin c₂ (lastFit c₁ calls s) m = effectiveBin c₁ (lastFit c₁ calls s) m := by unfold effectiveBin; rw [h.def₂]
    have e : effectiveBin c (lastFit c₁ calls s) m = effectiveBin c₁ (lastFit c₁ calls s) m := by unfold effectiveBin; rw [h.def']
    rw [e₂, e]
    exact valueOf_mix h hb m s xs het

/-! ### ALE -/

theorem ale_cfgMix [PySqrt K] [LawfulSqrt K] (a b : K) (cast : K → K) (f g : Row K D → K) (B : Base K D) (hlt : ∀ s, B.axisLo s < B.axisHi s) :
    CfgMix a b (fun bm => ∀ m cl, bm ≠ .fixed 0 m cl) (aleCfg cast (List.map f) B) (aleCfg cast (List.map g) B) (aleCfg cast (List.map (mixed a b f g)) B) where
  lo₂ := rfl
  lo := rfl
  hi₂ := rfl
  hi := rfl
  def₂ := rfl
  def' := rfl
  al₂ := rfl
  al := rfl
  fit := by
    intro s bm hbm
    show FitMix a b (aleFitFeature cast (List.map f) B.data B.axisLo B.axisHi s bm) (aleFitFeature cast (List.map g) B.data B.axisLo B.axisHi s bm)
      (aleFitFeature cast (List.map (mixed a b f g)) B.data B.axisLo B.axisHi s bm)
    rw [aleFitFeature_eq, aleFitFeature_eq, aleFitFeature_eq]
    by_cases hfix : isFixedMethod bm = true
    · simp only [hfix, if_true]
      cases hL : findLimits (aleCtx B.data B.axisLo B.axisHi s) (aleMethod bm) with
      | error e => exact Or.inr ⟨e, rfl, rfl, rfl⟩
      | ok l =>
        cases l with
        | impossible => exact Or.inr ⟨_, rfl, rfl, rfl⟩
        | arr L =>
          simp only [Except.bind]
          obtain ⟨hinc, htwo, hwith, -⟩ := findLimits_good _ _ (aleCtx_in B.data B.axisLo B.axisHi s) (hlt s) (ale_safe hfix hbm) L hL
          by_cases hne : B.data.filter (inAxis (B.axisLo s) (B.axisHi s) s) = []
          · right
            have hnil : ∃ e, ∀ model : List (Row K D) → List K, computeLocalEffects cast [] model L s = .error e := by
              unfold computeLocalEffects
              simp only [bind, Except.bind]
              cases pyIndex L 0 with
              | error e => exact ⟨e, fun _ => rfl⟩
              | ok v => exact ⟨_, fun _ => rfl⟩
            obtain ⟨e, he⟩ := hnil
            rw [hne]
            simp only [he]
            exact ⟨e, rfl, rfl, rfl⟩
          · obtain ⟨l0, l1, h0, h1, h01, ef⟩ := computeLocalEffects_eq (cast := cast) (f := f) hinc htwo hwith hne
            obtain ⟨k0, k1, h0', h1', -, eg⟩ := computeLocalEffects_eq (cast := cast) (f := g) hinc htwo hwith hne
            obtain ⟨j0, j1, h0'', h1'', -, em⟩ := computeLocalEffects_eq (cast := cast) (f := mixed a b f g) hinc htwo hwith hne
            rw [h0] at h0' h0''
            rw [h1] at h1' h1''
            cases h0'; cases h1'; cases h0''; cases h1''
            rw [ef, eg, em]
            simp only
            have := params_mix a b (B.data.filter (inAxis (B.axisLo s) (B.axisHi s) s)) (fun r => r s)
              (fun r => (f (Function.update r s (cast ((bumpLast EPS L).getD (binIdx L (r s)) 0))) -
                  f (Function.update r s (cast ((bumpLast EPS L).getD (binIdx L (r s) - 1) 0)))) / (l1 - l0))
              (fun r => (g (Function.update r s (cast ((bumpLast EPS L).getD (binIdx L (r s)) 0))) -
                  g (Function.update r s (cast ((bumpLast EPS L).getD (binIdx L (r s) - 1) 0)))) / (l1 - l0))
              (increasing_bumpLast (EPS_pos (K := K)).le hinc) (by rw [length_bumpLast]; exact htwo) (within_bump htwo hwith)
            have hrw : (fun r : Row K D => (mixed a b f g (Function.update r s (cast ((bumpLast EPS L).getD (binIdx L (r s)) 0))) -
                  mixed a b f g (Function.update r s (cast ((bumpLast EPS L).getD (binIdx L (r s) - 1) 0)))) / (l1 - l0)) =
                fun r => a * ((f (Function.update r s (cast ((bumpLast EPS L).getD (binIdx L (r s)) 0))) -
                  f (Function.update r s (cast ((bumpLast EPS L).getD (binIdx L (r s) - 1) 0)))) / (l1 - l0)) +
                  b * ((g (Function.update r s (cast ((bumpLast EPS L).getD (binIdx L (r s)) 0))) -
                  g (Function.update r s (cast ((bumpLast EPS L).getD (binIdx L (r s) - 1) 0)))) / (l1 - l0)) := by
              funext r
              unfold mixed
              ring
            rw [hrw]
            rcases this with h | h
            · exact Or.inl h
            · exact Or.inr ⟨_, h⟩
    · simp only [hfix]
      exact Or.inr ⟨_, rfl, rfl, rfl⟩

/-- **C10 for whole objects.**  Three ALE objects on the same data (any `nof_instances`, any axis limits) for the models `f`, `g` and `a f + b g`, on which the same calls were made (`fit` with any
accepted binning method except `Fixed(nof_bins=0)`, `eval`, `plot`): `eval`, with any centring, is linear in the model, and its heterogeneity subadditive. -/
theorem C10_eval_linear [PySqrt K] [LawfulSqrt K] (a b : K) (cast : K → K) (f g : Row K D → K) (B : Base K D) (hlt : ∀ s, B.axisLo s < B.axisHi s)
    (calls : List (AleOp K D)) (hcalls : ∀ fs bm c m cl, AleOp.fit fs bm c ∈ calls → bm ≠ .fixed 0 m cl) (s : Fin D) (xs : List K) (het : Bool) (c : PyVal) :
    EvalMix a b (aleEval (aleCfg cast (List.map f) B) (aleRun (aleCfg cast (List.map f) B) calls) s xs het c).2
      (aleEval (aleCfg cast (List.map g) B) (aleRun (aleCfg cast (List.map g) B) calls) s xs het c).2
      (aleEval (aleCfg cast (List.map (mixed a b f g)) B) (aleRun (aleCfg cast (List.map (mixed a b f g)) B) calls) s xs het c).2 :=
  aleEval_mix (ale_cfgMix a b cast f g B hlt) (fun m cl h => by cases h) calls (fun fs bm c hm m cl => hcalls fs bm c m cl hm) s xs het c

/-! ### RHALE with fixed bins -/

namespace Spec

/-- Where an RHALE object takes its effects from: the argument `data_effect`, the argument `model_jac`, or the model by finite differences. -/
inductive EffectsFrom (K : Type) (D : ℕ)
  | given (e : List (Row K D))
  | jac (j : Row K D → Row K D)
  | model

def EffectsFrom.jacArg : EffectsFrom K D → Option (Row K D → Row K D)
  | .jac j => some j
  | _ => none

def EffectsFrom.givenArg : EffectsFrom K D → Option (List (Row K D))
  | .given e => some e
  | _ => none

/-- The third source gives `a *` the effects of the first plus `b *` those of the second (if all three use the model, there is nothing to require). -/
def MixedSource (a b : K) (data : List (Row K D)) : EffectsFrom K D → EffectsFrom K D → EffectsFrom K D → Prop
  | .given e₁, .given e₂, .given e => e₁.length = data.length ∧ e₂.length = data.length ∧ e = List.zipWith (fun r t i => a * r i + b * t i) e₁ e₂
  | .jac j₁, .jac j₂, .jac j => j = fun r i => a * j₁ r i + b * j₂ r i
  | .model, .model, .model => True
  | _, _, _ => False

/-- The bins do not depend on the effects: `Fixed` with at least one bin, or the string `"fixed"`. -/
def FixedBins : BinMethod K → Prop
  | .fixed n _ _ => 1 ≤ n
  | .str s => s = "fixed"
  | _ => False

end Spec

theorem rhale_fitMix [PySqrt K] [LawfulSqrt K] (a b : K) (T : List (Row K D × Row K D × Row K D)) (lo hi : Fin D → K) (s : Fin D) (hlt : lo s < hi s) (bm : BinMethod K)
    (hbm : FixedBins bm) :
    FitMix a b (rhaleFitFeature (T.map (·.1)) (T.map (·.2.1)) lo hi s bm) (rhaleFitFeature (T.map (·.1)) (T.map (·.2.2)) lo hi s bm)
      (rhaleFitFeature (T.map (·.1)) (T.map fun t i => a * t.2.1 i + b * t.2.2 i) lo hi s bm) := by
  rw [rhaleFitFeature_bind _ _ (by simp), rhaleFitFeature_bind _ _ (by simp), rhaleFitFeature_bind _ _ (by simp)]
  have hctx : ∀ e e' : List (Row K D), findLimits (rhaleCtx (T.map (·.1)) e lo hi s) bm = findLimits (rhaleCtx (T.map (·.1)) e' lo hi s) bm := by
    intro e e'
    cases bm with
    | fixed n m cl => rfl
    | str t =>
      have ht : t = "fixed" := hbm
      subst ht
      simp only [findLimits, if_true]
      rfl
    | greedy => exact hbm.elim
    | dp => exact hbm.elim
  rw [hctx (T.map (·.2.2)) (T.map (·.2.1)), hctx (T.map fun t i => a * t.2.1 i + b * t.2.2 i) (T.map (·.2.1))]
  have hsafe : SafeMethod (rhaleCtx (T.map (·.1)) (T.map (·.2.1)) lo hi s) bm := by
    cases bm with
    | fixed n m cl => exact hbm
    | str t =>
      have ht : t = "fixed" := hbm
      subst ht
      exact fun h => absurd h (by decide)
    | greedy => exact hbm.elim
    | dp => exact hbm.elim
  cases hL : findLimits (rhaleCtx (T.map (·.1)) (T.map (·.2.1)) lo hi s) bm with
  | error e => exact Or.inr ⟨e, rfl, rfl, rfl⟩
  | ok l =>
    cases l with
    | impossible => exact Or.inr ⟨_, rfl, rfl, rfl⟩
    | arr L =>
      simp only [Except.bind]
      obtain ⟨hinc, htwo, hwith, -⟩ := findLimits_good _ _ (rhaleCtx_in _ _ lo hi s) hlt hsafe L hL
      have hx : ∀ e : List (Row K D), (rhaleCtx (T.map (·.1)) e lo hi s).xs = (T.filter fun t => inAxis (lo s) (hi s) s t.1).map fun t => t.1 s := by
        intro e
        show col ((T.map (·.1)).filter (inAxis (lo s) (hi s) s)) s = _
        unfold col
        rw [List.filter_map, List.map_map]
        rfl
      have he : ∀ E : Row K D × Row K D × Row K D → Row K D, col ((((T.map (·.1)).zip (T.map E)).filter fun p => inAxis (lo s) (hi s) s p.1).map (·.2)) s =
          (T.filter fun t => inAxis (lo s) (hi s) s t.1).map fun t => E t s := by
        intro E
        unfold col
        rw [List.zip_map', List.filter_map, List.map_map, List.map_map]
        rfl
      rw [hx] at hwith
      simp only [hx, he]
      rcases params_mix a b (T.filter fun t => inAxis (lo s) (hi s) s t.1) (fun t => t.1 s) (fun t => t.2.1 s) (fun t => t.2.2 s) hinc htwo hwith with h | h
      · exact Or.inl h
      · exact Or.inr ⟨_, h⟩

theorem fromParams_mix [PySqrt K] [LawfulSqrt K] {a b : K} {c₁ c₂ c : AleCfg K D} (lo₂ : c₂.axisLo = c₁.axisLo) (lo : c.axisLo = c₁.axisLo) (hi₂ : c₂.axisHi = c₁.axisHi)
    (hi : c.axisHi = c₁.axisHi) (s : Fin D) {p q r : AleParams K} (hm : MixedParams a b p q r) (m m' : Centering) (hmm : m' = .off ∨ m' = m) (xs : List K) (het : Bool) :
    EvalMix a b (fromParams c₁ s m xs het m' p) (fromParams c₂ s m xs het m' q) (fromParams c s m xs het m' r) := by
  obtain ⟨E, F, P', Q, R, hE, hF, hG, hP, hQ, hR, hle⟩ := hm.eval
  have hs : ∃ z₁ z₂ z, aleNormConst c₁ p s m = .ok z₁ ∧ aleNormConst c₂ q s m = .ok z₂ ∧ aleNormConst c r s m = .ok z ∧ (m ≠ .off → z = a * z₁ + b * z₂) := by
    cases m with
    | off => exact ⟨_, _, _, rfl, rfl, rfl, fun h => absurd rfl h⟩
    | zeroStart =>
      refine ⟨E (c₁.axisLo s), F (c₁.axisLo s), _, ?_, ?_, ?_, fun _ => rfl⟩ <;> simp only [aleNormConst, hE, hF, hG, lo, lo₂] <;> rfl
    | zeroIntegral =>
      refine ⟨_, _, _, by simp only [aleNormConst, mean1dLinspace, hE]; rfl, by simp only [aleNormConst, mean1dLinspace, hF, lo₂, hi₂]; rfl,
        by simp only [aleNormConst, mean1dLinspace, hG, lo, hi]; rfl, fun _ => ?_⟩
      exact avg_lin _ E F a b
  obtain ⟨z₁, z₂, z, hz₁, hz₂, hz, hzz⟩ := hs
  unfold fromParams
  rw [hz₁, hz₂, hz, lo₂, lo, hi₂, hi]
  simp only [bind, Except.bind, pure, Except.pure, hE, hF, hG]
  by_cases hlt : c₁.axisLo s < c₁.axisHi s
  · simp only [hlt, decide_true, pyAssert, if_true]
    have hy0 : (xs.map fun x => a * E x + b * F x) = mix a b (xs.map E) (xs.map F) := (mix_map a b xs E F).symm
    have hy : m ≠ .off → (xs.map fun x => a * E x + b * F x).map (fun x => x - z) = mix a b ((xs.map E).map fun x => x - z₁) ((xs.map F).map fun x => x - z₂) := by
      intro hmo
      rw [hzz hmo]
      simp only [List.map_map]
      rw [mix_map]
      apply List.map_congr_left
      intro x _
      simp only [Function.comp]
      ring
    have hle' : ∀ (i : ℕ) (u v w : K), (xs.map P')[i]? = some u → (xs.map Q)[i]? = some v → (xs.map R)[i]? = some w → w ≤ |a| * u + |b| * v := by
      intro i u v w hu hv hw
      simp only [List.getElem?_map, Option.map_eq_some_iff] at hu hv hw
      obtain ⟨x, hx, rfl⟩ := hu
      obtain ⟨x', hx', rfl⟩ := hv
      obtain ⟨x'', hx'', rfl⟩ := hw
      rw [hx] at hx' hx''
      cases hx'
      cases hx''
      exact hle x
    by_cases hoff : m' = .off
    · simp only [hoff, if_true]
      cases het with
      | false =>
        right; left
        exact ⟨_, _, rfl, rfl, by simp, by simp only [Bool.false_eq_true, if_false]; rw [hy0]⟩
      | true =>
        right; right
        simp only [if_true, hP, hQ, hR, Except.map]
        exact ⟨_, _, _, _, _, rfl, rfl, by rw [hy0], by simp, by simp, by simp, by simp, hle'⟩
    · have hmo : m ≠ .off := by
        rcases hmm with h | h
        · exact absurd h hoff
        · exact h ▸ hoff
      simp only [if_neg hoff]
      cases het with
      | false =>
        right; left
        exact ⟨_, _, rfl, rfl, by simp, by simp only [Bool.false_eq_true, if_false]; rw [hy hmo]⟩
      | true =>
        right; right
        simp only [if_true, hP, hQ, hR, Except.map]
        exact ⟨_, _, _, _, _, rfl, rfl, by rw [hy hmo], by simp, by simp, by simp, by simp, hle'⟩
  · left
    simp only [hlt, decide_false, pyAssert, Bool.false_eq_true, if_false]
    exact ⟨_, rfl, rfl, rfl⟩

/-- The effects of the three objects, as columns of one table. -/
theorem mixedSource_table {a b : K} {data : List (Row K D)} {S₁ S₂ S : EffectsFrom K D} (h : MixedSource a b data S₁ S₂ S) (f g : Row K D → K) :
    ∃ T : List (Row K D × Row K D × Row K D), data = T.map (·.1) ∧ rhaleEffects (List.map f) (S₁.jacArg.map List.map) S₁.givenArg data = T.map (·.2.1) ∧
      rhaleEffects (List.map g) (S₂.jacArg.map List.map) S₂.givenArg data = T.map (·.2.2) ∧
      rhaleEffects (List.map (mixed a b f g)) (S.jacArg.map List.map) S.givenArg data = T.map fun t i => a * t.2.1 i + b * t.2.2 i := by
  match S₁, S₂, S, h with
  | .given e₁, .given e₂, .given e, ⟨h1, h2, h3⟩ =>
    refine ⟨data.zip (e₁.zip e₂), ?_, ?_, ?_, ?_⟩
    · rw [List.map_fst_zip]; simp [h1, h2]
    · rw [show (fun t : Row K D × Row K D × Row K D => t.2.1) = Prod.fst ∘ Prod.snd from rfl, ← List.map_map, List.map_snd_zip (by simp [h1, h2]), List.map_fst_zip (by simp [h1, h2])]
      rfl
    · rw [show (fun t : Row K D × Row K D × Row K D => t.2.2) = Prod.snd ∘ Prod.snd from rfl, ← List.map_map, List.map_snd_zip (by simp [h1, h2]), List.map_snd_zip (by simp [h1, h2])]
      rfl
    · rw [show (fun t : Row K D × Row K D × Row K D => fun i => a * t.2.1 i + b * t.2.2 i) = (fun u : Row K D × Row K D => fun i => a * u.1 i + b * u.2 i) ∘ Prod.snd from rfl,
        ← List.map_map, List.map_snd_zip (by simp [h1, h2]), List.zip_eq_zipWith, List.map_zipWith]
      exact h3
  | .jac j₁, .jac j₂, .jac j, h3 =>
    refine ⟨data.map fun r => (r, j₁ r, j₂ r), by simp [Function.comp_def], ?_, ?_, ?_⟩
    · simp [EffectsFrom.jacArg, EffectsFrom.givenArg, rhaleEffects, Function.comp_def]
    · simp [EffectsFrom.jacArg, EffectsFrom.givenArg, rhaleEffects, Function.comp_def]
    · have h3' : j = fun r i => a * j₁ r i + b * j₂ r i := h3
      simp [EffectsFrom.jacArg, EffectsFrom.givenArg, rhaleEffects, Function.comp_def, h3']
  | .model, .model, .model, _ =>
    refine ⟨data.map fun r => (r, (fun j => (f (Function.update r j (r j + EPS)) - f r) / EPS), fun j => (g (Function.update r j (r j + EPS)) - g r) / EPS),
      by simp [Function.comp_def], ?_, ?_, ?_⟩
    · rw [show rhaleEffects (List.map f) (Option.map List.map (EffectsFrom.jacArg .model)) (EffectsFrom.givenArg .model) data = _ from jacobian_rowwise f data EPS, List.map_map]
      rfl
    · rw [show rhaleEffects (List.map g) (Option.map List.map (EffectsFrom.jacArg .model)) (EffectsFrom.givenArg .model) data = _ from jacobian_rowwise g data EPS, List.map_map]
      rfl
    · rw [show rhaleEffects (List.map (mixed a b f g)) (Option.map List.map (EffectsFrom.jacArg .model)) (EffectsFrom.givenArg .model) data = _ from
        jacobian_rowwise (mixed a b f g) data EPS, List.map_map]
      refine List.map_congr_left fun r _ => ?_
      funext j
      simp only [Function.comp, mixed]
      ring

/-- **C87 for RHALE with fixed bins.**  Construct, `fit` with `Fixed` bins, `eval` (uncentred, or centred like the fit): the curve for `a f + b g` is `a *` the one for `f` plus `b *` the one for
`g`, and its heterogeneity is at most `|a| *` that of `f` plus `|b| *` that of `g`; or all three raise the same exception.  (Greedy and dynamic bins depend on the effects themselves.) -/
theorem C87_rhale_linear [PySqrt K] [LawfulSqrt K] (choice : ℕ → ℕ → List ℕ) (a b : K) (f g : Row K D → K) (data : List (Row K D)) (S₁ S₂ S : EffectsFrom K D)
    (hS : MixedSource a b data S₁ S₂ S) (axisLimits : Option ((Fin D → K) × (Fin D → K))) (s : Fin D) (hlt : ∀ l, limitsOr data axisLimits = .ok l → l.1 s < l.2 s)
    (bm : BinMethod K) (hbm : FixedBins bm) (c c' : PyVal) (hcc : prepCentering c' = .ok .off ∨ prepCentering c' = prepCentering c) (xs : List K) (het : Bool) :
    EvalMix a b (rhaleFitEval choice f S₁.jacArg data S₁.givenArg axisLimits s bm c xs het c') (rhaleFitEval choice g S₂.jacArg data S₂.givenArg axisLimits s bm c xs het c')
      (rhaleFitEval choice (mixed a b f g) S.jacArg data S.givenArg axisLimits s bm c xs het c') := by
  obtain ⟨T, hd, e₁, e₂, e⟩ := mixedSource_table hS f g
  have hlen : ∀ {S : EffectsFrom K D} {F : Row K D × Row K D × Row K D → Row K D} {f : Row K D → K}, rhaleEffects (List.map f) (S.jacArg.map List.map) S.givenArg data = T.map F →
      ∀ e, S.givenArg = some e → e.length = data.length := by
    intro S F f h e he
    rw [he] at h
    have h' : e = T.map F := h
    rw [h', hd]
    simp
  unfold rhaleFitEval
  rw [rhaleInit_all choice _ _ data _ (hlen e₁) axisLimits, rhaleInit_all choice _ _ data _ (hlen e₂) axisLimits, rhaleInit_all choice _ _ data _ (hlen e) axisLimits, e₁, e₂, e]
  cases hl : limitsOr data axisLimits with
  | error er => exact Or.inl ⟨er, rfl, rfl, rfl⟩
  | ok l =>
    simp only [Except.bind]
    have hfit := rhale_fitMix a b T l.1 l.2 s (hlt l hl) bm hbm
    rw [← hd] at hfit
    have hal : rhaleAllowed bm = true := by
      cases bm with
      | fixed n m cl => rfl
      | str t =>
        have ht : t = "fixed" := hbm
        subst ht
        simp [rhaleAllowed]
      | greedy => exact hbm.elim
      | dp => exact hbm.elim
    -- an exception before the loop is the same for the three objects
    have hbad : (∀ m m', ¬ (prepCentering c = .ok m ∧ prepCentering c' = .ok m')) → ∀ E₁ E₂ E : List (Row K D), ∀ B : Base K D,
        EvalMix a b (fitThenEval (rhaleCfg E₁ B) s bm c xs het c') (fitThenEval (rhaleCfg E₂ B) s bm c xs het c') (fitThenEval (rhaleCfg E B) s bm c xs het c') := by
      intro hno E₁ E₂ E B
      have hc : ∃ e, prepCentering c = .error e := by
        cases hm : prepCentering c with
        | error e => exact ⟨e, rfl⟩
        | ok m =>
          rcases hcc with h | h
          · exact absurd ⟨hm, h⟩ (hno _ _)
          · rw [hm] at h; exact absurd ⟨hm, h⟩ (hno _ _)
      obtain ⟨er, hc⟩ := hc
      have hone : ∀ E : List (Row K D), ∃ e', fitThenEval (rhaleCfg E B) s bm c xs het c' = .error e' ∧ ∀ E', fitThenEval (rhaleCfg E' B) s bm c xs het c' = .error e' := by
        intro E
        have : ∀ E : List (Row K D), fitThenEval (rhaleCfg E B) s bm c xs het c' =
            match (prepFeatures (.int ((s : ℕ) : ℤ)) D) with | .error e => .error e | .ok _ => .error er := by
          intro E
          unfold fitThenEval aleFit
          have ha : (rhaleCfg E B).allowed bm = true := hal
          rw [if_pos ha]
          simp only [bind, Except.bind, hc]
          cases prepFeatures (.int ((s : ℕ) : ℤ)) D <;> rfl
        simp only [this]
        cases prepFeatures (.int ((s : ℕ) : ℤ)) D with
        | error e => exact ⟨e, rfl, fun _ => rfl⟩
        | ok l => exact ⟨er, rfl, fun _ => rfl⟩
      obtain ⟨e', h1, h2⟩ := hone E₁
      exact Or.inl ⟨e', h1, h2 _, h2 _⟩
    by_cases hok : ∃ m m', prepCentering c = .ok m ∧ prepCentering c' = .ok m'
    · obtain ⟨m, m', hm, hm'⟩ := hok
      have hmm : m' = .off ∨ m' = m := by
        rcases hcc with h | h
        · rw [h] at hm'; cases hm'; exact Or.inl rfl
        · rw [hm', hm] at h; cases h; exact Or.inr rfl
      rw [fitThenEval_eq _ s bm c xs het c' hal hm hm' hmm, fitThenEval_eq _ s bm c xs het c' hal hm hm' hmm, fitThenEval_eq _ s bm c xs het c' hal hm hm' hmm]
      rcases hfit with ⟨p, q, r, hp, hq, hr, hmix⟩ | ⟨er, hp, hq, hr⟩
      · rw [show (rhaleCfg (T.map (·.2.1)) { data := data, indices := List.range data.length, axisLo := l.1, axisHi := l.2 }).fitF s bm = .ok p from hp,
          show (rhaleCfg (T.map (·.2.2)) { data := data, indices := List.range data.length, axisLo := l.1, axisHi := l.2 }).fitF s bm = .ok q from hq,
          show (rhaleCfg (T.map fun t i => a * t.2.1 i + b * t.2.2 i) { data := data, indices := List.range data.length, axisLo := l.1, axisHi := l.2 }).fitF s bm = .ok r from hr]
        exact fromParams_mix rfl rfl rfl rfl s hmix m m' hmm xs het
      · rw [show (rhaleCfg (T.map (·.2.1)) { data := data, indices := List.range data.length, axisLo := l.1, axisHi := l.2 }).fitF s bm = .error er from hp,
          show (rhaleCfg (T.map (·.2.2)) { data := data, indices := List.range data.length, axisLo := l.1, axisHi := l.2 }).fitF s bm = .error er from hq,
          show (rhaleCfg (T.map fun t i => a * t.2.1 i + b * t.2.2 i) { data := data, indices := List.range data.length, axisLo := l.1, axisHi := l.2 }).fitF s bm = .error er from hr]
        exact Or.inl ⟨er, rfl, rfl, rfl⟩
    · exact hbad (fun m m' h => hok ⟨m, m', h⟩) _ _ _ _

/-- Effects `x_0` and `1` given for three instances, combined to `2 x_0 - 3`, two fixed bins on `[0, 2]`: the three scripts succeed with the values the theorem relates (`mix 2 (-3)`). -/
def mixRows : List (Row ℚ 1) := [![0], ![1 / 2], ![1], ![2]]

example : MixedSource 2 (-3) mixRows (.given mixRows) (.given (mixRows.map fun _ => ![1])) (.given [![-3], ![-2], ![-1], ![1]]) := by
  refine ⟨rfl, rfl, ?_⟩
  decide +kernel

example : limitsOr mixRows none = .ok (![0], ![2]) := by decide +kernel

example :
    rhaleFitEval (fun _ _ => []) (fun r => r 0) none mixRows (some mixRows) none 0 (.fixed 2 (some 2) 0) (.str "zero_start") [1, 2] false (.bool false) = .ok ([1 / 4, 7 / 4], none) ∧
    rhaleFitEval (fun _ _ => []) (fun r => r 0) none mixRows (some (mixRows.map fun _ => ![1])) none 0 (.fixed 2 (some 2) 0) (.str "zero_start") [1, 2] false (.bool false) = .ok ([1, 2], none) ∧
    rhaleFitEval (fun _ _ => []) (fun r => r 0) none mixRows (some [![-3], ![-2], ![-1], ![1]]) none 0 (.fixed 2 (some 2) 0) (.str "zero_start") [1, 2] false (.bool false) =
      .ok (mix 2 (-3) [1 / 4, 7 / 4] [1, 2], none) := by
  decide +kernel

end Effector
