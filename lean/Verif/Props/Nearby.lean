import Verif.Props.Superposition
import Verif.Props.Envelope
import Verif.Props.Monotone

/-!
# C107: nearby models have nearby effects
-/

set_option linter.unusedSectionVars false

namespace Effector

open Spec

variable {K : Type} [Field K] [LinearOrder K] [IsStrictOrderedRing K] {D : ℕ}

namespace Spec

/-- Two PDP (or d-PDP) objects whose models, Jacobian columns, or models relative to the step 1e-6 of the finite differences, differ by at most `ε` everywhere. -/
def NearPdp (ε : K) (s : Fin D) : PdpModel K D → PdpModel K D → Prop
  | .pdp f, .pdp g => ∀ r, |f r - g r| ≤ ε
  | .derJac j, .derJac k => ∀ r, |j r s - k r s| ≤ ε
  | .derNum f, .derNum g => ∀ r, |f r - g r| ≤ ε * (1 / 10 ^ 6)
  | _, _ => False

/-- The difference of two objects of the same kind. -/
def PdpModel.minus : PdpModel K D → PdpModel K D → PdpModel K D
  | .pdp f, .pdp g => .pdp (mixed 1 (-1) f g)
  | .derJac j, .derJac k => .derJac fun r i => 1 * j r i + -1 * k r i
  | .derNum f, .derNum g => .derNum (mixed 1 (-1) f g)
  | M, _ => M

/-- Entry by entry, the two lists differ by at most `κ`. -/
def WithinBy (κ : K) (u v : List K) : Prop := ∀ (i : ℕ) (x y : K), u[i]? = some x → v[i]? = some y → |x - y| ≤ κ

/-- The two heterogeneities, at every point of `[lo, hi]`, differ by at most `κ` times the distance of the point from `lo`. -/
def HetNear (κ lo hi : K) (xs h₁ h₂ : List K) : Prop :=
  ∀ (i : ℕ) (x u v : K), xs[i]? = some x → h₁[i]? = some u → h₂[i]? = some v → lo ≤ x → x ≤ hi → |u - v| ≤ κ * (x - lo)

/-- Both heterogeneities were asked for, or neither; if they were, they are near and there is one per point. -/
def HetsNear (κ lo hi : K) (xs : List K) (o₁ o₂ : Option (List K)) : Prop :=
  (o₁ = none ∧ o₂ = none) ∨ ∃ h₁ h₂, o₁ = some h₁ ∧ o₂ = some h₂ ∧ h₁.length = xs.length ∧ h₂.length = xs.length ∧ HetNear κ lo hi xs h₁ h₂

/-- Two results of `eval` at `xs`: both raise the same exception, or, between any two points of an interval that contains every instance within the axis limits (and points up to 1e8), the
difference of the two curves changes by at most `κ` times the distance of the points, and the heterogeneities (if asked for) differ by at most `κ` times the distance from the left end. -/
def NearCurves (κ : K) (B : Base K D) (s : Fin D) (xs : List K) (r₁ r₂ : Py (List K × Option (List K))) : Prop :=
  (∃ e, r₁ = .error e ∧ r₂ = .error e) ∨
  ∃ y₁ y₂ o₁ o₂ lo hi, r₁ = .ok (y₁, o₁) ∧ r₂ = .ok (y₂, o₂) ∧ y₁.length = xs.length ∧ y₂.length = xs.length ∧
    (∀ r ∈ B.data, B.axisLo s ≤ r s → r s ≤ B.axisHi s → lo ≤ r s ∧ r s ≤ hi) ∧ SlopesIn (-κ) κ lo (min hi (10 ^ 8)) xs (List.zipWith (· - ·) y₁ y₂) ∧
    HetsNear κ lo (min hi (10 ^ 8)) xs o₁ o₂

/-- On a feature with `d` different values, the method splits the axis into at most `n` equal bins: `Fixed` with at most `n` (and at least one) bins whose `cat_limit` is below `d`, or the string
"fixed" (20 bins, limit 15). -/
def EqualBins (n d : ℕ) : BinMethod K → Prop
  | .fixed k _ cl => 1 ≤ k ∧ k ≤ n ∧ cl < d
  | .str _ => 20 ≤ n ∧ 15 < d
  | _ => True

/-- Two RHALE objects whose effects of feature `s` differ by at most `ε` on every row: the argument `data_effect`, the function `model_jac`, or models that differ by at most `ε` times
half the step 1e-8 of the numerical derivative. -/
def NearSource (ε : K) (s : Fin D) (data : List (Row K D)) (f g : Row K D → K) : EffectsFrom K D → EffectsFrom K D → Prop
  | .given e₁, .given e₂ => e₁.length = data.length ∧ e₂.length = data.length ∧ ∀ p ∈ e₁.zip e₂, |p.1 s - p.2 s| ≤ ε
  | .jac j₁, .jac j₂ => ∀ r, |j₁ r s - j₂ r s| ≤ ε
  | .model, .model => ∀ r, |f r - g r| ≤ ε * (1 / 10 ^ 8) / 2
  | _, _ => False

/-- The difference of two sources of the same kind. -/
def EffectsFrom.minus : EffectsFrom K D → EffectsFrom K D → EffectsFrom K D
  | .given e₁, .given e₂ => .given (List.zipWith (fun r t i => 1 * r i + -1 * t i) e₁ e₂)
  | .jac j₁, .jac j₂ => .jac fun r i => 1 * j₁ r i + -1 * j₂ r i
  | S, _ => S

/-- Two results of the same script on two RHALE objects: both raise the same exception, or, between any two points of an interval that contains every instance within the axis limits (and
points up to 1e8), the difference of the two curves changes by at most `κ` times the distance of the points, and the heterogeneities (if asked for) differ by at most `κ` times the distance from the left end. -/
def NearScripts (κ : K) (data : List (Row K D)) (axisLimits : Option ((Fin D → K) × (Fin D → K))) (s : Fin D) (xs : List K) (r₁ r₂ : Py (List K × Option (List K))) : Prop :=
  (∃ e, r₁ = .error e ∧ r₂ = .error e) ∨
  ∃ y₁ y₂ o₁ o₂ lo hi l, r₁ = .ok (y₁, o₁) ∧ r₂ = .ok (y₂, o₂) ∧ y₁.length = xs.length ∧ y₂.length = xs.length ∧ limitsOr data axisLimits = .ok l ∧
    (∀ r ∈ data, l.1 s ≤ r s → r s ≤ l.2 s → lo ≤ r s ∧ r s ≤ hi) ∧ SlopesIn (-κ) κ lo (min hi (10 ^ 8)) xs (List.zipWith (· - ·) y₁ y₂) ∧
    HetsNear κ lo (min hi (10 ^ 8)) xs o₁ o₂

end Spec

theorem near_minus {ε : K} {s : Fin D} {M₁ M₂ : PdpModel K D} (h : NearPdp ε s M₁ M₂) :
    MixedPdp 1 (-1) M₁ M₂ (M₁.minus M₂) ∧ MixedPdp 1 1 M₂ (M₁.minus M₂) M₁ ∧ MixedPdp 1 (-1) M₁ (M₁.minus M₂) M₂ ∧ RangeIn (M₁.minus M₂) s (-ε) ε := by
  match M₁, M₂, h with
  | .pdp f, .pdp g, h =>
    refine ⟨rfl, ?_, ?_, fun r v => ?_⟩
    · show f = mixed 1 1 g (mixed 1 (-1) f g)
      funext r; simp only [mixed]; ring
    · show g = mixed 1 (-1) f (mixed 1 (-1) f g)
      funext r; simp only [mixed]; ring
    · have := abs_le.mp (h (Function.update r s v))
      show -ε ≤ mixed 1 (-1) f g (Function.update r s v) ∧ mixed 1 (-1) f g (Function.update r s v) ≤ ε
      simp only [mixed]
      constructor <;> linarith [this.1, this.2]
  | .derJac j, .derJac k, h =>
    refine ⟨rfl, ?_, ?_, fun r v => ?_⟩
    · show j = fun r i => 1 * k r i + 1 * (1 * j r i + -1 * k r i)
      funext r i; ring
    · show k = fun r i => 1 * j r i + -1 * (1 * j r i + -1 * k r i)
      funext r i; ring
    · have := abs_le.mp (h (Function.update r s v))
      show -ε ≤ 1 * j (Function.update r s v) s + -1 * k (Function.update r s v) s ∧ 1 * j (Function.update r s v) s + -1 * k (Function.update r s v) s ≤ ε
      constructor <;> linarith [this.1, this.2]
  | .derNum f, .derNum g, h =>
    refine ⟨rfl, ?_, ?_, fun r v => ?_⟩
    · show f = mixed 1 1 g (mixed 1 (-1) f g)
      funext r; simp only [mixed]; ring
    · show g = mixed 1 (-1) f (mixed 1 (-1) f g)
      funext r; simp only [mixed]; ring
    · have h1 := abs_le.mp (h (Function.update r s (v + 1 / 10 ^ 6)))
      have h2 := abs_le.mp (h (Function.update r s (v - 1 / 10 ^ 6)))
      have hp : (0 : K) < 2 * (1 / 10 ^ 6) := by positivity
      show -ε ≤ (mixed 1 (-1) f g (Function.update r s (v + 1 / 10 ^ 6)) - mixed 1 (-1) f g (Function.update r s (v - 1 / 10 ^ 6))) / (2 * (1 / 10 ^ 6)) ∧
        (mixed 1 (-1) f g (Function.update r s (v + 1 / 10 ^ 6)) - mixed 1 (-1) f g (Function.update r s (v - 1 / 10 ^ 6))) / (2 * (1 / 10 ^ 6)) ≤ ε
      rw [le_div_iff₀ hp, div_le_iff₀ hp]
      simp only [mixed]
      constructor <;> linarith [h1.1, h1.2, h2.1, h2.2]

/-! ### PDP and d-PDP -/

theorem getElem?_mix {a b : K} {u v : List K} {i : ℕ} {x y : K} (hx : u[i]? = some x) (hy : v[i]? = some y) : (mix a b u v)[i]? = some (a * x + b * y) := by
  unfold mix
  rw [List.getElem?_zipWith, hx, hy]

/-- **C107 for PDP and d-PDP.**  Two objects on the same data whose models differ by at most `ε` (for d-PDP: whose derivatives do; by finite differences: whose models differ by at most
1e-6 `ε`), whatever calls were made before on each: the reported curves and the reported heterogeneities differ by at most `ε` at every point, by at most `2 ε` if they are centred. -/
theorem C107_pdp [PySqrt K] [LawfulSqrt K] (ε : K) (M₁ M₂ : PdpModel K D) (lo hi : Fin D → K) (data : List (Row K D)) (s : Fin D) (hM : NearPdp ε s M₁ M₂)
    (calls₁ calls₂ : List (PdpOp K D)) (h₁ : ∀ op ∈ calls₁, PdpCallOk data lo hi s op) (h₂ : ∀ op ∈ calls₂, PdpCallOk data lo hi s op)
    (xs : List K) (vec : Bool) (hargs : EvalArgsOk data lo hi s xs vec) (c : PyVal) (m : Centering) (hc : prepCentering c = .ok m) :
    ∃ mu₁ mu₂ sd₁ sd₂, pdpEvalAfter M₁ lo hi data calls₁ s xs true c false vec = .ok (.meanStd mu₁ sd₁) ∧
      pdpEvalAfter M₂ lo hi data calls₂ s xs true c false vec = .ok (.meanStd mu₂ sd₂) ∧
      mu₁.length = xs.length ∧ mu₂.length = xs.length ∧ sd₁.length = xs.length ∧ sd₂.length = xs.length ∧
      WithinBy (if m = .off then ε else 2 * ε) mu₁ mu₂ ∧ WithinBy (if m = .off then ε else 2 * ε) sd₁ sd₂ := by
  obtain ⟨m1, m2, m3, hr⟩ := near_minus hM
  set M := M₁.minus M₂
  have hno : ∀ op ∈ ([] : List (PdpOp K D)), PdpCallOk data lo hi s op := by simp
  obtain ⟨-, -, mu₁, mu₂, sd₁, sd₂, sd, -, -, -, e1, e2, e3, l1, l2, l3, l4, l5, -⟩ := C87_pdp_linear 1 (-1) M₁ M₂ M m1 lo hi data s calls₁ calls₂ [] h₁ h₂ hno xs vec hargs c m hc
  obtain ⟨-, -, mua, mub, sda, sdb, sdc, -, -, -, a1, a2, a3, -, -, -, -, -, ha⟩ := C87_pdp_linear 1 1 M₂ M M₁ m2 lo hi data s calls₂ [] calls₁ h₂ hno h₁ xs vec hargs c m hc
  obtain ⟨-, -, mud, mue, sdd, sde, sdf, -, -, -, b1, b2, b3, -, -, -, -, -, hb⟩ := C87_pdp_linear 1 (-1) M₁ M M₂ m3 lo hi data s calls₁ [] calls₂ h₁ hno h₂ xs vec hargs c m hc
  rw [e1] at a3 b1
  rw [e2] at a1 b3
  rw [e3] at a2 b2
  cases a1; cases a2; cases b1; cases b2
  injection a3 with a3
  injection a3 with _ a3
  injection b3 with b3
  injection b3 with _ b3
  subst a3 b3
  obtain ⟨mu, std, r1, -, -, hoff, hon⟩ := C92_range M lo hi data s [] hno xs vec hargs c m hc (-ε) ε hr
  rw [e3] at r1
  cases r1
  have hsmall : (∀ y ∈ mix 1 (-1) mu₁ mu₂, |y| ≤ if m = .off then ε else 2 * ε) ∧ ∀ z ∈ sd, z ≤ if m = .off then ε else 2 * ε := by
    split
    · next hm =>
      obtain ⟨q1, q2⟩ := hoff hm
      exact ⟨fun y hy => abs_le.mpr (q1 y hy), fun z hz => (q2 z hz).trans (by linarith)⟩
    · next hm =>
      obtain ⟨q1, q2⟩ := hon hm
      exact ⟨fun y hy => (q1 y hy).trans (by linarith), fun z hz => (q2 z hz).trans (by linarith)⟩
  refine ⟨mu₁, mu₂, sd₁, sd₂, e1, e2, l1, l2, l3, l4, fun i x y hx hy => ?_, fun i x y hx hy => ?_⟩
  · have := hsmall.1 _ (List.mem_of_getElem? (getElem?_mix (a := 1) (b := -1) hx hy))
    rwa [show 1 * x + -1 * y = x - y by ring] at this
  · obtain ⟨z, hz⟩ : ∃ z, sd[i]? = some z := by
      have : i < sd.length := by rw [l5, ← l3]; exact (List.getElem?_eq_some_iff.mp hx).1
      exact ⟨_, List.getElem?_eq_getElem this⟩
    have hz' := hsmall.2 z (List.mem_of_getElem? hz)
    have q1 := ha i y z x hy hz hx
    have q2 := hb i x z y hx hz hy
    simp only [abs_one, one_mul, abs_neg] at q1 q2
    rw [abs_le]
    constructor <;> linarith

/-! ### ALE -/

/-- The heterogeneity of a fit whose bins all have variance at most `κ ^ 2`. -/
theorem het_small [PySqrt K] [LawfulSqrt K] {p : AleParams K} (hp : GoodParams p) {κ : K} (hκ : 0 ≤ κ) (hv : ∀ v ∈ p.binVariance, 0 ≤ v ∧ v ≤ κ ^ 2) {lo hi : K}
    (hlo : p.limits.head? = some lo) (hhi : p.limits.getLast? = some hi) {xs h : List K} (hh : evalHet p xs = .ok h) :
    h.length = xs.length ∧ ∀ (i : ℕ) (x z : K), xs[i]? = some x → h[i]? = some z → lo ≤ x → x ≤ min hi (10 ^ 8) → z ≤ κ * (x - lo) := by
  obtain ⟨H, hH, hg⟩ := hp.het_grows
  rw [hH] at hh
  cases hh
  refine ⟨by simp, fun i x z hx hz h1 h2 => ?_⟩
  rw [List.getElem?_map, hx] at hz
  cases hz
  let q : AleParams K := { p with binEffect := p.binVariance.map PySqrt.sqrt }
  have hq : GoodParams q := ⟨hp.inc, hp.two, hp.dx, by show (p.binVariance.map PySqrt.sqrt).length = _; rw [List.length_map]; exact hp.bv, hp.bv⟩
  have hb : ∀ e ∈ q.binEffect, 0 ≤ e ∧ e ≤ κ := by
    intro e he
    obtain ⟨v, hvm, rfl⟩ := List.mem_map.mp he
    obtain ⟨k1, k2⟩ := hv v hvm
    exact ⟨LawfulSqrt.sqrt_nonneg _, sqrt_le_of_sq hκ k1 k2⟩
  have hs := hq.slopes hb hlo hhi (show evalUnnorm q [lo, x] = .ok ([lo, x].map H) from hH [lo, x]) 0
  have := (hs 0 1 lo x (H lo - 0) (H x - 0) rfl rfl rfl rfl le_rfl h1 h2).2
  have h0 : H lo = 0 := hg.zero lo hlo lo le_rfl
  rw [h0] at this
  linarith

theorem computeAleParams_variance {limits xs eff : List K} {p : AleParams K} {κ : K} (hinc : Increasing limits)
    (htwo : 2 ≤ limits.length) (hin : Within limits xs) (hlen : eff.length = xs.length)
    (h : computeAleParams xs eff limits = .ok p) (hc : ∀ e ∈ eff, -κ ≤ e ∧ e ≤ κ) : ∀ v ∈ p.binVariance, 0 ≤ v ∧ v ≤ κ ^ 2 := by
  obtain ⟨-, -, -, ⟨bv, hbv, h1⟩, -⟩ := computeAleParams_good hinc htwo hin hlen h
  refine fillNans_bounds hbv fun v hv => ?_
  obtain ⟨k, rfl⟩ := h1 v hv
  refine ⟨popVar_nonneg _, ?_⟩
  have := popVar_le_half (l := binEffects limits xs eff k) (fun y hy => hc y (mem_binEffects hy))
  rwa [show (κ - -κ) / 2 = κ by ring] at this

/-- A model that never leaves `[-ε, ε]` has an ALE curve whose slopes are at most `2 ε` over the width of the first bin. -/
theorem ale_small [PySqrt K] [LawfulSqrt K] (ε : K) (cast : K → K) (f : Row K D → K) (hf : ∀ r, |f r| ≤ ε) (b : Base K D) (hlt : ∀ s, b.axisLo s < b.axisHi s)
    (s : Fin D) (calls : List (AleOp K D))
    (hcalls : ∀ g bm c, AleOp.fit g bm c ∈ calls → ∀ m cl, bm ≠ .fixed 0 m cl) (xs : List K) (het : Bool) (c : PyVal) (y : List K) (o : Option (List K))
    (h : (aleEval (aleCfg cast (List.map f) b) (aleRun (aleCfg cast (List.map f) b) calls) s xs het c).2 = .ok (y, o)) :
    ∃ bm L l0 l1 lo hi, ((∀ m cl, bm ≠ .fixed 0 m cl) ∧ (bm = (aleCfg cast (List.map f) b).defaultBin ∨ ∃ g c, AleOp.fit g bm c ∈ calls)) ∧
      findLimits (aleCtx b.data b.axisLo b.axisHi s) (aleMethod bm) = .ok (.arr L) ∧ isFixedMethod bm = true ∧ 2 ≤ L.length ∧
      (bumpLast EPS L)[0]? = some l0 ∧ (bumpLast EPS L)[1]? = some l1 ∧ l0 < l1 ∧ (bumpLast EPS L).head? = some lo ∧ (bumpLast EPS L).getLast? = some hi ∧
      (∀ r ∈ b.data, b.axisLo s ≤ r s → r s ≤ b.axisHi s → lo ≤ r s ∧ r s ≤ hi) ∧ y.length = xs.length ∧
      SlopesIn (-(2 * ε / (l1 - l0))) (2 * ε / (l1 - l0)) lo (min hi (10 ^ 8)) xs y ∧
      ∀ h, o = some h → h.length = xs.length ∧ ∀ (i : ℕ) (x z : K), xs[i]? = some x → h[i]? = some z → lo ≤ x → x ≤ min hi (10 ^ 8) → z ≤ 2 * ε / (l1 - l0) * (x - lo) := by
  have hdef : ∀ m cl, (aleCfg cast (List.map f) b).defaultBin ≠ .fixed 0 m cl := by intro m cl hc; cases hc
  have hgood := ale_goodFor cast f b hlt
  have he := usesEvaluable_of (aleCfg cast (List.map f) b) calls fun g bm c hm => (hgood bm (hcalls g bm c hm)).evaluable
  obtain ⟨m, p, u, z, hm, hp, hu, hz, rfl, hoo⟩ := eval_from_fit (hgood _ hdef).evaluable he h
  have hbm := effectiveBin_mem (aleCfg cast (List.map f) b) calls (fun bm => (∀ m cl, bm ≠ .fixed 0 m cl) ∧ (bm = (aleCfg cast (List.map f) b).defaultBin ∨ ∃ g c, AleOp.fit g bm c ∈ calls))
    ⟨hdef, Or.inl rfl⟩ (fun g bm c hm => ⟨hcalls g bm c hm, Or.inr ⟨g, c, hm⟩⟩) s m
  have hp' : aleFitFeature cast (List.map f) b.data b.axisLo b.axisHi s _ = .ok p := hp
  obtain ⟨L, l0, l1, hL, hinc, htwo, hwith, q0, q1, h01, hpp, hg, hpl⟩ := ale_fit_cases (hlt s) (ale_safe (aleFitFeature_ok hp').1 hbm.1) hp'
  have hinc' := increasing_bumpLast (EPS_pos (K := K)).le hinc
  have hlen' : (bumpLast EPS L).length = L.length := length_bumpLast _ _
  have hw : 0 < l1 - l0 := sub_pos.mpr h01
  have hee : ∀ e ∈ (b.data.filter (inAxis (b.axisLo s) (b.axisHi s) s)).map fun r =>
          (f (Function.update r s (cast ((bumpLast EPS L).getD (binIdx L (r s)) 0))) -
            f (Function.update r s (cast ((bumpLast EPS L).getD (binIdx L (r s) - 1) 0)))) / (l1 - l0), -(2 * ε / (l1 - l0)) ≤ e ∧ e ≤ 2 * ε / (l1 - l0) := by
    intro e he
    obtain ⟨r, hr, rfl⟩ := List.mem_map.mp he
    rw [← neg_div]
    rw [div_le_div_iff_of_pos_right hw, div_le_div_iff_of_pos_right hw]
    have k1 := abs_le.mp (hf (Function.update r s (cast ((bumpLast EPS L).getD (binIdx L (r s)) 0))))
    have k2 := abs_le.mp (hf (Function.update r s (cast ((bumpLast EPS L).getD (binIdx L (r s) - 1) 0))))
    constructor <;> linarith [k1.1, k1.2, k2.1, k2.2]
  have hb := computeAleParams_bounds hinc' (by rw [hlen']; exact htwo) (within_bump htwo hwith) (by simp [aleCtx, col]) hpp hee
  have hvv := computeAleParams_variance hinc' (by rw [hlen']; exact htwo) (within_bump htwo hwith) (by simp [aleCtx, col]) hpp hee
  obtain ⟨lo, hi, hlo, hhi, hlh⟩ := head_getLast_lt hinc' (by rw [hlen']; exact htwo)
  have hul : (u.map (· - z)).length = xs.length := by
    obtain ⟨el, -, hacc⟩ := hg.acc p.binEffect xs hg.be
    unfold evalUnnorm at hu
    rw [hacc] at hu
    cases hu
    simp
  refine ⟨_, L, l0, l1, lo, hi, hbm, hL, (aleFitFeature_ok hp').1, htwo, q0, q1, h01, hlo, hhi, ?_, hul, hg.slopes hb (by rw [hpl]; exact hlo) (by rw [hpl]; exact hhi) hu z, ?_⟩
  rotate_left
  · rintro h rfl
    rcases hoo with ⟨-, h0⟩ | ⟨-, v, hv, h0⟩
    · cases h0
    · cases h0
      exact het_small hg (div_nonneg (by linarith [(abs_nonneg _).trans (hf fun _ => 0)]) hw.le) hvv (by rw [hpl]; exact hlo) (by rw [hpl]; exact hhi) hv
  intro r hr h1 h2
  obtain ⟨l, h, hl, hh, hall⟩ := within_bump htwo hwith
  rw [hlo] at hl
  rw [hhi] at hh
  cases hl
  cases hh
  refine hall (r s) ?_
  simp only [aleCtx, col, List.mem_map]
  exact ⟨r, List.mem_filter.mpr ⟨hr, by simp [inAxis, h1, h2]⟩, rfl⟩

theorem slopesIn_mono {κ κ' lo hi lo' hi' : K} {xs y : List K} (h : SlopesIn (-κ) κ lo hi xs y) (hk : κ ≤ κ') (hlo : lo ≤ lo') (hhi : hi' ≤ hi) : SlopesIn (-κ') κ' lo' hi' xs y := by
  intro i j a b u v ha hb hu hv h1 hab h2
  obtain ⟨q1, q2⟩ := h i j a b u v ha hb hu hv (hlo.trans h1) hab (h2.trans hhi)
  have := mul_le_mul_of_nonneg_right hk (sub_nonneg.mpr hab)
  constructor <;> nlinarith

theorem exists_lower_pos (l : List K) (h : ∀ x ∈ l, 0 < x) : ∃ w : K, 0 < w ∧ ∀ x ∈ l, w ≤ x := by
  induction l with
  | nil => exact ⟨1, one_pos, by simp⟩
  | cons a t ih =>
    obtain ⟨w, hw, hall⟩ := ih fun x hx => h x (by simp [hx])
    refine ⟨min a w, lt_min (h a (by simp)) hw, fun x hx => ?_⟩
    rcases List.mem_cons.mp hx with rfl | hx
    · exact min_le_left _ _
    · exact (min_le_right _ _).trans (hall x hx)

theorem mix_sub (u v : List K) : mix 1 (-1) u v = List.zipWith (· - ·) u v := by
  unfold mix
  congr 1
  funext x y
  ring

theorem hets_near {κ lo hi : K} {xs y₁ y₂ : List K} {o₁ o₂ o : Option (List K)} {r₁ r₂ r : Py (List K × Option (List K))} {y : List K} (h1 : r₁ = .ok (y₁, o₁)) (h2 : r₂ = .ok (y₂, o₂))
    (h3 : r = .ok (y, o)) (ha : EvalMix 1 1 r₂ r r₁) (hb : EvalMix 1 (-1) r₁ r r₂) (_hl₁ : y₁.length = xs.length) (hl₂ : y₂.length = xs.length)
    (hs : ∀ h, o = some h → h.length = xs.length ∧ ∀ (i : ℕ) (x z : K), xs[i]? = some x → h[i]? = some z → lo ≤ x → x ≤ hi → z ≤ κ * (x - lo)) : HetsNear κ lo hi xs o₁ o₂ := by
  subst h1 h2 h3
  rcases ha with ⟨e, h, -, -⟩ | ⟨_, _, h1, h2, -, h3⟩ | ⟨_, _, _, _, _, h1, h2, h3, l1, l2, l3, l4, ha⟩
  · cases h
  · injection h1 with h1
    injection h3 with h3
    exact Or.inl ⟨congrArg Prod.snd h3, congrArg Prod.snd h1⟩
  · rcases hb with ⟨e, h, -, -⟩ | ⟨_, _, k1, k2, -, k3⟩ | ⟨_, _, _, _, _, k1, k2, k3, m1, m2, m3, m4, hb⟩
    · cases h
    · rw [h2] at k2; cases k2
    · rw [h2] at k2
      injection k2 with k2
      injection h1 with h1
      injection h2 with h2
      injection h3 with h3
      injection k1 with k1
      injection k3 with k3
      injection h1 with h1 h1'
      injection h2 with h2 h2'
      injection h3 with h3 h3'
      injection k1 with k1 k1'
      injection k2 with k2 k2'
      injection k3 with k3 k3'
      subst h1 h1' h3' k1
      rw [Option.some.injEq] at k1' k2' k3'
      subst k1' k2' k3'
      obtain ⟨hlen, hs⟩ := hs _ h2'
      have hzz := fun i (hi : i < xs.length) => List.getElem?_eq_getElem (i := i) (hlen.symm ▸ hi)
      refine Or.inr ⟨_, _, rfl, rfl, by rw [l4, hl₂], by rw [l2, hl₂], fun i x u v hx hu hv q1 q2 => ?_⟩
      have hz := hzz i (List.getElem?_eq_some_iff.mp hx).1
      have b1 := ha i v _ u hv hz hu
      have b2 := hb i u _ v hu hz hv
      have b3 := hs i x _ hx hz q1 q2
      simp only [abs_one, one_mul, abs_neg] at b1 b2
      rw [abs_le]
      constructor <;> linarith

/-- From the difference to the two curves. -/
theorem near_of_mix {κ : K} {B : Base K D} {s : Fin D} {xs : List K} {r₁ r₂ r : Py (List K × Option (List K))} (h : EvalMix 1 (-1) r₁ r₂ r) (ha : EvalMix 1 1 r₂ r r₁)
    (hb : EvalMix 1 (-1) r₁ r r₂)
    (hr : ∀ y o, r = .ok (y, o) → y.length = xs.length ∧ ∃ lo hi, (∀ q ∈ B.data, B.axisLo s ≤ q s → q s ≤ B.axisHi s → lo ≤ q s ∧ q s ≤ hi) ∧
      SlopesIn (-κ) κ lo (min hi (10 ^ 8)) xs y ∧
      ∀ h, o = some h → h.length = xs.length ∧ ∀ (i : ℕ) (x z : K), xs[i]? = some x → h[i]? = some z → lo ≤ x → x ≤ min hi (10 ^ 8) → z ≤ κ * (x - lo)) : NearCurves κ B s xs r₁ r₂ := by
  rcases h with ⟨e, h1, h2, -⟩ | ⟨y₁, y₂, h1, h2, hl, h3⟩ | ⟨y₁, y₂, o₁, o₂, o, h1, h2, h3, hl, -⟩
  · exact Or.inl ⟨e, h1, h2⟩
  all_goals
    obtain ⟨hlen, lo, hi, hq, hs, hh⟩ := hr _ _ h3
    rw [mix_sub] at hs hlen
    rw [List.length_zipWith, hl, min_self] at hlen
    exact Or.inr ⟨y₁, y₂, _, _, lo, hi, h1, h2, hlen, by rw [hl, hlen], hq, hs, hets_near h1 h2 h3 ha hb hlen (by rw [hl, hlen]) hh⟩

theorem mixed_back (f g : Row K D → K) : mixed 1 1 g (mixed 1 (-1) f g) = f ∧ mixed 1 (-1) f (mixed 1 (-1) f g) = g := by
  constructor <;> funext r <;> simp only [mixed] <;> ring

/-- **C107 for ALE.**  For ALE objects on the same data on which the same calls were made there is a width `w` (of the narrowest first bin) that depends on neither model, such that: if the two
models differ by at most `ε` everywhere, their ALE curves differ, between any two points, by at most `2 ε / w` times the distance of the points, for any centring, and their heterogeneities by
at most `2 ε / w` times the distance from the first limit. -/
theorem C107_ale [PySqrt K] [LawfulSqrt K] (cast : K → K) (B : Base K D) (hlt : ∀ s, B.axisLo s < B.axisHi s)
    (calls : List (AleOp K D)) (hcalls : ∀ fs bm c m cl, AleOp.fit fs bm c ∈ calls → bm ≠ .fixed 0 m cl) (s : Fin D) :
    ∃ w : K, 0 < w ∧ ∀ (f g : Row K D → K) (ε : K), (∀ r, |f r - g r| ≤ ε) → ∀ (xs : List K) (het : Bool) (c : PyVal),
      NearCurves (2 * ε / w) B s xs (aleEval (aleCfg cast (List.map f) B) (aleRun (aleCfg cast (List.map f) B) calls) s xs het c).2
        (aleEval (aleCfg cast (List.map g) B) (aleRun (aleCfg cast (List.map g) B) calls) s xs het c).2 := by
  classical
  let wid : BinMethod K → K := fun bm =>
    if h : ∃ q : List K × K × K, findLimits (aleCtx B.data B.axisLo B.axisHi s) (aleMethod bm) = .ok (.arr q.1) ∧ (bumpLast EPS q.1)[0]? = some q.2.1 ∧
      (bumpLast EPS q.1)[1]? = some q.2.2 ∧ q.2.1 < q.2.2 then h.choose.2.2 - h.choose.2.1 else 1
  have hwid : ∀ bm L l0 l1, findLimits (aleCtx B.data B.axisLo B.axisHi s) (aleMethod bm) = .ok (.arr L) → (bumpLast EPS L)[0]? = some l0 →
      (bumpLast EPS L)[1]? = some l1 → l0 < l1 → wid bm = l1 - l0 := by
    intro bm L l0 l1 h1 h2 h3 h4
    have hex : ∃ q : List K × K × K, findLimits (aleCtx B.data B.axisLo B.axisHi s) (aleMethod bm) = .ok (.arr q.1) ∧ (bumpLast EPS q.1)[0]? = some q.2.1 ∧
      (bumpLast EPS q.1)[1]? = some q.2.2 ∧ q.2.1 < q.2.2 := ⟨(L, l0, l1), h1, h2, h3, h4⟩
    have e : wid bm = hex.choose.2.2 - hex.choose.2.1 := dif_pos hex
    obtain ⟨k1, k2, k3, -⟩ := hex.choose_spec
    rw [e]
    generalize hex.choose = q at k1 k2 k3
    have k4 := h1.symm.trans k1
    injection k4 with k4
    injection k4 with k4
    subst k4
    rw [Option.some.inj (h2.symm.trans k2), Option.some.inj (h3.symm.trans k3)]
  have hpos : ∀ bm, 0 < wid bm := by
    intro bm
    by_cases hex : ∃ q : List K × K × K, findLimits (aleCtx B.data B.axisLo B.axisHi s) (aleMethod bm) = .ok (.arr q.1) ∧ (bumpLast EPS q.1)[0]? = some q.2.1 ∧
      (bumpLast EPS q.1)[1]? = some q.2.2 ∧ q.2.1 < q.2.2
    · have e : wid bm = hex.choose.2.2 - hex.choose.2.1 := dif_pos hex
      rw [e]
      exact sub_pos.mpr hex.choose_spec.2.2.2
    · have e : wid bm = 1 := dif_neg hex
      rw [e]; exact one_pos
  let bms : List (BinMethod K) := (aleCfg cast (List.map fun _ : Row K D => (0 : K)) B).defaultBin :: calls.filterMap fun op => match op with
    | .fit _ bm _ => some bm
    | _ => none
  obtain ⟨w, hw, hle⟩ := exists_lower_pos (bms.map wid) (by
    intro x hx
    obtain ⟨bm, -, rfl⟩ := List.mem_map.mp hx
    exact hpos bm)
  refine ⟨w, hw, fun f g ε hfg xs het c => near_of_mix (C10_eval_linear 1 (-1) cast f g B hlt calls hcalls s xs het c)
    (by have := C10_eval_linear 1 1 cast g (mixed 1 (-1) f g) B hlt calls hcalls s xs het c; rwa [(mixed_back f g).1] at this)
    (by have := C10_eval_linear 1 (-1) cast f (mixed 1 (-1) f g) B hlt calls hcalls s xs het c; rwa [(mixed_back f g).2] at this) fun y o hy => ?_⟩
  have hε : 0 ≤ ε := (abs_nonneg _).trans (hfg fun _ => 0)
  obtain ⟨bm, L, l0, l1, lo, hi, ⟨-, hbm⟩, hL, -, -, h0, h1, h01, -, -, hin, hlen, hsl, hht⟩ := ale_small ε cast (mixed 1 (-1) f g) (fun r => by
    have := hfg r
    simp only [mixed]
    rwa [show 1 * f r + -1 * g r = f r - g r by ring]) B hlt s calls (fun fs bm c hm m cl => hcalls fs bm c m cl hm) xs het c y o hy
  have hκ : 2 * ε / (l1 - l0) ≤ 2 * ε / w := by
   have hmem : bm ∈ bms := by
    rcases hbm with rfl | ⟨g', c', hm⟩
    · exact List.mem_cons_self
    · exact List.mem_cons_of_mem _ (List.mem_filterMap.mpr ⟨_, hm, rfl⟩)
   have := hle _ (List.mem_map_of_mem hmem)
   rw [hwid bm L l0 l1 hL h0 h1 h01] at this
   exact div_le_div_of_nonneg_left (by linarith) hw this
  refine ⟨hlen, lo, hi, hin, slopesIn_mono hsl hκ le_rfl le_rfl, fun h hh => ⟨(hht h hh).1, fun i x z hx hz q1 q2 => ((hht h hh).2 i x z hx hz q1 q2).trans ?_⟩⟩
  exact mul_le_mul_of_nonneg_right hκ (sub_nonneg.mpr q1)

theorem fixedFind_equal {c : BinCtx K} {k : ℕ} {m : Option ℕ} {cl : ℕ} {L : List K} (hcat : cl < distinct c.xs) (h : fixedFind c k m cl = .ok (.arr L)) :
    L = linspace c.xmin c.xmax (k + 1) := by
  unfold fixedFind at h
  rw [isCategorical_not _ _ _ hcat] at h
  cases m with
  | none =>
    simp only [bind, Except.bind, pure, Except.pure] at h
    cases hn : noneValidBinning c.xs none with
    | error e => rw [hn] at h; cases h
    | ok v => rw [hn] at h; cases h; rfl
  | some m =>
    rw [noneValid_eq] at h
    simp only [bind, Except.bind, pure, Except.pure] at h
    split at h <;> cases h
    rfl

/-- **C107 for ALE with equal bins.**  If every fit of feature `s` used at most `n ≥ 20` equal bins (20 is the default of the implicit fits), then the ALE curves of two models that differ by at most `ε` differ,
between two points of the axis limits, by at most `2 n ε` times the distance of the points relative to the length of the axis; likewise the
heterogeneities, with the distance from the left end of the axis. -/
theorem C107_ale_equal_bins [PySqrt K] [LawfulSqrt K] (cast : K → K) (B : Base K D) (hlt : ∀ s, B.axisLo s < B.axisHi s) (s : Fin D) (n : ℕ) (hn : 20 ≤ n)
    (hd : 15 < distinct ((B.data.filter fun r => B.axisLo s ≤ r s ∧ r s ≤ B.axisHi s).map fun r => r s))
    (calls : List (AleOp K D)) (hcalls : ∀ fs bm c, AleOp.fit fs bm c ∈ calls → EqualBins n (distinct ((B.data.filter fun r => B.axisLo s ≤ r s ∧ r s ≤ B.axisHi s).map fun r => r s)) bm)
    (f g : Row K D → K) (ε : K) (hfg : ∀ r, |f r - g r| ≤ ε) (xs : List K) (het : Bool) (c : PyVal) :
    let r₁ := (aleEval (aleCfg cast (List.map f) B) (aleRun (aleCfg cast (List.map f) B) calls) s xs het c).2
    let r₂ := (aleEval (aleCfg cast (List.map g) B) (aleRun (aleCfg cast (List.map g) B) calls) s xs het c).2
    (∃ e, r₁ = .error e ∧ r₂ = .error e) ∨ ∃ y₁ y₂ o₁ o₂, r₁ = .ok (y₁, o₁) ∧ r₂ = .ok (y₂, o₂) ∧ y₁.length = xs.length ∧ y₂.length = xs.length ∧
      SlopesIn (-(2 * n * ε / (B.axisHi s - B.axisLo s))) (2 * n * ε / (B.axisHi s - B.axisLo s)) (B.axisLo s) (min (B.axisHi s) (10 ^ 8)) xs (List.zipWith (· - ·) y₁ y₂) ∧
      HetsNear (2 * n * ε / (B.axisHi s - B.axisLo s)) (B.axisLo s) (min (B.axisHi s) (10 ^ 8)) xs o₁ o₂ := by
  have hcalls' : ∀ fs bm c m cl, AleOp.fit fs bm c ∈ calls → bm ≠ .fixed 0 m cl := by
    rintro fs bm c m cl hm rfl
    exact absurd (hcalls _ _ _ hm).1 (by omega)
  have hε : 0 ≤ ε := (abs_nonneg _).trans (hfg fun _ => 0)
  have key : ∀ y o, (aleEval (aleCfg cast (List.map (mixed 1 (-1) f g)) B) (aleRun (aleCfg cast (List.map (mixed 1 (-1) f g)) B) calls) s xs het c).2 = .ok (y, o) → y.length = xs.length ∧
      SlopesIn (-(2 * n * ε / (B.axisHi s - B.axisLo s))) (2 * n * ε / (B.axisHi s - B.axisLo s)) (B.axisLo s) (min (B.axisHi s) (10 ^ 8)) xs y ∧
      ∀ h, o = some h → h.length = xs.length ∧ ∀ (i : ℕ) (x z : K), xs[i]? = some x → h[i]? = some z → B.axisLo s ≤ x → x ≤ min (B.axisHi s) (10 ^ 8) →
        z ≤ 2 * n * ε / (B.axisHi s - B.axisLo s) * (x - B.axisLo s) := by
    intro y o hy
    obtain ⟨bm, L, l0, l1, lo, hi, ⟨-, hbm⟩, hL, hfix, htwo, h0, h1, h01, hlo, hhi, hin, hlen, hsl, hht⟩ := ale_small ε cast (mixed 1 (-1) f g) (fun r => by
      have := hfg r
      simp only [mixed]
      rwa [show 1 * f r + -1 * g r = f r - g r by ring]) B hlt s calls (fun fs bm c hm m cl => hcalls' fs bm c m cl hm) xs het c y o hy
    have hxs : (aleCtx B.data B.axisLo B.axisHi s).xs = (B.data.filter fun r => B.axisLo s ≤ r s ∧ r s ≤ B.axisHi s).map fun r => r s := by
      unfold aleCtx col
      refine congrArg _ (List.filter_congr fun r _ => ?_)
      simp [inAxis]
    have hk : ∃ k, 1 ≤ k ∧ k ≤ n ∧ L = linspace (B.axisLo s) (B.axisHi s) (k + 1) := by
      have : EqualBins n (distinct (aleCtx B.data B.axisLo B.axisHi s).xs) bm := by
        rw [hxs]
        rcases hbm with rfl | ⟨g', c', hm⟩
        · exact ⟨hn, hd⟩
        · exact hcalls _ _ _ hm
      cases bm with
      | fixed k m cl => exact ⟨k, this.1, this.2.1, fixedFind_equal this.2.2 hL⟩
      | str t => exact ⟨20, by omega, hn, fixedFind_equal (c := aleCtx B.data B.axisLo B.axisHi s) (by rw [hxs]; exact hd) hL⟩
      | greedy => cases hfix
      | dp => cases hfix
    obtain ⟨k, hk1, hkn, rfl⟩ := hk
    have hkp : (0 : K) < k := by exact_mod_cast hk1
    have hH : 0 < B.axisHi s - B.axisLo s := sub_pos.mpr (hlt s)
    have e0 : l0 = B.axisLo s := by
      rw [getElem?_bumpLast, getElem?_linspace _ _ _ _ (by omega), Option.map_some, if_neg (by rw [length_linspace]; omega)] at h0
      rw [← Option.some.inj h0]
      simp
    have e1 : B.axisLo s + (B.axisHi s - B.axisLo s) / k ≤ l1 := by
      rw [getElem?_bumpLast, getElem?_linspace _ _ _ _ (by omega), Option.map_some] at h1
      rw [← Option.some.inj h1]
      have := EPS_pos (K := K)
      split <;> push_cast <;> linarith
    have elo : lo = B.axisLo s := by
      rw [List.head?_eq_getElem?, h0] at hlo
      rw [← Option.some.inj hlo, e0]
    have ehi : B.axisHi s ≤ hi := by
      rw [List.getLast?_eq_getElem?, getElem?_bumpLast, length_bumpLast, ← List.getLast?_eq_getElem?, linspace_last _ _ _ hk1, Option.map_some] at hhi
      rw [← Option.some.inj hhi]
      have := EPS_pos (K := K)
      split <;> linarith
    have hw : (B.axisHi s - B.axisLo s) / k ≤ l1 - l0 := by rw [e0]; linarith
    have hkn' : (k : K) ≤ n := by exact_mod_cast hkn
    suffices hκ : 2 * ε / (l1 - l0) ≤ 2 * n * ε / (B.axisHi s - B.axisLo s) by
      refine ⟨hlen, slopesIn_mono hsl hκ elo.le (min_le_min_right _ ehi), fun h hh => ⟨(hht h hh).1, fun i x z hx hz q1 q2 => ?_⟩⟩
      rw [elo] at hht
      exact ((hht h hh).2 i x z hx hz q1 (q2.trans (min_le_min_right _ ehi))).trans (mul_le_mul_of_nonneg_right hκ (sub_nonneg.mpr q1))
    calc 2 * ε / (l1 - l0) ≤ 2 * ε / ((B.axisHi s - B.axisLo s) / k) := div_le_div_of_nonneg_left (by linarith) (div_pos hH hkp) hw
      _ = 2 * k * ε / (B.axisHi s - B.axisLo s) := by rw [div_div_eq_mul_div]; ring
      _ ≤ _ := by
        apply div_le_div_of_nonneg_right _ hH.le
        nlinarith
  intro r₁ r₂
  rcases C10_eval_linear 1 (-1) cast f g B hlt calls hcalls' s xs het c with ⟨e, h1, h2, -⟩ | ⟨y₁, y₂, h1, h2, hl, h3⟩ | ⟨y₁, y₂, o₁, o₂, o, h1, h2, h3, hl, -⟩
  · exact Or.inl ⟨e, h1, h2⟩
  all_goals
    obtain ⟨hlen, hs, hh⟩ := key _ _ h3
    rw [mix_sub] at hs hlen
    rw [List.length_zipWith, hl, min_self] at hlen
    exact Or.inr ⟨y₁, y₂, _, _, h1, h2, hlen, by rw [hl, hlen], hs, hets_near h1 h2 h3
      (by have := C10_eval_linear 1 1 cast g (mixed 1 (-1) f g) B hlt calls hcalls' s xs het c; rwa [(mixed_back f g).1] at this)
      (by have := C10_eval_linear 1 (-1) cast f (mixed 1 (-1) f g) B hlt calls hcalls' s xs het c; rwa [(mixed_back f g).2] at this) hlen (by rw [hl, hlen]) hh⟩

/-! ### RHALE -/

theorem near_source {ε : K} {s : Fin D} {data : List (Row K D)} {f g : Row K D → K} {S₁ S₂ : EffectsFrom K D} (h : NearSource ε s data f g S₁ S₂) :
    MixedSource 1 (-1) data S₁ S₂ (S₁.minus S₂) ∧ MixedSource 1 1 data S₂ (S₁.minus S₂) S₁ ∧ MixedSource 1 (-1) data S₁ (S₁.minus S₂) S₂ ∧
      (∀ e, (S₁.minus S₂).givenArg = some e → e.length = data.length) ∧
      ∀ e ∈ rhaleEffects (List.map (mixed 1 (-1) f g)) ((S₁.minus S₂).jacArg.map List.map) (S₁.minus S₂).givenArg data, -ε ≤ e s ∧ e s ≤ ε := by
  match S₁, S₂, h with
  | .given e₁, .given e₂, ⟨h1, h2, h3⟩ =>
    have hz : (List.zipWith (fun (r t : Row K D) i => 1 * r i + -1 * t i) e₁ e₂).length = data.length := by rw [List.length_zipWith, h1, h2, min_self]
    refine ⟨⟨h1, h2, rfl⟩, ⟨h2, hz, ?_⟩, ⟨h1, hz, ?_⟩, ?_, ?_⟩
    · have : ∀ e₁ e₂ : List (Row K D), e₁.length = e₂.length →
          e₁ = List.zipWith (fun (r t : Row K D) i => 1 * r i + 1 * t i) e₂ (List.zipWith (fun (r t : Row K D) i => 1 * r i + -1 * t i) e₁ e₂) := by
        intro a
        induction a with
        | nil => intro b hb; simp
        | cons x t ih =>
          intro b hb
          cases b with
          | nil => cases hb
          | cons y u =>
            simp only [List.zipWith_cons_cons]
            rw [← ih u (by simpa using hb)]
            congr 1
            funext i; ring
      exact this e₁ e₂ (h1.trans h2.symm)
    · have : ∀ e₁ e₂ : List (Row K D), e₁.length = e₂.length →
          e₂ = List.zipWith (fun (r t : Row K D) i => 1 * r i + -1 * t i) e₁ (List.zipWith (fun (r t : Row K D) i => 1 * r i + -1 * t i) e₁ e₂) := by
        intro a
        induction a with
        | nil =>
          intro b hb
          cases b with
          | nil => rfl
          | cons => cases hb
        | cons x t ih =>
          intro b hb
          cases b with
          | nil => cases hb
          | cons y u =>
            simp only [List.zipWith_cons_cons]
            rw [← ih u (by simpa using hb)]
            congr 1
            funext i; ring
      exact this e₁ e₂ (h1.trans h2.symm)
    · rintro e he
      cases he
      rw [List.length_zipWith, h1, h2, min_self]
    · intro e he
      change e ∈ List.zipWith (fun (r t : Row K D) i => 1 * r i + -1 * t i) e₁ e₂ at he
      rw [← List.map_uncurry_zip_eq_zipWith] at he
      obtain ⟨p, hp, rfl⟩ := List.mem_map.mp he
      have := abs_le.mp (h3 p hp)
      simp only [Function.uncurry]
      constructor <;> linarith [this.1, this.2]
  | .jac j₁, .jac j₂, h =>
    refine ⟨rfl, ?_, ?_, (fun e he => by cases he), ?_⟩
    · show j₁ = fun r i => 1 * j₂ r i + 1 * (1 * j₁ r i + -1 * j₂ r i)
      funext r i; ring
    · show j₂ = fun r i => 1 * j₁ r i + -1 * (1 * j₁ r i + -1 * j₂ r i)
      funext r i; ring
    intro e he
    change e ∈ List.map (fun r i => 1 * j₁ r i + -1 * j₂ r i) data at he
    obtain ⟨r, hr, rfl⟩ := List.mem_map.mp he
    have := abs_le.mp (h r)
    constructor <;> linarith [this.1, this.2]
  | .model, .model, h =>
    refine ⟨trivial, trivial, trivial, (fun e he => by cases he), ?_⟩
    intro e he
    rw [show rhaleEffects (List.map (mixed 1 (-1) f g)) (Option.map List.map (EffectsFrom.minus (K := K) (D := D) .model .model).jacArg)
      (EffectsFrom.minus (K := K) (D := D) .model .model).givenArg data = _ from jacobian_rowwise (mixed 1 (-1) f g) data EPS] at he
    obtain ⟨r, hr, rfl⟩ := List.mem_map.mp he
    have hE : (EPS : K) = 1 / 10 ^ 8 := rfl
    have k1 := abs_le.mp (h (Function.update r s (r s + EPS)))
    have k2 := abs_le.mp (h r)
    rw [← hE] at k1 k2
    rw [le_div_iff₀ EPS_pos, div_le_iff₀ EPS_pos]
    simp only [mixed]
    constructor <;> linarith [k1.1, k1.2, k2.1, k2.2]

/-- **C107 for RHALE with fixed bins.**  If the effects of feature `s` of two objects differ by at most `ε` on every row then, after `fit` with `Fixed` bins, the two curves differ, between any two
points, by at most `ε` times the distance of the points (`eval` uncentred or centred like the fit), their heterogeneities by at most `ε` times the
distance from the first limit, or the two scripts raise the same exception. -/
theorem C107_rhale [PySqrt K] [LawfulSqrt K] (choice : ℕ → ℕ → List ℕ) (ε : K) (hε : 0 ≤ ε) (f g : Row K D → K) (data : List (Row K D)) (S₁ S₂ : EffectsFrom K D) (s : Fin D)
    (hS : NearSource ε s data f g S₁ S₂) (axisLimits : Option ((Fin D → K) × (Fin D → K))) (hlt : ∀ l, limitsOr data axisLimits = .ok l → l.1 s < l.2 s)
    (bm : BinMethod K) (hbm : FixedBins bm) (c c' : PyVal) (hcc : prepCentering c' = .ok .off ∨ prepCentering c' = prepCentering c) (xs : List K) (het : Bool) :
    NearScripts ε data axisLimits s xs (rhaleFitEval choice f S₁.jacArg data S₁.givenArg axisLimits s bm c xs het c')
      (rhaleFitEval choice g S₂.jacArg data S₂.givenArg axisLimits s bm c xs het c') := by
  obtain ⟨hmix, hmix₂, hmix₃, hlen, hbd⟩ := near_source hS
  have hal : rhaleAllowed bm = true := by
    cases bm with
    | fixed n m cl => rfl
    | str t =>
      have ht : t = "fixed" := hbm
      subst ht
      simp [rhaleAllowed]
    | greedy => exact hbm.elim
    | dp => exact hbm.elim
  have key : ∀ y o, rhaleFitEval choice (mixed 1 (-1) f g) (S₁.minus S₂).jacArg data (S₁.minus S₂).givenArg axisLimits s bm c xs het c' = .ok (y, o) → y.length = xs.length ∧
      ∃ lo hi l, limitsOr data axisLimits = .ok l ∧ (∀ r ∈ data, l.1 s ≤ r s → r s ≤ l.2 s → lo ≤ r s ∧ r s ≤ hi) ∧ SlopesIn (-ε) ε lo (min hi (10 ^ 8)) xs y ∧
        (0 ≤ ε → ∀ h, o = some h → h.length = xs.length ∧ ∀ (i : ℕ) (x z : K), xs[i]? = some x → h[i]? = some z → lo ≤ x → x ≤ min hi (10 ^ 8) → z ≤ ε * (x - lo)) := by
    intro y o hy
    unfold rhaleFitEval at hy
    rw [rhaleInit_all choice _ _ data _ hlen axisLimits] at hy
    generalize rhaleEffects (List.map (mixed 1 (-1) f g)) ((S₁.minus S₂).jacArg.map List.map) (S₁.minus S₂).givenArg data = E at hy hbd
    cases hl : limitsOr data axisLimits with
    | error er => rw [hl] at hy; cases hy
    | ok l =>
      rw [hl] at hy
      simp only [Except.bind] at hy
      generalize hB : ({ data := data, indices := List.range data.length, axisLo := l.1, axisHi := l.2 } : Base K D) = B at hy
      have hc : ∃ m, prepCentering c = .ok m := by
        cases hm : prepCentering c with
        | ok m => exact ⟨m, rfl⟩
        | error er =>
          exfalso
          unfold fitThenEval aleFit at hy
          rw [if_pos (show (rhaleCfg E B).allowed bm = true from hal)] at hy
          simp only [bind, Except.bind, hm] at hy
          cases hp : prepFeatures (.int ((s : ℕ) : ℤ)) D <;> rw [hp] at hy <;> cases hy
      obtain ⟨m, hm⟩ := hc
      obtain ⟨m', hm', hmm⟩ : ∃ m', prepCentering c' = .ok m' ∧ (m' = .off ∨ m' = m) := by
        rcases hcc with h | h
        · exact ⟨_, h, Or.inl rfl⟩
        · exact ⟨m, h.trans hm, Or.inr rfl⟩
      rw [fitThenEval_eq _ s bm c xs het c' hal hm hm' hmm] at hy
      cases hp : (rhaleCfg E B).fitF s bm with
      | error er => rw [hp] at hy; cases hy
      | ok p =>
        rw [hp] at hy
        simp only [Except.bind, fromParams] at hy
        have hp' : rhaleFitFeature B.data E B.axisLo B.axisHi s bm = .ok p := hp
        have hltB : B.axisLo s < B.axisHi s := by rw [← hB]; exact hlt l hl
        have hsafe : SafeMethod (rhaleCtx B.data E B.axisLo B.axisHi s) bm := by
          cases bm with
          | fixed n m cl => exact hbm
          | str t =>
            have ht : t = "fixed" := hbm
            subst ht
            exact fun h => absurd h (by decide)
          | greedy => exact hbm.elim
          | dp => exact hbm.elim
        obtain ⟨hgp, hwith, hpp⟩ := rhale_good hltB hsafe hp'
        obtain ⟨hlenE, -⟩ := rhaleFitFeature_ok hp'
        have hce : ∀ y ∈ col (((B.data.zip E).filter fun p => inAxis (B.axisLo s) (B.axisHi s) s p.1).map (·.2)) s, -ε ≤ y ∧ y ≤ ε := by
          intro y hy
          obtain ⟨r, hr, rfl⟩ := List.mem_map.mp hy
          obtain ⟨q, hq, rfl⟩ := List.mem_map.mp hr
          exact hbd _ (List.of_mem_zip (List.mem_filter.mp hq).1).2
        have hb := computeAleParams_bounds hgp.inc hgp.two hwith (rhaleCtx_len B.data E B.axisLo B.axisHi s hlenE) hpp hce
        have hvv := computeAleParams_variance hgp.inc hgp.two hwith (rhaleCtx_len B.data E B.axisLo B.axisHi s hlenE) hpp hce
        obtain ⟨lo, hi, hlo, hhi, hlh⟩ := head_getLast_lt hgp.inc hgp.two
        obtain ⟨el, -, hacc⟩ := hgp.acc p.binEffect xs hgp.be
        obtain ⟨u, hu⟩ : ∃ u, evalUnnorm p xs = .ok u := ⟨_, hacc⟩
        have hul : u.length = xs.length := by
          unfold evalUnnorm at hu
          rw [hacc] at hu
          cases hu
          simp
        have hyu : (∃ z, y = u.map (· - z)) ∧ ∀ h, o = some h → evalHet p xs = .ok h := by
          rw [hu] at hy
          revert hy
          cases aleNormConst (rhaleCfg E B) p s m with
          | error er => intro hy; cases hy
          | ok z =>
            cases hpa : pyAssert (decide ((rhaleCfg E B).axisLo s < (rhaleCfg E B).axisHi s)) with
            | error er => intro hy; simp only [bind, Except.bind] at hy; cases hy
            | ok _ =>
              simp only [bind, Except.bind, pure, Except.pure]
              have fin : ∀ std : Option (List K), (if m' = .off then (Except.ok (u, std) : Py (List K × Option (List K))) else .ok (u.map (· - z), std)) = .ok (y, o) → (∃ z, y = u.map (· - z)) ∧ o = std := by
                intro std
                split
                · intro hy; cases hy; exact ⟨⟨0, by simp⟩, rfl⟩
                · intro hy; cases hy; exact ⟨⟨z, rfl⟩, rfl⟩
              cases het with
              | false =>
                intro hy
                obtain ⟨q1, q2⟩ := fin none hy
                exact ⟨q1, fun h hh => by rw [q2] at hh; cases hh⟩
              | true =>
                cases hev : evalHet p xs with
                | error er => intro hy; cases hy
                | ok std =>
                  intro hy
                  obtain ⟨q1, q2⟩ := fin (some std) hy
                  exact ⟨q1, fun h hh => by rw [q2] at hh; cases hh; rfl⟩
        obtain ⟨⟨z, rfl⟩, hoo⟩ := hyu
        refine ⟨by rw [List.length_map, hul], lo, hi, l, rfl, ?_, hgp.slopes hb hlo hhi hu z, fun hε h hh => het_small hgp hε hvv hlo hhi (hoo h hh)⟩
        intro r hr h1 h2
        obtain ⟨l', h', hl', hh', hall⟩ := hwith
        rw [hlo] at hl'
        rw [hhi] at hh'
        cases hl'
        cases hh'
        refine hall (r s) ?_
        subst hB
        simp only [rhaleCtx, col, List.mem_map]
        exact ⟨r, List.mem_filter.mpr ⟨hr, by simp [inAxis, h1, h2]⟩, rfl⟩
  rcases C87_rhale_linear choice 1 (-1) f g data S₁ S₂ _ hmix axisLimits s hlt bm hbm c c' hcc xs het with
    ⟨e, h1, h2, -⟩ | ⟨y₁, y₂, h1, h2, hl, h3⟩ | ⟨y₁, y₂, o₁, o₂, o, h1, h2, h3, hl, -⟩
  · exact Or.inl ⟨e, h1, h2⟩
  all_goals
    obtain ⟨hlen, lo, hi, l, h4, h5, hs, hh⟩ := key _ _ h3
    rw [mix_sub] at hs hlen
    rw [List.length_zipWith, hl, min_self] at hlen
    have ha := C87_rhale_linear choice 1 1 g (mixed 1 (-1) f g) data _ _ _ hmix₂ axisLimits s hlt bm hbm c c' hcc xs het
    have hb := C87_rhale_linear choice 1 (-1) f (mixed 1 (-1) f g) data _ _ _ hmix₃ axisLimits s hlt bm hbm c c' hcc xs het
    rw [(mixed_back f g).1] at ha
    rw [(mixed_back f g).2] at hb
    exact Or.inr ⟨y₁, y₂, _, _, lo, hi, l, h1, h2, hlen, by rw [hl, hlen], h4, h5, hs, hets_near h1 h2 h3 ha hb hlen (by rw [hl, hlen]) (hh hε)⟩

end Effector
