import Verif.Props.Integrate
import Verif.Props.AleHistory
import Verif.Lemmas.RealSqrt
import Mathlib.MeasureTheory.Integral.IntervalIntegral.FundThmCalculus

/-!
# Over the real numbers: the step integral is the integral, the midpoint mean is close to the mean

`Spec.stepIntegral` (C01) is the Lebesgue integral of the step function of the bin effects; `mean_1d_linspace` differs from the
mean value of a Lipschitz function by at most `L * (stop - start) / (2 * cells)`; hence the zero_integral curve has a mean value of
almost 0 over the whole axis range and not only on the grid (C26).
-/

set_option linter.unusedSectionVars false

namespace Effector

open Spec MeasureTheory

namespace Spec

/-- The step function of the bins: `es[k]` on the bin `(limits[k], limits[k+1]]`, 0 elsewhere.  (Which bin a limit belongs to does not matter for the
integral.) -/
noncomputable def stepFn : List ℝ → List ℝ → ℝ → ℝ
  | l0 :: l1 :: ls, e :: es, t => (if l0 < t ∧ t ≤ l1 then e else 0) + stepFn (l1 :: ls) es t
  | _, _, _ => 0

end Spec

theorem integral_box (a x l0 l1 e : ℝ) (hax : a ≤ x) (hal : a ≤ l0) (hl : l0 ≤ l1) :
    IntervalIntegrable (fun t => if l0 < t ∧ t ≤ l1 then e else 0) volume a x ∧
    ∫ t in a..x, (if l0 < t ∧ t ≤ l1 then e else 0) = e * (min x l1 - min x l0) := by
  have hf : (fun t => if l0 < t ∧ t ≤ l1 then e else 0) = Set.indicator (Set.Ioc l0 l1) (fun _ => e) := by
    funext t
    simp only [Set.indicator, Set.mem_Ioc]
  constructor
  · rw [hf, intervalIntegrable_iff_integrableOn_Ioc_of_le hax]
    apply IntegrableOn.indicator _ measurableSet_Ioc
    exact integrableOn_const (by simp)
  · rw [hf, intervalIntegral.integral_of_le hax, setIntegral_indicator measurableSet_Ioc, Set.Ioc_inter_Ioc, setIntegral_const, max_eq_right hal]
    rw [Measure.real, Real.volume_Ioc]
    simp only [smul_eq_mul]
    by_cases h : l0 ≤ x
    · rw [min_eq_right h, ENNReal.toReal_ofReal (by rw [sub_nonneg]; exact le_min h hl)]
      ring
    · have h := not_le.mp h
      rw [min_eq_left h.le, min_eq_left (h.le.trans hl), ENNReal.ofReal_of_nonpos (by linarith)]
      simp

/-- **C01, the meaning of the specification.** Over the reals, `stepIntegral limits es x` is the integral from the first limit (or any point left of it) to `x`
of the step function that takes the value `es[k]` on the `k`-th bin. -/
theorem C01_spec_is_integral (limits es : List ℝ) (hinc : Increasing limits) (a x : ℝ) (ha : ∀ l ∈ limits, a ≤ l) (hax : a ≤ x) :
    IntervalIntegrable (stepFn limits es) volume a x ∧ ∫ t in a..x, stepFn limits es t = stepIntegral limits es x := by
  induction limits generalizing es with
  | nil => cases es <;> simp [stepFn, stepIntegral]
  | cons l0 t ih =>
    cases t with
    | nil => cases es <;> simp [stepFn, stepIntegral]
    | cons l1 t =>
      cases es with
      | nil => simp [stepFn, stepIntegral]
      | cons e es =>
        obtain ⟨i1, i2⟩ := ih es (List.pairwise_cons.mp hinc).2 (fun l hl => ha l (by simp [hl]))
        have hl : l0 ≤ l1 := ((List.pairwise_cons.mp hinc).1 l1 (by simp)).le
        obtain ⟨b1, b2⟩ := integral_box a x l0 l1 e hax (ha l0 (by simp)) hl
        have hfe : stepFn (l0 :: l1 :: t) (e :: es) = fun t' => (if l0 < t' ∧ t' ≤ l1 then e else 0) + stepFn (l1 :: t) es t' := by
          funext t'; rfl
        rw [hfe]
        refine ⟨b1.add i1, ?_⟩
        rw [intervalIntegral.integral_add b1 i1, b2, i2]
        rfl

section

variable {K : Type} [Field K] [LinearOrder K] [IsStrictOrderedRing K]

theorem min_mono_diff {x y a b : K} (hxy : x ≤ y) (hab : a ≤ b) : min x b - min x a ≤ min y b - min y a := by
  rcases le_total x a with h1 | h1
  · rw [min_eq_left h1, min_eq_left (h1.trans hab), sub_self]
    have := min_le_min_left y hab
    linarith
  · rw [min_eq_right h1, min_eq_right (h1.trans hxy)]
    have := min_le_min_right b hxy
    linarith

theorem stepIntegral_lip_aux (limits es : List K) (hinc : Increasing limits) (L : K) (hL : ∀ e ∈ es, |e| ≤ L) (hL0 : 0 ≤ L) (x y : K) (hxy : x ≤ y)
    (a : K) (ha : ∀ l ∈ limits, a ≤ l) :
    |stepIntegral limits es y - stepIntegral limits es x| ≤ L * ((y - min y a) - (x - min x a)) := by
  induction limits generalizing es a with
  | nil =>
    have h1 : ∀ z, stepIntegral ([] : List K) es z = 0 := fun z => by cases es <;> rfl
    rw [h1, h1, sub_self, abs_zero]
    apply mul_nonneg hL0
    rcases le_total x a with h | h
    · rw [min_eq_left h]; have := min_le_left y a; linarith
    · rw [min_eq_right h, min_eq_right (h.trans hxy)]; linarith
  | cons l0 t ih =>
    cases t with
    | nil =>
      have h1 : ∀ z, stepIntegral ([l0] : List K) es z = 0 := fun z => by cases es <;> rfl
      rw [h1, h1, sub_self, abs_zero]
      apply mul_nonneg hL0
      rcases le_total x a with h | h
      · rw [min_eq_left h]; have := min_le_left y a; linarith
      · rw [min_eq_right h, min_eq_right (h.trans hxy)]; linarith
    | cons l1 t =>
      cases es with
      | nil =>
        have h1 : ∀ z, stepIntegral (l0 :: l1 :: t) ([] : List K) z = 0 := fun z => rfl
        rw [h1, h1, sub_self, abs_zero]
        apply mul_nonneg hL0
        rcases le_total x a with h | h
        · rw [min_eq_left h]; have := min_le_left y a; linarith
        · rw [min_eq_right h, min_eq_right (h.trans hxy)]; linarith
      | cons e es =>
        have hl : l0 ≤ l1 := ((List.pairwise_cons.mp hinc).1 l1 (by simp)).le
        have h1 := ih es (List.pairwise_cons.mp hinc).2 (fun e' he => hL e' (by simp [he])) l1 (by
          intro l hl'
          rcases List.mem_cons.mp hl' with rfl | hl'
          · exact le_refl _
          · exact ((List.pairwise_cons.mp (List.pairwise_cons.mp hinc).2).1 l hl').le)
        have h2 := min_mono_diff hxy hl
        have h3 := min_mono_diff hxy (ha l0 (by simp))
        have he := abs_le.mp (hL e (by simp))
        have h1 := abs_le.mp h1
        show |e * (min y l1 - min y l0) + stepIntegral (l1 :: t) es y - (e * (min x l1 - min x l0) + stepIntegral (l1 :: t) es x)| ≤ _
        rw [abs_le]
        have h4 : L * ((min y l1 - min y l0) - (min x l1 - min x l0)) + L * ((y - min y l1) - (x - min x l1)) ≤ L * ((y - min y a) - (x - min x a)) := by
          rw [← mul_add]
          apply mul_le_mul_of_nonneg_left _ hL0
          linarith
        constructor <;> nlinarith

/-- The accumulated curve is Lipschitz with the largest absolute bin effect. -/
theorem C01_curve_lipschitz (limits es : List K) (hinc : Increasing limits) (L : K) (hL : ∀ e ∈ es, |e| ≤ L) (hL0 : 0 ≤ L) (x y : K) :
    |stepIntegral limits es y - stepIntegral limits es x| ≤ L * |y - x| := by
  have key : ∀ x y : K, x ≤ y → |stepIntegral limits es y - stepIntegral limits es x| ≤ L * (y - x) := by
    intro x y hxy
    obtain ⟨a, ha, hax⟩ : ∃ a, (∀ l ∈ limits, a ≤ l) ∧ a ≤ x := by
      induction limits with
      | nil => exact ⟨x, by simp, le_refl _⟩
      | cons l t ih =>
        obtain ⟨a, h1, h2⟩ := ih (List.pairwise_cons.mp hinc).2
        refine ⟨min a l, ?_, (min_le_left _ _).trans h2⟩
        intro b hb
        rcases List.mem_cons.mp hb with rfl | hb
        · exact min_le_right _ _
        · exact (min_le_left _ _).trans (h1 b hb)
    have := stepIntegral_lip_aux limits es hinc L hL hL0 x y hxy a ha
    rw [min_eq_right hax, min_eq_right (hax.trans hxy)] at this
    refine this.trans (le_of_eq ?_)
    ring
  rcases le_total x y with h | h
  · rw [abs_of_nonneg (sub_nonneg.mpr h)]; exact key x y h
  · rw [abs_sub_comm, abs_sub_comm y x, abs_of_nonneg (sub_nonneg.mpr h)]; exact key y x h

end

theorem lip_continuous {f : ℝ → ℝ} {L : ℝ} (hf : ∀ x y, |f y - f x| ≤ L * |y - x|) : Continuous f := by
  have hL : 0 ≤ L := by have := (abs_nonneg _).trans (hf 0 1); simpa using this
  have : LipschitzWith L.toNNReal f := LipschitzWith.of_dist_le_mul fun x y => by
    rw [Real.dist_eq, Real.dist_eq, Real.coe_toNNReal L hL]
    exact hf y x
  exact this.continuous

/-- **C58, the error of the mean rule.** For a Lipschitz function, `mean_1d_linspace` with `n + 1` points differs from the mean value over `[a, b]` by at most
`L * (b - a) / (2 * n)`. -/
theorem C58_mean_error (f : ℝ → ℝ) (L a b : ℝ) (hab : a < b) (hf : ∀ x y, |f y - f x| ≤ L * |y - x|) (n : ℕ) (hn : 1 ≤ n) :
    ∃ m, mean1dLinspace (fun xs => .ok (xs.map f)) a b (n + 1) = .ok m ∧ |m - (∫ t in a..b, f t) / (b - a)| ≤ L * (b - a) / (2 * n) := by
  have hc := lip_continuous hf
  have hL : 0 ≤ L := by have := (abs_nonneg _).trans (hf 0 1); simpa using this
  have hn0 : (0 : ℝ) < n := by exact_mod_cast hn
  unfold mean1dLinspace
  rw [C58_grid_is_cell_centres a b n hn, centres]
  refine ⟨_, rfl, ?_⟩
  set h := (b - a) / n with hh
  have hpos : 0 < h := by apply div_pos <;> linarith
  have hbh : b = a + n * h := by rw [hh]; field_simp; ring
  -- partial sums
  have key : ∀ k : ℕ, |h * (((List.range k).map (cellCentre a b n)).map f).sum - ∫ t in a..(a + k * h), f t| ≤ k * (L * h / 2 * h) := by
    intro k
    induction k with
    | zero => simp
    | succ k ih =>
      have hi : ∀ u v : ℝ, IntervalIntegrable f volume u v := fun u v => hc.intervalIntegrable u v
      have hsplit : ∫ t in a..(a + (k + 1 : ℕ) * h), f t = (∫ t in a..(a + k * h), f t) + ∫ t in (a + k * h)..(a + (k + 1 : ℕ) * h), f t :=
        (intervalIntegral.integral_add_adjacent_intervals (hi _ _) (hi _ _)).symm
      have hcell : cellCentre a b n k = a + k * h + h / 2 := by
        unfold cellCentre
        rw [hh]
        field_simp
        ring
      have hle : a + k * h ≤ a + (k + 1 : ℕ) * h := by push_cast; nlinarith
      have hcst : ∫ _ in (a + k * h)..(a + (k + 1 : ℕ) * h), f (cellCentre a b n k) = h * f (cellCentre a b n k) := by
        rw [intervalIntegral.integral_const, smul_eq_mul]
        push_cast
        ring
      have hone : |h * f (cellCentre a b n k) - ∫ t in (a + k * h)..(a + (k + 1 : ℕ) * h), f t| ≤ L * h / 2 * h := by
        rw [← hcst, ← intervalIntegral.integral_sub (by simp) (hi _ _)]
        have := intervalIntegral.norm_integral_le_of_norm_le_const (a := a + k * h) (b := a + (k + 1 : ℕ) * h) (C := L * h / 2)
          (f := fun t => f (cellCentre a b n k) - f t) (by
            intro t ht
            rw [Set.uIoc_of_le hle] at ht
            rw [Real.norm_eq_abs]
            refine (hf t _).trans ?_
            rw [mul_div_assoc]
            apply mul_le_mul_of_nonneg_left _ hL
            rw [hcell, abs_le]
            obtain ⟨h1, h2⟩ := ht
            push_cast at h2
            constructor <;> linarith)
        rw [Real.norm_eq_abs] at this
        refine this.trans (le_of_eq ?_)
        rw [abs_of_nonneg (by linarith)]
        push_cast
        ring
      rw [hsplit, List.range_succ, List.map_append, List.map_append, List.sum_append]
      simp only [List.map_cons, List.map_nil, List.sum_cons, List.sum_nil, add_zero]
      have e : ∀ A B C E : ℝ, h * (A + B) - (C + E) = (h * A - C) + (h * B - E) := by intros; ring
      rw [e]
      refine (abs_add_le _ _).trans ?_
      push_cast
      push_cast at hone ih
      linarith
  have hk := key n
  rw [← hbh] at hk
  simp only [mean, List.length_map, List.length_range]
  set S := (((List.range n).map (cellCentre a b n)).map f).sum
  have hba : b - a = n * h := by rw [hh]; field_simp
  have e1 : S / n - (∫ t in a..b, f t) / (b - a) = (h * S - ∫ t in a..b, f t) / (b - a) := by
    rw [hba]
    field_simp
  rw [e1, abs_div, abs_of_pos (by linarith : 0 < b - a), div_le_iff₀ (by linarith)]
  refine hk.trans (le_of_eq ?_)
  rw [hba]
  field_simp

/-- **C26, beyond the grid (ALE and RHALE).** After any history, the curve that `eval(centering="zero_integral")` returns is a function `F` of the position whose
integral over the axis range is nearly 0: at most `L * (hi - lo)² / 198` where `L` bounds the bin effects.  (Positions up to 1e8, the sentinel of C01.) -/
theorem C26_true_mean_almost_zero {D : ℕ} [PySqrt ℝ] (cfg : AleCfg ℝ D) (hdef : GoodFor cfg cfg.defaultBin) (calls : List (AleOp ℝ D))
    (hcalls : ∀ f bm c, AleOp.fit f bm c ∈ calls → GoodFor cfg bm) (s : Fin D) (hlt : cfg.axisLo s < cfg.axisHi s) (hM : cfg.axisHi s ≤ 10 ^ 8)
    (c : PyVal) (hc : prepCentering c = .ok .zeroIntegral) (L : ℝ) (hL0 : 0 ≤ L)
    (hL : ∀ p, cfg.fitF s (effectiveBin cfg (lastFit cfg calls s) .zeroIntegral) = .ok p → ∀ e ∈ p.binEffect, |e| ≤ L) :
    ∃ F : ℝ → ℝ, |∫ t in (cfg.axisLo s)..(cfg.axisHi s), F t| ≤ L * (cfg.axisHi s - cfg.axisLo s) ^ 2 / 198 ∧
      (∀ x y, |F y - F x| ≤ L * |y - x|) ∧
      ∀ xs het y o, (∀ x ∈ xs, x ≤ 10 ^ 8) → (aleEval cfg (aleRun cfg calls) s xs het c).2 = .ok (y, o) → y = xs.map F := by
  simp only [BIG_M_lit] at *
  have he := usesEvaluable_of cfg calls fun f bm c h => (hcalls f bm c h).evaluable
  rcases hp : cfg.fitF s (effectiveBin cfg (lastFit cfg calls s) .zeroIntegral) with e | p
  · refine ⟨fun _ => 0, by simp; positivity, by intro x y; simpa using mul_nonneg hL0 (abs_nonneg (y - x)), ?_⟩
    intro xs het y o _ h
    obtain ⟨m, p, u, z, hm, hp', -⟩ := eval_from_fit hdef.evaluable he h
    rw [hc] at hm
    cases hm
    rw [hp] at hp'
    cases hp'
  · have hg : GoodParams p := effectiveBin_mem cfg calls (GoodFor cfg) hdef hcalls s .zeroIntegral s p hp
    set a := cfg.axisLo s
    set b := cfg.axisHi s
    have hcells : ∀ x ∈ centres a b 99, x ≤ BIG_M := by
      intro x hx
      unfold centres at hx
      obtain ⟨i, hi, rfl⟩ := List.mem_map.mp hx
      have hi' : (i : ℝ) + 1 ≤ 99 := by exact_mod_cast List.mem_range.mp hi
      refine le_trans ?_ hM
      unfold cellCentre
      have : (2 * (i : ℝ) + 1) * (b - a) / (2 * (99 : ℕ)) ≤ b - a := by
        rw [div_le_iff₀ (by positivity), mul_comm]
        apply mul_le_mul_of_nonneg_left _ (by linarith)
        push_cast
        linarith
      linarith
    have hg1 := hg.acc_below p.binEffect (centres a b 99) hg.be (fun x hx => Or.inl (hcells x hx))
    have hlip := C01_curve_lipschitz p.limits p.binEffect hg.inc L (hL p hp) hL0
    obtain ⟨m, hm1, hm2⟩ := C58_mean_error (stepIntegral p.limits p.binEffect) L a b hlt hlip 99 (by norm_num)
    have hm3 : avg ((centres a b 99).map (stepIntegral p.limits p.binEffect)) = m := by
      unfold mean1dLinspace at hm1; rw [centring_grid] at hm1
      simp only [bind, Except.bind, pure, Except.pure] at hm1
      exact Except.ok.inj hm1
    refine ⟨fun x => stepIntegral p.limits p.binEffect x - m, ?_, ?_, ?_⟩
    · have hci := (lip_continuous hlip).intervalIntegrable (μ := volume) a b
      rw [intervalIntegral.integral_sub hci (by simp), intervalIntegral.integral_const, smul_eq_mul]
      have hba : 0 < b - a := by linarith
      have e : (∫ t in a..b, stepIntegral p.limits p.binEffect t) - (b - a) * m = -((m - (∫ t in a..b, stepIntegral p.limits p.binEffect t) / (b - a)) * (b - a)) := by
        field_simp
        ring
      rw [e, abs_neg, abs_mul, abs_of_pos hba]
      have := mul_le_mul_of_nonneg_right hm2 hba.le
      refine this.trans (le_of_eq ?_)
      push_cast
      ring
    · intro x y
      have := hlip x y
      simpa using this
    · intro xs het y o hxs h
      obtain ⟨m', p', u, z, hm', hp', hu, hz, rfl, -⟩ := eval_from_fit hdef.evaluable he h
      rw [hc] at hm'
      cases hm'
      rw [hp] at hp'
      cases hp'
      have hu' := hg.acc_below p.binEffect xs hg.be (fun x hx => Or.inl (hxs x hx))
      unfold evalUnnorm at hu
      rw [hu'] at hu
      cases hu
      unfold shift evalUnnorm at hz
      rw [hg1] at hz
      have hz : avg ((centres a b 99).map (stepIntegral p.limits p.binEffect)) = z := Except.ok.inj hz
      rw [← hz, hm3, List.map_map]
      rfl

/-- The hypotheses are met by every ALE object with proper axis limits whose fits do not ask for zero bins. -/
theorem C26_true_mean_ale {D : ℕ} (cast : ℝ → ℝ) (f : Row ℝ D → ℝ) (base : Base ℝ D) (hlt : ∀ s, base.axisLo s < base.axisHi s)
    (calls : List (AleOp ℝ D)) (hn : ∀ F bm c, AleOp.fit F bm c ∈ calls → ∀ m cl, bm ≠ .fixed 0 m cl) (s : Fin D) (hM : base.axisHi s ≤ 10 ^ 8)
    (L : ℝ) (hL0 : 0 ≤ L)
    (hL : ∀ p, aleFitFeature cast (List.map f) base.data base.axisLo base.axisHi s
      (effectiveBin (aleCfg cast (List.map f) base) (lastFit (aleCfg cast (List.map f) base) calls s) .zeroIntegral) = .ok p → ∀ e ∈ p.binEffect, |e| ≤ L) :
    ∃ F : ℝ → ℝ, |∫ t in (base.axisLo s)..(base.axisHi s), F t| ≤ L * (base.axisHi s - base.axisLo s) ^ 2 / 198 ∧
      ∀ xs het y o, (∀ x ∈ xs, x ≤ 10 ^ 8) →
        (aleEval (aleCfg cast (List.map f) base) (aleRun (aleCfg cast (List.map f) base) calls) s xs het (.bool true)).2 = .ok (y, o) → y = xs.map F := by
  simp only [BIG_M_lit] at *
  obtain ⟨F, h1, -, h2⟩ := C26_true_mean_almost_zero (aleCfg cast (List.map f) base) (ale_goodFor cast f base hlt _ (by intro m cl h; cases h)) calls
    (fun F bm c h => ale_goodFor cast f base hlt bm (hn F bm c h)) s (hlt s) hM (.bool true) rfl L hL0 hL
  exact ⟨F, h1, h2⟩

end Effector
