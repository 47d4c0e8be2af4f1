import Verif.Model.Plotting
import Verif.Props.AleHistory
import Verif.Props.PdpModels
import Mathlib.Tactic.FieldSimp

/-!
# C57: scaling of the plots
-/

set_option linter.unusedSectionVars false

namespace Effector

open Spec

section

variable {K : Type} [Field K] [LinearOrder K] [IsStrictOrderedRing K] {D : ℕ}

namespace Spec

/-- The value in original units of a standardised value: `mean + std * v`. -/
def unscale (s : Scale K) (v : K) : K := s.mean + s.std * v

end Spec

theorem transAffine_eq (s : Scale K) : transAffine s.mean s.std = Spec.unscale s := by
  funext v
  unfold transAffine Spec.unscale
  ring

namespace Spec

/-- The picture `d0` redrawn in original units: abscissae mapped by `sx`, the curve by `sy`, its spread and the bars' widths multiplied by the standard deviations, slopes
multiplied by the quotient of the standard deviations. -/
def redrawn (d0 : AleDrawing K) (sx sy : Scale K) : AleDrawing K where
  x := d0.x.map (unscale sx)
  y := d0.y.map (unscale sy)
  std := d0.std.map (· * sy.std)
  limits := d0.limits.map (unscale sx)
  dx := d0.dx.map (· * sx.std)
  binVariance := d0.binVariance.map (· * (sy.std / sx.std) ^ 2)
  binEffect := d0.binEffect.map (· * (sy.std / sx.std))

end Spec

/-- `ale_plot` without scaling, unfolded. -/
theorem alePlotData_none {p : AleParams K} {evalOn : List K → Py (List K × List K)} {d0 : AleDrawing K} (h : alePlotData p evalOn none none = .ok d0) :
    d0.limits = p.limits ∧ d0.binEffect = p.binEffect ∧ d0.dx = p.dx ∧ d0.binVariance = p.binVariance ∧
    ∃ a b, p.limits[0]? = some a ∧ p.limits[p.limits.length - 1]? = some b ∧ d0.x = linspace a b 1000 ∧ evalOn d0.x = .ok (d0.y, d0.std) := by
  unfold alePlotData at h
  simp only [bind, Except.bind, pure, Except.pure] at h
  rcases h1 : p.limits[0]? with _ | a
  · simp only [pyIndex, h1] at h; cases h
  rcases h2 : p.limits[p.limits.length - 1]? with _ | b
  · simp only [pyIndex, h1, h2] at h; cases h
  simp only [pyIndex, h1, h2] at h
  rcases h3 : evalOn (linspace a b 1000) with e | ⟨y, std⟩
  · rw [h3] at h; cases h
  rw [h3] at h
  simp only [Except.ok.injEq] at h
  subst h
  dsimp only
  refine ⟨rfl, rfl, rfl, rfl, a, b, rfl, rfl, ?_, ?_⟩
  · rfl
  · exact h3

/-- `ale_plot` with both scalings redraws the unscaled picture. -/
theorem alePlotData_both {p : AleParams K} {evalOn : List K → Py (List K × List K)} (sx sy : Scale K) :
    alePlotData p evalOn (some sx) (some sy) = (alePlotData p evalOn none none).map fun d0 => Spec.redrawn d0 sx sy := by
  unfold alePlotData
  simp only [bind, Except.bind, pure, Except.pure]
  cases pyIndex p.limits 0 with
  | error e => rfl
  | ok a =>
    simp only []
    cases pyIndex p.limits (p.limits.length - 1) with
    | error e => rfl
    | ok b =>
      simp only []
      cases evalOn (linspace a b 1000) with
      | error e => rfl
      | ok q =>
        simp only [Except.map, transAffine_eq, Spec.redrawn, Except.ok.injEq, AleDrawing.mk.injEq]
        refine ⟨trivial, trivial, ?_, trivial, ?_, ?_, ?_⟩ <;> (apply List.map_congr_left; intro v _; simp [transScale, transBin, mul_div_assoc])

/-- `ale_plot` with `scale_x` only. -/
theorem alePlotData_x {p : AleParams K} {evalOn : List K → Py (List K × List K)} (sx : Scale K) :
    alePlotData p evalOn (some sx) none = (alePlotData p evalOn none none).map fun d0 =>
      { d0 with
        x := d0.x.map (Spec.unscale sx)
        limits := d0.limits.map (Spec.unscale sx)
        dx := d0.dx.map (· * sx.std) } := by
  unfold alePlotData
  simp only [bind, Except.bind, pure, Except.pure]
  cases pyIndex p.limits 0 with
  | error e => rfl
  | ok a =>
    simp only []
    cases pyIndex p.limits (p.limits.length - 1) with
    | error e => rfl
    | ok b =>
      simp only []
      cases evalOn (linspace a b 1000) with
      | error e => rfl
      | ok q =>
        simp only [Except.map, transAffine_eq, Except.ok.injEq, AleDrawing.mk.injEq]
        refine ⟨trivial, trivial, trivial, trivial, ?_, trivial, trivial⟩
        apply List.map_congr_left; intro v _; simp [transScale]

/-- `ale_plot` with `scale_y` only never returns. -/
theorem alePlotData_y {p : AleParams K} {evalOn : List K → Py (List K × List K)} (sy : Scale K) {d0 : AleDrawing K}
    (h : alePlotData p evalOn none none = .ok d0) : alePlotData p evalOn none (some sy) = .error .typeError := by
  unfold alePlotData at h ⊢
  simp only [bind, Except.bind, pure, Except.pure] at h ⊢
  cases h1 : pyIndex p.limits 0 with
  | error e => rw [h1] at h; cases h
  | ok a =>
    rw [h1] at h
    simp only [] at h ⊢
    cases h2 : pyIndex p.limits (p.limits.length - 1) with
    | error e => rw [h2] at h; cases h
    | ok b =>
      rw [h2] at h
      simp only [] at h ⊢
      cases h3 : evalOn (linspace a b 1000) with
      | error e => rw [h3] at h; cases h
      | ok q => rfl

namespace Spec

/-- In the drawing `d`, the curve `y = F x` (in drawn coordinates) has on every drawn bin the drawn bar height as slope, and the bars are as wide as the
bins. -/
structure Consistent (d : AleDrawing K) (F : K → K) : Prop where
  curve : d.y = d.x.map F
  slopes : ∀ (k : ℕ) (a b e u v : K), d.limits[k]? = some a → d.limits[k + 1]? = some b → d.binEffect[k]? = some e →
    u ∈ Set.uIcc a b → v ∈ Set.uIcc a b → F v - F u = e * (v - u)
  widths : ∀ (k : ℕ) (a b w : K), d.limits[k]? = some a → d.limits[k + 1]? = some b → d.dx[k]? = some w → w = b - a
  bars : d.binEffect.length + 1 = d.limits.length ∧ d.dx.length + 1 = d.limits.length ∧ d.binVariance.length + 1 = d.limits.length

end Spec

/-- Redrawing keeps a drawing consistent. -/
theorem consistent_redrawn {d0 : AleDrawing K} {F : K → K} (h : Spec.Consistent d0 F) (sx sy : Scale K) (hx : 0 < sx.std) :
    Spec.Consistent (Spec.redrawn d0 sx sy) (fun v => Spec.unscale sy (F ((v - sx.mean) / sx.std))) := by
  have hne : sx.std ≠ 0 := ne_of_gt hx
  have hinv : ∀ v : K, (Spec.unscale sx v - sx.mean) / sx.std = v := by
    intro v
    unfold Spec.unscale
    field_simp
    ring
  refine ⟨?_, ?_, ?_, ?_⟩
  · simp only [Spec.redrawn, h.curve, List.map_map]
    apply List.map_congr_left
    intro v _
    simp only [Function.comp, hinv]
  · intro k a b e u v ha hb he hu hv
    simp only [Spec.redrawn, List.getElem?_map, Option.map_eq_some_iff] at ha hb he
    obtain ⟨a', ha', rfl⟩ := ha
    obtain ⟨b', hb', rfl⟩ := hb
    obtain ⟨e', he', rfl⟩ := he
    have back : ∀ w, w ∈ Set.uIcc (Spec.unscale sx a') (Spec.unscale sx b') → (w - sx.mean) / sx.std ∈ Set.uIcc a' b' := by
      intro w hw
      rw [Set.mem_uIcc] at hw ⊢
      rw [div_le_iff₀ hx, div_le_iff₀ hx, le_div_iff₀ hx, le_div_iff₀ hx]
      unfold Spec.unscale at hw
      rcases hw with ⟨h1, h2⟩ | ⟨h1, h2⟩
      · exact Or.inl ⟨by linarith, by linarith⟩
      · exact Or.inr ⟨by linarith, by linarith⟩
    have := h.slopes k a' b' e' _ _ ha' hb' he' (back u hu) (back v hv)
    have e1 : Spec.unscale sy (F ((v - sx.mean) / sx.std)) - Spec.unscale sy (F ((u - sx.mean) / sx.std)) =
        sy.std * (F ((v - sx.mean) / sx.std) - F ((u - sx.mean) / sx.std)) := by unfold Spec.unscale; ring
    rw [e1, this]
    field_simp
    ring
  · intro k a b w ha hb hw
    simp only [Spec.redrawn, List.getElem?_map, Option.map_eq_some_iff] at ha hb hw
    obtain ⟨a', ha', rfl⟩ := ha
    obtain ⟨b', hb', rfl⟩ := hb
    obtain ⟨w', hw', rfl⟩ := hw
    rw [h.widths k a' b' w' ha' hb' hw']
    unfold Spec.unscale
    ring
  · simpa [Spec.redrawn] using h.bars

theorem afterEval_value {cfg : AleCfg K D} {L : LastFit K D} {s : Fin D} {m : Centering} {p : AleParams K}
    (hp : cfg.fitF s (effectiveBin cfg (L s) m) = .ok p) :
    ∃ m0, afterEval cfg L s m s = some (effectiveBin cfg (L s) m, m0) ∧ (m = .off ∨ m = m0) := by
  unfold afterEval effectiveBin
  unfold effectiveBin at hp
  cases hL : L s with
  | none =>
    rw [hL] at hp
    simp only [] at hp
    simp only [afterFit, hp, Function.update_self]
    exact ⟨m, rfl, Or.inr rfl⟩
  | some q =>
    obtain ⟨bm, m0⟩ := q
    rw [hL] at hp
    simp only [] at hp ⊢
    by_cases hc : m = .off ∨ m = m0
    · rw [if_pos hc] at hp ⊢
      rw [if_pos hc, hL]
      exact ⟨m0, rfl, hc⟩
    · rw [if_neg hc] at hp ⊢
      rw [if_neg hc]
      simp only [afterFit, hp, Function.update_self]
      exact ⟨m, rfl, Or.inr rfl⟩

/-- What `plot` draws, without scaling: there is one fit `p`, the one in force for `eval`, whose limits, slopes and variances are drawn and whose curve is drawn. -/
theorem aleDraw_from_fit [PySqrt K] {cfg : AleCfg K D} (hdef : GoodFor cfg cfg.defaultBin) {calls : List (AleOp K D)}
    (hcalls : ∀ f bm c, AleOp.fit f bm c ∈ calls → GoodFor cfg bm) {s : Fin D} {c : PyVal} {d0 : AleDrawing K}
    (h : aleDraw cfg (aleRun cfg calls) s c none none = .ok d0) :
    ∃ m p u z, prepCentering c = .ok m ∧ cfg.fitF s (effectiveBin cfg (lastFit cfg calls s) m) = .ok p ∧ GoodParams p ∧ d0.limits = p.limits ∧
      d0.binEffect = p.binEffect ∧ d0.dx = p.dx ∧ d0.binVariance = p.binVariance ∧ evalUnnorm p d0.x = .ok u ∧ shift cfg p s m = .ok z ∧
      d0.y = u.map (· - z) ∧ (∃ a b, p.limits[0]? = some a ∧ p.limits[p.limits.length - 1]? = some b ∧ d0.x = linspace a b 1000) ∧
      evalHet p d0.x = .ok d0.std := by
  have hec := usesEvaluable_of cfg calls fun f bm c h => (hcalls f bm c h).evaluable
  unfold aleDraw at h
  rcases h1 : aleEval cfg (aleRun cfg calls) s [cfg.axisLo s] false c with ⟨st1, e | ⟨y1, o1⟩⟩
  · rw [h1] at h; cases h
  rw [h1] at h
  simp only at h
  rcases h2 : st1.fe s with _ | ⟨p, nc⟩
  · rw [h2] at h; cases h
  rw [h2] at h
  simp only at h
  obtain ⟨e1, e2, e3, e4, a, b, ha, hb, hx, hev⟩ := alePlotData_none h
  obtain ⟨m, p0, u0, z0, hm, hp0, -, -, -, -⟩ := eval_from_fit (cfg := cfg) hdef.evaluable hec (s := s) (c := c) (xs := [cfg.axisLo s]) (het := false)
    (y := y1) (o := o1) (by rw [h1])
  -- the state after the first eval is that of a longer history
  have hst : st1 = aleRun cfg (calls ++ [.eval s [cfg.axisLo s] false c]) := by
    unfold aleRun
    rw [List.foldl_append]
    show st1 = (aleEval cfg (aleRun cfg calls) s [cfg.axisLo s] false c).1
    rw [h1]
  have hL : lastFit cfg (calls ++ [.eval s [cfg.axisLo s] false c]) = afterEval cfg (lastFit cfg calls) s m := by
    unfold lastFit
    rw [List.foldl_append]
    show (match prepCentering c with
      | .ok m => afterEval cfg (lastFit cfg calls) s m
      | .error _ => lastFit cfg calls) = _
    rw [hm]
    rfl
  have hcalls' : ∀ f bm c', AleOp.fit f bm c' ∈ calls ++ [.eval s [cfg.axisLo s] false c] → GoodFor cfg bm := by
    intro f bm c' hmem
    rcases List.mem_append.mp hmem with hmem | hmem
    · exact hcalls f bm c' hmem
    · simp at hmem
  have he := usesEvaluable_of cfg _ fun f bm c h => (hcalls' f bm c h).evaluable
  obtain ⟨m0, hval, hm0⟩ := afterEval_value (L := lastFit cfg calls) hp0
  have ht := aleRun_tracks hdef.evaluable _ he s
  rw [hL, hval, ← hst] at ht
  obtain ⟨q, z', hq, -, hfe, -⟩ := ht
  rw [hp0] at hq
  cases hq
  rw [h2] at hfe
  cases hfe
  rcases hr : aleEval cfg st1 s d0.x true c with ⟨st2, e | ⟨y, o⟩⟩
  · rw [hr] at hev; cases hev
  rw [hr] at hev
  simp only [bind, Except.bind] at hev
  rcases o with _ | std
  · cases hev
  cases hev
  rw [hst] at hr
  obtain ⟨m', p', u, z, hm', hp', hu, hz, hy, hcase⟩ := eval_from_fit (cfg := cfg) hdef.evaluable he (s := s) (c := c) (xs := d0.x) (het := true)
    (y := d0.y) (o := some d0.std) (by rw [hr])
  rw [hm] at hm'
  cases hm'
  have hbin : effectiveBin cfg (lastFit cfg (calls ++ [.eval s [cfg.axisLo s] false c]) s) m = effectiveBin cfg (lastFit cfg calls s) m := by
    rw [hL, hval]
    show (if m = .off ∨ m = m0 then _ else _) = _
    rw [if_pos hm0]
  rw [hbin, hp0] at hp'
  cases hp'
  rcases hcase with ⟨h', -⟩ | ⟨-, v, hv, hvo⟩
  · cases h'
  cases hvo
  exact ⟨m, p, u, z, hm, hp0, effectiveBin_mem cfg calls (GoodFor cfg) hdef hcalls s m s p hp0, e1, e2, e3, e4, hu, hz, hy, ⟨a, b, ha, hb, hx⟩, hv⟩

theorem linspace_mem_le {a b : K} (hab : a ≤ b) {x : K} {n : ℕ} (hx : x ∈ linspace a b n) : x ≤ b := by
  unfold linspace at hx
  obtain ⟨i, hi, rfl⟩ := List.mem_map.mp hx
  have hi := List.mem_range.mp hi
  unfold linspaceAt
  rcases Nat.eq_zero_or_pos (n - 1) with h0 | h0
  · rw [h0]
    simpa using hab
  · have hn : (0 : K) < ((n - 1 : ℕ) : K) := by exact_mod_cast h0
    have : (i : K) ≤ ((n - 1 : ℕ) : K) := by exact_mod_cast (by omega : i ≤ n - 1)
    have h1 : (i : K) * ((b - a) / ((n - 1 : ℕ) : K)) ≤ ((n - 1 : ℕ) : K) * ((b - a) / ((n - 1 : ℕ) : K)) :=
      mul_le_mul_of_nonneg_right this (div_nonneg (by linarith) hn.le)
    rw [mul_div_cancel₀ _ (ne_of_gt hn)] at h1
    linarith

/-- A drawing without scaling shows one curve, whose slopes are the drawn bars. -/
theorem aleDraw_consistent [PySqrt K] {cfg : AleCfg K D} (hdef : GoodFor cfg cfg.defaultBin) {calls : List (AleOp K D)}
    (hcalls : ∀ f bm c, AleOp.fit f bm c ∈ calls → GoodFor cfg bm) {s : Fin D} {c : PyVal} {d0 : AleDrawing K}
    (h : aleDraw cfg (aleRun cfg calls) s c none none = .ok d0) (hM : ∀ l ∈ d0.limits, l ≤ BIG_M) :
    ∃ F, Spec.Consistent d0 F := by
  obtain ⟨m, p, u, z, -, -, hg, e1, e2, e3, e4, hu, -, hy, ⟨a, b, ha, hb, hx⟩, -⟩ := aleDraw_from_fit hdef hcalls h
  have h2 := hg.two
  refine ⟨fun x => stepIntegral p.limits p.binEffect x - z, ?_, ?_, ?_, ?_⟩
  · have hbel : ∀ x ∈ d0.x, x ≤ BIG_M ∨ ∃ l ∈ p.limits, x < l := by
      intro x hxm
      rw [hx] at hxm
      have hab : a ≤ b := by
        obtain ⟨lo, hi, hlo, hhi, hlt⟩ := head_getLast_lt hg.inc hg.two
        rw [List.head?_eq_getElem?, ha] at hlo
        rw [List.getLast?_eq_getElem?, hb] at hhi
        cases hlo; cases hhi
        exact hlt.le
      have hbM : b ≤ BIG_M := hM b (by rw [e1]; exact List.mem_of_getElem? hb)
      left
      exact (linspace_mem_le hab hxm).trans hbM
    unfold evalUnnorm at hu
    rw [hg.acc_below p.binEffect d0.x hg.be hbel] at hu
    cases hu
    rw [hy, List.map_map]
    rfl
  · intro k a b e u v ha hb he hu hv
    rw [e1] at ha hb
    rw [e2] at he
    have hab : a < b := increasing_getElem?_lt hg.inc ha hb (Nat.lt_succ_self k)
    rw [Set.uIcc_of_le hab.le] at hu hv
    have := C01_spec_linear_inside p.limits p.binEffect hg.inc k a b e u v ha hb he hu.1 hu.2 hv.1 hv.2
    linear_combination this
  · intro k a b w ha hb hw
    rw [e1] at ha hb
    rw [e3, hg.dx] at hw
    rw [getElem?_diffs p.limits k a b ha hb] at hw
    cases hw
    rfl
  · rw [e1, e2, e3, e4, hg.be, hg.bv, hg.dx, length_diffs]
    omega

/-! ### Scaling at the level of `plot` -/

theorem aleDraw_both [PySqrt K] (cfg : AleCfg K D) (st : AleState K D) (s : Fin D) (c : PyVal) (sx sy : Scale K) :
    aleDraw cfg st s c (some sx) (some sy) = (aleDraw cfg st s c none none).map fun d0 => Spec.redrawn d0 sx sy := by
  unfold aleDraw
  rcases aleEval cfg st s [cfg.axisLo s] false c with ⟨st1, e | q⟩
  · rfl
  · simp only []
    rcases st1.fe s with _ | ⟨p, nc⟩
    · rfl
    · exact alePlotData_both sx sy

theorem aleDraw_x [PySqrt K] (cfg : AleCfg K D) (st : AleState K D) (s : Fin D) (c : PyVal) (sx : Scale K) :
    aleDraw cfg st s c (some sx) none = (aleDraw cfg st s c none none).map fun d0 =>
      { d0 with
        x := d0.x.map (Spec.unscale sx)
        limits := d0.limits.map (Spec.unscale sx)
        dx := d0.dx.map (· * sx.std) } := by
  unfold aleDraw
  rcases aleEval cfg st s [cfg.axisLo s] false c with ⟨st1, e | q⟩
  · rfl
  · simp only []
    rcases st1.fe s with _ | ⟨p, nc⟩
    · rfl
    · exact alePlotData_x sx

/-- **C57, both scalings.** Whatever was called before, if `plot` works without scaling then it works with both scalings: the drawn curve is the affine image of the
unscaled one, and in both pictures the drawn bars are the slopes of the drawn curve. (Limits beyond the sentinel 1e8 are excluded, see C01.) -/
theorem C57_both_scales_partial [PySqrt K] (cfg : AleCfg K D) (hdef : GoodFor cfg cfg.defaultBin) (calls : List (AleOp K D))
    (hcalls : ∀ f bm c, AleOp.fit f bm c ∈ calls → GoodFor cfg bm) (s : Fin D) (c : PyVal) (d0 : AleDrawing K)
    (h : aleDraw cfg (aleRun cfg calls) s c none none = .ok d0) (hM : ∀ l ∈ d0.limits, l ≤ 10 ^ 8) (sx sy : Scale K) (hx : 0 < sx.std) :
    ∃ d F G, aleDraw cfg (aleRun cfg calls) s c (some sx) (some sy) = .ok d ∧
      d.x = d0.x.map (fun v => sx.mean + sx.std * v) ∧ d.limits = d0.limits.map (fun v => sx.mean + sx.std * v) ∧
      d.y = d0.y.map (fun v => sy.mean + sy.std * v) ∧ d.std = d0.std.map (· * sy.std) ∧
      d.binEffect = d0.binEffect.map (· * (sy.std / sx.std)) ∧ d.binVariance = d0.binVariance.map (· * (sy.std / sx.std) ^ 2) ∧
      Spec.Consistent d0 F ∧ Spec.Consistent d G := by
  simp only [BIG_M_lit] at *
  obtain ⟨F, hF⟩ := aleDraw_consistent hdef hcalls h hM
  refine ⟨Spec.redrawn d0 sx sy, F, _, ?_, rfl, rfl, rfl, rfl, rfl, rfl, hF, consistent_redrawn hF sx sy hx⟩
  rw [aleDraw_both, h]
  rfl

/-- The two methods of the library, after any history of calls with binning methods that have at least one bin. -/
theorem C57_ale_partial [PySqrt K] (cast : K → K) (f : Row K D → K) (b : Base K D) (hlt : ∀ s, b.axisLo s < b.axisHi s) (calls : List (AleOp K D))
    (hcalls : ∀ g bm c, AleOp.fit g bm c ∈ calls → ∀ m cl, bm ≠ .fixed 0 m cl) (s : Fin D) (c : PyVal) (d0 : AleDrawing K)
    (h : aleDraw (aleCfg cast (List.map f) b) (aleRun (aleCfg cast (List.map f) b) calls) s c none none = .ok d0) (hM : ∀ l ∈ d0.limits, l ≤ 10 ^ 8)
    (sx sy : Scale K) (hx : 0 < sx.std) :
    ∃ F G, aleDraw (aleCfg cast (List.map f) b) (aleRun (aleCfg cast (List.map f) b) calls) s c (some sx) (some sy) = .ok (Spec.redrawn d0 sx sy) ∧
      Spec.Consistent d0 F ∧ Spec.Consistent (Spec.redrawn d0 sx sy) G := by
  simp only [BIG_M_lit] at *
  have hdef : GoodFor (aleCfg cast (List.map f) b) (aleCfg cast (List.map f) b).defaultBin :=
    ale_goodFor cast f b hlt _ (by intro m cl hc; cases hc)
  obtain ⟨F, hF⟩ := aleDraw_consistent hdef (fun g bm c hmem => ale_goodFor cast f b hlt bm (hcalls g bm c hmem)) h hM
  refine ⟨F, _, ?_, hF, consistent_redrawn hF sx sy hx⟩
  rw [aleDraw_both, h]
  rfl

/-- **C57 is false for `scale_y` alone**: whenever the unscaled plot works, the plot with `scale_y` only raises `TypeError`. -/
theorem C57_false_scale_y_alone [PySqrt K] (cfg : AleCfg K D) (st : AleState K D) (s : Fin D) (c : PyVal) (d0 : AleDrawing K)
    (h : aleDraw cfg st s c none none = .ok d0) (sy : Scale K) : aleDraw cfg st s c none (some sy) = .error .typeError := by
  unfold aleDraw at h ⊢
  rcases h1 : aleEval cfg st s [cfg.axisLo s] false c with ⟨st1, e | q⟩
  · rw [h1] at h; cases h
  · rw [h1] at h
    simp only [] at h ⊢
    rcases h2 : st1.fe s with _ | ⟨p, nc⟩
    · rw [h2] at h; cases h
    · rw [h2] at h
      exact alePlotData_y sy h

/-- The rise of a consistent drawing's curve over all its bins. -/
theorem consistent_rise {limits es : List K} {F : K → K} (hlen : es.length + 1 = limits.length)
    (hs : ∀ (k : ℕ) (a b e : K), limits[k]? = some a → limits[k + 1]? = some b → es[k]? = some e → F b - F a = e * (b - a)) (a b : K)
    (ha : limits[0]? = some a) (hb : limits[limits.length - 1]? = some b) :
    F b - F a = (List.zipWith (· * ·) es (diffs limits)).sum := by
  induction limits generalizing es a with
  | nil => simp at ha
  | cons l0 t ih =>
    cases t with
    | nil =>
      simp at ha hb
      subst ha hb
      simp [diffs]
    | cons l1 t =>
      cases es with
      | nil => simp at hlen
      | cons e es =>
        simp at ha
        subst ha
        have h1 := hs 0 l0 l1 e (by simp) (by simp) (by simp)
        have h2 := ih (es := es) (by simpa using hlen) (fun k a b e ha hb he => hs (k + 1) a b e (by simpa using ha) (by simpa using hb) (by simpa using he))
          l1 (by simp) (by simpa using hb)
        have e1 : (List.zipWith (· * ·) (e :: es) (diffs (l0 :: l1 :: t))).sum = e * (l1 - l0) + (List.zipWith (· * ·) es (diffs (l1 :: t))).sum := by
          simp [diffs]
        rw [e1, ← h1, ← h2]
        ring

theorem diffs_unscale (sx : Scale K) (l : List K) : diffs (l.map (Spec.unscale sx)) = (diffs l).map (· * sx.std) := by
  apply List.ext_getElem?
  intro k
  by_cases hk : k + 1 < l.length
  · obtain ⟨a, ha⟩ : ∃ a, l[k]? = some a := ⟨_, List.getElem?_eq_getElem (by omega)⟩
    obtain ⟨b, hb⟩ : ∃ b, l[k + 1]? = some b := ⟨_, List.getElem?_eq_getElem hk⟩
    rw [getElem?_diffs _ k (Spec.unscale sx a) (Spec.unscale sx b) (by simp [ha]) (by simp [hb]), List.getElem?_map, getElem?_diffs l k a b ha hb]
    simp only [Option.map_some, Option.some.injEq]
    unfold Spec.unscale
    ring
  · rw [List.getElem?_eq_none (by rw [length_diffs, List.length_map]; omega), List.getElem?_eq_none (by rw [List.length_map, length_diffs]; omega)]

theorem zipWith_scale_sum (es ws : List K) (c : K) : (List.zipWith (· * ·) es (ws.map (· * c))).sum = c * (List.zipWith (· * ·) es ws).sum := by
  induction es generalizing ws with
  | nil => simp
  | cons e es ih =>
    cases ws with
    | nil => simp
    | cons w ws =>
      simp only [List.map_cons, List.zipWith_cons_cons, List.sum_cons, ih]
      ring

/-- **C57 is false for `scale_x` alone**: if the curve does not end at the height where it begins, then in the plot with `scale_x` only (and a standard deviation
other than 1) the drawn bars are not the slopes of the drawn curve. -/
theorem C57_false_scale_x_alone [PySqrt K] (cfg : AleCfg K D) (hdef : GoodFor cfg cfg.defaultBin) (calls : List (AleOp K D))
    (hcalls : ∀ f bm c, AleOp.fit f bm c ∈ calls → GoodFor cfg bm) (s : Fin D) (c : PyVal) (d0 : AleDrawing K)
    (h : aleDraw cfg (aleRun cfg calls) s c none none = .ok d0) (hM : ∀ l ∈ d0.limits, l ≤ 10 ^ 8) (hrise : d0.y.head? ≠ d0.y.getLast?)
    (sx : Scale K) (hx : sx.std ≠ 1) :
    ∃ d, aleDraw cfg (aleRun cfg calls) s c (some sx) none = .ok d ∧ ∀ G, ¬ Spec.Consistent d G := by
  simp only [BIG_M_lit] at *
  obtain ⟨F, hF⟩ := aleDraw_consistent hdef hcalls h hM
  obtain ⟨-, p, -, -, -, -, hg, e1, -, -, -, -, -, -, ⟨a, b, ha, hb, hxx⟩, -⟩ := aleDraw_from_fit hdef hcalls h
  refine ⟨_, by rw [aleDraw_x, h]; rfl, ?_⟩
  intro G hG
  have hd0 : d0.x.head? = some a := by rw [hxx]; exact linspace_head a b 999
  have hd1 : d0.x.getLast? = some b := by rw [hxx]; exact linspace_last a b 999 (by norm_num)
  -- both pictures have the same heights
  have y0 : d0.y.head? = some (F a) := by rw [hF.curve, List.head?_map, hd0]; rfl
  have y1 : d0.y.getLast? = some (F b) := by rw [hF.curve, List.getLast?_map, hd1]; rfl
  have g0 : d0.y.head? = some (G (Spec.unscale sx a)) := by
    have := hG.curve
    simp only at this
    rw [this, List.map_map, List.head?_map, hd0]; rfl
  have g1 : d0.y.getLast? = some (G (Spec.unscale sx b)) := by
    have := hG.curve
    simp only at this
    rw [this, List.map_map, List.getLast?_map, hd1]; rfl
  have hle : ∀ x y : K, x ∈ Set.uIcc x y ∧ y ∈ Set.uIcc x y := fun x y => ⟨Set.left_mem_uIcc, Set.right_mem_uIcc⟩
  have r1 := consistent_rise (limits := d0.limits) (es := d0.binEffect) (F := F) hF.bars.1
    (fun k a b e ha hb he => hF.slopes k a b e a b ha hb he (hle a b).1 (hle a b).2) a b (by rw [e1]; exact ha) (by rw [e1]; exact hb)
  have r2 := consistent_rise (limits := d0.limits.map (Spec.unscale sx)) (es := d0.binEffect) (F := G) (by simpa using hF.bars.1)
    (fun k a b e ha hb he => hG.slopes k a b e a b ha hb he (hle a b).1 (hle a b).2) (Spec.unscale sx a) (Spec.unscale sx b)
    (by rw [List.getElem?_map, e1, ha]; rfl) (by rw [List.getElem?_map, List.length_map, e1, hb]; rfl)
  rw [diffs_unscale, zipWith_scale_sum, ← r1] at r2
  rw [y0] at g0
  rw [y1] at g1
  simp only [Option.some.injEq] at g0 g1
  rw [← g0, ← g1] at r2
  have hne : F b - F a ≠ 0 := by
    intro h0
    apply hrise
    rw [y0, y1, sub_eq_zero.mp h0]
  apply hx
  have : (sx.std - 1) * (F b - F a) = 0 := by linear_combination -r2
  rcases mul_eq_zero.mp this with h' | h'
  · linarith
  · exact absurd h' hne

end

/-- The hypotheses are met: an RHALE object for `x²`, fitted with one bin, whose curve rises. -/
theorem C57_hypotheses_met :
    (match aleDraw exRhale (aleRun exRhale [.fit (.int 0) (.fixed 1 (some 2) 0) (.bool false)]) 0 (.bool false) none none with
      | .ok d => some (decide (d.y.head? ≠ d.y.getLast?), decide (∀ l ∈ d.limits, l ≤ 10 ^ 8), d.limits, d.binEffect)
      | .error _ => none) = some (true, true, [0, 3], [3]) := by
  decide +kernel

end Effector
