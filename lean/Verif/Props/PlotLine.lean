import Verif.Props.PlotShap

/-!
# C54, C57, C75: the `heterogeneity` and `show_avg_output` arguments of `plot`
-/

set_option linter.unusedSectionVars false

namespace Effector

open Spec

section

variable {K : Type} [Field K] [LinearOrder K] [IsStrictOrderedRing K] {D : ℕ}

/-- **C54, heterogeneity.**  Exactly six arguments are accepted; `True` means `"std"`; every other accepted value means itself; normalising twice changes nothing. -/
theorem C54_heterogeneity (c : PyVal) :
    ((∃ r, prepConfidenceInterval c = .ok r) ↔
      c = .bool true ∨ c = .bool false ∨ c = .str "std" ∨ c = .str "std_err" ∨ c = .str "ice" ∨ c = .str "shap_values") ∧
    prepConfidenceInterval (.bool true) = .ok (.str "std") ∧
    (∀ r, prepConfidenceInterval c = .ok r → prepConfidenceInterval r = .ok r ∧ (c ≠ .bool true → r = c)) ∧
    ∀ e, prepConfidenceInterval c = .error e → e = .assertionError := by
  refine ⟨?_, rfl, ?_, ?_⟩
  · unfold prepConfidenceInterval
    cases c with
    | bool b => cases b <;> simp
    | str s =>
      by_cases h : s = "std" ∨ s = "std_err" ∨ s = "ice" ∨ s = "shap_values"
      · simp only [h, if_true]
        rcases h with rfl | rfl | rfl | rfl <;> simp
      · simp only [h, if_false]
        push Not at h
        simp [h.1, h.2.1, h.2.2.1, h.2.2.2]
    | int i => simp
    | list l => simp
    | other => simp
  · intro r hr
    unfold prepConfidenceInterval at hr
    cases c with
    | bool b =>
      cases b <;> cases hr
      · exact ⟨rfl, fun _ => rfl⟩
      · exact ⟨rfl, fun h => absurd rfl h⟩
    | str s =>
      simp only [] at hr
      by_cases h : s = "std" ∨ s = "std_err" ∨ s = "ice" ∨ s = "shap_values"
      · rw [if_pos h] at hr
        cases hr
        refine ⟨?_, fun _ => rfl⟩
        unfold prepConfidenceInterval
        simp only []
        rw [if_pos h]
      · rw [if_neg h] at hr; cases hr
    | int i => cases hr
    | list l => cases hr
    | other => cases hr
  · intro e he
    unfold prepConfidenceInterval at he
    cases c with
    | bool b => cases b <;> cases he
    | str s =>
      simp only [] at he
      by_cases h : s = "std" ∨ s = "std_err" ∨ s = "ice" ∨ s = "shap_values"
      · rw [if_pos h] at he; cases he
      · rw [if_neg h] at he; cases he; rfl
    | int i => cases he; rfl
    | list l => cases he; rfl
    | other => cases he; rfl

/-- **C54**, on the methods: `heterogeneity=True` and `heterogeneity="std"` are the same argument of every `plot`, and a value that is none of the six is
refused by every `plot` with an `AssertionError`, whatever the other arguments and the history. -/
theorem C54_plot_heterogeneity [PySqrt K] (choice : ℕ → ℕ → List ℕ) (model : List (Row K D) → List K) (avgOutput : Option K) (s : Fin D) :
    (∀ (cfg : AleCfg K D) data st c sx sy w,
      aleFigure cfg data model avgOutput st s (.bool true) c sx sy w = aleFigure cfg data model avgOutput st s (.str "std") c sx sy w) ∧
    (∀ (cfg : PdpCfg K D) st (a : PlotArgs K) n v,
      pdpDraw choice cfg model avgOutput st s { a with het := .bool true } n v = pdpDraw choice cfg model avgOutput st s { a with het := .str "std" } n v) ∧
    (∀ (cfg : ShapCfg K D) st (a : PlotArgs K) n,
      shapDraw choice cfg model avgOutput st s { a with het := .bool true } n = shapDraw choice cfg model avgOutput st s { a with het := .str "std" } n) ∧
    ∀ het : PyVal, het ≠ .bool true → het ≠ .bool false → het ≠ .str "std" → het ≠ .str "std_err" → het ≠ .str "ice" → het ≠ .str "shap_values" →
      (∀ (cfg : AleCfg K D) data st c sx sy w, aleFigure cfg data model avgOutput st s het c sx sy w = .error .assertionError) ∧
      (∀ (cfg : PdpCfg K D) st (a : PlotArgs K) n v, pdpDraw choice cfg model avgOutput st s { a with het := het } n v = .error .assertionError) ∧
      ∀ (cfg : ShapCfg K D) st (a : PlotArgs K) n, shapDraw choice cfg model avgOutput st s { a with het := het } n = .error .assertionError := by
  have h : prepConfidenceInterval (.bool true) = prepConfidenceInterval (.str "std") := rfl
  refine ⟨?_, ?_, ?_, ?_⟩
  · intros; unfold aleFigure; rw [h]
  · intros; unfold pdpDraw; simp only [h]
  · intros; unfold shapDraw; simp only [h]
  · intro het h1 h2 h3 h4 h5 h6
    have he : prepConfidenceInterval het = .error .assertionError := by
      cases hc : prepConfidenceInterval het with
      | error e => rw [(C54_heterogeneity het).2.2.2 e hc]
      | ok r =>
        have := (C54_heterogeneity het).1.mp ⟨r, hc⟩
        tauto
    refine ⟨?_, ?_, ?_⟩
    · intros; unfold aleFigure; rw [he]; rfl
    · intros; unfold pdpDraw; simp only [he]; rfl
    · intros; unfold shapDraw; simp only [he]; rfl

namespace Spec

/-- The height at which the average output belongs: the value given to the constructor, or the mean of the model's outputs on the instances; in the
units of the plot. -/
def averageOutput (model : List (Row K D) → List K) (given : Option K) (scaleY : Option (Scale K)) (data : List (Row K D)) : K :=
  inUnits scaleY (given.getD (avg (model data)))

end Spec

theorem prepAvgOutput_eq (data : List (Row K D)) (model : List (Row K D) → List K) (g : Option K) (sy : Option (Scale K)) :
    prepAvgOutput data model g sy = Spec.averageOutput model g sy data := by
  have hm : mean (model data) = avg (model data) := rfl
  unfold prepAvgOutput Spec.averageOutput Spec.inUnits Spec.unscale
  cases g <;> cases sy <;> simp [hm] <;> ring

theorem getElem?_midpoints (l : List K) (k : ℕ) (a b : K) (ha : l[k]? = some a) (hb : l[k + 1]? = some b) : (midpoints l)[k]? = some ((a + b) / 2) := by
  induction l generalizing k with
  | nil => cases ha
  | cons x t ih =>
    cases t with
    | nil => simp at hb
    | cons y t =>
      cases k with
      | zero =>
        simp only [List.getElem?_cons_zero, Option.some.injEq] at ha
        simp only [zero_add, List.getElem?_cons_succ, List.getElem?_cons_zero, Option.some.injEq] at hb
        subst ha; subst hb; rfl
      | succ k => exact ih k ha hb

/-- **C57 / C75 for ALE and RHALE.**  `plot` draws what it draws without any heterogeneity, with error bars exactly if `heterogeneity` is not `False`; the
half-height of each bar is the square root of the drawn bin variance, and each bar is centred on its bin.  The line is drawn if `show_avg_output`, at the average output over all instances
of the object. -/
theorem C75_ale_figure [PySqrt K] (cfg : AleCfg K D) (data : List (Row K D)) (model : List (Row K D) → List K) (avgOutput : Option K) (st : AleState K D)
    (s : Fin D) (het c : PyVal) (sx sy : Option (Scale K)) (showAvg : Bool) (fig : AleFigure K)
    (h : aleFigure cfg data model avgOutput st s het c sx sy showAvg = .ok fig) :
    aleDraw cfg st s c sx sy = .ok fig.drawing ∧ (fig.errors = none ↔ het = .bool false) ∧
      (∀ l, fig.errors = some l → l = fig.drawing.binVariance.map PySqrt.sqrt) ∧
      (∀ (k : ℕ) (a b : K), fig.drawing.limits[k]? = some a → fig.drawing.limits[k + 1]? = some b → fig.centres[k]? = some ((a + b) / 2)) ∧
      fig.avgLine = if showAvg then some (Spec.averageOutput model avgOutput sy data) else none := by
  unfold aleFigure at h
  simp only [bind, Except.bind, pure, Except.pure] at h
  cases hh : prepConfidenceInterval het with
  | error e => rw [hh] at h; cases h
  | ok r =>
    rw [hh] at h
    simp only [] at h
    cases hm : prepCentering c with
    | error e => rw [hm] at h; cases h
    | ok m =>
      rw [hm] at h
      simp only [] at h
      have hd : aleDraw cfg st s m.toVal sx sy = aleDraw cfg st s c sx sy := by
        have : prepCentering m.toVal = prepCentering c := by rw [hm]; cases m <;> rfl
        unfold aleDraw aleEval
        rw [this]
      rw [hd] at h
      cases hdr : aleDraw cfg st s c sx sy with
      | error e => rw [hdr] at h; cases h
      | ok d =>
        rw [hdr] at h
        simp only [Except.ok.injEq] at h
        subst h
        have hr : r = .bool false ↔ het = .bool false := by
          constructor
          · rintro rfl
            by_contra hne
            by_cases ht : het = .bool true
            · subst ht; cases hh
            · exact hne ((((C54_heterogeneity het).2.2.1 _ hh).2 ht).symm)
          · rintro rfl; cases hh; rfl
        refine ⟨rfl, ?_, ?_, fun k a b ha hb => getElem?_midpoints _ k a b ha hb, ?_⟩
        · simp only
          by_cases h0 : r = .bool false
          · rw [if_pos h0]; exact ⟨fun _ => hr.mp h0, fun _ => rfl⟩
          · rw [if_neg h0]; exact ⟨fun h => (by simp at h), fun h => absurd (hr.mpr h) h0⟩
        · intro l hl
          simp only at hl
          by_cases h0 : r = .bool false
          · rw [if_pos h0] at hl; cases hl
          · rw [if_neg h0] at hl; cases hl; rfl
        · simp only [prepAvgOutput_eq]

/-- **C57 / C75: the bars tile the axis.**  After any history of calls with binning methods that have at least one bin: if `plot` draws a figure without scaling
then, with both scalings too, the bar of every bin reaches from the bin's left to its right limit, in drawn coordinates. -/
theorem C75_bars_cover_bins [PySqrt K] (cfg : AleCfg K D) (hdef : GoodFor cfg cfg.defaultBin) (data : List (Row K D)) (model : List (Row K D) → List K)
    (avgOutput : Option K) (calls : List (AleOp K D)) (hcalls : ∀ f bm c, AleOp.fit f bm c ∈ calls → GoodFor cfg bm)
    (s : Fin D) (het c : PyVal) (showAvg : Bool) (scales : Option (Scale K × Scale K)) (hx : ∀ q, scales = some q → 0 < q.1.std) (fig : AleFigure K)
    (h : aleFigure cfg data model avgOutput (aleRun cfg calls) s het c (scales.map Prod.fst) (scales.map Prod.snd) showAvg = .ok fig)
    (hM : ∀ d0, aleDraw cfg (aleRun cfg calls) s c none none = .ok d0 → ∀ l ∈ d0.limits, l ≤ 10 ^ 8) :
    ∀ (k : ℕ) (a b : K), fig.drawing.limits[k]? = some a → fig.drawing.limits[k + 1]? = some b →
      ∃ m w e, fig.centres[k]? = some m ∧ fig.drawing.dx[k]? = some w ∧ fig.drawing.binEffect[k]? = some e ∧ m - w / 2 = a ∧ m + w / 2 = b := by
  simp only [BIG_M_lit] at *
  obtain ⟨hd, -, -, hc, -⟩ := C75_ale_figure cfg data model avgOutput (aleRun cfg calls) s het c _ _ showAvg fig h
  have hcons : ∃ F, Spec.Consistent fig.drawing F := by
    cases scales with
    | none =>
      have hd : aleDraw cfg (aleRun cfg calls) s c none none = .ok fig.drawing := hd
      exact aleDraw_consistent hdef hcalls hd (hM _ hd)
    | some q =>
      have hd : aleDraw cfg (aleRun cfg calls) s c (some q.1) (some q.2) = .ok fig.drawing := hd
      rw [aleDraw_both] at hd
      cases hd0 : aleDraw cfg (aleRun cfg calls) s c none none with
      | error e => rw [hd0] at hd; cases hd
      | ok d0 =>
        rw [hd0] at hd
        simp only [Except.map, Except.ok.injEq] at hd
        rw [← hd]
        obtain ⟨F, hF⟩ := aleDraw_consistent hdef hcalls hd0 (hM _ hd0)
        exact ⟨_, consistent_redrawn hF q.1 q.2 (hx q rfl)⟩
  obtain ⟨F, hF⟩ := hcons
  intro k a b ha hb
  have hk : k + 1 < fig.drawing.limits.length := (List.getElem?_eq_some_iff.mp hb).1
  have hkw : k < fig.drawing.dx.length := by have := hF.bars.2.1; omega
  have hke : k < fig.drawing.binEffect.length := by have := hF.bars.1; omega
  refine ⟨(a + b) / 2, fig.drawing.dx[k], fig.drawing.binEffect[k], hc k a b ha hb, List.getElem?_eq_getElem hkw, List.getElem?_eq_getElem hke, ?_, ?_⟩ <;>
    · rw [hF.widths k a b _ ha hb (List.getElem?_eq_getElem hkw)]
      ring

/-- **C75 for PDP and DerPDP.**  The line is at the average output over the instances inside the axis limits of the plotted feature: of all of them
if none is outside. -/
theorem C75_pdp_line_partial [PySqrt K] (choice : ℕ → ℕ → List ℕ) (M : PdpModel K D) (model : List (Row K D) → List K) (avgOutput : Option K)
    (lo hi : Fin D → K) (data : List (Row K D)) (calls : List (PdpOp K D)) (s : Fin D) (hcalls : ∀ op ∈ calls, PdpCallOk data lo hi s op) (a : PlotArgs K)
    (nofIce : Option ℕ) (vec : Bool) (ha : EvalArgsOk data lo hi s (evenly (lo s) (hi s) a.nofPoints) vec) (fig : PdpFigure K)
    (h : pdpPlotAfter choice M model avgOutput lo hi data calls s a nofIce vec = .ok fig) :
    (fig.avgLine = if a.showAvg then some (Spec.averageOutput model avgOutput a.scaleY (data.filter fun r => lo s ≤ r s ∧ r s ≤ hi s)) else none) ∧
      ((∀ r ∈ data, lo s ≤ r s ∧ r s ≤ hi s) → fig.avgLine = if a.showAvg then some (Spec.averageOutput model avgOutput a.scaleY data) else none) := by
  suffices hs : fig.avgLine = if a.showAvg then some (Spec.averageOutput model avgOutput a.scaleY (data.filter fun r => lo s ≤ r s ∧ r s ≤ hi s)) else none by
    refine ⟨hs, fun hall => ?_⟩
    rw [hs]
    have : (data.filter fun r => lo s ≤ r s ∧ r s ≤ hi s) = data := List.filter_eq_self.mpr fun r hr => by simpa using hall r hr
    rw [this]
  cases hh : prepConfidenceInterval a.het with
  | error e =>
    exfalso
    unfold pdpPlotAfter pdpDraw at h
    rw [hh] at h; cases h
  | ok het =>
    cases hm : prepCentering a.centering with
    | error e =>
      exfalso
      unfold pdpPlotAfter pdpDraw at h
      rw [hh, hm] at h; cases h
    | ok m =>
      rw [pdpDraw_eq choice M model avgOutput lo hi data calls s hcalls a nofIce vec ha het hh m hm, pdpPlotIce_eq] at h
      simp only [prepAvgOutput_eq] at h
      by_cases h1 : het = .str "std"
      · rw [if_pos h1] at h; cases h; rfl
      rw [if_neg h1] at h
      by_cases h2 : het = .str "std_err"
      · rw [if_pos h2] at h; cases h; rfl
      rw [if_neg h2] at h
      by_cases h3 : het = .str "ice"
      · rw [if_pos h3] at h
        by_cases h4 : iceIdx choice nofIce (inLimits data lo hi s).length = []
        · rw [if_pos h4] at h; cases h
        rw [if_neg h4] at h
        generalize List.mapM (m := Py) _ _ = q at h
        cases q with
        | error e => cases h
        | ok cols => cases h; rfl
      rw [if_neg h3] at h; cases h; rfl

/-- **C75 for ShapDP.**  The line is at the average output over a part of the instances: of all of them if none is outside of the axis limits. -/
theorem C75_shap_line_partial (choice : ℕ → ℕ → List ℕ) (cfg : ShapCfg K D) (data : List (Row K D)) (calls : List (ShapOp K D))
    (hp : ∀ f c p, ShapOp.fit f c p ∈ calls → 2 ≤ p) (model : List (Row K D) → List K) (avgOutput : Option K) (s : Fin D) (a : PlotArgs K) (nof : PyVal)
    (fig : ShapFigure K) (h : shapDraw choice cfg model avgOutput (shapRun cfg data calls) s a nof = .ok fig) :
    ∃ used, used.Sublist data ∧ (AllWithin data cfg.axisLo cfg.axisHi → used = data) ∧
      fig.avgLine = if a.showAvg then some (Spec.averageOutput model avgOutput a.scaleY used) else none := by
  obtain ⟨het, y, o, fe, n, ind, hh, hev, hfe, hn, xx, yy, avgLine, hcase, hline, hplot⟩ := shapDraw_ok h
  have hinv := shapRun_inv cfg data calls hp
  obtain ⟨m, hm, hinv', -, -, -⟩ := shapEval_state hinv hev
  refine ⟨_, hinv'.sub, hinv'.all, ?_⟩
  rw [← prepAvgOutput_eq, ← hline]
  rw [plotShap_eq] at hplot
  simp only [] at hplot
  by_cases h1 : (a.scaleX ≠ none ∧ xx = none) ∨ (a.scaleY ≠ none ∧ yy = none)
  · rw [if_pos h1] at hplot; cases hplot
  rw [if_neg h1] at hplot
  by_cases h2 : het = .str "std"
  · rw [if_pos h2] at hplot; cases hplot; rfl
  rw [if_neg h2] at hplot
  by_cases h3 : het = .str "shap_values"
  · rw [if_pos h3] at hplot
    rcases xx with _ | xs
    · cases hplot
    rcases yy with _ | ys
    · cases hplot
    simp only [] at hplot
    by_cases h4 : xs = [] ∨ ys = []
    · rw [if_pos h4] at hplot; cases hplot
    · rw [if_neg h4] at hplot; cases hplot; rfl
  · rw [if_neg h3] at hplot; cases hplot; rfl

end

/-- **C75 is false for PDP when instances are outside of the axis limits**: with the limits [0, 1] and the instances 0, 1 and 10 the line of the identity model
is at 1/2, not at the average output 11/3 over the data. -/
theorem C75_false_pdp_outside :
    (∃ fig, pdpPlotAfter (fun _ n => List.range n) (.pdp fun r : Row ℚ 1 => r 0) (List.map fun r => r 0) none ![0] ![1] [![0], ![1], ![10]] [] 0
      ⟨.bool false, .bool false, 3, none, none, true⟩ none true = .ok fig ∧ fig.avgLine = some (1 / 2)) ∧
    Spec.averageOutput (List.map fun r : Row ℚ 1 => r 0) none none [![0], ![1], ![10]] = 11 / 3 :=
  ⟨⟨⟨[0, 1 / 2, 1], [0, 1 / 2, 1], none, none, some (1 / 2)⟩, by decide +kernel, rfl⟩, by decide +kernel⟩

/-- A figure of RHALE with error bars and the average output. -/
example : (aleFigure (rhaleCfg [![(1 : ℚ)], ![3]] ⟨[![0], ![1]], [0, 1], ![0], ![1]⟩) [![0], ![1]] (List.map fun r => r 0) none
    (aleRun (rhaleCfg [![(1 : ℚ)], ![3]] ⟨[![0], ![1]], [0, 1], ![0], ![1]⟩) [.fit (.int 0) (.fixed 1 (some 2) 0) (.bool false)]) 0 (.bool true) (.bool false) none
      none true).map (fun fig => (fig.errors.map List.length, fig.drawing.binVariance, fig.avgLine, fig.drawing.binEffect)) =
      .ok (some 1, [1], some (1 / 2), [2]) := by
  decide +kernel

end Effector
