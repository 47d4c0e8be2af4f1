import Verif.Props.PlotPdp
import Verif.Props.Shap

/-!
# C65: what `ShapDP.plot` draws
-/

set_option linter.unusedSectionVars false

namespace Effector

open Spec

section

variable {K : Type} [Field K] [LinearOrder K] [IsStrictOrderedRing K] {D : ℕ}

/-- After a successful `eval`, the object is fitted for the feature in the requested mode, and the result is read off that fit. -/
theorem shapEval_state {cfg : ShapCfg K D} {data : List (Row K D)} {st : ShapState K D} (hinv : ShapInv cfg data st) {s : Fin D} {xs : List K} {het : Bool} {c : PyVal}
    {y : List K} {o : Option (List K)} (h : (shapEval cfg st s xs het c).2 = .ok (y, o)) :
    ∃ m, prepCentering c = .ok m ∧ ShapInv cfg data (shapEval cfg st s xs het c).1 ∧ (shapEval cfg st s xs het c).1.fitted s = true ∧
      (m = .off ∨ (shapEval cfg st s xs het c).1.args s = some m) ∧ shapEvalFitted cfg (shapEval cfg st s xs het c).1 s xs het m = .ok (y, o) := by
  have hi := shapEval_inv hinv s xs het c
  unfold shapEval at h hi ⊢
  cases hc : prepCentering c with
  | error e => rw [hc] at h; cases h
  | ok m =>
    rw [hc] at h hi
    simp only [] at h hi ⊢
    refine ⟨m, rfl, hi, ?_⟩
    cases hr : needsRefit (st.fitted s) (st.args s) m with
    | error e => rw [hr] at h; cases h
    | ok b =>
      rw [hr] at h
      cases b with
      | false =>
        obtain ⟨h1, h2⟩ := needsRefit_false hr
        exact ⟨h1, h2, h⟩
      | true =>
        simp only [] at h ⊢
        rcases e : shapFitLoop cfg m 100 st [s] with ⟨q, r⟩
        rw [e] at h
        cases r with
        | error e => cases h
        | ok u =>
          obtain ⟨j1, j2⟩ := shapFitLoop_one e
          exact ⟨j1, Or.inr j2, h⟩

/-- `plot_shap`, in terms of the unit changes. -/
theorem plotShap_eq (het : PyVal) (x y std : List K) (xx yy : Option (List K)) (scaleX scaleY : Option (Scale K)) (avgLine : Option K) :
    plotShap het x y xx yy std scaleX scaleY avgLine =
      (let x' := x.map (Spec.inUnits scaleX)
      let y' := y.map (Spec.inUnits scaleY)
      let std' := std.map (· * Spec.unit scaleY)
      if (scaleX ≠ none ∧ xx = none) ∨ (scaleY ≠ none ∧ yy = none) then .error .typeError
      else if het = .str "std" then .ok ⟨x', y', some (List.zipWith (· - ·) y' std', List.zipWith (· + ·) y' std'), none, avgLine⟩
      else if het = .str "shap_values" then
        match xx, yy with
        | some xs, some ys => if xs = [] ∨ ys = [] then .error .indexError
          else .ok ⟨x', y', none, some (xs.map (Spec.inUnits scaleX), ys.map (Spec.inUnits scaleY)), avgLine⟩
        | _, _ => .error .typeError
      else .ok ⟨x', y', none, none, avgLine⟩) := by
  have hs : ∀ (c : K), std.map (transScale c false) = std.map (· * c) := fun c => rfl
  unfold plotShap
  simp only [bind, Except.bind, pure, Except.pure]
  rcases scaleX with _ | sx <;> rcases scaleY with _ | sy <;> rcases xx with _ | a <;> rcases yy with _ | b <;>
    simp [affineOpt, Spec.inUnits, Spec.unit, transAffine_eq, hs]

/-- `ShapDP.plot` that draws something, unfolded. -/
theorem shapDraw_ok {choice : ℕ → ℕ → List ℕ} {cfg : ShapCfg K D} {model : List (Row K D) → List K} {avgOutput : Option K} {st : ShapState K D} {s : Fin D}
    {a : PlotArgs K} {nof : PyVal} {fig : ShapFigure K} (h : shapDraw choice cfg model avgOutput st s a nof = .ok fig) :
    ∃ het y o fe n ind, prepConfidenceInterval a.het = .ok het ∧
      (shapEval cfg st s (evenly (cfg.axisLo s) (cfg.axisHi s) a.nofPoints) false a.centering).2 = .ok (y, o) ∧
      (shapEval cfg st s (evenly (cfg.axisLo s) (cfg.axisHi s) a.nofPoints) false a.centering).1.fe s = some fe ∧
      prepNofInstances choice nof (shapEval cfg st s (evenly (cfg.axisLo s) (cfg.axisHi s) a.nofPoints) false a.centering).1.data.length = .ok (n, ind) ∧
      ∃ xx yy avgLine, ((het = .str "shap_values" ∧ ∃ xs ys, takeRows fe.xx ind = .ok xs ∧ takeRows fe.yy ind = .ok ys ∧ xx = some xs ∧
          yy = some (if a.centering = .bool false then ys else ys.map (· - fe.normConst))) ∨ (het ≠ .str "shap_values" ∧ xx = none ∧ yy = none)) ∧
        avgLine = (if a.showAvg = true then some (prepAvgOutput
          (shapEval cfg st s (evenly (cfg.axisLo s) (cfg.axisHi s) a.nofPoints) false a.centering).1.data model avgOutput a.scaleY) else none) ∧
        plotShap het (evenly (cfg.axisLo s) (cfg.axisHi s) a.nofPoints) y xx yy ((evenly (cfg.axisLo s) (cfg.axisHi s) a.nofPoints).map fe.splineStd)
          a.scaleX a.scaleY avgLine = .ok fig := by
  unfold shapDraw at h
  simp only [bind, Except.bind, linspace_evenly] at h
  generalize shapEval cfg st s (evenly (cfg.axisLo s) (cfg.axisHi s) a.nofPoints) false a.centering = r at h ⊢
  cases hh : prepConfidenceInterval a.het with
  | error e => rw [hh] at h; cases h
  | ok het =>
    rw [hh] at h
    simp only [] at h
    rcases hr : r.2 with e | ⟨y, o⟩
    · rw [hr] at h; cases h
    rw [hr] at h
    simp only [] at h
    cases hfe : r.1.fe s with
    | none => rw [hfe] at h; cases h
    | some fe =>
      rw [hfe] at h
      simp only [] at h
      rcases hn : prepNofInstances choice nof r.1.data.length with e | ⟨n, ind⟩
      · rw [hn] at h; cases h
      rw [hn] at h
      simp only [] at h
      refine ⟨het, y, o, fe, n, ind, rfl, rfl, rfl, rfl, ?_⟩
      by_cases h1 : het = .str "shap_values"
      · rw [if_pos h1] at h
        cases hy : takeRows fe.yy ind with
        | error e => rw [hy] at h; cases h
        | ok ys =>
          rw [hy] at h
          simp only [Except.map, if_pos h1] at h
          cases hx : takeRows fe.xx ind with
          | error e => rw [hx] at h; cases h
          | ok xs =>
            rw [hx] at h
            simp only [] at h
            refine ⟨some xs, some (if a.centering = .bool false then ys else ys.map (· - fe.normConst)), (if a.showAvg = true then some (prepAvgOutput r.1.data model avgOutput a.scaleY) else none), Or.inl ⟨h1, xs, ys, rfl, rfl, rfl, rfl⟩, rfl, ?_⟩
            rw [← h]
            congr 1
            split_ifs <;> rfl
      · rw [if_neg h1] at h
        simp only [if_neg h1] at h
        refine ⟨none, none, (if a.showAvg = true then some (prepAvgOutput r.1.data model avgOutput a.scaleY) else none), Or.inr ⟨h1, rfl, rfl⟩, rfl, ?_⟩
        rw [← h]
        congr 1
        split_ifs <;> rfl

/-- The curve and the spread of a fit do not depend on the centring mode and its points. -/
theorem shapFitFeature_mode {ext : ShapExt K D} {lo hi : Fin D → K} {d : List (Row K D)} {s : Fin D} {m m' : Centering} {p p' : ℕ} {fe fe' : ShapFe K}
    (h : (shapFitFeature ext lo hi d s m p).2 = .ok fe) (h' : (shapFitFeature ext lo hi d s m' p').2 = .ok fe') :
    fe'.splineMean = fe.splineMean ∧ fe'.splineStd = fe.splineStd := by
  unfold shapFitFeature at h h'
  simp only [bind, Except.bind, pure, Except.pure] at h h'
  cases he : ext.explain (dropOutside d (lo s) (hi s) s) with
  | error e => rw [he] at h; cases h
  | ok vals =>
    rw [he] at h h'
    simp only [] at h h'
    cases hs : ext.spline (sortPairs ((col (dropOutside d (lo s) (hi s) s) s).zip (col vals s))) with
    | error e => rw [hs] at h; cases h
    | ok spl =>
      rw [hs] at h h'
      simp only [] at h h'
      cases hs2 : ext.spline ((sortPairs ((col (dropOutside d (lo s) (hi s) s) s).zip (col vals s))).map fun p => (p.1, |p.2 - spl p.1|)) with
      | error e => rw [hs2] at h; cases h
      | ok std =>
        rw [hs2] at h h'
        simp only [] at h h'
        generalize shapNormConst spl _ m p = q at h
        generalize shapNormConst spl _ m' p' = q' at h'
        cases q with
        | error e => cases h
        | ok nc =>
          cases q' with
          | error e => cases h'
          | ok nc' => cases h; cases h'; exact ⟨rfl, rfl⟩

/-- **C28 for ShapDP.**  After any history on an object whose axis limits contain the data, the curves for two centring arguments differ by a constant, and the
spread is the same. -/
theorem C28_shap_centring_is_a_shift (cfg : ShapCfg K D) (data : List (Row K D)) (hw : AllWithin data cfg.axisLo cfg.axisHi) (calls : List (ShapOp K D))
    (hp : ∀ f c p, ShapOp.fit f c p ∈ calls → 2 ≤ p) (s : Fin D) (xs : List K) (het : Bool) (c c' : PyVal) (y y' : List K) (o o' : Option (List K))
    (h : (shapEval cfg (shapRun cfg data calls) s xs het c).2 = .ok (y, o)) (h' : (shapEval cfg (shapRun cfg data calls) s xs het c').2 = .ok (y', o')) :
    (∃ z, y' = y.map (· + z)) ∧ o' = o := by
  have hinv := shapRun_inv cfg data calls hp
  have key : ∀ c y o, (shapEval cfg (shapRun cfg data calls) s xs het c).2 = .ok (y, o) → ∃ fe m p, (shapFitFeature cfg.ext cfg.axisLo cfg.axisHi data s m p).2 = .ok fe ∧
      (∃ z, y = xs.map fun v => fe.splineMean v - z) ∧ o = if het then some (xs.map fe.splineStd) else none := by
    intro c y o h
    obtain ⟨m, -, hi, hf, -, hev⟩ := shapEval_state hinv h
    generalize (shapEval cfg (shapRun cfg data calls) s xs het c).1 = st at *
    obtain ⟨m', fe, p, -, hfe, hst⟩ := hi.stored s hf
    obtain ⟨d, hd, hsrc⟩ := hst.src
    rw [hd hw] at hsrc
    refine ⟨fe, m', p, hsrc, ?_⟩
    unfold shapEvalFitted pyAssert at hev
    by_cases hlt : cfg.axisLo s < cfg.axisHi s
    · simp only [hlt, decide_true, if_true, bind, Except.bind, hfe, pure, Except.pure] at hev
      cases hev
      refine ⟨?_, rfl⟩
      by_cases hoff : m = .off
      · exact ⟨0, by simp [hoff]⟩
      · exact ⟨fe.normConst, by simp [hoff]⟩
    · simp [hlt, bind, Except.bind] at hev
  obtain ⟨fe, m, p, e1, ⟨z, e2⟩, e3⟩ := key c y o h
  obtain ⟨fe', m', p', e1', ⟨z', e2'⟩, e3'⟩ := key c' y' o' h'
  obtain ⟨g1, g2⟩ := shapFitFeature_mode e1 e1'
  refine ⟨⟨z - z', ?_⟩, by rw [e3, e3', g2]⟩
  rw [e2, e2', g1, List.map_map]
  refine List.map_congr_left fun v _ => ?_
  simp

/-- **C65.** After any history, whatever `ShapDP.plot` draws is in original units (if scalings are given) and belongs to the fit in force: the curve is the fitted curve minus
the constant of the requested centring mode; the band of `"std"` is as wide as the fitted spread; and with `"shap_values"` every scattered point is the feature value and the
equally shifted SHAP value of one of the fitted instances, no instance twice; all of them for `nof_shap_values="all"`, if no instance is outside of the axis limits. -/
theorem C65_shap_plot_partial (choice : ℕ → ℕ → List ℕ) (hchoice : ValidChoice choice) (cfg : ShapCfg K D) (data : List (Row K D)) (calls : List (ShapOp K D))
    (hp : ∀ f c p, ShapOp.fit f c p ∈ calls → 2 ≤ p) (model : List (Row K D) → List K) (avgOutput : Option K) (s : Fin D) (a : PlotArgs K) (nof : PyVal)
    (fig : ShapFigure K) (h : shapDraw choice cfg model avgOutput (shapRun cfg data calls) s a nof = .ok fig) :
    ∃ het m used vals p curve spread l u, prepConfidenceInterval a.het = .ok het ∧ prepCentering a.centering = .ok m ∧ used.Sublist data ∧ 2 ≤ p ∧
      (∀ r ∈ used, cfg.axisLo s ≤ r s ∧ r s ≤ cfg.axisHi s) ∧ (AllWithin data cfg.axisLo cfg.axisHi → used = data) ∧
      cfg.ext.explain used = .ok vals ∧ ShapCurve cfg.ext used s curve spread l u ∧
      let X := evenly (cfg.axisLo s) (cfg.axisHi s) a.nofPoints
      let z := shapShift curve l u p m
      let points := (used.map fun r => r s).zip (vals.map fun r => r s)
      fig.x = X.map (Spec.inUnits a.scaleX) ∧ fig.curve = X.map (fun v => Spec.inUnits a.scaleY (curve v - z)) ∧
      (het = .str "std" → fig.band = some (List.zipWith (· - ·) fig.curve (X.map fun v => spread v * Spec.unit a.scaleY),
        List.zipWith (· + ·) fig.curve (X.map fun v => spread v * Spec.unit a.scaleY))) ∧
      (het = .str "shap_values" → ∃ chosen : List (K × K), chosen.Subperm points ∧
        fig.scatter = some (chosen.map fun p => Spec.inUnits a.scaleX p.1, chosen.map fun p => Spec.inUnits a.scaleY (p.2 - z)) ∧
        (AllWithin data cfg.axisLo cfg.axisHi → nof = .str "all" → chosen.Perm points)) ∧
      (het ≠ .str "std" → fig.band = none) ∧ (het ≠ .str "shap_values" → fig.scatter = none) := by
  obtain ⟨het, y, o, fe, n, ind, hh, hev, hfe, hn, xx, yy, avgLine, hcase, -, hplot⟩ := shapDraw_ok h
  have hinv := shapRun_inv cfg data calls hp
  obtain ⟨m, hm, hinv', hfit, hargs, hfin⟩ := shapEval_state hinv hev
  generalize (shapEval cfg (shapRun cfg data calls) s (evenly (cfg.axisLo s) (cfg.axisHi s) a.nofPoints) false a.centering).1 = st' at *
  obtain ⟨m', fe', points, hargs', hfe', hst⟩ := hinv'.stored s hfit
  rw [hfe] at hfe'
  cases hfe'
  obtain ⟨used, h1, h2, h3, h4, l, u, h5, h6, vals, pairs, h7, h8, h9, h10⟩ := hst.ex
  -- the constant
  have hz : m ≠ .off → fe.normConst = shapShift fe.splineMean l u points m := by
    intro hoff
    have hm' := hargs.resolve_left hoff
    rw [hargs'] at hm'
    cases hm'
    exact h6 hoff
  have hy : y = (evenly (cfg.axisLo s) (cfg.axisHi s) a.nofPoints).map fun v => fe.splineMean v - shapShift fe.splineMean l u points m := by
    unfold shapEvalFitted pyAssert at hfin
    by_cases hlt : cfg.axisLo s < cfg.axisHi s
    · simp only [hlt, decide_true, if_true, bind, Except.bind, hfe, pure, Except.pure] at hfin
      cases hfin
      by_cases hoff : m = .off
      · simp [hoff, shapShift]
      · simp only [if_neg hoff, List.map_map]
        rw [hz hoff]
        rfl
    · simp [hlt, bind, Except.bind] at hfin
  have hoff : a.centering = .bool false ↔ m = .off := by
    constructor
    · intro hc
      rw [hc] at hm
      cases hm
      rfl
    · rintro rfl
      unfold prepCentering at hm
      split at hm
      · cases hm
      · assumption
      · split_ifs at hm <;> cases hm
      · cases hm
  refine ⟨het, m, used, vals, points, fe.splineMean, fe.splineStd, l, u, hh, hm, h1, h3, h2, h4, h7, h5, ?_⟩
  intro X z pts
  rw [plotShap_eq] at hplot
  simp only [] at hplot
  by_cases hbad : (a.scaleX ≠ none ∧ xx = none) ∨ (a.scaleY ≠ none ∧ yy = none)
  · rw [if_pos hbad] at hplot; cases hplot
  rw [if_neg hbad] at hplot
  have hcurve : y.map (Spec.inUnits a.scaleY) = X.map (fun v => Spec.inUnits a.scaleY (fe.splineMean v - z)) := by
    rw [hy, List.map_map]
    rfl
  have hstd : (X.map fe.splineStd).map (· * Spec.unit a.scaleY) = X.map fun v => fe.splineStd v * Spec.unit a.scaleY := by
    rw [List.map_map]
    rfl
  by_cases e1 : het = .str "std"
  · subst e1
    rw [if_pos rfl] at hplot
    cases hplot
    refine ⟨rfl, hcurve, fun _ => ?_, fun h => (by simp at h), fun h => absurd rfl h, fun _ => rfl⟩
    show some (List.zipWith (· - ·) _ ((X.map fe.splineStd).map _), List.zipWith (· + ·) _ ((X.map fe.splineStd).map _)) = _
    rw [hstd]
  rw [if_neg e1] at hplot
  by_cases e2 : het = .str "shap_values"
  · subst e2
    rw [if_pos rfl] at hplot
    rcases hcase with ⟨-, xs, ys, hxs, hys, rfl, rfl⟩ | ⟨hc, -⟩
    swap
    · exact absurd rfl hc
    simp only [] at hplot
    by_cases hnil : xs = [] ∨ (if a.centering = .bool false then ys else ys.map (· - fe.normConst)) = []
    · rw [if_pos hnil] at hplot; cases hplot
    rw [if_neg hnil] at hplot
    cases hplot
    refine ⟨rfl, hcurve, fun h => absurd h e1, fun _ => ?_, fun _ => rfl, fun h => absurd rfl h⟩
    rw [h9, takeRows_mapList] at hxs
    rw [h10, takeRows_mapList] at hys
    obtain ⟨hnd, hlt, hallidx, -⟩ := C51_subsampling choice hchoice nof _ n ind hn
    cases hch : takeRows pairs ind with
    | error e => rw [hch] at hxs; cases hxs
    | ok chosen =>
      rw [hch] at hxs hys
      cases hxs
      cases hys
      have hsub : chosen.Subperm pts := (takeRows_subperm hch hnd).trans h8.subperm
      refine ⟨chosen, hsub, ?_, ?_⟩
      · simp only [List.map_map]
        congr 1
        refine Prod.ext rfl ?_
        show List.map (Spec.inUnits a.scaleY) (if a.centering = .bool false then chosen.map (·.2) else _) = _
        by_cases hc : a.centering = .bool false
        · rw [if_pos hc, List.map_map]
          have : z = 0 := by
            show shapShift fe.splineMean l u points m = 0
            rw [hoff.mp hc]
            rfl
          rw [this]
          simp only [sub_zero]
          rfl
        · rw [if_neg hc, hz (fun h => hc (hoff.mpr h)), List.map_map]
          rfl
      · intro hw hall
        have hlen : chosen.length = st'.data.length := by rw [takeRows_length hch, (hallidx hall).2, List.length_range]
        rw [hinv'.all hw, ← h4 hw] at hlen
        apply hsub.perm_of_length_le
        show (List.zip _ _).length ≤ _
        rw [hlen, List.length_zip, List.length_map]
        exact min_le_left _ _
  · rw [if_neg e2] at hplot
    cases hplot
    exact ⟨rfl, hcurve, fun h => absurd h e1, fun h => absurd h e2, fun _ => rfl, fun _ => rfl⟩

/-- **C65, scaling is refused without scattered values.** Whenever `plot` works without scaling and does not scatter SHAP values, it raises `TypeError` as soon as `scale_x`
or `scale_y` is given. -/
theorem C65_false_scaling (choice : ℕ → ℕ → List ℕ) (cfg : ShapCfg K D) (model : List (Row K D) → List K) (avgOutput : Option K) (st : ShapState K D) (s : Fin D)
    (a : PlotArgs K) (nof : PyVal) (fig : ShapFigure K) (hhet : a.het ≠ .str "shap_values") (hx : a.scaleX = none) (hy : a.scaleY = none)
    (h : shapDraw choice cfg model avgOutput st s a nof = .ok fig) (sx sy : Option (Scale K)) (hs : sx ≠ none ∨ sy ≠ none) :
    shapDraw choice cfg model avgOutput st s { a with scaleX := sx, scaleY := sy } nof = .error .typeError := by
  obtain ⟨het, y, o, fe, n, ind, hh, hev, hfe, hn, -⟩ := shapDraw_ok h
  have hne : het ≠ .str "shap_values" := by
    rintro rfl
    unfold prepConfidenceInterval at hh
    split at hh
    · simp at hh
    · simp at hh
    · rename_i e
      split_ifs at hh
      injection hh with hh
      rw [hh] at e
      exact hhet e
    · cases hh
  unfold shapDraw
  simp only [bind, Except.bind, hh, linspace_evenly]
  generalize shapEval cfg st s (evenly (cfg.axisLo s) (cfg.axisHi s) a.nofPoints) false a.centering = r at *
  simp only [hev, hfe, hn, if_neg hne]
  rw [plotShap_eq]
  have hnone : (if a.centering = .bool false then (none : Option (List K)) else Option.map (fun l : List K => l.map (· - fe.normConst)) none) = none := by
    split_ifs <;> rfl
  simp only [hnone]
  rw [if_pos]
  rcases hs with hs | hs
  · exact Or.inl ⟨hs, trivial⟩
  · exact Or.inr ⟨hs, trivial⟩

end

/-- The hypotheses are met: with scattered SHAP values and both scalings, after a fit. -/
theorem C65_hypotheses_met :
    shapDraw (fun _ n => List.range n) exShap (fun d => d.map fun r => r 0) none (shapRun exShap [![1], ![3]] [.fit (.int 0) (.bool false) 100]) 0
      ⟨.str "shap_values", .str "zero_start", 3, some ⟨10, 2⟩, some ⟨100, 10⟩, true⟩ (.str "all") =
      .ok ⟨[10, 14, 18], [90, 130, 250], none, some ([12, 16], [100, 120]), some 120⟩ ∧
    shapDraw (fun _ n => List.range n) exShap (fun d => d.map fun r => r 0) none (shapRun exShap [![1], ![3]] []) 0
      ⟨.bool true, .bool false, 3, none, none, false⟩ (.int 1) =
      .ok ⟨[0, 2, 4], [0, 4, 16], some ([0, 0, 0], [0, 8, 32]), none, none⟩ := by
  constructor <;> decide +kernel

end Effector
