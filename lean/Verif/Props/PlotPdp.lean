import Verif.Props.Plot
import Verif.Props.Helpers

/-!
# C64: what `PDP.plot` and `DerPDP.plot` draw
-/

set_option linter.unusedSectionVars false

namespace Effector

open Spec

section

variable {K : Type} [Field K] [LinearOrder K] [IsStrictOrderedRing K] {D : ℕ}

namespace Spec

/-- A value in original units, if a scaling is given. -/
def inUnits : Option (Scale K) → K → K
  | none => id
  | some s => unscale s

/-- The factor by which differences grow. -/
def unit : Option (Scale K) → K
  | none => 1
  | some s => s.std

/-- `obj = PDP(data, ...)` (or `DerPDP`) with axis limits `lo`, `hi`; the `calls`; then `obj.plot(s, ...)`. -/
def pdpPlotAfter [PySqrt K] (choice : ℕ → ℕ → List ℕ) (M : PdpModel K D) (model : List (Row K D) → List K) (avgOutput : Option K) (lo hi : Fin D → K)
    (data : List (Row K D)) (calls : List (PdpOp K D)) (s : Fin D) (a : PlotArgs K) (nofIce : Option ℕ) (vec : Bool) : Py (PdpFigure K) :=
  pdpDraw choice (pdpCfgOf M lo hi) model avgOutput (pdpRun (pdpCfgOf M lo hi) data calls) s a nofIce vec

end Spec

theorem inUnits_avg (sc : Option (Scale K)) {l : List K} (hl : l ≠ []) : avg (l.map (Spec.inUnits sc)) = Spec.inUnits sc (avg l) := by
  cases sc with
  | none => simp [Spec.inUnits]
  | some s =>
    have e : l.map (Spec.inUnits (some s)) = l.map fun y => s.std * y + s.mean := by
      apply List.map_congr_left
      intro v _
      simp only [Spec.inUnits, Spec.unscale]
      ring
    rw [e, avg_affine hl]
    simp only [Spec.inUnits, Spec.unscale]
    ring

theorem inUnits_std [PySqrt K] [LawfulSqrt K] (sc : Option (Scale K)) {l : List K} (hl : l ≠ []) :
    npStd (l.map (Spec.inUnits sc)) = |Spec.unit sc| * PySqrt.sqrt (popVar l) := by
  have h2 : ∀ row : List K, npStd row = PySqrt.sqrt (popVar row) := by
    intro row
    simp [npStd, variance, popVar, mean, avg]
  rw [h2]
  cases sc with
  | none => simp [Spec.inUnits, Spec.unit]
  | some s =>
    have e : l.map (Spec.inUnits (some s)) = l.map fun y => s.std * y + s.mean := by
      apply List.map_congr_left
      intro v _
      simp only [Spec.inUnits, Spec.unscale]
      ring
    rw [e, popVar_affine hl, sqrt_sq_mul _ (popVar_nonneg _)]
    rfl

/-- After a successful `eval` for `s` the object holds the instances within the limits of `s`. -/
theorem pdpEval_data [PySqrt K] (M : PdpModel K D) (lo hi : Fin D → K) (data : List (Row K D)) (s : Fin D) (calls : List (PdpOp K D))
    (hcalls : ∀ op ∈ calls, PdpCallOk data lo hi s op) (xs : List K) (het : Bool) (c : PyVal) (all vec : Bool) {o : PdpOut K}
    (h : (pdpEval (pdpCfgOf M lo hi) (pdpRun (pdpCfgOf M lo hi) data calls) s xs het c all vec).2 = .ok o) :
    (pdpEval (pdpCfgOf M lo hi) (pdpRun (pdpCfgOf M lo hi) data calls) s xs het c all vec).1.data = inLimits data lo hi s := by
  have hinv := run_inv M lo hi data s calls hcalls
  generalize pdpRun (pdpCfgOf M lo hi) data calls = st at *
  have hinv' := eval_inv (covers_self data lo hi s) hinv xs het c all vec
  have hfit : (pdpEval (pdpCfgOf M lo hi) st s xs het c all vec).1.fitted s = true := by
    unfold pdpEval at h ⊢
    cases hm : prepCentering c with
    | error e => rw [hm] at h; cases h
    | ok m =>
      rw [hm] at h
      simp only [] at h ⊢
      cases hb : needsRefit (st.fitted s) (st.args s) m with
      | error e => rw [hb] at h; cases h
      | ok b =>
        rw [hb] at h
        cases b with
        | false => exact (needsRefit_false hb).1
        | true =>
          obtain ⟨-, i2, i3, -⟩ := fitLoop_inv m vec [s] (by simpa using covers_self data lo hi s) hinv
          obtain ⟨i3, -⟩ := i3 (by simp)
          simp only []
          rcases e1 : pdpFitLoop (pdpCfgOf M lo hi) m 100 vec st [s] with ⟨q, r⟩
          rw [e1] at i2 i3
          obtain rfl : r = .ok () := i2
          exact i3
  rcases hinv'.fit with ⟨h1, -⟩ | ⟨-, h2, -⟩
  · rw [hfit] at h1; cases h1
  · exact h2

theorem pyIndex_map {α β : Type} (g : α → β) (l : List α) (i : ℕ) : pyIndex (l.map g) i = (pyIndex l i).map g := by
  unfold pyIndex
  rw [List.getElem?_map]
  cases l[i]? <;> rfl

theorem takeRows_mapList {α β : Type} (g : α → β) (l : List α) (idx : List ℕ) : takeRows (l.map g) idx = (takeRows l idx).map (List.map g) := by
  unfold takeRows
  induction idx with
  | nil => rfl
  | cons i t ih =>
    simp only [List.mapM_cons, bind, Except.bind, pyIndex_map]
    cases pyIndex l i with
    | error e => rfl
    | ok a =>
      simp only [pyIndex_map] at ih
      rw [show Except.map g (Except.ok a : Py α) = .ok (g a) from rfl]
      simp only [ih]
      cases List.mapM (fun i => pyIndex l i) t with
      | error e => rfl
      | ok r => rfl

theorem takeRows_ok {α : Type} (l : List α) (idx : List ℕ) (h : ∀ i ∈ idx, i < l.length) : ∃ d, takeRows l idx = .ok d := by
  unfold takeRows
  induction idx with
  | nil => exact ⟨[], rfl⟩
  | cons i t ih =>
    obtain ⟨d, hd⟩ := ih fun j hj => h j (List.mem_cons_of_mem _ hj)
    have hi := h i List.mem_cons_self
    refine ⟨l[i] :: d, ?_⟩
    have h1 : pyIndex l i = .ok l[i] := by
      unfold pyIndex
      rw [List.getElem?_eq_getElem hi]
    simp only [List.mapM_cons, bind, Except.bind, h1, hd]
    rfl

theorem takeRows_filterMap {α : Type} {l : List α} {idx : List ℕ} {d : List α} (h : takeRows l idx = .ok d) : d = idx.filterMap fun i => l[i]? := by
  have h1 := takeRows_spec h
  have h2 : (d.map some).filterMap id = d := by simp
  rw [← h2, h1, List.filterMap_map]
  rfl

theorem takeRows_subperm {α : Type} {l : List α} {idx : List ℕ} {d : List α} (h : takeRows l idx = .ok d) (hn : idx.Nodup) : d.Subperm l := by
  have hsub : idx.Subperm (List.range l.length) := by
    apply hn.subperm
    intro i hi
    rw [List.mem_range]
    by_contra hc
    have hmem : (none : Option α) ∈ d.map some := by
      rw [takeRows_spec h, List.mem_map]
      exact ⟨i, hi, List.getElem?_eq_none (by omega)⟩
    simp at hmem
  have h1 : (idx.filterMap fun i => l[i]?).Subperm ((List.range l.length).filterMap fun i => l[i]?) := by
    obtain ⟨q, hq, hs⟩ := hsub
    exact ⟨_, hq.filterMap _, hs.filterMap _⟩
  rw [← takeRows_filterMap h, ← takeRows_filterMap (takeRows_range l)] at h1
  exact h1

/-- `plot_pdp_ice`, in terms of the unit changes. -/
theorem pdpPlotIce_eq [PySqrt K] (choice : ℕ → ℕ → List ℕ) (het : PyVal) (n : ℕ) (x : List K) (yy : List (List K)) (scaleX scaleY : Option (Scale K))
    (nofIce : Option ℕ) (avgLine : Option K) :
    pdpPlotIce choice het n x yy scaleX scaleY nofIce avgLine =
      (let x' := x.map (Spec.inUnits scaleX)
      let ice := yy.map fun row => row.map (Spec.inUnits scaleY)
      let curve := (yy.map mean).map (Spec.inUnits scaleY)
      let std := ice.map npStd
      let stdErr := yy.map fun row => PySqrt.sqrt (variance row) * Spec.unit scaleY
      if het = .str "std" then
        .ok ⟨x', curve, some (List.zipWith (· - ·) curve std, List.zipWith (· + ·) curve std), none, avgLine⟩
      else if het = .str "std_err" then
        .ok ⟨x', curve, some (List.zipWith (· - ·) curve stdErr, List.zipWith (· + ·) curve stdErr), none, avgLine⟩
      else if het = .str "ice" then
        if iceIdx choice nofIce n = [] then .error .indexError
        else (ice.mapM fun row => takeRows row (iceIdx choice nofIce n)).map fun cols => ⟨x', curve, none, some cols, avgLine⟩
      else .ok ⟨x', curve, none, none, avgLine⟩) := by
  unfold pdpPlotIce
  simp only [bind, Except.bind, pure, Except.pure]
  have h2 : ∀ sy : Scale K, (yy.map fun row => PySqrt.sqrt (variance row)).map (transScale sy.std false) =
      yy.map fun row => PySqrt.sqrt (variance row) * sy.std := by
    intro sy
    rw [List.map_map]
    rfl
  cases scaleX <;> cases scaleY <;>
    simp only [Bool.false_eq_true, if_false, Spec.inUnits, Spec.unit, transAffine_eq, h2, List.map_id, mul_one] <;>
    split_ifs <;> rfl

/-- `plot` first evaluates the (d-)ICE values at equidistant positions between the axis limits, then draws. -/
theorem pdpDraw_eq [PySqrt K] (choice : ℕ → ℕ → List ℕ) (M : PdpModel K D) (model : List (Row K D) → List K) (avgOutput : Option K) (lo hi : Fin D → K)
    (data : List (Row K D)) (calls : List (PdpOp K D)) (s : Fin D) (hcalls : ∀ op ∈ calls, PdpCallOk data lo hi s op) (a : PlotArgs K) (nofIce : Option ℕ)
    (vec : Bool) (ha : EvalArgsOk data lo hi s (evenly (lo s) (hi s) a.nofPoints) vec) (het : PyVal) (hh : prepConfidenceInterval a.het = .ok het)
    (m : Centering) (hm : prepCentering a.centering = .ok m) :
    pdpPlotAfter choice M model avgOutput lo hi data calls s a nofIce vec =
      pdpPlotIce choice het (inLimits data lo hi s).length (evenly (lo s) (hi s) a.nofPoints)
        (M.ice lo hi (inLimits data lo hi s) s m (evenly (lo s) (hi s) a.nofPoints)) a.scaleX a.scaleY nofIce
        (if a.showAvg then some (prepAvgOutput (inLimits data lo hi s) model avgOutput a.scaleY) else none) := by
  have hm' : prepCentering m.toVal = .ok m := by cases m <;> rfl
  have hev := evalAfter_ok M lo hi data s calls hcalls (evenly (lo s) (hi s) a.nofPoints) false hm' true vec ha
  unfold pdpEvalAfter at hev
  have hdat := pdpEval_data M lo hi data s calls hcalls _ _ _ _ _ hev
  unfold pdpPlotAfter pdpDraw
  rw [hh, hm]
  simp only [bind, Except.bind]
  rw [show (pdpCfgOf M lo hi).axisLo s = lo s from rfl, show (pdpCfgOf M lo hi).axisHi s = hi s from rfl, linspace_evenly, hdat, hev]
  rfl

/-- **C64.** After any non-interfering history, `plot` draws: positions equally spaced between the axis limits, at each position the average of the (centred) ICE values,
everything in original units if scalings are given.  With `heterogeneity="std"` the band is the curve plus and minus the standard deviation of the ICE values in those units.
With `"ice"` the drawn curves are the ICE curves of distinct instances: all of them, or `nof_ice` (at most as many as there are). -/
theorem C64_pdp_plot_partial [PySqrt K] [LawfulSqrt K] (choice : ℕ → ℕ → List ℕ) (hchoice : ValidChoice choice) (M : PdpModel K D) (model : List (Row K D) → List K)
    (avgOutput : Option K) (lo hi : Fin D → K) (data : List (Row K D)) (calls : List (PdpOp K D)) (s : Fin D)
    (hcalls : ∀ op ∈ calls, PdpCallOk data lo hi s op) (a : PlotArgs K) (nofIce : Option ℕ) (hice : nofIce ≠ some 0) (vec : Bool)
    (ha : EvalArgsOk data lo hi s (evenly (lo s) (hi s) a.nofPoints) vec) (het : PyVal) (hh : prepConfidenceInterval a.het = .ok het) (m : Centering)
    (hm : prepCentering a.centering = .ok m) :
    let used := data.filter fun r => lo s ≤ r s ∧ r s ≤ hi s
    let X := evenly (lo s) (hi s) a.nofPoints
    let ice := fun d : List (Row K D) => X.map fun v => d.map fun r => Spec.inUnits a.scaleY (M.at s v r - M.shift lo hi s r m)
    let curve := (ice used).map avg
    let std := X.map fun v => |Spec.unit a.scaleY| * PySqrt.sqrt (popVar (used.map fun r => M.at s v r - M.shift lo hi s r m))
    ∃ fig, pdpPlotAfter choice M model avgOutput lo hi data calls s a nofIce vec = .ok fig ∧
      fig.x = X.map (Spec.inUnits a.scaleX) ∧ fig.curve = curve ∧
      (het = .str "std" → fig.band = some (List.zipWith (· - ·) curve std, List.zipWith (· + ·) curve std) ∧ fig.ice = none) ∧
      (het = .str "ice" → fig.band = none ∧ ∃ chosen : List (Row K D), chosen.Subperm used ∧ fig.ice = some (ice chosen) ∧
        (nofIce = none → chosen = used) ∧ ∀ k, nofIce = some k → chosen.length = min k used.length) ∧
      (het ≠ .str "std" → het ≠ .str "std_err" → fig.band = none) ∧ (het ≠ .str "ice" → fig.ice = none) := by
  intro used X ice curve std
  have hne : used ≠ [] := by
    obtain ⟨r, hr, h1, h2⟩ := ha.instances
    exact List.ne_nil_of_mem (List.mem_filter.mpr ⟨hr, by simpa using ⟨h1, h2⟩⟩)
  have hcurve : ((M.ice lo hi used s m X).map mean).map (Spec.inUnits a.scaleY) = curve := by
    show _ = (X.map fun v => used.map fun r => Spec.inUnits a.scaleY (M.at s v r - M.shift lo hi s r m)).map avg
    unfold PdpModel.ice
    simp only [List.map_map]
    apply List.map_congr_left
    intro v _
    simp only [Function.comp]
    have := inUnits_avg a.scaleY (l := used.map fun r => M.at s v r - M.shift lo hi s r m) (by simpa using hne)
    rw [List.map_map] at this
    exact this.symm
  have hstd : ((M.ice lo hi used s m X).map fun row => row.map (Spec.inUnits a.scaleY)).map npStd = std := by
    unfold PdpModel.ice
    simp only [List.map_map]
    apply List.map_congr_left
    intro v _
    simp only [Function.comp]
    have := inUnits_std a.scaleY (l := used.map fun r => M.at s v r - M.shift lo hi s r m) (by simpa using hne)
    exact this
  rw [pdpDraw_eq choice M model avgOutput lo hi data calls s hcalls a nofIce vec ha het hh m hm]
  change ∃ fig, pdpPlotIce choice het used.length X (M.ice lo hi used s m X) a.scaleX a.scaleY nofIce _ = .ok fig ∧ _
  rw [pdpPlotIce_eq]
  simp only [hcurve, hstd]
  by_cases h1 : het = .str "std"
  · subst h1
    refine ⟨_, by rw [if_pos rfl], rfl, rfl, fun _ => ⟨rfl, rfl⟩, fun h => ?_, fun h => absurd rfl h, fun _ => rfl⟩
    simp at h
  rw [if_neg h1]
  by_cases h2 : het = .str "std_err"
  · subst h2
    refine ⟨_, by rw [if_pos rfl], rfl, rfl, fun h => ?_, fun h => ?_, fun _ h => absurd rfl h, fun _ => rfl⟩
    · simp at h
    · simp at h
  rw [if_neg h2]
  by_cases h3 : het = .str "ice"
  · subst h3
    rw [if_pos rfl]
    -- the chosen columns
    obtain ⟨idx, hidx, hnd, hlt, hlen, hall⟩ : ∃ idx : List ℕ, iceIdx choice nofIce used.length = idx ∧ idx.Nodup ∧ (∀ i ∈ idx, i < used.length) ∧
        (∀ k, nofIce = some k → idx.length = min k used.length) ∧ (nofIce = none → idx = List.range used.length) := by
      cases nofIce with
      | none => exact ⟨_, rfl, List.nodup_range, fun i hi => List.mem_range.mp hi, fun k hk => (by cases hk), fun _ => rfl⟩
      | some k =>
        obtain ⟨q1, q2, q3⟩ := hchoice used.length (min k used.length) (min_le_right _ _)
        exact ⟨_, rfl, q2, q3, fun k' hk => (by cases hk; exact q1), fun h => (by cases h)⟩
    obtain ⟨chosen, hch⟩ := takeRows_ok used idx hlt
    have hidxne : idx ≠ [] := by
      have hpos : 0 < used.length := List.length_pos_iff.mpr hne
      cases nofIce with
      | none =>
        rw [hall rfl]
        intro h0
        have := congrArg List.length h0
        rw [List.length_range, List.length_nil] at this
        omega
      | some k =>
        have := hlen k rfl
        have hk : k ≠ 0 := fun h => hice (by rw [h])
        intro h0
        rw [h0] at this
        simp only [List.length_nil] at this
        omega
    have hcols : List.mapM (fun row => takeRows row idx) (List.map (fun row => List.map (Spec.inUnits a.scaleY) row) (M.ice lo hi used s m X)) =
        (.ok (ice chosen) : Py (List (List K))) := by
      unfold PdpModel.ice
      rw [List.map_map, List.mapM_map]
      apply mapM_ok
      intro v _
      simp only [Function.comp, List.map_map]
      rw [takeRows_mapList, hch]
      rfl
    rw [hidx, if_neg hidxne, hcols]
    refine ⟨_, rfl, rfl, rfl, fun h => absurd h h1, fun _ => ⟨rfl, chosen, takeRows_subperm hch hnd, rfl, fun h => ?_, fun k hk => ?_⟩, fun _ _ => rfl,
      fun h => absurd rfl h⟩
    · rw [hall h, takeRows_range] at hch
      cases hch
      rfl
    · rw [takeRows_length hch, hlen k hk]
  · rw [if_neg h3]
    exact ⟨_, rfl, rfl, rfl, fun h => absurd h h1, fun h => absurd h h3, fun _ _ => rfl, fun _ => rfl⟩

/-- **C64, `"std_err"`.** The band drawn for `heterogeneity="std_err"` is as wide as the standard deviation (times the unit): no division by the square root of the number of
instances takes place.  (With `|·|` missing, a negative `scale_y["std"]` swaps its edges.) -/
theorem C64_false_std_err [PySqrt K] [LawfulSqrt K] (choice : ℕ → ℕ → List ℕ) (M : PdpModel K D) (model : List (Row K D) → List K)
    (avgOutput : Option K) (lo hi : Fin D → K) (data : List (Row K D)) (calls : List (PdpOp K D)) (s : Fin D)
    (hcalls : ∀ op ∈ calls, PdpCallOk data lo hi s op) (a : PlotArgs K) (nofIce : Option ℕ) (vec : Bool)
    (ha : EvalArgsOk data lo hi s (evenly (lo s) (hi s) a.nofPoints) vec) (hh : a.het = .str "std_err") (m : Centering)
    (hm : prepCentering a.centering = .ok m) :
    let used := data.filter fun r => lo s ≤ r s ∧ r s ≤ hi s
    let X := evenly (lo s) (hi s) a.nofPoints
    let std := X.map fun v => PySqrt.sqrt (popVar (used.map fun r => M.at s v r - M.shift lo hi s r m)) * Spec.unit a.scaleY
    ∃ fig, pdpPlotAfter choice M model avgOutput lo hi data calls s a nofIce vec = .ok fig ∧
      fig.band = some (List.zipWith (· - ·) fig.curve std, List.zipWith (· + ·) fig.curve std) := by
  intro used X std
  have hstd : (M.ice lo hi used s m X).map (fun row => PySqrt.sqrt (variance row) * Spec.unit a.scaleY) = std := by
    have h2 : ∀ row : List K, variance row = popVar row := by
      intro row
      simp [variance, popVar, mean, avg]
    unfold PdpModel.ice
    simp only [List.map_map, h2]
    rfl
  rw [pdpDraw_eq choice M model avgOutput lo hi data calls s hcalls a nofIce vec ha (.str "std_err") (by rw [hh]; rfl) m hm, pdpPlotIce_eq]
  simp only [PyVal.str.injEq, String.reduceEq, if_false, if_true]
  refine ⟨_, rfl, ?_⟩
  change some (List.zipWith (· - ·) _ ((M.ice lo hi used s m X).map _), List.zipWith (· + ·) _ ((M.ice lo hi used s m X).map _)) = _
  rw [hstd]

/-- **C64 is false for derivatives**: `DerPDP.plot` adds `scale_y["mean"]` to the drawn derivatives.  For a model with the constant derivative `g` in feature `s` (and no
centring), it draws `mean + std * g` where the slope of the rescaled model is `std * g` (or `std / std_x * g` with `scale_x`); already without `scale_x` this is wrong
whenever the mean is not 0. -/
theorem C64_false_derivative [PySqrt K] [LawfulSqrt K] (choice : ℕ → ℕ → List ℕ) (j : Row K D → Row K D) (model : List (Row K D) → List K)
    (avgOutput : Option K) (lo hi : Fin D → K) (data : List (Row K D)) (calls : List (PdpOp K D)) (s : Fin D) (g : K) (hg : ∀ r, j r s = g)
    (hcalls : ∀ op ∈ calls, PdpCallOk data lo hi s op) (n : ℕ) (sy : Scale K) (showAvg : Bool)
    (ha : EvalArgsOk data lo hi s (evenly (lo s) (hi s) n) true) :
    ∃ fig, pdpPlotAfter choice (.derJac j) model avgOutput lo hi data calls s ⟨.bool false, .bool false, n, none, some sy, showAvg⟩ none true = .ok fig ∧
      fig.curve = List.replicate n (sy.mean + sy.std * g) ∧ (sy.mean ≠ 0 → ∀ y ∈ fig.curve, y ≠ sy.std * g) := by
  have hne : inLimits data lo hi s ≠ [] := by
    obtain ⟨r, hr, h1, h2⟩ := ha.instances
    exact List.ne_nil_of_mem (List.mem_filter.mpr ⟨hr, by simpa using ⟨h1, h2⟩⟩)
  rw [pdpDraw_eq choice (.derJac j) model avgOutput lo hi data calls s hcalls ⟨.bool false, .bool false, n, none, some sy, showAvg⟩ none true ha (.bool false) rfl .off rfl,
    pdpPlotIce_eq]
  simp only [reduceCtorEq, if_false]
  have hc : (((PdpModel.derJac j).ice lo hi (inLimits data lo hi s) s .off (evenly (lo s) (hi s) n)).map mean).map (Spec.inUnits (some sy)) =
      List.replicate n (sy.mean + sy.std * g) := by
    unfold PdpModel.ice
    rw [List.map_map, List.map_map, List.eq_replicate_iff]
    refine ⟨by rw [List.length_map, ← linspace_evenly, length_linspace], ?_⟩
    intro y hy
    obtain ⟨v, -, rfl⟩ := List.mem_map.mp hy
    simp only [Function.comp]
    have : mean ((inLimits data lo hi s).map fun r => (PdpModel.derJac j).at s v r - (PdpModel.derJac j).shift lo hi s r .off) = g := by
      apply avg_const
      · intro y hy
        obtain ⟨r, -, rfl⟩ := List.mem_map.mp hy
        show j (Function.update r s v) s - 0 = g
        rw [hg, sub_zero]
      · simpa using hne
    rw [this]
    rfl
  refine ⟨_, rfl, hc, ?_⟩
  intro h0 y hy
  rw [show _ = List.replicate n _ from hc] at hy
  rw [List.eq_of_mem_replicate hy]
  intro h
  apply h0
  linarith

end

/-- The hypotheses are met, and the figure is not trivial: three instances, the model `x₀ * x₁`, scaled axes, ICE curves of all instances. -/
theorem C64_hypotheses_met :
    EvalArgsOk [![(0 : ℚ), 1], ![1, 3]] ![0, 1] ![2, 3] 0 (evenly 0 2 3) true ∧
    pdpPlotAfter (fun _ n => List.range n) (.pdp fun r => r 0 * r 1) (List.map fun r => r 0 * r 1) (some 5) ![0, 1] ![2, 3] [![(0 : ℚ), 1], ![1, 3]] [] 0
      ⟨.str "ice", .bool false, 3, some ⟨10, 2⟩, some ⟨100, 10⟩, true⟩ none true =
      .ok ⟨[10, 12, 14], [100, 120, 140], none, some [[100, 100], [110, 130], [120, 160]], some 150⟩ := by
  refine ⟨⟨by decide +kernel, Or.inl rfl, ![0, 1], by simp, by decide +kernel, by decide +kernel⟩, by decide +kernel⟩

end Effector
