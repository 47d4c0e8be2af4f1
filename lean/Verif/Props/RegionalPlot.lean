import Verif.Props.RegionalExamples

/-!
# C50 for the constructors, and C62: what `RegionalRHALE.plot` and `RegionalALE.plot` draw
-/

set_option linter.unusedSectionVars false

namespace Effector

section

variable {K : Type} [Field K] [LinearOrder K] [IsStrictOrderedRing K] {D : ℕ}

theorem takeRows_len {α : Type} {data : List α} {idx : List ℕ} {d : List α} (h : takeRows data idx = .ok d) : d.length = idx.length :=
  mapM_len h

theorem takeRows_map {α β : Type} (φ : α → β) {data : List α} {idx : List ℕ} {d : List α} (h : takeRows data idx = .ok d) :
    takeRows (data.map φ) idx = .ok (d.map φ) := by
  unfold takeRows at *
  induction idx generalizing d with
  | nil => cases h; rfl
  | cons i t ih =>
    rw [List.mapM_cons] at h ⊢
    simp only [bind, Except.bind, pure, Except.pure] at h ⊢
    cases hi : data[i]? with
    | none => simp [pyIndex, hi] at h
    | some x =>
      simp only [pyIndex, hi] at h
      cases ht : t.mapM fun i => pyIndex data i with
      | error e =>
        simp only [pyIndex] at ht
        rw [ht] at h; cases h
      | ok d' =>
        have ht' := ht
        simp only [pyIndex] at ht'
        rw [ht'] at h
        cases h
        rw [ih ht]
        simp [pyIndex, List.getElem?_map, hi]

/-- **C50/C45 for the constructor.** A regional object keeps, with the rows it samples, the effects of exactly these rows. -/
theorem C50_constructor_keeps_effects_aligned (bb : BlackBoxes K D) (meth : String) (data : List (Row K D)) (given : Option (List (Row K D)))
    (hlen : ∀ e, given = some e → e.length = data.length) (nof : PyVal) (axisLimits : Option ((Fin D → K) × (Fin D → K)))
    (types : Option (Fin D → FeatType)) (catLimit : ℕ) (names : Option (Fin D → String)) (defaultArgs : FitArgs K D) (fmt : K → String)
    (cfg : RegionalCfg K D) (h : regionalInit bb meth data given nof axisLimits types catLimit names defaultArgs fmt = .ok cfg) :
    Spec.Aligned cfg ∧ cfg.instanceEffects.isSome = given.isSome ∧
    ∃ idx : List ℕ, (∃ n, prepNofInstances bb.choice nof data.length = .ok (n, idx)) ∧ takeRows data idx = .ok cfg.data ∧
      ∀ e, given = some e → ∃ e', cfg.instanceEffects = some e' ∧ takeRows e idx = .ok e' := by
  unfold regionalInit at h
  simp only [bind, Except.bind, pure, Except.pure] at h
  rcases h1 : prepNofInstances bb.choice nof data.length with e | ⟨n, idx⟩
  · rw [h1] at h; cases h
  rw [h1] at h
  simp only at h
  rcases h2 : takeRows data idx with e | d
  · rw [h2] at h; cases h
  rw [h2] at h
  simp only at h
  cases given with
  | none =>
    simp only at h
    suffices hs : cfg.data = d ∧ cfg.instanceEffects = none by
      obtain ⟨hs1, hs2⟩ := hs
      exact ⟨(by intro e he; rw [hs2] at he; cases he), by rw [hs2], idx, ⟨n, rfl⟩, by rw [hs1]; exact h2, by intro e he; cases he⟩
    cases axisLimits with
    | some l => cases h; exact ⟨rfl, rfl⟩
    | none =>
      simp only at h
      rcases h4 : axisLimitsAll data with er | l
      · rw [h4] at h; cases h
      · rw [h4] at h; cases h; exact ⟨rfl, rfl⟩
  | some e =>
    simp only at h
    rcases h3 : takeRows e idx with er | e'
    · rw [h3] at h; cases h
    rw [h3] at h
    simp only [Except.map] at h
    suffices hs : cfg.data = d ∧ cfg.instanceEffects = some e' by
      obtain ⟨hs1, hs2⟩ := hs
      refine ⟨?_, by rw [hs2]; rfl, idx, ⟨n, rfl⟩, by rw [hs1]; exact h2, ?_⟩
      · intro e'' he
        rw [hs2, Option.some.injEq] at he
        subst he
        rw [hs1, takeRows_len h2, takeRows_len h3]
      · intro e'' he
        cases he
        exact ⟨e', hs2, h3⟩
    cases axisLimits with
    | some l => cases h; exact ⟨rfl, rfl⟩
    | none =>
      simp only at h
      rcases h4 : axisLimitsAll data with er | l
      · rw [h4] at h; cases h
      · rw [h4] at h; cases h; exact ⟨rfl, rfl⟩

/-- `RegionalRHALE` with a row-wise Jacobian (given, or taken numerically of a row-wise model): the stored effects are the gradients at the stored rows.
Hence the hypothesis on the effects in `C50_node_equals_global_partial` is met by every object that the constructor returns. -/
theorem C50_rhale_constructor (bb : BlackBoxes K D) (φ : Row K D → Row K D) (hφ : ∀ l, rhaleEffects bb.model bb.jac none l = l.map φ)
    (data : List (Row K D)) (nof : PyVal) (axisLimits : Option ((Fin D → K) × (Fin D → K)))
    (types : Option (Fin D → FeatType)) (catLimit : ℕ) (names : Option (Fin D → String)) (defaultArgs : FitArgs K D) (fmt : K → String)
    (cfg : RegionalCfg K D)
    (h : regionalInit bb "rhale" data (some (regionalRhaleEffects bb none data)) nof axisLimits types catLimit names defaultArgs fmt = .ok cfg) :
    cfg.instanceEffects = some (cfg.data.map φ) := by
  have he : regionalRhaleEffects bb none data = data.map φ := hφ data
  rw [he] at h
  obtain ⟨-, -, idx, -, h2, h3⟩ := C50_constructor_keeps_effects_aligned bb "rhale" data _ (by rintro e he; cases he; simp) nof axisLimits types catLimit names
    defaultArgs fmt cfg h
  obtain ⟨e', h4, h5⟩ := h3 _ rfl
  rw [takeRows_map φ h2] at h5
  cases h5
  exact h4

/-! ## C62 -/

namespace Spec

/-- The curve (x, y, std) that `RHALE(rows, model, model_jac, data_effect=eff)`, fitted with the binning method `bm`, draws for feature `f`. -/
def rhaleCurve [PySqrt K] (bb : BlackBoxes K D) (rows : List (Row K D)) (eff : Option (List (Row K D))) (f : Fin D) (bm : BinMethod K) (centering : PyVal) :
    Py (List K × List K × Option (List K)) := do
  let (c, _) ← rhaleInit bb.choice bb.model bb.jac rows eff (.str "all") none
  match aleFit c AleState.init (.int (f : ℕ)) bm centering with
  | (_, .error e) => .error e
  | (s, .ok ()) => (alePlot c s f centering).2

/-- The curve that `ALE(rows, model)`, fitted with the binning method `bm`, draws for feature `f`. -/
def aleCurve [PySqrt K] (bb : BlackBoxes K D) (rows : List (Row K D)) (f : Fin D) (bm : BinMethod K) (centering : PyVal) :
    Py (List K × List K × Option (List K)) := do
  let b ← Base.init bb.choice rows (.str "all") none
  match aleFit (aleCfg bb.cast bb.model b) AleState.init (.int (f : ℕ)) bm centering with
  | (_, .error e) => .error e
  | (s, .ok ()) => (alePlot (aleCfg bb.cast bb.model b) s f centering).2

end Spec

theorem prepNof_ge (choice : ℕ → ℕ → List ℕ) (n N : ℕ) (h : N ≤ n) : prepNofInstances choice (.int n) N = .ok ((n : ℤ), List.range N) := by
  unfold prepNofInstances
  simp only
  rw [if_neg (by push_cast; omega)]

theorem rhaleInit_ge (choice : ℕ → ℕ → List ℕ) (model : List (Row K D) → List K) (jac : Option (List (Row K D) → List (Row K D)))
    (data : List (Row K D)) (given : Option (List (Row K D))) (n : ℕ) (h : data.length ≤ n) (axisLimits : Option ((Fin D → K) × (Fin D → K))) :
    rhaleInit choice model jac data given (.int n) axisLimits = rhaleInit choice model jac data given (.str "all") axisLimits := by
  unfold rhaleInit
  rw [prepNof_ge choice n _ h, show prepNofInstances choice (.str "all") data.length = .ok ((data.length : ℤ), List.range data.length) from rfl]
  simp only [bind, Except.bind]

theorem rows_length_le {cfg : RegCfg K D} (heff : EffAligned cfg) {posText : Fin D → K → String} {imp : Bool} {s : Splits K D} {tree : List (Node K D)}
    (h : TreeOf cfg posText imp s tree) {nd : Node K D} (hm : nd ∈ tree) : nd.rows.length ≤ cfg.data.length := by
  classical
  rw [C44_rows_meet_strict_conditions cfg heff posText imp s tree h nd hm]
  exact List.length_filter_le _ _

/-- **C62, what is drawn.** `RegionalRHALE.plot` and `RegionalALE.plot` at a node draw the curve of an `RHALE` object on the rows and effects of the node, fitted
with the binning method of the last fit.  The tree is that of the last fit if `scale_x_list` is given, or if it was never given for this feature. -/
theorem C62_plot_draws_rhale_of_node [PySqrt K] (cfg : RegionalCfg K D) (hal : Spec.Aligned cfg) (ops : List (RegionalOp K D)) (f : Fin D)
    (scales : Option (Fin D → Scale K)) (hns : scales = none → ∀ sc, RegionalOp.plot f (some sc) ∉ ops)
    (a : FitArgs K D) (ha : Spec.afterRefit cfg f (Spec.lastRegFit cfg f ops) = some a)
    (tree : List (Node K D)) (ht : Spec.TreeFor cfg a f scales true (some tree)) (nd : Node K D) (hm : nd ∈ tree) (c : PyVal)
    (bm : BinMethod K) (hbm : prepBinningMethod a.bin = .ok bm) :
    (regionalAlePlot cfg (regionalRun cfg ops) f nd.idx c scales).2 = Spec.rhaleCurve cfg.bb nd.rows nd.effects f bm c := by
  have hS := plotPrep_same hal scales (regionalRun_stored hal f ops)
  have hok : (regionalPlotPrep cfg (regionalRun cfg ops) f scales).2 = .ok () := by
    obtain ⟨h1, h2⟩ := refit_same hal (regionalRun_stored hal f ops)
    rw [ha] at h1 h2
    have h2 := h2.mp rfl
    unfold regionalPlotPrep
    rcases hr : regionalRefit cfg (regionalRun cfg ops) f with ⟨st', e | ⟨⟩⟩
    · rw [hr] at h2; cases h2
    · rw [hr] at h1
      cases scales with
      | none => rfl
      | some sc =>
        obtain ⟨sp, full, pruned, hs, hsp, e1, e2, e3, e4, e5⟩ := h1.trees a rfl
        obtain ⟨t1, ht1⟩ := treeFor_exists hal a f (posTextOf cfg.fmt (some sc)) false sp hs
        obtain ⟨t2, ht2⟩ := treeFor_exists hal a f (posTextOf cfg.fmt (some sc)) true sp hs
        simp only at hsp ⊢
        rw [hsp]
        simp only [ht1, ht2]
  rw [ha] at hS
  unfold regionalAlePlot
  rcases hp : regionalPlotPrep cfg (regionalRun cfg ops) f scales with ⟨st', e | ⟨⟩⟩
  · rw [hp] at hok; cases hok
  rw [hp] at hS
  simp only at hS ⊢
  obtain ⟨s, hT⟩ := treeFor_some ht
  obtain ⟨sp, full, pruned, e1, e2, e3, e4, e5, e6, e7⟩ := hS.trees a rfl
  obtain ⟨p0, rfl⟩ : ∃ p0, pruned = some p0 := by
    cases sp with
    | none => have := hT.search; rw [e1] at this; cases this
    | some s' =>
      obtain ⟨t, ht⟩ := C43_trees_exist (regionsOf cfg a f) hal (posTextOf cfg.fmt none) true s' e1
      exact ⟨t, by have := ht.tree; rw [e7] at this; exact Except.ok.inj this⟩
  have hnode : getNodeInfo st' f nd.idx = .ok nd := by
    unfold getNodeInfo
    rw [hS.fitted]
    simp only [Option.isSome_some, pyAssert, if_true, bind, Except.bind, e4]
    cases scales with
    | none =>
      simp only at hS
      rw [scaledFold_noplot cfg f ops (hns rfl)] at hS
      have := treeFor_unique (t := some p0) ⟨sp, e1, e7⟩ ht
      cases this
      rw [(hS.notScaled rfl).2]
      simp only [find_idx (cfg := regionsOf cfg a f) hal hT hm]
    | some sc =>
      obtain ⟨f1, p1, g1, g2, g3, g4⟩ := hS.scaled a sc rfl
      obtain rfl := treeFor_unique g4 ht
      rw [g2]
      simp only [find_idx (cfg := regionsOf cfg a f) hal hT hm]
  have hle : nd.rows.length ≤ cfg.data.length := rows_length_le (cfg := regionsOf cfg a f) hal hT hm
  simp only [bind, Except.bind, hnode, e5, hbm]
  rw [rhaleInit_ge _ _ _ _ _ _ hle]
  rfl

/-- `RegionalALE.plot` therefore draws an RHALE curve with numerically computed derivatives, whatever the model. -/
theorem C62_regional_ale_draws_rhale [PySqrt K] (cfg : RegionalCfg K D) (_hale : cfg.methodName = "ale") (heff : cfg.instanceEffects = none)
    (ops : List (RegionalOp K D)) (f : Fin D) (hns : ∀ sc, RegionalOp.plot f (some sc) ∉ ops)
    (a : FitArgs K D) (ha : Spec.afterRefit cfg f (Spec.lastRegFit cfg f ops) = some a)
    (tree : List (Node K D)) (ht : Spec.TreeFor cfg a f none true (some tree)) (nd : Node K D) (hm : nd ∈ tree) (c : PyVal)
    (bm : BinMethod K) (hbm : prepBinningMethod a.bin = .ok bm) :
    (regionalAlePlot cfg (regionalRun cfg ops) f nd.idx c none).2 = Spec.rhaleCurve cfg.bb nd.rows none f bm c := by
  have hal : Spec.Aligned cfg := by intro e he; rw [heff] at he; cases he
  rw [C62_plot_draws_rhale_of_node cfg hal ops f none (fun _ => hns) a ha tree ht nd hm c bm hbm]
  obtain ⟨s, hT⟩ := treeFor_some ht
  rw [C45_no_effects (regionsOf cfg a f) hal heff _ _ s tree hT nd hm]

end

/-- RegionalALE of a model that jumps between the two values of `x`. -/
def jumpCfg : RegionalCfg ℚ 3 :=
  { cubeCfg with
    bb := { cubeCfg.bb with model := List.map fun r => if r 0 < 1 / 2 then 0 else 1, jac := none }
    methodName := "ale"
    instanceEffects := none }

/-- The fit of RegionalALE with its default binning method. -/
def jumpArgs : FitArgs ℚ 3 := { cubeArgs with bin := .fixed 20 (some 0) 15 }

/-- The height of the drawn curve at its right end. -/
def endOf (r : Py (List ℚ × List ℚ × Option (List ℚ))) : Option ℚ := match r with
  | .ok (_, y, _) => y.getLast?
  | .error _ => none

theorem jump_node_zero : ((prunedTree jumpCfg jumpArgs 0).map fun tree => (tree[0]?).map fun nd => (nd.idx,
      endOf (Spec.aleCurve jumpCfg.bb nd.rows 0 (.fixed 20 (some 0) 15) (.bool false)))) = some (some (0, some 1)) ∧
    endOf (regionalAlePlot jumpCfg (regionalRun jumpCfg [.fit jumpArgs 0]) 0 0 (.bool false) none).2 = some 0 ∧
    Spec.fits jumpCfg jumpArgs 0 = true := by
  decide +kernel

/-- **C62 is false for RegionalALE**: the curve drawn at a node is not the ALE of the node's instances. -/
theorem C62_false_regional_ale : ¬ ∀ (cfg : RegionalCfg ℚ 3) (ops : List (RegionalOp ℚ 3)) (f : Fin 3),
    cfg.methodName = "ale" → cfg.instanceEffects = none → (∀ sc, RegionalOp.plot f (some sc) ∉ ops) →
    ∀ a, Spec.afterRefit cfg f (Spec.lastRegFit cfg f ops) = some a → ∀ tree, Spec.TreeFor cfg a f none true (some tree) →
    ∀ nd ∈ tree, ∀ c bm, prepBinningMethod a.bin = .ok bm →
    (regionalAlePlot cfg (regionalRun cfg ops) f nd.idx c none).2 = Spec.aleCurve cfg.bb nd.rows f bm c := by
  intro hall
  obtain ⟨h, h2, hf⟩ := jump_node_zero
  rcases ht : prunedTree jumpCfg jumpArgs 0 with _ | tree
  · rw [ht] at h; cases h
  rw [ht] at h
  simp only [Option.map_some, Option.some.injEq] at h
  rcases h3 : tree[0]? with _ | nd
  · rw [h3] at h; cases h
  rw [h3] at h
  simp only [Option.map_some, Option.some.injEq, Prod.mk.injEq] at h
  have hm : 2 ≤ jumpArgs.minPoints := by decide
  have := hall jumpCfg [.fit jumpArgs 0] 0 rfl rfl (by simp) jumpArgs
    (by simp [Spec.lastRegFit, Spec.regFitStep, hf, Spec.afterRefit, hm]) tree (prunedTree_spec ht) nd (List.mem_of_getElem? h3)
    (.bool false) (.fixed 20 (some 0) 15) rfl
  rw [h.1] at this
  rw [this, h.2] at h2
  norm_num at h2

end Effector
