import Verif.Props.RegionalCost
import Verif.Props.RegionalSwallowExamples

/-!
# C111: what `eval` of a regional object may cost; objects from the constructors; concrete cases
-/

set_option linter.unusedSectionVars false
set_option synthInstance.maxSize 2000
set_option synthInstance.maxHeartbeats 200000

namespace Effector

variable {K : Type} [Field K] [LinearOrder K] [IsStrictOrderedRing K] {D : ℕ} {σ S S' α β : Type}

/-! ## Specification -/

/-- What `eval` of a region costs once the regions are there: a new global object of the region is made (one call), fitted with the default settings and evaluated. -/
def Spec.regionEvalCost (methodName : String) (hasJac : Bool) (centering : PyVal) (n : ℕ) : ℕ :=
  if methodName = "rhale" then 1
  else if methodName = "ale" then 3
  else if methodName = "shap" then 2
  else if methodName = "pdp" then 1 + Spec.centringPrice .pdp centering 100 true + Spec.curveCost .pdp true n
  else 1 + Spec.centringPrice (if hasJac then .derJac else .derNum) centering 100 true + Spec.curveCost (if hasJac then .derJac else .derNum) true n

/-- The regions the object has stored consist of rows of its data, and, in a RegionalRHALE, come with gradients. -/
def Spec.RegionsStored (o : RegionalObj K D) (st : RegionalState K D) : Prop :=
  ∀ f t, (st.treePruned f = some (some t) ∨ st.treePrunedScaled f = some (some t)) →
    ∀ n ∈ t, (∀ r ∈ n.rows, r ∈ o.cfg.data) ∧ (o.cfg.methodName = "rhale" → n.effects.isSome = true)

open Spec

/-! ## The global objects -/

theorem asks_pdpEval [PySqrt K] (w : World σ K D) (cfg : RunPdpCfg K D) (s : Fin D) (xs : List K) (het : Bool) (centering : PyVal) (all vec : Bool) (data : List (Row K D)) :
    Asks (fun o => ∀ x ∈ o.data, x ∈ data) (runPdpEval w cfg s xs het centering all vec) (centringPrice cfg.which centering 100 vec + curveCost cfg.which vec xs.length)
      (Variants data s) (fun _ _ => True) := by
  unfold runPdpEval centringPrice
  cases prepCentering centering with
  | error e =>
    intro y hy
    exact ⟨[], by simp [run_bind, inert, runThen], by simp, by simp, fun a ha => by cases ha⟩
  | ok c =>
  simp only []
  rw [inert_ok]
  have htail : Asks (σ := σ) (fun o : PdpState K D => ∀ x ∈ o.data, x ∈ data) (do
      inert (pyAssert (decide (cfg.axisLo s < cfg.axisHi s)))
      let o ← readObj
      let yy ← runPredict w cfg.cast cfg.which o.data xs s vec
      inert (pdpSummary (o.fe s) het c all yy)) (curveCost cfg.which vec xs.length) (Variants data s) (fun _ _ => True) := by
    refine Asks.le (n := 0 + (0 + (curveCost cfg.which vec xs.length + 0))) ?_ (by omega)
    refine Asks.bind (keep_inert (K := K) (D := D) _ _ _) fun _ => (asks_read _ 0 _).bind fun o' => ?_
    by_cases ho' : ∀ x ∈ o'.data, x ∈ data
    swap
    · intro y hy
      exact absurd (hy.1 ▸ hy.2) ho'
    exact ((asks_predict w cfg.cast cfg.which o'.data xs s vec _).bind fun yy => keep_inert _ _ _).mono (fun _ h => h) le_rfl (variants_subset ho')
      (fun _ _ _ => trivial)
  refine Asks.le (n := 0 + (0 + (centringCost cfg.which c 100 vec + curveCost cfg.which vec xs.length))) ?_ (by omega)
  refine (asks_read _ 0 _).bind fun o => Asks.bind (keep_inert (K := K) (D := D) _ _ _) fun again => ?_
  cases again with
  | false => exact htail.mono (fun _ h => h.2) (by omega) (fun _ h => h) (fun _ _ h => h)
  | true =>
    simp only [if_true]
    refine Asks.bind (Mid := fun _ o => ∀ x ∈ o.data, x ∈ data) ?_ fun _ => htail
    unfold runPdpFitLoop
    refine Asks.le (n := centringCost cfg.which c 100 vec + (0 + (0 + 0))) ?_ (by omega)
    refine ((asks_pdpFitFeature w cfg s c 100 vec data).mono (fun _ h => h.2) le_rfl (fun _ h => h) (fun _ _ h => h)).bind fun nc => (asks_read _ 0 _).bind fun o => ?_
    by_cases ho : ∀ x ∈ o.data, x ∈ data
    swap
    · intro y hy
      exact absurd (hy.1 ▸ hy.2) ho
    refine (asks_write _ _ 0 _).bind fun _ => ?_
    unfold runPdpFitLoop
    refine (keep_pure _ _ _).mono (fun _ h => h) le_rfl (fun _ h => h) ?_
    rintro a o' rfl
    exact ho

theorem asks_aleEval [PySqrt K] (cfg : RunAleCfg σ K D) (s : Fin D) (xs : List K) (het : Bool) (centering : PyVal) (P : AleObj K D → Prop) (n : ℕ)
    (each : Call K D → Prop) (hfit : ∀ bm, Asks P (cfg.fitF s bm) n each (fun _ _ => True)) :
    Asks P (runAleEval cfg s xs het centering) n each (fun _ _ => True) := by
  unfold runAleEval
  refine Asks.le (n := 0 + (0 + (0 + n))) ?_ (by omega)
  refine Asks.bind (keep_inert (K := K) (D := D) _ _ _) fun c => (asks_read _ 0 _).bind fun o => Asks.bind (keep_inert (K := K) (D := D) _ _ _) fun again => ?_
  have htail : ∀ Q : AleObj K D → Prop, Asks (σ := σ) Q (do
      let o ← readObj
      inert (aleEvalFitted cfg.reader o.st s xs het c)) 0 each (fun _ _ => True) := fun Q =>
    Asks.le (n := 0 + 0) ((asks_read _ 0 _).bind fun o' => (keep_inert _ _ _).mono (fun _ h => h) le_rfl (fun _ h => h) (fun _ _ _ => trivial)) (by omega)
  cases again with
  | false => exact (htail _).le (by omega)
  | true =>
    simp only [if_true]
    refine Asks.le (n := n + 0) (Asks.bind (Mid := fun _ _ => True) ?_ fun _ => htail _) (by omega)
    unfold runAleFitLoop
    refine Asks.le (n := n + (0 + (0 + (0 + (0 + 0))))) ?_ (by omega)
    refine ((hfit cfg.defaultBin).mono (fun _ h => h.2) le_rfl (fun _ h => h) (fun _ _ h => h)).bind fun p => (asks_read _ 0 _).bind fun o => (asks_write _ _ 0 _).bind fun _ =>
      Asks.bind (keep_inert (K := K) (D := D) _ _ _) fun z => (asks_write _ _ 0 _).bind fun _ => ?_
    unfold runAleFitLoop
    exact (keep_pure _ _ _).mono (fun _ h => h) le_rfl (fun _ h => h) (fun _ _ _ => trivial)

theorem asks_shapEval (w : World σ K D) (cfg : RunShapCfg K D) (s : Fin D) (xs : List K) (het : Bool) (centering : PyVal) (data : List (Row K D)) :
    Asks (fun o => ∀ x ∈ o.data, x ∈ data) (runShapEval w cfg s xs het centering) 1 (Variants data s) (fun _ _ => True) := by
  unfold runShapEval
  refine Asks.le (n := 0 + (0 + (0 + 1))) ?_ (by omega)
  refine Asks.bind (keep_inert (K := K) (D := D) _ _ _) fun c => (asks_read _ 0 _).bind fun o => Asks.bind (keep_inert (K := K) (D := D) _ _ _) fun again => ?_
  have htail : ∀ Q : ShapState K D → Prop, Asks (σ := σ) Q (do
      let o ← readObj
      inert (shapEvalFitted cfg.reader o s xs het c)) 0 (Variants data s) (fun _ _ => True) := fun Q =>
    Asks.le (n := 0 + 0) ((asks_read _ 0 _).bind fun o' => (keep_inert _ _ _).mono (fun _ h => h) le_rfl (fun _ h => h) (fun _ _ _ => trivial)) (by omega)
  cases again with
  | false => exact (htail _).le (by omega)
  | true =>
    simp only [if_true]
    refine Asks.le (n := 1 + 0) (Asks.bind (Mid := fun _ _ => True) ?_ fun _ => htail _) (by omega)
    unfold runShapFitLoop
    refine Asks.le (n := 1 + (0 + (0 + 0))) ?_ (by omega)
    refine Asks.bind (Mid := fun _ _ => True) ?_ fun fe => (asks_read _ 0 _).bind fun o => (asks_write _ _ 0 _).bind fun _ => ?_
    · unfold runShapFitFeature
      refine Asks.le (n := 0 + (0 + (1 + 0))) ?_ (by omega)
      refine (asks_read _ 0 _).bind fun o => ?_
      by_cases ho : ∀ x ∈ o.data, x ∈ data
      swap
      · intro y hy
        exact absurd (hy.1 ▸ hy.2.2) ho
      exact (asks_write _ _ 0 _).bind fun _ => (asks_explain w _ _ 1 le_rfl _ (variants_self s fun x hx => ho x (dropOutside_mem hx))).bind fun vals =>
        (keep_inert _ _ _).mono (fun _ h => h) le_rfl (fun _ h => h) (fun _ _ _ => trivial)
    · unfold runShapFitLoop
      exact (keep_pure _ _ _).mono (fun _ h => h) le_rfl (fun _ h => h) (fun _ _ _ => trivial)

/-! ## The stored regions -/

theorem foldlM_inv {P : α → Prop} {f : α → β → Py α} (h : ∀ a b a', P a → f a b = .ok a' → P a') : ∀ (l : List β) (a a' : α), P a → l.foldlM f a = .ok a' → P a' := by
  intro l
  induction l with
  | nil => intro a a' ha h'; cases h'; exact ha
  | cons b t ih =>
    intro a a' ha h'
    rw [List.foldlM_cons] at h'
    simp only [bind, Except.bind] at h'
    cases hb : f a b with
    | error e => rw [hb] at h'; cases h'
    | ok a1 => rw [hb] at h'; exact ih a1 a' (h a b a1 ha hb) h'

theorem splitRows_sub (x : List (Row K D)) (f : Fin D) (pos : K) (typ : FeatType) : (∀ r ∈ (splitRows x f pos typ).1, r ∈ x) ∧ ∀ r ∈ (splitRows x f pos typ).2, r ∈ x := by
  unfold splitRows
  cases typ <;> exact ⟨fun r hr => (List.mem_filter.mp hr).1, fun r hr => (List.mem_filter.mp hr).1⟩

/-- Rows of the data, with effects if there are any. -/
def GoodPart (data : List (Row K D)) (hasEff : Bool) (rows : List (Row K D)) (eff : Option (List (Row K D))) : Prop :=
  (∀ r ∈ rows, r ∈ data) ∧ (hasEff = true → eff.isSome = true)

theorem addChild_good (tc : TreeCfg K D) (hasEff : Bool) (nInit : ℕ) (parents : List (ParentInfo K D)) (sp : Split K D) (level : ℕ) (data : List (Row K D))
    (hp : ∀ p ∈ parents, GoodPart data hasEff p.rows p.effects) (st st' : List (Node K D) × List (ParentInfo K D)) (j : ℕ)
    (hst : (∀ n ∈ st.1, GoodPart data hasEff n.rows n.effects) ∧ ∀ p ∈ st.2, GoodPart data hasEff p.rows p.effects)
    (h : addChild tc hasEff nInit parents sp level st j = .ok st') :
    (∀ n ∈ st'.1, GoodPart data hasEff n.rows n.effects) ∧ ∀ p ∈ st'.2, GoodPart data hasEff p.rows p.effects := by
  unfold addChild addNode at h
  simp only [bind, Except.bind, pure, Except.pure] at h
  cases h1 : pyIndex parents (j / 2) with
  | error e => rw [h1] at h; cases h
  | ok par =>
  rw [h1] at h
  simp only [] at h
  cases h2 : pyIndex sp.heterogeneity j with
  | error e => rw [h2] at h; cases h
  | ok het =>
  rw [h2] at h
  simp only [] at h
  cases h3 : pyIndex sp.nofInstances j with
  | error e => rw [h3] at h; cases h
  | ok nof =>
  rw [h3] at h
  simp only [] at h
  cases h4 : getNode st.1 par.name with
  | none => rw [h4] at h; cases h
  | some q =>
  rw [h4] at h
  have hpar : par ∈ parents := by
    unfold pyIndex at h1
    cases hg : parents[j / 2]? with
    | none => rw [hg] at h1; cases h1
    | some p0 => rw [hg] at h1; cases h1; exact List.mem_of_getElem? hg
  have hgood := hp par hpar
  have hnew : GoodPart data hasEff (if j % 2 = 0 then (splitRows par.rows sp.feature sp.position sp.typ).1 else (splitRows par.rows sp.feature sp.position sp.typ).2)
      ((if hasEff = true then par.effects.map fun e => splitEff par.rows e sp.feature sp.position sp.typ else none).map
        fun p => if j % 2 = 0 then p.1 else p.2) := by
    constructor
    · intro r hr
      apply hgood.1
      split_ifs at hr
      · exact (splitRows_sub _ _ _ _).1 r hr
      · exact (splitRows_sub _ _ _ _).2 r hr
    · intro he
      rw [if_pos he]
      have := hgood.2 he
      cases hpe : par.effects with
      | none => rw [hpe] at this; cases this
      | some e => rfl
  injection h with h
  subst h
  constructor
  · intro n hn
    rcases List.mem_append.mp hn with hn | hn
    · exact hst.1 n hn
    · rw [List.mem_singleton] at hn
      subst hn
      exact hnew
  · intro n hn
    rcases List.mem_append.mp hn with hn | hn
    · exact hst.2 n hn
    · rw [List.mem_singleton] at hn
      subst hn
      exact hnew

theorem addLevels_good (tc : TreeCfg K D) (hasEff : Bool) (nInit : ℕ) (data : List (Row K D)) (sps : List (Split K D)) :
    ∀ (level : ℕ) (tree t : List (Node K D)) (parents : List (ParentInfo K D)), (∀ n ∈ tree, GoodPart data hasEff n.rows n.effects) →
      (∀ p ∈ parents, GoodPart data hasEff p.rows p.effects) → addLevels tc hasEff nInit level tree parents sps = .ok t → ∀ n ∈ t, GoodPart data hasEff n.rows n.effects := by
  induction sps with
  | nil => intro level tree t parents ht _ h; cases h; exact ht
  | cons sp r ih =>
    intro level tree t parents ht hp h
    unfold addLevels at h
    simp only [bind, Except.bind] at h
    cases h1 : (List.range sp.nofInstances.length).foldlM (addChild tc hasEff nInit parents sp level) (tree, []) with
    | error e => rw [h1] at h; cases h
    | ok q =>
      rw [h1] at h
      have hq := foldlM_inv (P := fun st : List (Node K D) × List (ParentInfo K D) =>
        (∀ n ∈ st.1, GoodPart data hasEff n.rows n.effects) ∧ ∀ p ∈ st.2, GoodPart data hasEff p.rows p.effects)
        (fun a b a' ha hb => addChild_good tc hasEff nInit parents sp level data hp a a' b ha hb) _ _ _ ⟨ht, by simp⟩ h1
      refine ih _ _ _ _ hq.1 ?_ h
      intro p hp'
      obtain ⟨p0, h0, rfl⟩ := List.mem_map.mp hp'
      exact ⟨(hq.2 p0 h0).1, fun _ => rfl⟩

theorem splitsToTree_good (cfg : RegCfg K D) (posText : Fin D → K → String) (sp : Option (Splits K D)) (imp : Bool) (t : List (Node K D))
    (h : splitsToTree cfg posText sp imp = .ok (some t)) : ∀ n ∈ t, GoodPart cfg.data cfg.dataEffect.isSome n.rows n.effects := by
  unfold splitsToTree at h
  cases sp with
  | none => cases h
  | some s =>
    simp only [bind, Except.bind, pure, Except.pure] at h
    revert h
    generalize hX : (addLevels _ _ _ _ _ _ _ : Py (List (Node K D))) = X
    intro h
    cases X with
    | error e => cases h
    | ok t' =>
      injection h with h
      injection h with h
      subst h
      refine addLevels_good _ _ _ cfg.data _ _ _ _ _ ?_ ?_ hX
      · intro n hn
        rw [List.mem_singleton] at hn
        subst hn
        exact ⟨fun _ h => h, fun h => h⟩
      · intro n hn
        rw [List.mem_singleton] at hn
        subst hn
        exact ⟨fun _ h => h, fun h => h⟩

/-! ## The search does not touch the object, also when it raises -/

/-- The program does not touch the object. -/
def Leaves (p : RunM σ K D S α) : Prop := ∀ y, (p y).1.obj = y.obj

theorem leaves_pure (a : α) : Leaves (pure a : RunM σ K D S α) := fun _ => rfl
theorem leaves_inert (x : Py α) : Leaves (inert x : RunM σ K D S α) := fun _ => rfl
theorem leaves_model (w : World σ K D) (X : List (Row K D)) : Leaves (callModel w X : RunM σ K D S _) := fun _ => rfl
theorem leaves_onNew (o : S') (p : RunM σ K D S' α) : Leaves (onNew o p : RunM σ K D S α) := fun _ => rfl

theorem leaves_bind {p : RunM σ K D S α} {f : α → RunM σ K D S β} (hp : Leaves p) (hf : ∀ a, Leaves (f a)) : Leaves (p >>= f) := by
  intro y
  rw [run_bind]
  have := hp y
  generalize p y = q at this
  obtain ⟨y1, r⟩ := q
  cases r with
  | error e => exact this
  | ok a => exact (hf a y1).trans this

theorem leaves_each {f : β → RunM σ K D S α} (h : ∀ b, Leaves (f b)) : ∀ l : List β, Leaves (runEach f l)
  | [] => leaves_pure _
  | b :: t => leaves_bind (h b) fun _ => leaves_bind (leaves_each h t) fun _ => leaves_pure _

theorem leaves_heters {h : HeterR σ K D S} (hk : ∀ x e, Leaves (h x e)) (xs : List (List (Row K D))) (js : Option (List (List (Row K D)))) : Leaves (runHeters h xs js) := by
  cases js with
  | none => exact leaves_each (fun _ => hk _ _) _
  | some js => exact leaves_each (fun _ => hk _ _) _

theorem leaves_rowFrom {h : HeterR σ K D S} (hk : ∀ x e, Leaves (h x e)) (w : ℕ) (xs : List (List (Row K D))) (js : Option (List (List (Row K D)))) (before : List K)
    (f : Fin D) (typ : FeatType) : ∀ (i : ℕ) (l : List K), Leaves (runRowFrom h w xs js before f typ i l)
  | _, [] => leaves_pure _
  | i, _ :: t => leaves_bind (leaves_bind (leaves_heters hk _ _) fun _ => leaves_pure _) fun _ => leaves_bind (leaves_inert _) fun _ =>
      leaves_bind (leaves_rowFrom hk w xs js before f typ (i + 1) t) fun _ => leaves_pure _

theorem leaves_levels {h : HeterR σ K D S} (hk : ∀ x e, Leaves (h x e)) (cfg : RegCfg K D) : ∀ (n : ℕ) (xs : List (List (Row K D)))
    (js : Option (List (List (Row K D)))) (before : List K), Leaves (runLevels cfg h n xs js before)
  | 0, _, _, _ => leaves_pure _
  | n + 1, xs, js, before => by
    rw [runLevels]
    split_ifs
    · exact leaves_pure _
    · refine leaves_bind ?_ fun sp => leaves_bind (leaves_levels hk cfg n _ _ _) fun _ => leaves_pure _
      unfold runSingleLevel
      exact leaves_bind (leaves_inert _) fun _ => leaves_bind (leaves_each (fun _ => leaves_rowFrom hk _ _ _ _ _ _ _ _) _) fun _ => leaves_bind (leaves_inert _) fun _ =>
        leaves_bind (leaves_inert _) fun _ => leaves_bind (leaves_inert _) fun _ => leaves_bind (leaves_inert _) fun _ => leaves_bind (leaves_heters hk _ _) fun _ =>
        leaves_bind (leaves_inert _) fun _ => leaves_bind (leaves_inert _) fun _ => leaves_bind (leaves_inert _) fun _ => leaves_bind (leaves_inert _) fun _ => leaves_pure _

theorem leaves_search {h : HeterR σ K D S} (hk : ∀ x e, Leaves (h x e)) (cfg : RegCfg K D) : Leaves (runSearch cfg h) := by
  unfold runSearch
  split_ifs
  · exact leaves_pure _
  · exact leaves_bind (leaves_inert _) fun _ => leaves_bind (hk _ _) fun _ => leaves_bind (leaves_levels hk _ _ _ _ _) fun _ => leaves_pure _
  · exact leaves_bind (leaves_inert _) fun _ => leaves_bind (hk _ _) fun _ => leaves_bind (leaves_levels hk _ _ _ _ _) fun _ => leaves_pure _

theorem leaves_base (w : World σ K D) (choice : ℕ → ℕ → List ℕ) (data : List (Row K D)) (nof : PyVal) (axisLimits : Option ((Fin D → K) × (Fin D → K)))
    (avg : Option K) : Leaves (runBase w choice data nof axisLimits avg : RunM σ K D S _) := by
  unfold runBase
  refine leaves_bind (leaves_inert _) fun p => leaves_bind (leaves_inert _) fun d => ?_
  cases avg with
  | none => exact leaves_bind (leaves_model _ _) fun _ => leaves_bind (leaves_pure _) fun _ => leaves_bind (leaves_inert _) fun _ => leaves_pure _
  | some a => exact leaves_bind (leaves_pure _) fun _ => leaves_bind (leaves_inert _) fun _ => leaves_pure _

theorem leaves_rhaleNew (w : World σ K D) (choice : ℕ → ℕ → List ℕ) (hasJac : Bool) (data : List (Row K D)) (given : Option (List (Row K D))) (nof : PyVal)
    (axisLimits : Option ((Fin D → K) × (Fin D → K))) (avg : Option K) : Leaves (runRhaleNew w choice hasJac data given nof axisLimits avg : RunM σ K D S _) := by
  unfold runRhaleNew
  exact leaves_bind (leaves_inert _) fun _ => leaves_bind (leaves_inert _) fun _ => leaves_bind (leaves_inert _) fun _ => leaves_bind (leaves_base _ _ _ _ _ _) fun _ =>
    leaves_pure _

theorem leaves_aleNew (w : World σ K D) (choice : ℕ → ℕ → List ℕ) (cast : K → K) (data : List (Row K D)) (nof : PyVal)
    (axisLimits : Option ((Fin D → K) × (Fin D → K))) (avg : Option K) : Leaves (runAleNew w choice cast data nof axisLimits avg : RunM σ K D S _) := by
  unfold runAleNew
  exact leaves_bind (leaves_base _ _ _ _ _ _) fun _ => leaves_pure _

theorem leaves_pdpNew (w : World σ K D) (choice : ℕ → ℕ → List ℕ) (cast : K → K) (which : PdpWhich) (data : List (Row K D)) (nof : PyVal)
    (axisLimits : Option ((Fin D → K) × (Fin D → K))) (avg : Option K) : Leaves (runPdpNew w choice cast which data nof axisLimits avg : RunM σ K D S _) := by
  unfold runPdpNew
  exact leaves_bind (leaves_base _ _ _ _ _ _) fun _ => leaves_pure _

theorem leaves_shapNew (w : World σ K D) (choice : ℕ → ℕ → List ℕ) (spline : List (K × K) → Py (K → K)) (data : List (Row K D)) (nof : PyVal)
    (axisLimits : Option ((Fin D → K) × (Fin D → K))) (avg : Option K) : Leaves (runShapNew w choice spline data nof axisLimits avg : RunM σ K D S _) := by
  unfold runShapNew
  exact leaves_bind (leaves_inert _) fun _ => leaves_bind (leaves_inert _) fun _ => leaves_bind (leaves_base _ _ _ _ _ _) fun _ => leaves_pure _

theorem leaves_aleHeter [PySqrt K] (new : List (Row K D) → Option (List (Row K D)) → RunM σ K D S (RunAleCfg σ K D × AleObj K D)) (hn : ∀ x e, Leaves (new x e)) (foi : Fin D)
    (bm : BinMethod K) (minPoints : ℕ) (centering : PyVal) (data : List (Row K D)) (eff : Option (List (Row K D))) :
    Leaves (runAleHeter new foi bm minPoints centering data eff) := by
  unfold runAleHeter
  split_ifs
  · exact leaves_pure _
  · exact leaves_bind (hn _ _) fun _ => leaves_onNew _ _

theorem leaves_heter [PySqrt K] (w : World σ K D) (o : RegionalObj K D) (kw : FitKw K D) (f : Fin D) (h : HeterR σ K D S) (hh : runHeter w o kw f = .ok h) (x : List (Row K D))
    (e : Option (List (Row K D))) : Leaves (h x e) := by
  unfold runHeter at hh
  simp only [bind, Except.bind, pure, Except.pure] at hh
  by_cases h1 : o.cfg.methodName = "rhale"
  · rw [if_pos h1] at hh
    cases hb : prepBinningMethod kw.bin with
    | error er => rw [hb] at hh; cases hh
    | ok bm =>
      rw [hb] at hh
      injection hh with hh
      subst hh
      exact leaves_aleHeter _ (fun x e => leaves_rhaleNew _ _ _ _ _ _ _ _) _ _ _ _ _ _
  rw [if_neg h1] at hh
  by_cases h2 : o.cfg.methodName = "ale"
  · rw [if_pos h2] at hh
    cases hb : prepBinningMethod kw.bin with
    | error er => rw [hb] at hh; cases hh
    | ok bm =>
      rw [hb] at hh
      injection hh with hh
      subst hh
      exact leaves_aleHeter _ (fun x e => leaves_aleNew _ _ _ _ _ _ _) _ _ _ _ _ _
  rw [if_neg h2] at hh
  have hpdp : ∀ which : PdpWhich, Leaves (runPdpHeter w o.cfg.bb.choice o.cfg.bb.cast which o.axisLo o.axisHi f kw.minPoints kw.centering kw.nof kw.points kw.vec x :
      RunM σ K D S K) := by
    intro which
    unfold runPdpHeter
    split_ifs
    · exact leaves_pure _
    · exact leaves_bind (leaves_pdpNew _ _ _ _ _ _ _ _) fun _ => leaves_onNew _ _
  by_cases h3 : o.cfg.methodName = "shap"
  · rw [if_pos h3] at hh
    injection hh with hh
    subst hh
    show Leaves (runShapHeter _ _ _ _ _ _ _ _ _)
    unfold runShapHeter
    split_ifs
    · exact leaves_pure _
    · exact leaves_bind (leaves_inert _) fun _ => leaves_bind (leaves_inert _) fun _ => leaves_bind (leaves_shapNew _ _ _ _ _ _ _) fun _ => leaves_onNew _ _
  rw [if_neg h3] at hh
  by_cases h4 : o.cfg.methodName = "pdp"
  · rw [if_pos h4] at hh
    injection hh with hh
    subst hh
    exact hpdp _
  · rw [if_neg h4] at hh
    injection hh with hh
    subst hh
    exact hpdp _

/-! ## The regions stay what they are -/

theorem stored_init (o : RegionalObj K D) : RegionsStored o RegionalState.init := by
  intro f t h
  rcases h with h | h <;> cases h

theorem stored_fitOne [PySqrt K] (w : World σ K D) (o : RegionalObj K D) (kw : FitKw K D) (f : Fin D) (hr : o.cfg.methodName = "rhale" → o.cfg.instanceEffects.isSome = true)
    (y : Sys σ K D (RegionalState K D)) (hy : RegionsStored o y.obj) : RegionsStored o ((runRegionalFitOne w o kw f) y).1.obj := by
  unfold runRegionalFitOne
  cases hh : (runHeter w o kw f : Py (HeterR σ K D (RegionalState K D))) with
  | error e => exact hy
  | ok h =>
    rw [inert_ok, run_bind]
    have ho := leaves_search (leaves_heter w o kw f h hh) (regionsOf o.cfg (kw.toArgs o) f) y
    generalize runSearch (regionsOf o.cfg (kw.toArgs o) f) h y = q at ho
    obtain ⟨y1, r⟩ := q
    simp only at ho
    rw [← ho] at hy
    cases r with
    | error e => exact hy
    | ok sp =>
      simp only [runThen]
      cases splitsToTree (regionsOf o.cfg (kw.toArgs o) f) (posTextOf o.cfg.fmt none) sp false with
      | error e => exact hy
      | ok full =>
        rw [inert_ok]
        cases h2 : splitsToTree (regionsOf o.cfg (kw.toArgs o) f) (posTextOf o.cfg.fmt none) sp true with
        | error e => exact hy
        | ok pruned =>
          rw [inert_ok]
          intro g t ht
          replace ht : Function.update y1.obj.treePruned f (some pruned) g = some (some t) ∨ y1.obj.treePrunedScaled g = some (some t) := ht
          rcases ht with ht | ht
          · by_cases hg : g = f
            · subst hg
              rw [Function.update_self] at ht
              injection ht with ht
              subst ht
              have := splitsToTree_good _ _ _ _ _ h2
              intro n hn
              refine ⟨?_, fun hm => ?_⟩
              · have := (this n hn).1
                simpa only [regionsOf, FitKw.toArgs] using this
              · refine (this n hn).2 ?_
                simpa only [regionsOf, FitKw.toArgs] using hr hm
            · rw [Function.update_of_ne hg] at ht
              exact hy g t (Or.inl ht)
          · exact hy g t (Or.inr ht)

/-- **C111, the stored regions.**  Whatever the user's code does, and also if `fit` raises, the regions in the object consist of rows of the data. -/
theorem C111_stored_fit [PySqrt K] (w : World σ K D) (o : RegionalObj K D) (features : PyVal) (kw : FitKw K D)
    (hr : o.cfg.methodName = "rhale" → o.cfg.instanceEffects.isSome = true) (y : Sys σ K D (RegionalState K D)) (hy : RegionsStored o y.obj) :
    RegionsStored o ((runRegionalFit w o features kw) y).1.obj := by
  unfold runRegionalFit
  have hloop : ∀ (l : List (Fin D)) (y : Sys σ K D (RegionalState K D)), RegionsStored o y.obj → RegionsStored o ((runRegionalFitLoop w o kw l) y).1.obj := by
    intro l
    induction l with
    | nil => exact fun y hy => hy
    | cons f t ih =>
      intro y hy
      unfold runRegionalFitLoop
      rw [run_bind]
      have := stored_fitOne w o kw f hr y hy
      generalize runRegionalFitOne w o kw f y = q at this
      obtain ⟨y1, r⟩ := q
      cases r with
      | error e => exact this
      | ok u => exact ih y1 this
  split_ifs
  · exact hy
  · rw [inert_ok]
    cases prepFeatures features D with
    | error e => exact hy
    | ok v =>
      rw [inert_ok]
      cases resolveFeatures D v with
      | error e => exact hy
      | ok l => rw [inert_ok]; exact hloop l y hy

/-! ## `eval` -/

theorem asks_createAndEval [PySqrt K] (w : World σ K D) (bb : BlackBoxes K D) (methodName : String) (data : List (Row K D)) (eff : Option (List (Row K D))) (s : Fin D)
    (xs : List K) (het : Bool) (c : PyVal) (hr : methodName = "rhale" → eff.isSome = true) (Pre : S → Prop) :
    Asks Pre (runCreateAndEval w bb methodName data eff s xs het c : RunM σ K D S (EvalOut K)) (regionEvalCost methodName bb.jac.isSome c xs.length) (Variants data s)
      (fun _ o => Pre o) := by
  unfold runCreateAndEval regionEvalCost
  have hpdp : ∀ which : PdpWhich, Asks Pre (do
      let a ← runPdpNew w bb.choice bb.cast which data (.int 300) none none
      onNew a.2 (do
        let out ← runPdpEval w a.1 s xs het c false true
        inert out.toPair) : RunM σ K D S (EvalOut K)) (1 + centringPrice which c 100 true + curveCost which true xs.length) (Variants data s) (fun _ o => Pre o) := by
    intro which
    rw [Nat.add_assoc]
    refine Asks.bind (Mid := fun c o => ((∀ x ∈ c.2.data, x ∈ data) ∧ c.1.which = which) ∧ Pre o) ?_ fun a => ?_
    · unfold runPdpNew
      refine Asks.le (n := 1 + 0) ((asks_base w bb.choice data (.int 300) none none s Pre).bind fun r => ?_) (by omega)
      obtain ⟨b, a⟩ := r
      by_cases hb : ∀ x ∈ b.data, x ∈ data
      · refine (asks_pure Pre _ 0 _).mono (fun _ h => h.2) le_rfl (fun _ h => h) ?_
        rintro c o ⟨rfl, hp⟩
        exact ⟨⟨hb, rfl⟩, hp⟩
      · intro y hy
        exact absurd hy.1 hb
    · by_cases hc : (∀ x ∈ a.2.data, x ∈ data) ∧ a.1.which = which
      swap
      · intro y hy
        exact absurd hy.1 hc
      obtain ⟨hc1, rfl⟩ := hc
      refine Asks.mono (asks_onNew (Pre := Pre) (n := centringPrice a.1.which c 100 true + curveCost a.1.which true xs.length) (each := Variants data s)
        (Post := fun _ _ => True) ?_) (fun _ h => h.2) le_rfl (fun _ h => h) (fun _ _ h => h)
      refine Asks.le (n := centringPrice a.1.which c 100 true + curveCost a.1.which true xs.length + 0) ?_ (by omega)
      exact ((asks_pdpEval w a.1 s xs het c false true data).mono (Pre' := fun o => o = a.2) (by rintro o rfl; exact hc1) le_rfl (fun _ h => h) (fun _ _ h => h)).bind
        fun out => keep_inert _ _ _
  by_cases h1 : methodName = "rhale"
  · rw [if_pos h1, if_pos h1]
    cases eff with
    | none => exact absurd (hr h1) (by simp)
    | some e =>
      refine Asks.le (n := 1 + 0) ((asks_rhaleNew w bb.choice bb.jac.isSome data e (.str "all") none none s Pre).bind fun a => ?_) (by omega)
      by_cases ha : a.2.eff.isSome = true ∧ ∀ bm, Asks (fun o => o.eff.isSome = true) (a.1.fitF s bm) 0 (Variants data s) (fun _ o => o.eff.isSome = true)
      swap
      · intro y hy
        exact absurd hy.1 ha
      refine Asks.mono (asks_onNew (Pre := Pre) (n := 0) (each := Variants data s) (Post := fun _ _ => True) ?_) (fun _ h => h.2) le_rfl (fun _ h => h) (fun _ _ h => h)
      exact (asks_aleEval a.1 s xs het c (fun o => o.eff.isSome = true) 0 _ fun bm => (ha.2 bm).mono (fun _ h => h) le_rfl (fun _ h => h) (fun _ _ _ => trivial)).mono
        (by rintro o rfl; exact ha.1) le_rfl (fun _ h => h) (fun _ _ h => h)
  rw [if_neg h1, if_neg h1]
  by_cases h2 : methodName = "ale"
  · rw [if_pos h2, if_pos h2]
    refine Asks.le (n := 1 + 2) ((asks_aleNew w bb.choice bb.cast data (.str "all") none none s Pre).bind fun a => ?_) (by omega)
    by_cases ha : True ∧ ∀ bm, Asks (fun _ => True) (a.1.fitF s bm) 2 (Variants data s) (fun _ _ => True)
    swap
    · intro y hy
      exact absurd hy.1 ha
    refine Asks.mono (asks_onNew (Pre := Pre) (n := 2) (each := Variants data s) (Post := fun _ _ => True) ?_) (fun _ h => h.2) le_rfl (fun _ h => h) (fun _ _ h => h)
    exact (asks_aleEval a.1 s xs het c (fun _ => True) 2 _ ha.2).mono (fun _ _ => trivial) le_rfl (fun _ h => h) (fun _ _ h => h)
  rw [if_neg h2, if_neg h2]
  by_cases h3 : methodName = "shap"
  · rw [if_pos h3, if_pos h3]
    refine Asks.le (n := 1 + 1) ?_ (by omega)
    refine Asks.bind (Mid := fun c o => (∀ x ∈ c.2.data, x ∈ data) ∧ Pre o) ?_ fun a => ?_
    · unfold runShapNew
      refine Asks.le (n := 0 + (0 + (1 + 0))) ?_ (by omega)
      refine Asks.bind (keep_inert (K := K) (D := D) _ _ _) fun p => Asks.bind (asks_inert (K := K) (D := D) _ _ 0 _) fun data' => ?_
      by_cases hd : takeRows data p.2 = .ok data'
      swap
      · intro y hy
        exact absurd hy.1 hd
      refine Asks.bind ((asks_base w bb.choice data' (.int 100) none none s Pre).mono (fun _ h => h.2) le_rfl (variants_subset (takeRows_mem hd)) (fun _ _ h => h)) fun b => ?_
      by_cases hb : ∀ x ∈ b.1.data, x ∈ data'
      · refine (asks_pure Pre _ 0 _).mono (fun _ h => h.2) le_rfl (fun _ h => h) ?_
        rintro c o ⟨rfl, hp⟩
        exact ⟨fun x hx => takeRows_mem hd x (hb x hx), hp⟩
      · intro y hy
        exact absurd hy.1 hb
    · by_cases hc : ∀ x ∈ a.2.data, x ∈ data
      swap
      · intro y hy
        exact absurd hy.1 hc
      refine Asks.mono (asks_onNew (Pre := Pre) (n := 1) (each := Variants data s) (Post := fun _ _ => True) ?_) (fun _ h => h.2) le_rfl (fun _ h => h) (fun _ _ h => h)
      exact (asks_shapEval w a.1 s xs het c data).mono (by rintro o rfl; exact hc) le_rfl (fun _ h => h) (fun _ _ h => h)
  rw [if_neg h3, if_neg h3]
  by_cases h4 : methodName = "pdp"
  · subst h4
    rw [if_pos (Or.inl rfl), if_pos rfl, if_pos rfl]
    exact hpdp _
  rw [if_neg h4, if_neg h4]
  by_cases h5 : methodName = "d-pdp"
  · rw [if_pos (Or.inr h5)]
    exact hpdp _
  · rw [if_neg (by rintro (h | h); exacts [h4 h, h5 h])]
    exact (keep_inert _ _ _).le (by omega)

theorem getNodeInfo_mem {st : RegionalState K D} {f : Fin D} {i : ℕ} {n : Node K D} (h : getNodeInfo st f i = .ok n) :
    ∃ t, (st.treePruned f = some (some t) ∨ st.treePrunedScaled f = some (some t)) ∧ n ∈ t := by
  unfold getNodeInfo pyAssert at h
  simp only [bind, Except.bind] at h
  cases hf : st.fitted f with
  | false => rw [hf] at h; cases h
  | true =>
    rw [hf] at h
    simp only [if_true] at h
    cases h1 : st.treePruned f with
    | none => rw [h1] at h; cases h
    | some t1 =>
      cases t1 with
      | none => rw [h1] at h; cases h
      | some pruned =>
        rw [h1] at h
        simp only [] at h
        cases h2 : st.treePrunedScaled f with
        | none =>
          rw [h2] at h
          simp only [] at h
          cases h3 : pruned.find? (fun n => n.idx == i) with
          | none => rw [h3] at h; cases h
          | some n' =>
            rw [h3] at h
            cases h
            exact ⟨pruned, Or.inl rfl, List.mem_of_find?_eq_some h3⟩
        | some t2 =>
          cases t2 with
          | none => rw [h2] at h; cases h
          | some scaled =>
            rw [h2] at h
            simp only [] at h
            cases h3 : scaled.find? (fun n => n.idx == i) with
            | none => rw [h3] at h; cases h
            | some n' =>
              rw [h3] at h
              cases h
              exact ⟨scaled, Or.inr rfl, List.mem_of_find?_eq_some h3⟩

/-- The calls are made by `eval` after the regions are there. -/
theorem asks_evalTail [PySqrt K] (w : World σ K D) (o : RegionalObj K D) (f : Fin D) (nodeIdx : ℕ) (xs : List K) (het : Bool) (centering : PyVal) :
    Asks (σ := σ) (fun st => RegionsStored o st) (do
      let c ← inert (prepCentering centering)
      let st ← readObj
      let n ← inert (getNodeInfo st f nodeIdx)
      runCreateAndEval w o.cfg.bb o.cfg.methodName n.rows n.effects f xs het c.toVal) (regionEvalCost o.cfg.methodName o.cfg.bb.jac.isSome centering xs.length)
      (Variants o.cfg.data f) (fun _ _ => True) := by
  cases hc : prepCentering centering with
  | error e =>
    intro y hy
    exact ⟨[], by simp [run_bind, inert, runThen], by simp, by simp, fun a ha => by cases ha⟩
  | ok c =>
  have hcost : ∀ w, centringPrice w c.toVal 100 true = centringPrice w centering 100 true := by
    intro w
    unfold centringPrice
    rw [hc, prepCentering_toVal hc]
  have hcost2 : regionEvalCost o.cfg.methodName o.cfg.bb.jac.isSome c.toVal xs.length = regionEvalCost o.cfg.methodName o.cfg.bb.jac.isSome centering xs.length := by
    unfold regionEvalCost
    simp only [hcost]
  rw [inert_ok, ← hcost2]
  refine Asks.le (n := 0 + (0 + regionEvalCost o.cfg.methodName o.cfg.bb.jac.isSome c.toVal xs.length)) ?_ (by omega)
  refine (asks_read _ 0 _).bind fun st => ?_
  by_cases hst : RegionsStored o st
  swap
  · intro y hy
    exact absurd (hy.1 ▸ hy.2) hst
  refine Asks.bind (asks_inert (K := K) (D := D) _ _ 0 _) fun n => ?_
  by_cases hn : getNodeInfo st f nodeIdx = .ok n
  swap
  · intro y hy
    exact absurd hy.1 hn
  obtain ⟨t, ht, hnt⟩ := getNodeInfo_mem hn
  have hgood := hst f t ht n hnt
  exact (asks_createAndEval w o.cfg.bb o.cfg.methodName n.rows n.effects f xs het c.toVal hgood.2 (fun _ => True)).mono (fun _ _ => trivial) le_rfl
    (variants_subset hgood.1) (fun _ _ h => h)

/-- **C111, `eval` of a feature that was fitted.**  At most the calls of one region; whatever the user's code does, and about rows of the data in which only that feature
has been changed. -/
theorem C111_eval_fitted [PySqrt K] (w : World σ K D) (o : RegionalObj K D) (f : Fin D) (nodeIdx : ℕ) (xs : List K) (het : Bool) (centering : PyVal)
    (y : Sys σ K D (RegionalState K D)) (hy : RegionsStored o y.obj) (hf : y.obj.fitted f = true) :
    ∃ evs : List (Event K D), ((runRegionalEval w o f nodeIdx xs het centering) y).1.trace = y.trace ++ evs ∧
      evs.length ≤ regionEvalCost o.cfg.methodName o.cfg.bb.jac.isSome centering xs.length ∧ ∀ e ∈ evs, Variants o.cfg.data f e.call := by
  obtain ⟨evs, t, l, c, -⟩ := asks_evalTail w o f nodeIdx xs het centering y hy
  refine ⟨evs, ?_, l, c⟩
  rw [← t]
  unfold runRegionalEval
  rw [run_bind]
  have : runRegionalRefit w o f y = (y, .ok ()) := by
    unfold runRegionalRefit
    rw [run_bind]
    show (if y.obj.fitted f = true then pure () else _ : RunM σ K D (RegionalState K D) Unit) y = _
    rw [if_pos hf]
    rfl
  rw [this]
  rfl

/-- **C111, `eval`.**  In general: at most what `fit` of that feature with the default settings costs, and once the calls of one region. -/
theorem C111_eval [PySqrt K] (w : World σ K D) (o : RegionalObj K D) (f : Fin D) (nodeIdx : ℕ) (xs : List K) (het : Bool) (centering : PyVal)
    (hr : o.cfg.methodName = "rhale" → o.cfg.instanceEffects.isSome = true) (y : Sys σ K D (RegionalState K D)) (hy : RegionsStored o y.obj) :
    ∃ evs : List (Event K D), ((runRegionalEval w o f nodeIdx xs het centering) y).1.trace = y.trace ++ evs ∧
      evs.length ≤ regionCost o.cfg.methodName o.cfg.bb.jac.isSome (.bool false) 100 true * regionCount (positionCount o.cfg.data o.cfg.types 20 (focAll f)) 1 +
        regionEvalCost o.cfg.methodName o.cfg.bb.jac.isSome centering xs.length ∧ ∀ e ∈ evs, Variants o.cfg.data f e.call := by
  by_cases hf : y.obj.fitted f = true
  · obtain ⟨evs, t, l, c⟩ := C111_eval_fitted w o f nodeIdx xs het centering y hy hf
    exact ⟨evs, t, by omega, c⟩
  have hnamed : named D (.int ((f : ℕ) : ℤ)) = [f] := by
    unfold named
    have hres : resolveFeatures D (.list [((f : ℕ) : ℤ)]) = .ok [f] := resolve_int f
    show (match resolveFeatures D (.list [((f : ℕ) : ℤ)]) with | .ok l => l | .error _ => []) = [f]
    rw [hres]
  obtain ⟨e1, t1, l1, c1⟩ := C111_fit w o (.int (f : ℕ)) (FitKw.default o.cfg.methodName) hr y
  have hst := C111_stored_fit w o (.int (f : ℕ)) (FitKw.default o.cfg.methodName) hr y hy
  rw [hnamed] at l1 c1
  have hfoc : (FitKw.default (K := K) (D := D) o.cfg.methodName).foc = none := by
    unfold FitKw.default
    rfl
  rw [List.map_singleton, List.sum_singleton, hfoc] at l1
  replace l1 : e1.length ≤ regionCost o.cfg.methodName o.cfg.bb.jac.isSome (.bool false) 100 true * regionCount (positionCount o.cfg.data o.cfg.types 20 (focAll f)) 1 := l1
  have c1' : ∀ e ∈ e1, Variants o.cfg.data f e.call := by
    intro e he
    obtain ⟨g, hg, hv⟩ := c1 e he
    rw [List.mem_singleton] at hg
    subst hg
    exact hv
  have hrefit : runRegionalRefit w o f y = runRegionalFit w o (.int (f : ℕ)) (FitKw.default o.cfg.methodName) y := by
    unfold runRegionalRefit
    rw [run_bind]
    show (if y.obj.fitted f = true then pure () else _ : RunM σ K D (RegionalState K D) Unit) y = _
    rw [if_neg hf]
  unfold runRegionalEval
  rw [run_bind, hrefit]
  generalize runRegionalFit w o (.int (f : ℕ)) (FitKw.default o.cfg.methodName) y = q at t1 hst
  obtain ⟨y1, r⟩ := q
  cases r with
  | error e => exact ⟨e1, t1, by omega, c1'⟩
  | ok u =>
    obtain ⟨e2, t2, l2, c2, -⟩ := asks_evalTail w o f nodeIdx xs het centering y1 hst
    refine ⟨e1 ++ e2, ?_, by rw [List.length_append]; omega, ?_⟩
    · rw [← List.append_assoc, ← t1]
      exact t2
    · intro e he
      rcases List.mem_append.mp he with h | h
      · exact c1' e h
      · exact c2 e h

/-! ## Objects from the constructors -/

/-- The hypothesis about RegionalRHALE is met by every object that the constructor returns. -/
theorem C111_constructor [PySqrt K] (bb : BlackBoxes K D) (meth : String) (data : List (Row K D)) (given : Option (List (Row K D))) (nof : PyVal)
    (axisLimits : Option ((Fin D → K) × (Fin D → K))) (types : Option (Fin D → FeatType)) (catLimit : ℕ) (names : Option (Fin D → String)) (fmt : K → String)
    (o : RegionalObj K D) (h : regionalNew bb meth data given nof axisLimits types catLimit names fmt = .ok o) :
    (o.cfg.methodName = "rhale" → o.cfg.instanceEffects.isSome = true) ∧ RegionsStored o RegionalState.init ∧ o.cfg.methodName = meth ∧ ∀ r ∈ o.cfg.data, r ∈ data := by
  unfold regionalNew regionalInit at h
  simp only [bind, Except.bind, pure, Except.pure] at h
  cases h1 : prepNofInstances bb.choice nof data.length with
  | error e => rw [h1] at h; cases h
  | ok p =>
  rw [h1] at h
  simp only [] at h
  cases h2 : takeRows data p.2 with
  | error e => rw [h2] at h; cases h
  | ok data' =>
  rw [h2] at h
  simp only [] at h
  by_cases hm : meth = "rhale"
  · rw [if_pos hm] at h
    simp only [] at h
    cases h3 : takeRows (regionalRhaleEffects bb given data) p.2 with
    | error e => rw [h3] at h; cases h
    | ok eff =>
      rw [h3] at h
      simp only [Except.map] at h
      cases axisLimits with
      | some l =>
        cases h
        exact ⟨fun _ => rfl, stored_init _, rfl, takeRows_mem h2⟩
      | none =>
        simp only [] at h
        cases h4 : axisLimitsAll data with
        | error e => rw [h4] at h; cases h
        | ok l =>
          rw [h4] at h
          cases h
          exact ⟨fun _ => rfl, stored_init _, rfl, takeRows_mem h2⟩
  · rw [if_neg hm] at h
    simp only [] at h
    cases axisLimits with
    | some l =>
      cases h
      exact ⟨fun h => absurd h hm, stored_init _, rfl, takeRows_mem h2⟩
    | none =>
      simp only [] at h
      cases h4 : axisLimitsAll data with
      | error e => rw [h4] at h; cases h
      | ok l =>
        rw [h4] at h
        cases h
        exact ⟨fun h => absurd h hm, stored_init _, rfl, takeRows_mem h2⟩

/-! ## Concrete cases -/

/-- The bounds for `interactionData` (feature 0, conditioning feature 1 categorical with two values, one level): 7 regions of 3 calls for ALE, 7 of 2 for PDP without centring. -/
example : regionCount 2 1 = 7 ∧ regionCost "ale" true (.bool false) 4 true * regionCount 2 1 = 21 ∧ regionCost "pdp" true (.bool false) 4 true * regionCount 2 1 = 14 ∧
    positionCount interactionData (getFeatureTypes interactionData 3) 2 (focAll 0) = 2 := by
  refine ⟨?_, ?_, ?_, ?_⟩ <;> decide +kernel

/-- And they are attained: with a model that never raises, `fit` makes exactly that many calls (`C110_false_ale`, `C110_false_pdp`). -/
example : (fitInteraction 100 "ale").map (·.2.2.1) = some 21 ∧ (fitInteraction 100 "pdp").map (·.2.2.1) = some 14 := by
  rw [C110_false_ale.1, C110_false_pdp.1]
  exact ⟨rfl, rfl⟩

/-- With centring, a d-PDP without gradient and no vectorisation, a region may cost 1 + 2·4 + 2·10 calls. -/
example : regionCost "d-pdp" false (.str "zero_integral") 4 false = 29 := by decide +kernel

end Effector
