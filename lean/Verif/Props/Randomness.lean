import Verif.Props.Refit

/-!
# C96: randomness

`np.random.choice` is called afresh by every public call.  In the model the outcome is a field of the object (`BlackBoxes.choice`), so that two calls on the same
object would draw the same.  Here every call has its own outcome: when nothing has to be sub-sampled the object and its answers do not depend on the outcomes;
otherwise they do.
-/

set_option linter.unusedSectionVars false

namespace Effector

variable {K : Type} [Field K] [LinearOrder K] [IsStrictOrderedRing K] {D : ℕ}

open Spec

namespace Spec

/-- The same object with another outcome of the random draws to come. -/
def reseed (o : RegionalObj K D) (ch : ℕ → ℕ → List ℕ) : RegionalObj K D :=
  { o with cfg := { o.cfg with bb := { o.cfg.bb with choice := ch } } }

/-- A history in which every call has its own outcome of the random draws. -/
def freshRun [PySqrt K] (o : RegionalObj K D) (hist : List ((ℕ → ℕ → List ℕ) × RegCall K D)) : RegionalState K D :=
  hist.foldl (fun st p => regStepM (reseed o p.1) st p.2) RegionalState.init

/-- Everything an object holds, except the heterogeneity function that the last search of a feature used (no method reads it again). -/
def visible (st : RegionalState K D) : RegionalState K D :=
  { st with splits := fun f => (st.splits f).map fun p => ({ p.1 with heter := fun _ _ => 0 }, p.2) }

/-- The node an `eval` is about. -/
def nodeAt [PySqrt K] (o : RegionalObj K D) (st : RegionalState K D) (f : Fin D) (node : ℕ) : Py (Node K D) := getNodeInfo (regionalRefitM o st f).1 f node

/-- A region of `n` instances is not sub-sampled by the global effect that a regional `eval` builds for it. -/
def SmallFor (meth : String) (n : ℕ) : Prop := (meth = "pdp" ∨ meth = "d-pdp" → n ≤ 300) ∧ (meth = "shap" → n ≤ 100)

end Spec

/-! ### The search -/

/-- Two heterogeneity functions that agree on regions of at most `N` instances. -/
def Agree (N : ℕ) (h h' : HeterM K D) : Prop := ∀ x e, x.length ≤ N → h x e = h' x e

section

variable {N : ℕ} {h h' : HeterM K D}

theorem mapM_agree {α β : Type} {f g : α → Py β} (l : List α) (hl : ∀ x ∈ l, f x = g x) : l.mapM f = l.mapM g := by
  induction l with
  | nil => rfl
  | cons a t ih =>
    rw [List.mapM_cons, List.mapM_cons, hl a (by simp), ih fun x hx => hl x (by simp [hx])]

theorem hetersM_agree (ha : Agree N h h') {xs : List (List (Row K D))} (hx : ∀ x ∈ xs, x.length ≤ N) (js : Option (List (List (Row K D)))) :
    hetersM h xs js = hetersM h' xs js := by
  unfold hetersM
  cases js with
  | none => exact mapM_agree xs fun x hm => ha x none (hx x hm)
  | some js => exact mapM_agree _ fun p hm => ha p.1 _ (hx p.1 (List.of_mem_zip (a := p.1) (b := p.2) hm).1)

theorem splitAll_le {xs : List (List (Row K D))} (hx : ∀ x ∈ xs, x.length ≤ N) (f : Fin D) (pos : K) (typ : FeatType) :
    ∀ x ∈ splitAll xs f pos typ, x.length ≤ N := by
  intro x hm
  unfold splitAll at hm
  obtain ⟨y, hy, hm⟩ := List.mem_flatMap.mp hm
  have hy := hx y hy
  simp only [splitRows, List.mem_cons, List.not_mem_nil, or_false] at hm
  rcases hm with rfl | rfl <;> exact (List.length_filter_le _ _).trans hy

theorem evalCandidateM_agree (ha : Agree N h h') {xs : List (List (Row K D))} (hx : ∀ x ∈ xs, x.length ≤ N) (js : Option (List (List (Row K D))))
    (before : List K) (f : Fin D) (pos : K) (typ : FeatType) : evalCandidateM h xs js before f pos typ = evalCandidateM h' xs js before f pos typ := by
  unfold evalCandidateM
  simp only [hetersM_agree ha (splitAll_le hx f pos typ)]

theorem singleLevelSplitsM_agree (ha : Agree N h h') (cfg : RegCfg K D) {xs : List (List (Row K D))} (hx : ∀ x ∈ xs, x.length ≤ N)
    (js : Option (List (List (Row K D)))) (before : List K) : singleLevelSplitsM cfg h xs js before = singleLevelSplitsM cfg h' xs js before := by
  have hm : ∀ w f typ ps, matrixRowM h w xs js before f typ ps = matrixRowM h' w xs js before f typ ps := by
    intro w f typ ps
    unfold matrixRowM
    rw [mapM_agree ps fun pos _ => evalCandidateM_agree ha hx js before f pos typ]
  unfold singleLevelSplitsM
  simp only [hm, evalCandidateM_agree ha hx, hetersM_agree ha (splitAll_le hx _ _ _)]

theorem searchLoopM_agree (ha : Agree N h h') (cfg : RegCfg K D) (n : ℕ) {xs : List (List (Row K D))} (hx : ∀ x ∈ xs, x.length ≤ N)
    (js : Option (List (List (Row K D)))) (before : List K) : searchLoopM cfg h n xs js before = searchLoopM cfg h' n xs js before := by
  induction n generalizing xs js before with
  | zero => rfl
  | succ n ih =>
    unfold searchLoopM
    rw [singleLevelSplitsM_agree ha cfg hx]
    split
    · rfl
    · simp only [bind, Except.bind, pure, Except.pure]
      cases singleLevelSplitsM cfg h' xs js before with
      | error e => rfl
      | ok sp => simp only [ih (splitAll_le hx _ _ _)]

theorem searchLoopM_heter (cfg : RegCfg K D) (H : List (Row K D) → Option (List (Row K D)) → K) (n : ℕ) (xs : List (List (Row K D)))
    (js : Option (List (List (Row K D)))) (before : List K) : searchLoopM { cfg with heter := H } h n xs js before = searchLoopM cfg h n xs js before := by
  induction n generalizing xs js before with
  | zero => rfl
  | succ n ih =>
    unfold searchLoopM
    simp only [ih]
    rfl

theorem searchAllSplitsM_agree (cfg : RegCfg K D) (ha : Agree cfg.data.length h h') (H : List (Row K D) → Option (List (Row K D)) → K) :
    searchAllSplitsM { cfg with heter := H } h = searchAllSplitsM cfg h' := by
  unfold searchAllSplitsM
  simp only [searchLoopM_heter, searchLoopM_agree ha cfg cfg.maxLevels (xs := [cfg.data]) (by simp), ha cfg.data cfg.dataEffect (le_refl _)]

end

/-! ### The heterogeneity functions and the nodes' effects -/

section

variable [PySqrt K]

theorem baseInit_draw (ch ch' : ℕ → ℕ → List ℕ) {n : ℕ} {nof : PyVal} (hk : KeepsAll n nof) (x : List (Row K D)) (hx : x.length ≤ n)
    (lims : Option ((Fin D → K) × (Fin D → K))) : Base.init ch x nof lims = Base.init ch' x nof lims := by
  unfold Base.init
  obtain ⟨k, e⟩ := prepNof_keeps ch hk hx
  obtain ⟨k', e'⟩ := prepNof_keeps ch' hk hx
  simp only [e, e', bind, Except.bind]

theorem shapInit_draw (ch ch' : ℕ → ℕ → List ℕ) {n : ℕ} {nof : PyVal} (hk : KeepsAll n nof) (x : List (Row K D)) (hx : x.length ≤ n)
    (lims : Option ((Fin D → K) × (Fin D → K))) : shapInit ch x nof lims = shapInit ch' x nof lims := by
  unfold shapInit
  obtain ⟨k, e⟩ := prepNof_keeps ch hk hx
  obtain ⟨k', e'⟩ := prepNof_keeps ch' hk hx
  simp only [e, e', bind, Except.bind, takeRows_range]
  exact baseInit_draw ch ch' hk x hx lims

theorem rhaleInit_draw (ch ch' : ℕ → ℕ → List ℕ) (model : List (Row K D) → List K) (jac : Option (List (Row K D) → List (Row K D))) {n : ℕ} {nof : PyVal}
    (hk : KeepsAll n nof) (x : List (Row K D)) (hx : x.length ≤ n) (given : Option (List (Row K D))) (lims : Option ((Fin D → K) × (Fin D → K))) :
    rhaleInit ch model jac x given nof lims = rhaleInit ch' model jac x given nof lims := by
  unfold rhaleInit
  obtain ⟨k, e⟩ := prepNof_keeps ch hk hx
  obtain ⟨k', e'⟩ := prepNof_keeps ch' hk hx
  simp only [e, e', bind, Except.bind, takeRows_range, baseInit_draw ch ch' (Or.inl rfl : KeepsAll n (.str "all")) x hx]

theorem aleHeter_mk {mk mk' : List (Row K D) → Option (List (Row K D)) → Py (AleCfg K D)} (hmk : ∀ x e, mk x e = mk' x e) (f : Fin D) (bm : BinMethod K)
    (m : ℕ) (c : PyVal) : aleHeter mk f bm m c = aleHeter mk' f bm m c := by
  have : mk = mk' := by funext x e; exact hmk x e
  rw [this]

theorem regionalHeter_reseed (o : RegionalObj K D) (ch : ℕ → ℕ → List ℕ) (kw : FitKw K D)
    (hkw : o.cfg.methodName ≠ "rhale" → o.cfg.methodName ≠ "ale" → o.cfg.methodName ≠ "shap" → KeepsAll o.cfg.data.length kw.nof) (f : Fin D) :
    (∃ e, regionalHeter (reseed o ch) kw f = .error e ∧ regionalHeter o kw f = .error e) ∨
    (∃ h h', regionalHeter (reseed o ch) kw f = .ok h ∧ regionalHeter o kw f = .ok h' ∧ Agree o.cfg.data.length h h') := by
  unfold regionalHeter reseed
  simp only [bind, Except.bind, pure, Except.pure]
  by_cases h1 : o.cfg.methodName = "rhale"
  · simp only [if_pos h1]
    cases prepBinningMethod kw.bin with
    | error e => exact Or.inl ⟨e, rfl, rfl⟩
    | ok bm =>
      refine Or.inr ⟨_, _, rfl, rfl, fun x e _ => ?_⟩
      rw [aleHeter_mk (fun x e => ?_)]
      unfold mkRhale
      rw [rhaleInit_draw ch o.cfg.bb.choice _ _ (Or.inl rfl) x (le_refl _)]
  simp only [if_neg h1]
  by_cases h2 : o.cfg.methodName = "ale"
  · simp only [if_pos h2]
    cases prepBinningMethod kw.bin with
    | error e => exact Or.inl ⟨e, rfl, rfl⟩
    | ok bm =>
      refine Or.inr ⟨_, _, rfl, rfl, fun x e _ => ?_⟩
      rw [aleHeter_mk (fun x e => ?_)]
      unfold mkAle
      rw [baseInit_draw ch o.cfg.bb.choice (Or.inl rfl) x (le_refl _)]
  simp only [if_neg h2]
  by_cases h3 : o.cfg.methodName = "shap"
  · simp only [if_pos h3]
    refine Or.inr ⟨_, _, rfl, rfl, fun x e hx => ?_⟩
    show shapHeter _ _ _ _ _ _ _ _ = shapHeter _ _ _ _ _ _ _ _
    unfold shapHeter
    rw [shapInit_draw ch o.cfg.bb.choice (Or.inr ⟨_, rfl, le_refl _⟩ : KeepsAll o.cfg.data.length (.int o.cfg.data.length)) x hx]
  simp only [if_neg h3]
  have hk := hkw h1 h2 h3
  by_cases h4 : o.cfg.methodName = "pdp"
  · simp only [if_pos h4]
    refine Or.inr ⟨_, _, rfl, rfl, fun x e hx => ?_⟩
    show pdpHeter _ _ _ _ _ _ _ _ _ _ _ _ = pdpHeter _ _ _ _ _ _ _ _ _ _ _ _
    unfold pdpHeter
    rw [baseInit_draw ch o.cfg.bb.choice hk x hx]
  · simp only [if_neg h4]
    refine Or.inr ⟨_, _, rfl, rfl, fun x e hx => ?_⟩
    show pdpHeter _ _ _ _ _ _ _ _ _ _ _ _ = pdpHeter _ _ _ _ _ _ _ _ _ _ _ _
    unfold pdpHeter
    rw [baseInit_draw ch o.cfg.bb.choice hk x hx]

theorem createAndEval_reseed (bb : BlackBoxes K D) (ch : ℕ → ℕ → List ℕ) (meth : String) (x : List (Row K D)) (hs : SmallFor meth x.length)
    (e : Option (List (Row K D))) (s : Fin D) (xs : List K) (het : Bool) (c : PyVal) :
    createAndEval { bb with choice := ch } meth x e s xs het c = createAndEval bb meth x e s xs het c := by
  unfold createAndEval
  by_cases h1 : meth = "rhale"
  · simp only [if_pos h1, rhaleOnce]
    rw [rhaleInit_draw ch bb.choice _ _ (Or.inl rfl) x (le_refl _)]
  simp only [if_neg h1]
  by_cases h2 : meth = "ale"
  · simp only [if_pos h2, aleOnce]
    rw [baseInit_draw ch bb.choice (Or.inl rfl) x (le_refl _)]
  simp only [if_neg h2]
  by_cases h3 : meth = "shap"
  · simp only [if_pos h3, shapOnce]
    rw [shapInit_draw ch bb.choice (Or.inr ⟨100, rfl, by norm_num⟩ : KeepsAll 100 (.int 100)) x (hs.2 h3)]
  simp only [if_neg h3]
  by_cases h4 : meth = "pdp"
  · simp only [if_pos h4, pdpOnce]
    rw [baseInit_draw ch bb.choice (Or.inr ⟨300, rfl, by norm_num⟩ : KeepsAll 300 (.int 300)) x (hs.1 (Or.inl h4))]
  simp only [if_neg h4]
  by_cases h5 : meth = "d-pdp"
  · simp only [if_pos h5, pdpOnce]
    rw [baseInit_draw ch bb.choice (Or.inr ⟨300, rfl, by norm_num⟩ : KeepsAll 300 (.int 300)) x (hs.1 (Or.inr h5))]
  simp only [if_neg h5]

/-! ### The object -/

/-- A `Regions` object without its heterogeneity function. -/
def blank (r : RegCfg K D) : RegCfg K D := { r with heter := fun _ _ => 0 }

theorem splitsToTree_blank {r r' : RegCfg K D} (h : blank r = blank r') (pt : Fin D → K → String) (sp : Option (Splits K D)) (b : Bool) :
    splitsToTree r pt sp b = splitsToTree r' pt sp b := by
  have e : ∀ r : RegCfg K D, splitsToTree r pt sp b = splitsToTree (blank r) pt sp b := fun _ => rfl
  rw [e r, e r', h]

/-- The sub-sampling of the fit (`nof_instances` of the PDP classes) does not set in. -/
def FitKeeps (o : RegionalObj K D) (kw : FitKw K D) : Prop :=
  o.cfg.methodName ≠ "rhale" → o.cfg.methodName ≠ "ale" → o.cfg.methodName ≠ "shap" → KeepsAll o.cfg.data.length kw.nof

theorem fitResult_reseed (o : RegionalObj K D) (ch : ℕ → ℕ → List ℕ) (kw : FitKw K D) (hkw : FitKeeps o kw) (f : Fin D) :
    (fitResult (reseed o ch) kw f).map (fun q => (blank q.1, q.2)) = (fitResult o kw f).map (fun q => (blank q.1, q.2)) := by
  unfold fitResult
  simp only [bind, Except.bind, pure, Except.pure]
  have hb : blank (regionsOf (reseed o ch).cfg (kw.toArgs (reseed o ch)) f) = blank (regionsOf o.cfg (kw.toArgs o) f) := by
    simp only [blank, regionsOf, FitKw.toArgs, reseed]
  rcases regionalHeter_reseed o ch kw hkw f with ⟨e, e1, e2⟩ | ⟨h, h', e1, e2, ha⟩
  · rw [e1, e2]
  · rw [e1, e2]
    simp only []
    have hs : searchAllSplitsM (regionsOf (reseed o ch).cfg (kw.toArgs (reseed o ch)) f) h = searchAllSplitsM (regionsOf o.cfg (kw.toArgs o) f) h' := by
      have := searchAllSplitsM_agree (regionsOf o.cfg (kw.toArgs o) f) (h := h) (h' := h') ha ((kw.toArgs (reseed o ch)).heter f)
      rw [← this]
      congr 1
    rw [hs, show (reseed o ch).cfg.fmt = o.cfg.fmt from rfl]
    cases searchAllSplitsM (regionsOf o.cfg (kw.toArgs o) f) h' with
    | error e => rfl
    | ok sp =>
      simp only []
      rw [splitsToTree_blank hb, splitsToTree_blank hb]
      cases splitsToTree (regionsOf o.cfg (kw.toArgs o) f) (posTextOf o.cfg.fmt none) sp false with
      | error e => rfl
      | ok full =>
        cases splitsToTree (regionsOf o.cfg (kw.toArgs o) f) (posTextOf o.cfg.fmt none) sp true with
        | error e => rfl
        | ok pruned =>
          simp only [Except.map, hb]

theorem visible_fields {st st' : RegionalState K D} (h : visible st = visible st') :
    st.fitted = st'.fitted ∧ st.treeFull = st'.treeFull ∧ st.treePruned = st'.treePruned ∧ st.treeFullScaled = st'.treeFullScaled ∧
      st.treePrunedScaled = st'.treePrunedScaled ∧ st.methodBin = st'.methodBin ∧
      ∀ f, (st.splits f).map (fun p => (blank p.1, p.2)) = (st'.splits f).map (fun p => (blank p.1, p.2)) := by
  have := congrArg RegionalState.splits h
  exact ⟨by exact (congrArg RegionalState.fitted h :), by exact (congrArg RegionalState.treeFull h :), by exact (congrArg RegionalState.treePruned h :), by exact (congrArg RegionalState.treeFullScaled h :),
    by exact (congrArg RegionalState.treePrunedScaled h :), by exact (congrArg RegionalState.methodBin h :), fun f => congrFun this f⟩

theorem visible_of {st st' : RegionalState K D} (h1 : st.fitted = st'.fitted) (h2 : st.treeFull = st'.treeFull) (h3 : st.treePruned = st'.treePruned)
    (h4 : st.treeFullScaled = st'.treeFullScaled) (h5 : st.treePrunedScaled = st'.treePrunedScaled) (h6 : st.methodBin = st'.methodBin)
    (h7 : ∀ f, (st.splits f).map (fun p => (blank p.1, p.2)) = (st'.splits f).map (fun p => (blank p.1, p.2))) : visible st = visible st' := by
  have e : (visible st).splits = (visible st').splits := funext h7
  cases st
  cases st'
  simp only [visible] at *
  subst h1 h2 h3 h4 h5 h6
  rw [e]

theorem fitOne_reseed (o : RegionalObj K D) (ch : ℕ → ℕ → List ℕ) (kw : FitKw K D) (hkw : FitKeeps o kw) {st st' : RegionalState K D}
    (hst : visible st = visible st') (f : Fin D) :
    visible (regionalFitOne (reseed o ch) kw st f).1 = visible (regionalFitOne o kw st' f).1 ∧
      (regionalFitOne (reseed o ch) kw st f).2 = (regionalFitOne o kw st' f).2 := by
  have hr := fitResult_reseed o ch kw hkw f
  obtain ⟨f1, f2, f3, f4, f5, f6, f7⟩ := visible_fields hst
  cases e1 : fitResult (reseed o ch) kw f with
  | error e =>
    cases e2 : fitResult o kw f with
    | ok q => rw [e1, e2] at hr; cases hr
    | error e' =>
      rw [e1, e2] at hr
      cases hr
      rw [(regionalFitOne_eq _ kw st f).1 e e1, (regionalFitOne_eq _ kw st' f).1 e e2]
      exact ⟨hst, rfl⟩
  | ok q =>
    cases e2 : fitResult o kw f with
    | error e' => rw [e1, e2] at hr; cases hr
    | ok q' =>
      rw [e1, e2] at hr
      rw [(regionalFitOne_eq _ kw st f).2 q e1, (regionalFitOne_eq _ kw st' f).2 q' e2]
      obtain ⟨r, sp, full, pruned⟩ := q
      obtain ⟨r', sp', full', pruned'⟩ := q'
      simp only [Except.map, Except.ok.injEq, Prod.mk.injEq] at hr
      obtain ⟨g1, rfl, rfl, rfl⟩ := hr
      refine ⟨visible_of (by simp only [f1]) (by simp only [f2]) (by simp only [f3]) f4 f5 (by simp only [f6]) fun i => ?_, rfl⟩
      by_cases hi : i = f
      · subst hi; simp [g1]
      · simp [Function.update_of_ne hi, f7]

theorem fitLoop_reseed (o : RegionalObj K D) (ch : ℕ → ℕ → List ℕ) (kw : FitKw K D) (hkw : FitKeeps o kw) (l : List (Fin D)) {st st' : RegionalState K D}
    (hst : visible st = visible st') :
    visible (regionalFitLoop (reseed o ch) kw st l).1 = visible (regionalFitLoop o kw st' l).1 ∧
      (regionalFitLoop (reseed o ch) kw st l).2 = (regionalFitLoop o kw st' l).2 := by
  induction l generalizing st st' with
  | nil => exact ⟨hst, rfl⟩
  | cons f t ih =>
    obtain ⟨h1, h2⟩ := fitOne_reseed o ch kw hkw hst f
    unfold regionalFitLoop
    revert h1 h2
    generalize regionalFitOne (reseed o ch) kw st f = A
    generalize regionalFitOne o kw st' f = B
    rcases A with ⟨q, r⟩
    rcases B with ⟨q', r'⟩
    intro h1 h2
    obtain rfl : r = r' := h2
    cases r with
    | error e => exact ⟨h1, rfl⟩
    | ok u => exact ih h1

theorem fit_reseed (o : RegionalObj K D) (ch : ℕ → ℕ → List ℕ) (features : PyVal) (kw : FitKw K D) (hkw : FitKeeps o kw) {st st' : RegionalState K D}
    (hst : visible st = visible st') :
    visible (regionalFit (reseed o ch) st features kw).1 = visible (regionalFit o st' features kw).1 ∧
      (regionalFit (reseed o ch) st features kw).2 = (regionalFit o st' features kw).2 := by
  unfold regionalFit
  split_ifs
  · exact ⟨hst, rfl⟩
  · cases (do let l ← prepFeatures features D
              resolveFeatures D l : Py (List (Fin D))) with
    | error e => exact ⟨hst, rfl⟩
    | ok l => exact fitLoop_reseed o ch kw hkw l hst

theorem refit_reseed (o : RegionalObj K D) (ch : ℕ → ℕ → List ℕ) {st st' : RegionalState K D} (hst : visible st = visible st') (f : Fin D) :
    visible (regionalRefitM (reseed o ch) st f).1 = visible (regionalRefitM o st' f).1 ∧
      (regionalRefitM (reseed o ch) st f).2 = (regionalRefitM o st' f).2 := by
  unfold regionalRefitM
  rw [(visible_fields hst).1]
  split_ifs
  · exact ⟨hst, rfl⟩
  · exact fit_reseed o ch _ _ (fun _ _ _ => Or.inl rfl) hst

theorem refitM_fitted (o : RegionalObj K D) (st st' : RegionalState K D) (f : Fin D) (hr : regionalRefitM o st f = (st', .ok ())) : st'.fitted f = true := by
  unfold regionalRefitM at hr
  by_cases hf : st.fitted f = true
  · rw [if_pos hf] at hr; cases hr; exact hf
  · rw [if_neg hf, regionalFit_int _ _ _ _ (by simp [FitKw.default])] at hr
    exact (regionalFitOne_state o _ st f).2 st' hr

theorem getNodeInfo_visible {st st' : RegionalState K D} (hst : visible st = visible st') (f : Fin D) (i : ℕ) : getNodeInfo st f i = getNodeInfo st' f i := by
  obtain ⟨f1, f2, f3, f4, f5, f6, f7⟩ := visible_fields hst
  unfold getNodeInfo
  rw [f1, f3, f5]

theorem plotPrep_reseed (o : RegionalObj K D) (ch : ℕ → ℕ → List ℕ) {st st' : RegionalState K D} (hst : visible st = visible st') (f : Fin D)
    (hf : st'.fitted f = true) (scales : Option (Fin D → Scale K)) :
    visible (regionalPlotPrep (reseed o ch).cfg st f scales).1 = visible (regionalPlotPrep o.cfg st' f scales).1 ∧
      (regionalPlotPrep (reseed o ch).cfg st f scales).2 = (regionalPlotPrep o.cfg st' f scales).2 := by
  obtain ⟨f1, f2, f3, f4, f5, f6, f7⟩ := visible_fields hst
  unfold regionalPlotPrep
  rw [refit_idle _ _ _ hf, refit_idle _ _ _ (by rw [f1]; exact hf)]
  simp only []
  cases scales with
  | none => exact ⟨hst, rfl⟩
  | some sc =>
    have h7 := f7 f
    simp only []
    cases e1 : st.splits f with
    | none =>
      cases e2 : st'.splits f with
      | none => exact ⟨hst, rfl⟩
      | some q => rw [e1, e2] at h7; cases h7
    | some p =>
      cases e2 : st'.splits f with
      | none => rw [e1, e2] at h7; cases h7
      | some q =>
        rw [e1, e2] at h7
        obtain ⟨r, sp⟩ := p
        obtain ⟨r', sp'⟩ := q
        simp only [Option.map_some, Option.some.injEq, Prod.mk.injEq] at h7
        obtain ⟨hb, rfl⟩ := h7
        simp only []
        rw [splitsToTree_blank hb, splitsToTree_blank hb, show (reseed o ch).cfg.fmt = o.cfg.fmt from rfl]
        cases splitsToTree r' (posTextOf o.cfg.fmt (some sc)) sp false with
        | error e => exact ⟨hst, rfl⟩
        | ok a =>
          cases splitsToTree r' (posTextOf o.cfg.fmt (some sc)) sp true with
          | error e => exact ⟨hst, rfl⟩
          | ok b => exact ⟨visible_of f1 f2 f3 (by simp only [f4]) (by simp only [f5]) f6 f7, rfl⟩

theorem evalM_state (o : RegionalObj K D) (st : RegionalState K D) (f : Fin D) (node : ℕ) (xs : List K) (het : Bool) (c : PyVal) :
    (regionalEvalM o st f node xs het c).1 = (regionalRefitM o st f).1 := by
  unfold regionalEvalM
  rcases hr : regionalRefitM o st f with ⟨st', e | ⟨⟩⟩
  · rfl
  · simp only []
    unfold regionalEval
    rw [refit_idle _ _ _ (refitM_fitted o st st' f hr)]

/-- A call that draws nothing at random while it changes the object. -/
def CallQuiet (o : RegionalObj K D) : RegCall K D → Prop
  | .fit _ kw => FitKeeps o kw
  | _ => True

theorem step_reseed (o : RegionalObj K D) (ch : ℕ → ℕ → List ℕ) (call : RegCall K D) (hq : CallQuiet o call) {st st' : RegionalState K D}
    (hst : visible st = visible st') : visible (regStepM (reseed o ch) st call) = visible (regStepM o st' call) := by
  cases call with
  | fit features kw => exact (fit_reseed o ch features kw hq hst).1
  | eval f n xs het c =>
    show visible (regionalEvalM _ st f n xs het c).1 = visible (regionalEvalM o st' f n xs het c).1
    rw [evalM_state, evalM_state]
    exact (refit_reseed o ch hst f).1
  | plot f sc =>
    show visible (regionalPlotM _ st f sc).1 = visible (regionalPlotM o st' f sc).1
    obtain ⟨h1, h2⟩ := refit_reseed o ch hst f
    unfold regionalPlotM
    have hf := refitM_fitted o st' (regionalRefitM o st' f).1 f
    revert h1 h2 hf
    generalize regionalRefitM (reseed o ch) st f = A
    generalize regionalRefitM o st' f = B
    rcases A with ⟨q, r⟩
    rcases B with ⟨q', r'⟩
    intro h1 h2 hf
    obtain rfl : r = r' := h2
    cases r with
    | error e => exact h1
    | ok u => exact (plotPrep_reseed o ch h1 f (hf rfl) sc).1

theorem foldl_reseed (o : RegionalObj K D) (hist : List ((ℕ → ℕ → List ℕ) × RegCall K D)) (hq : ∀ p ∈ hist, CallQuiet o p.2) {st st' : RegionalState K D}
    (hst : visible st = visible st') :
    visible (hist.foldl (fun st p => regStepM (reseed o p.1) st p.2) st) = visible ((hist.map (·.2)).foldl (regStepM o) st') := by
  induction hist generalizing st st' with
  | nil => exact hst
  | cons p t ih =>
    simp only [List.foldl_cons, List.map_cons]
    exact ih (fun q hm => hq q (by simp [hm])) (step_reseed o p.1 p.2 (hq p (by simp)) hst)

/-- **C96, the object.**  A regional object is the same whatever the random outcomes of the calls made on it, provided that no fit of RegionalPDP or RegionalDerPDP
asks for fewer instances than there are (`nof_instances`). -/
theorem C96_object (o : RegionalObj K D) (hist : List ((ℕ → ℕ → List ℕ) × RegCall K D)) (hq : ∀ p ∈ hist, CallQuiet o p.2) :
    visible (freshRun o hist) = visible (regRunM o (hist.map (·.2))) :=
  foldl_reseed o hist hq rfl

theorem evalM_reseed (o : RegionalObj K D) (ch : ℕ → ℕ → List ℕ) {st st' : RegionalState K D} (hst : visible st = visible st') (f : Fin D) (node : ℕ)
    (hn : ∀ nd, nodeAt o st' f node = .ok nd → SmallFor o.cfg.methodName nd.rows.length) (xs : List K) (het : Bool) (c : PyVal) :
    (regionalEvalM (reseed o ch) st f node xs het c).2 = (regionalEvalM o st' f node xs het c).2 := by
  obtain ⟨h1, h2⟩ := refit_reseed o ch hst f
  unfold regionalEvalM
  have hf := refitM_fitted o st' (regionalRefitM o st' f).1 f
  unfold nodeAt at hn
  revert h1 h2 hf hn
  generalize regionalRefitM (reseed o ch) st f = A
  generalize regionalRefitM o st' f = B
  rcases A with ⟨q, r⟩
  rcases B with ⟨q', r'⟩
  intro hn h1 h2 hf
  obtain rfl : r = r' := h2
  cases r with
  | error e => rfl
  | ok u =>
    have hf := hf rfl
    simp only [] at hf hn ⊢
    unfold regionalEval
    rw [refit_idle _ _ _ hf, refit_idle _ _ _ (by rw [(visible_fields h1).1]; exact hf)]
    simp only [bind, Except.bind]
    cases prepCentering c with
    | error e => rfl
    | ok m =>
      simp only [getNodeInfo_visible h1]
      cases e : getNodeInfo q' f node with
      | error e => rfl
      | ok nd => exact createAndEval_reseed o.cfg.bb ch o.cfg.methodName nd.rows (hn nd e) nd.effects f xs het m.toVal

/-- **C96, the answers.**  Under the same condition, `eval` of a region of at most 300 instances (PDP, d-PDP) or 100 instances (ShapDP), or of any region for
RHALE and ALE, returns the same whatever the random outcomes of this call and of all calls before. -/
theorem C96_answers (o : RegionalObj K D) (hist : List ((ℕ → ℕ → List ℕ) × RegCall K D)) (hq : ∀ p ∈ hist, CallQuiet o p.2) (ch : ℕ → ℕ → List ℕ) (f : Fin D)
    (node : ℕ) (hn : ∀ nd, nodeAt o (regRunM o (hist.map (·.2))) f node = .ok nd → SmallFor o.cfg.methodName nd.rows.length) (xs : List K) (het : Bool)
    (c : PyVal) :
    (regionalEvalM (reseed o ch) (freshRun o hist) f node xs het c).2 = (regionalEvalM o (regRunM o (hist.map (·.2))) f node xs het c).2 :=
  evalM_reseed o ch (C96_object o hist hq) f node hn xs het c

/-- **C96 and C91**: repeating a fit changes nothing although the repetition draws anew. -/
theorem C96_refit (o : RegionalObj K D) (hist : List ((ℕ → ℕ → List ℕ) × RegCall K D)) (hq : ∀ p ∈ hist, CallQuiet o p.2) (ch ch' : ℕ → ℕ → List ℕ)
    (features : PyVal) (kw : FitKw K D) (hkw : CallQuiet o (.fit features kw)) :
    visible (freshRun o (hist ++ [(ch, .fit features kw), (ch', .fit features kw)])) = visible (freshRun o (hist ++ [(ch, .fit features kw)])) := by
  rw [C96_object o _ (by simp only [List.mem_append, List.mem_cons, List.not_mem_nil, or_false]; rintro p (hp | rfl | rfl); exacts [hq p hp, hkw, hkw]),
    C96_object o _ (by simp only [List.mem_append, List.mem_cons, List.not_mem_nil, or_false]; rintro p (hp | rfl); exacts [hq p hp, hkw])]
  simp only [List.map_append, List.map_cons, List.map_nil]
  have := (C91_regional o (hist.map (·.2)) [] features kw).2
  simp only [List.append_nil] at this
  rw [this]

/-- **C96 and C90**: a list of positions at once, or one by one with a new draw for every position. -/
theorem C96_one_by_one (o : RegionalObj K D) (choice : ℕ → ℕ → List ℕ) (cast : K → K) (g : Row K D → K) (jac : Option (Row K D → Row K D))
    (ext : ShapExt K D) (hb : o.cfg.bb = rowBoxes choice cast g jac ext) (hist : List ((ℕ → ℕ → List ℕ) × RegCall K D)) (hq : ∀ p ∈ hist, CallQuiet o p.2)
    (ch : ℕ → ℕ → List ℕ) (f : Fin D) (node : ℕ)
    (hn : ∀ nd, nodeAt o (regRunM o (hist.map (·.2))) f node = .ok nd → SmallFor o.cfg.methodName nd.rows.length)
    (xs : List ((ℕ → ℕ → List ℕ) × K)) (hx : xs ≠ []) (het : Bool) (c : PyVal) :
    SameAsSingles appendEval (regionalEvalM (reseed o ch) (freshRun o hist) f node (xs.map (·.2)) het c).2
      (Spec.inTurn (fun st p => regionalEvalM (reseed o p.1) st f node [p.2] het c) (freshRun o hist) xs) := by
  have key : ∀ (l : List ((ℕ → ℕ → List ℕ) × K)) (st st' : RegionalState K D), visible st = visible st' →
      (∀ nd, nodeAt o st' f node = .ok nd → SmallFor o.cfg.methodName nd.rows.length) →
      Spec.inTurn (fun st p => regionalEvalM (reseed o p.1) st f node [p.2] het c) st l =
        Spec.inTurn (fun st x => regionalEvalM o st f node [x] het c) st' (l.map (·.2)) := by
    intro l
    induction l with
    | nil => intros; rfl
    | cons p t ih =>
      intro st st' hst hnd
      simp only [Spec.inTurn, List.map_cons]
      rw [evalM_reseed o p.1 hst f node hnd]
      congr 1
      refine ih _ _ (step_reseed o p.1 (.eval f node [p.2] het c) trivial hst) ?_
      intro nd h
      refine hnd nd ?_
      unfold nodeAt at h ⊢
      rw [evalM_state] at h
      rw [← h]
      by_cases hf : st'.fitted f = true
      · have : regionalRefitM o st' f = (st', .ok ()) := by unfold regionalRefitM; rw [if_pos hf]
        rw [this, this]
      · rcases hr : regionalRefitM o st' f with ⟨s1, e | ⟨⟩⟩
        · have h1 : regionalRefitM o st' f = regionalFitOne o (FitKw.default o.cfg.methodName) st' f := by
            unfold regionalRefitM; rw [if_neg hf, regionalFit_int _ _ _ _ (by simp [FitKw.default])]
          rw [h1] at hr
          obtain rfl := (regionalFitOne_state o _ st' f).1 s1 e hr
          rw [h1, hr]
        · have : regionalRefitM o s1 f = (s1, .ok ()) := by unfold regionalRefitM; rw [if_pos (refitM_fitted o st' s1 f hr)]
          rw [this]
  rw [key xs _ _ (C96_object o hist hq) hn, C96_answers o hist hq ch f node hn]
  have := C90_regional o choice cast g jac ext hb (hist.map (·.2)) f node (xs.map (·.2)) (by simpa using hx) het c
  exact this

end

/-- 151 instances with `x_1 = 0`, then 151 with `x_1 = 1`. -/
def crowd : List (Row ℚ 2) := (List.range 151).flatMap (fun i => [![((i % 3 : ℕ) : ℚ), 0]]) ++ (List.range 151).flatMap (fun i => [![((i % 3 : ℕ) : ℚ), 1]])

/-- The last `n` of `N`. -/
def lastOnes (N n : ℕ) : List ℕ := (List.range n).map (· + (N - n))


/-- The model is `x_1`. -/
def crowdBB : BlackBoxes ℚ 2 := { interactionBB with model := List.map fun r => r 1 }

/-- `fit(0, min_points_per_subregion=200)`. -/
def crowdKw : FitKw ℚ 2 := { interactionKw (.str "greedy") with minPoints := 200 }

/-- **C96 is false for larger regions**: RegionalPDP of the model `x_1` on 302 instances, fitted with all of them.  The same call of `eval`, at the root, returns two
different values for two outcomes of the draw of 300 instances. -/
theorem C96_false_large :
    (match regionalNew crowdBB "pdp" crowd none (.str "all") none none 3 none (fun q => toString q) with
    | .ok o =>
      let st := regRunM o [.fit (.int 0) crowdKw]
      [(regionalEvalM o st 0 0 [1] false (.bool false)).2, (regionalEvalM (reseed o lastOnes) st 0 0 [1] false (.bool false)).2]
    | .error _ => []) = [.ok ([149 / 300], none), .ok ([151 / 300], none)] := by
  decide +kernel

/-- The first and the last instance (a valid outcome for a draw of two). -/
def firstAndLast (N n : ℕ) : List ℕ := if n = 2 ∧ 2 ≤ N then [0, N - 1] else List.range n

/-- **C96 and C91 are false for a sub-sampled fit**: `RegionalPDP.fit(0, nof_instances=2)` on six instances finds no subregions for one outcome of the draws and two for
another; so repeating the fit can change the object. -/
theorem C96_false_fit :
    (match regionalNew interactionBB "pdp" interactionData none (.str "all") none none 3 none (fun q => toString q) with
    | .ok o =>
      let kw := { interactionKw (.str "greedy") with nof := .int 2 }
      let nodes (st : RegionalState ℚ 2) := (st.treePruned 0).join.map List.length
      [nodes (freshRun o [(fun _ n => List.range n, .fit (.int 0) kw)]), nodes (freshRun o [(fun _ n => List.range n, .fit (.int 0) kw), (firstAndLast, .fit (.int 0) kw)])]
    | .error _ => []) = [some 1, some 3] := by
  decide +kernel

/-- A case that meets the hypotheses: `fit` with `nof_instances="all"`, then `eval` of a subregion of three instances, with two different outcomes. -/
example : (match regionalNew interactionBB "pdp" interactionData none (.str "all") none none 3 none (fun q => toString q) with
    | .ok o =>
      let hist := [((firstAndLast, .fit (.int 0) (interactionKw (.str "greedy"))) : (ℕ → ℕ → List ℕ) × RegCall ℚ 2)]
      [(regionalEvalM (reseed o lastOnes) (freshRun o hist) 0 2 [0, 1, 2] false (.bool false)).2,
       (regionalEvalM o (regRunM o (hist.map (·.2))) 0 2 [0, 1, 2] false (.bool false)).2,
       ((nodeAt o (regRunM o (hist.map (·.2))) 0 2).map fun nd => ([(nd.rows.length : ℚ)], none))]
    | .error _ => []) = [.ok ([0, 3, 6], none), .ok ([0, 3, 6], none), .ok ([3], none)] := by
  decide +kernel

example (o : RegionalObj ℚ 2) : CallQuiet o (.fit (.int 0) (interactionKw (.str "greedy"))) ∧ SmallFor "pdp" 3 :=
  ⟨fun _ _ _ => Or.inl rfl, fun _ => by norm_num, fun h => by simp at h⟩

end Effector
