import Verif.Model.RegionalFit
import Verif.Props.Bounded
import Verif.Props.RegionalHistory

/-!
# C81: the five regional classes, from the constructor to the stored trees
-/

set_option linter.unusedSectionVars false

namespace Effector

open Spec

variable {K : Type} [Field K] [LinearOrder K] [IsStrictOrderedRing K] {D : ℕ}

/-! ### A search that returns is the search with the values of the heterogeneity function -/

theorem mapM_values {α β : Type} {f : α → Py β} {g : α → β} (hg : ∀ a v, f a = .ok v → g a = v) {l : List α} {r : List β} (h : l.mapM f = .ok r) :
    l.map g = r := by
  induction l generalizing r with
  | nil => cases h; rfl
  | cons a t ih =>
    simp only [List.mapM_cons, bind, Except.bind, pure, Except.pure] at h
    cases ha : f a with
    | error e => rw [ha] at h; cases h
    | ok v =>
      rw [ha] at h
      simp only at h
      cases ht : t.mapM f with
      | error e => rw [ht] at h; cases h
      | ok q =>
        rw [ht] at h
        cases h
        rw [List.map_cons, ih ht, hg a v ha]

theorem hetersM_values {h : HeterM K D} {cfg : RegCfg K D} (hc : cfg.heter = heterValues h) {xs : List (List (Row K D))} {js : Option (List (List (Row K D)))}
    {l : List K} (hl : hetersM h xs js = .ok l) : heters cfg xs js = l := by
  unfold hetersM at hl
  unfold heters
  rw [hc]
  cases js with
  | none => exact mapM_values (fun a v ha => by simp only [heterValues, ha]) hl
  | some js => exact mapM_values (fun a v ha => by simp only [heterValues, ha]) hl

theorem evalCandidateM_values {h : HeterM K D} {cfg : RegCfg K D} (hc : cfg.heter = heterValues h) {xs : List (List (Row K D))}
    {js : Option (List (List (Row K D)))} {before : List K} {f : Fin D} {pos : K} {typ : FeatType} {e : K × K}
    (he : evalCandidateM h xs js before f pos typ = .ok e) : evalCandidate cfg xs js before f pos typ = e := by
  unfold evalCandidateM at he
  simp only [bind, Except.bind, pure, Except.pure] at he
  cases hs : hetersM h (splitAll xs f pos typ) (js.map fun js => splitAllEff xs js f pos typ) with
  | error e => rw [hs] at he; cases he
  | ok sub =>
    rw [hs] at he
    cases he
    unfold evalCandidate
    simp only [hetersM_values hc hs]

theorem matrixRowM_values {h : HeterM K D} {cfg : RegCfg K D} (hc : cfg.heter = heterValues h) {w : ℕ} {xs : List (List (Row K D))}
    {js : Option (List (List (Row K D)))} {before : List K} {f : Fin D} {typ : FeatType} {ps row : List K}
    (he : matrixRowM h w xs js before f typ ps = .ok row) : padRow w (ps.map fun pos => (evalCandidate cfg xs js before f pos typ).1) = .ok row := by
  unfold matrixRowM at he
  simp only [bind, Except.bind] at he
  cases hs : ps.mapM fun pos => evalCandidateM h xs js before f pos typ with
  | error e => rw [hs] at he; cases he
  | ok vals =>
    rw [hs] at he
    have := mapM_values (g := fun pos => evalCandidate cfg xs js before f pos typ) (fun pos v hv => evalCandidateM_values hc hv) hs
    rw [← this] at he
    simp only [List.map_map] at he
    exact he

theorem mapM_weaken {α β : Type} {f g : α → Py β} (hfg : ∀ a v, f a = .ok v → g a = .ok v) {l : List α} {r : List β} (h : l.mapM f = .ok r) :
    l.mapM g = .ok r := by
  induction l generalizing r with
  | nil => cases h; rfl
  | cons a t ih =>
    simp only [List.mapM_cons, bind, Except.bind, pure, Except.pure] at h ⊢
    cases ha : f a with
    | error e => rw [ha] at h; cases h
    | ok v =>
      rw [ha] at h
      rw [hfg a v ha]
      simp only at h ⊢
      cases ht : t.mapM f with
      | error e => rw [ht] at h; cases h
      | ok q =>
        rw [ht] at h
        rw [ih ht]
        exact h

theorem singleLevelSplitsM_values {h : HeterM K D} {cfg : RegCfg K D} (hc : cfg.heter = heterValues h) {xs : List (List (Row K D))}
    {js : Option (List (List (Row K D)))} {before : List K} {sp : Split K D} (hs : singleLevelSplitsM cfg h xs js before = .ok sp) :
    singleLevelSplits cfg xs js before = .ok sp := by
  unfold singleLevelSplitsM at hs
  unfold singleLevelSplits
  simp only [bind, Except.bind, pure, Except.pure] at hs ⊢
  cases hcand : candidatePositions cfg with
  | error e => rw [hcand] at hs; cases hs
  | ok cands =>
    rw [hcand] at hs
    simp only at hs ⊢
    cases hrows : (cfg.foc.zip cands).mapM fun p => matrixRowM h (max cfg.nofSplits cfg.catLimit) xs js before p.1 (cfg.types p.1) p.2 with
    | error e => rw [hrows] at hs; cases hs
    | ok rows =>
      rw [hrows] at hs
      rw [mapM_weaken (fun p v hv => matrixRowM_values hc hv) hrows]
      simp only at hs ⊢
      by_cases hflat : rows.flatten = []
      · rw [if_pos hflat] at hs; cases hs
      · rw [if_neg hflat] at hs ⊢
        cases h1 : pyIndex cfg.foc (npArgmax rows.flatten / max cfg.nofSplits cfg.catLimit) with
        | error e => rw [h1] at hs; cases hs
        | ok f =>
          rw [h1] at hs
          simp only at hs ⊢
          cases h2 : pyIndex cands (npArgmax rows.flatten / max cfg.nofSplits cfg.catLimit) with
          | error e => rw [h2] at hs; cases hs
          | ok ps =>
            rw [h2] at hs
            simp only at hs ⊢
            cases h3 : pyIndex ps (npArgmax rows.flatten % max cfg.nofSplits cfg.catLimit) with
            | error e => rw [h3] at hs; cases hs
            | ok pos =>
              rw [h3] at hs
              simp only at hs ⊢
              cases h4 : hetersM h (splitAll xs f pos (cfg.types f)) (js.map fun js => splitAllEff xs js f pos (cfg.types f)) with
              | error e => rw [h4] at hs; cases hs
              | ok sub =>
                rw [h4] at hs
                simp only at hs
                rw [hetersM_values hc h4]
                cases h5 : listMin (col cfg.data f) with
                | error e => rw [h5] at hs; cases hs
                | ok mn =>
                  rw [h5] at hs
                  simp only at hs ⊢
                  cases h6 : listMax (col cfg.data f) with
                  | error e => rw [h6] at hs; cases hs
                  | ok mx =>
                    rw [h6] at hs
                    simp only at hs ⊢
                    cases h7 : evalCandidateM h xs js before f pos (cfg.types f) with
                    | error e => rw [h7] at hs; cases hs
                    | ok e =>
                      rw [h7] at hs
                      rw [evalCandidateM_values hc h7]
                      exact hs

theorem searchLoopM_values {h : HeterM K D} {cfg : RegCfg K D} (hc : cfg.heter = heterValues h) (n : ℕ) :
    ∀ {xs : List (List (Row K D))} {js : Option (List (List (Row K D)))} {before : List K} {l : List (Split K D)},
      searchLoopM cfg h n xs js before = .ok l → searchLoop cfg n xs js before = .ok l := by
  induction n with
  | zero => intro xs js before l hl; exact hl
  | succ n ih =>
    intro xs js before l hl
    unfold searchLoopM at hl
    unfold searchLoop
    by_cases hm : xs.any (fun x => decide (x.length < cfg.minPoints)) = true
    · rw [if_pos hm] at hl ⊢; exact hl
    · rw [if_neg hm] at hl ⊢
      simp only [bind, Except.bind, pure, Except.pure] at hl ⊢
      cases hs : singleLevelSplitsM cfg h xs js before with
      | error e => rw [hs] at hl; cases hl
      | ok sp =>
        rw [hs] at hl
        rw [singleLevelSplitsM_values hc hs]
        simp only at hl ⊢
        cases hr : searchLoopM cfg h n (splitAll xs sp.feature sp.position sp.typ) (js.map fun js => splitAllEff xs js sp.feature sp.position sp.typ)
            sp.heterogeneity with
        | error e => rw [hr] at hl; cases hl
        | ok rest =>
          rw [hr] at hl
          rw [ih hr]
          exact hl

/-- A search that returns used only values of the heterogeneity function. -/
theorem searchAllSplitsM_ok {h : HeterM K D} {cfg : RegCfg K D} (hc : cfg.heter = heterValues h) {r : Option (Splits K D)}
    (hs : searchAllSplitsM cfg h = .ok r) : searchAllSplits cfg = .ok r := by
  unfold searchAllSplitsM at hs
  unfold searchAllSplits
  by_cases h1 : cfg.types cfg.feature = .cat ∧ cfg.splitCat = false
  · rw [if_pos h1] at hs ⊢; exact hs
  · rw [if_neg h1] at hs ⊢
    by_cases h2 : cfg.foc.length < cfg.maxLevels
    · rw [if_pos h2] at hs; cases hs
    · rw [if_neg h2] at hs ⊢
      simp only [bind, Except.bind, pure, Except.pure] at hs ⊢
      cases h0 : h cfg.data cfg.dataEffect with
      | error e => rw [h0] at hs; cases hs
      | ok v =>
        rw [h0] at hs
        have hv : cfg.heter cfg.data cfg.dataEffect = v := by rw [hc]; simp only [heterValues, h0]
        rw [hv]
        simp only at hs ⊢
        cases hl : searchLoopM cfg h cfg.maxLevels [cfg.data] (cfg.dataEffect.map fun e => [e]) [v] with
        | error e => rw [hl] at hs; cases hs
        | ok levels =>
          rw [hl] at hs
          rw [searchLoopM_values hc _ hl]
          exact hs

/-! ### One fit -/

namespace Spec

/-- The result of the search for the subregions of feature `f` with the keyword arguments `kw`: the class's own heterogeneity function on the object's data. -/
def searchOf [PySqrt K] (o : RegionalObj K D) (kw : FitKw K D) (f : Fin D) : Py (Option (Splits K D)) :=
  (regionalHeter o kw f).bind fun h => searchAllSplitsM (regionsOf o.cfg (kw.toArgs o) f) h

/-- The search raises nothing. -/
def kwFits [PySqrt K] (o : RegionalObj K D) (kw : FitKw K D) (f : Fin D) : Bool := (searchOf o kw f).isOk

/-- The columns a `features` argument stands for (none if it is rejected). -/
def columns (features : PyVal) (D : ℕ) : List (Fin D) :=
  match (prepFeatures features D).bind (resolveFeatures D) with
  | .ok l => l
  | .error _ => []

/-- What one call does to the record of the last successful fit of feature `f`: `fit` goes through its features until one fails; `eval` and `plot` fit the
feature with the default arguments if it has not been fitted. -/
def kwStep [PySqrt K] (o : RegionalObj K D) (f : Fin D) (l : Option (FitKw K D)) : RegCall K D → Option (FitKw K D)
  | .fit features kw => if 2 ≤ kw.minPoints ∧ f ∈ (columns features D).takeWhile (kwFits o kw) then some kw else l
  | .eval g _ _ _ _ => if g = f ∧ l = none ∧ kwFits o (FitKw.default o.cfg.methodName) f = true then some (FitKw.default o.cfg.methodName) else l
  | .plot g _ => if g = f ∧ l = none ∧ kwFits o (FitKw.default o.cfg.methodName) f = true then some (FitKw.default o.cfg.methodName) else l

/-- The keyword arguments of the last successful fit of feature `f`. -/
def lastKw [PySqrt K] (o : RegionalObj K D) (f : Fin D) (calls : List (RegCall K D)) : Option (FitKw K D) := calls.foldl (kwStep o f) none

end Spec

theorem searchOf_ok [PySqrt K] {o : RegionalObj K D} {kw : FitKw K D} {f : Fin D} {sp : Option (Splits K D)} (h : searchOf o kw f = .ok sp) :
    searchAllSplits (regionsOf o.cfg (kw.toArgs o) f) = .ok sp := by
  unfold searchOf at h
  cases hh : regionalHeter o kw f with
  | error e => rw [hh] at h; cases h
  | ok H =>
    rw [hh] at h
    refine searchAllSplitsM_ok (h := H) ?_ h
    show (match regionalHeter o kw f with
      | .ok h => heterValues h
      | .error _ => fun _ _ => 0) = heterValues H
    rw [hh]

theorem kwFits_iff [PySqrt K] (o : RegionalObj K D) (kw : FitKw K D) (f : Fin D) : kwFits o kw f = true ↔ ∃ sp, searchOf o kw f = .ok sp := by
  unfold kwFits
  cases searchOf o kw f <;> simp [Except.isOk, Except.toBool]

theorem regionalFitOne_ok [PySqrt K] {o : RegionalObj K D} {kw : FitKw K D} (st : RegionalState K D) {f : Fin D} (hal : Spec.Aligned o.cfg)
    (h : kwFits o kw f = true) : regionalFitOne o kw st f = regionalFitFeature o.cfg st (kw.toArgs o) f ∧ (regionalFitOne o kw st f).2 = .ok () := by
  obtain ⟨sp, hsp⟩ := (kwFits_iff o kw f).mp h
  have hpure := searchOf_ok hsp
  obtain ⟨full, pruned, h1, h2, h3⟩ := regionalFitFeature_ok hal st (kw.toArgs o) f hpure
  have : regionalFitOne o kw st f = ({ st with
        treeFull := Function.update st.treeFull f (some full)
        treePruned := Function.update st.treePruned f (some pruned)
        splits := Function.update st.splits f (some (regionsOf o.cfg (kw.toArgs o) f, sp))
        fitted := Function.update st.fitted f true
        methodBin := Function.update st.methodBin f (some kw.bin) }, .ok ()) := by
    unfold searchOf at hsp
    unfold regionalFitOne
    cases hh : regionalHeter o kw f with
    | error e => rw [hh] at hsp; cases hsp
    | ok H =>
      rw [hh] at hsp
      simp only [Except.bind] at hsp
      simp only [bind, Except.bind, pure, Except.pure, hsp, h1, h2]
  rw [this, h3]
  exact ⟨rfl, rfl⟩

theorem regionalFitOne_error [PySqrt K] {o : RegionalObj K D} {kw : FitKw K D} (st : RegionalState K D) {f : Fin D} 
    (h : kwFits o kw f = false) : ∃ e, regionalFitOne o kw st f = (st, .error e) := by
  have hn : ¬ ∃ sp, searchOf o kw f = .ok sp := by
    rw [← kwFits_iff, h]
    simp
  unfold searchOf at hn
  unfold regionalFitOne
  cases hh : regionalHeter o kw f with
  | error e => exact ⟨e, by simp only [bind, Except.bind]⟩
  | ok H =>
    rw [hh] at hn
    simp only [Except.bind] at hn
    cases hs : searchAllSplitsM (regionsOf o.cfg (kw.toArgs o) f) H with
    | error e => exact ⟨e, by simp only [bind, Except.bind, hs]⟩
    | ok sp => exact absurd ⟨sp, hs⟩ hn

theorem takeWhile_true {α : Type} {p : α → Bool} {l : List α} {x : α} (h : x ∈ l.takeWhile p) : p x = true := by
  induction l with
  | nil => simp at h
  | cons a t ih =>
    rw [List.takeWhile_cons] at h
    split at h
    · rcases List.mem_cons.mp h with rfl | h
      · assumption
      · exact ih h
    · simp at h

theorem regionalFitLoop_run [PySqrt K] {o : RegionalObj K D} {kw : FitKw K D} (hal : Spec.Aligned o.cfg) (hmin : 2 ≤ kw.minPoints) (l : List (Fin D)) :
    ∀ st : RegionalState K D, (regionalFitLoop o kw st l).1 =
      ((l.takeWhile (kwFits o kw)).map (RegionalOp.fit (kw.toArgs o))).foldl (regionalStep o.cfg) st ∧
      ((regionalFitLoop o kw st l).2 = .ok () ↔ ∀ f ∈ l, kwFits o kw f = true) := by
  induction l with
  | nil => intro st; exact ⟨rfl, by simp [regionalFitLoop]⟩
  | cons f t ih =>
    intro st
    unfold regionalFitLoop
    cases h : kwFits o kw f with
    | false =>
      obtain ⟨e, he⟩ := regionalFitOne_error st h
      rw [he]
      simp [h]
    | true =>
      obtain ⟨h1, h2⟩ := regionalFitOne_ok st hal h
      rcases hr : regionalFitOne o kw st f with ⟨st', e | ⟨⟩⟩
      · rw [hr] at h2; cases h2
      · rw [hr] at h1
        simp only
        rw [(ih st').1, (ih st').2]
        simp only [List.takeWhile_cons, h, if_true, List.map_cons, List.foldl_cons, List.mem_cons, forall_eq_or_imp, true_and, and_true]
        congr 1
        have : ¬ (kw.toArgs o).minPoints < 2 := by
          show ¬ kw.minPoints < 2
          omega
        simp only [regionalStep, if_neg this, ← h1]

theorem fitFold_mem [PySqrt K] {o : RegionalObj K D} {kw : FitKw K D} (hmin : 2 ≤ kw.minPoints) (f : Fin D) (l : List (Fin D)) (hl : ∀ g ∈ l, kwFits o kw g = true) :
    ∀ a, (l.map (RegionalOp.fit (kw.toArgs o))).foldl (Spec.regFitStep o.cfg f) a = if f ∈ l then some (kw.toArgs o) else a := by
  induction l with
  | nil => intro a; simp
  | cons g t ih =>
    intro a
    rw [List.map_cons, List.foldl_cons, ih (fun x hx => hl x (List.mem_cons_of_mem _ hx))]
    by_cases ht : f ∈ t
    · simp [ht]
    · rw [if_neg ht]
      have hm : 2 ≤ (kw.toArgs o).minPoints := hmin
      by_cases hg : g = f
      · subst hg
        have : Spec.fits o.cfg (kw.toArgs o) g = true := by
          rw [fits_iff]
          obtain ⟨sp, hsp⟩ := (kwFits_iff o kw g).mp (hl g (by simp))
          exact ⟨sp, searchOf_ok hsp⟩
        simp [Spec.regFitStep, hm, this]
      · have : ¬ (f = g) := fun e => hg e.symm
        simp [Spec.regFitStep, hg, ht, this]

/-! ### Histories -/

namespace Spec

/-- The object is as its constructor leaves it: effects, if any, are as many as the instances, and `refit` uses the default arguments of the class. -/
def Constructed [PySqrt K] (o : RegionalObj K D) : Prop :=
  Aligned o.cfg ∧ o.cfg.defaultArgs = (FitKw.default o.cfg.methodName).toArgs o

end Spec

theorem regionalFit_int [PySqrt K] (o : RegionalObj K D) (st : RegionalState K D) (f : Fin D) (kw : FitKw K D) (hmin : 2 ≤ kw.minPoints) :
    regionalFit o st (.int (f : ℕ)) kw = regionalFitOne o kw st f := by
  unfold regionalFit
  rw [if_neg (by omega)]
  have := resolve_int f
  simp only [bind] at this ⊢
  rw [this]
  simp only [regionalFitLoop]
  rcases regionalFitOne o kw st f with ⟨st', e | ⟨⟩⟩ <;> rfl

theorem regionalRefitM_cases [PySqrt K] {o : RegionalObj K D} (hc : Constructed o) (st : RegionalState K D) (f : Fin D) :
    (∃ e, regionalRefitM o st f = (st, .error e) ∧ st.fitted f = false ∧ kwFits o (FitKw.default o.cfg.methodName) f = false) ∨
    (regionalRefitM o st f = regionalRefit o.cfg st f ∧ (regionalRefitM o st f).2 = .ok () ∧
      (st.fitted f = true ∨ kwFits o (FitKw.default o.cfg.methodName) f = true)) := by
  obtain ⟨hal, hd⟩ := hc
  unfold regionalRefitM regionalRefit
  cases hf : st.fitted f with
  | true => exact Or.inr ⟨rfl, rfl, Or.inl rfl⟩
  | false =>
    simp only [Bool.false_eq_true, if_false]
    rw [regionalFit_int _ _ _ _ (by simp [FitKw.default])]
    cases hk : kwFits o (FitKw.default o.cfg.methodName) f with
    | false =>
      obtain ⟨e, he⟩ := regionalFitOne_error st hk
      exact Or.inl ⟨e, he, trivial, rfl⟩
    | true =>
      obtain ⟨h1, h2⟩ := regionalFitOne_ok st hal hk
      refine Or.inr ⟨?_, h2, Or.inr rfl⟩
      rw [h1, hd]

theorem regionalRefit_fitted {cfg : RegionalCfg K D} {st : RegionalState K D} {f : Fin D} (h : (regionalRefit cfg st f).2 = .ok ()) :
    (regionalRefit cfg st f).1.fitted f = true := by
  unfold regionalRefit at h ⊢
  cases hf : st.fitted f with
  | true => rw [if_pos rfl]; exact hf
  | false =>
    rw [hf] at h
    simp only [Bool.false_eq_true, if_false] at h ⊢
    unfold regionalFitFeature at h ⊢
    revert h
    split
    · intro h; cases h
    · intro _; simp

theorem regionalRefit_idem {cfg : RegionalCfg K D} {st : RegionalState K D} {f : Fin D} (h : (regionalRefit cfg st f).2 = .ok ()) :
    regionalRefit cfg (regionalRefit cfg st f).1 f = regionalRefit cfg st f := by
  have hf := regionalRefit_fitted h
  rcases hr : regionalRefit cfg st f with ⟨st', e | ⟨⟩⟩
  · rw [hr] at h; cases h
  · rw [hr] at hf
    unfold regionalRefit
    rw [if_pos hf]

theorem regionalEvalM_cases [PySqrt K] {o : RegionalObj K D} (hc : Constructed o) (st : RegionalState K D) (f : Fin D) (n : ℕ) (xs : List K) (het : Bool)
    (c : PyVal) : (∃ e, regionalEvalM o st f n xs het c = (st, .error e) ∧ st.fitted f = false ∧ kwFits o (FitKw.default o.cfg.methodName) f = false) ∨
    (regionalEvalM o st f n xs het c = regionalEval o.cfg st f n xs het c ∧ (st.fitted f = true ∨ kwFits o (FitKw.default o.cfg.methodName) f = true)) := by
  unfold regionalEvalM
  rcases regionalRefitM_cases hc st f with ⟨e, h1, h2⟩ | ⟨h1, h2, h3⟩
  · left
    exact ⟨e, by rw [h1], h2⟩
  · right
    refine ⟨?_, h3⟩
    rw [h1] at h2 ⊢
    have hid := regionalRefit_idem h2
    rcases hr : regionalRefit o.cfg st f with ⟨st', e | ⟨⟩⟩
    · rw [hr] at h2; cases h2
    · rw [hr] at hid
      simp only
      unfold regionalEval
      rw [hid, hr]

theorem regionalPlotM_cases [PySqrt K] {o : RegionalObj K D} (hc : Constructed o) (st : RegionalState K D) (f : Fin D) (sc : Option (Fin D → Scale K)) :
    (∃ e, regionalPlotM o st f sc = (st, .error e) ∧ st.fitted f = false ∧ kwFits o (FitKw.default o.cfg.methodName) f = false) ∨
    (regionalPlotM o st f sc = regionalPlotPrep o.cfg st f sc ∧ (st.fitted f = true ∨ kwFits o (FitKw.default o.cfg.methodName) f = true)) := by
  unfold regionalPlotM
  rcases regionalRefitM_cases hc st f with ⟨e, h1, h2⟩ | ⟨h1, h2, h3⟩
  · left
    exact ⟨e, by rw [h1], h2⟩
  · right
    refine ⟨?_, h3⟩
    rw [h1] at h2 ⊢
    have hid := regionalRefit_idem h2
    rcases hr : regionalRefit o.cfg st f with ⟨st', e | ⟨⟩⟩
    · rw [hr] at h2; cases h2
    · rw [hr] at hid
      simp only
      unfold regionalPlotPrep
      rw [hid, hr]

theorem lastKw_step [PySqrt K] {o : RegionalObj K D} (hc : Constructed o) (f g : Fin D) (l : Option (FitKw K D)) (a : Option (FitArgs K D))
    (hla : a = l.map (FitKw.toArgs o)) (hk : g = f → l = none → kwFits o (FitKw.default o.cfg.methodName) f = true) :
    (if g = f then Spec.afterRefit o.cfg f a else a) = 
      (if g = f ∧ l = none ∧ kwFits o (FitKw.default o.cfg.methodName) f = true then some (FitKw.default o.cfg.methodName) else l).map (FitKw.toArgs o) := by
  by_cases hg : g = f
  · rw [if_pos hg]
    cases l with
    | some kw => subst hla; simp [Spec.afterRefit]
    | none =>
      have hk' := hk hg rfl
      rw [if_pos ⟨hg, rfl, hk'⟩]
      subst hla
      have : Spec.fits o.cfg o.cfg.defaultArgs f = true := by
        rw [fits_iff]
        obtain ⟨sp, hsp⟩ := (kwFits_iff o _ f).mp hk'
        rw [hc.2]
        exact ⟨sp, searchOf_ok hsp⟩
      simp only [Spec.afterRefit, Option.map_none, this, if_true, Option.map_some]
      rw [hc.2]
  · rw [if_neg hg, if_neg (by tauto), hla]

/-- **Simulation.**  Any history of public calls on an object of one of the five classes is a history of the abstract regional object, with the same last fits. -/
theorem regRunM_run [PySqrt K] {o : RegionalObj K D} (hc : Constructed o) (calls : List (RegCall K D)) :
    ∃ ops, regRunM o calls = regionalRun o.cfg ops ∧ (∀ f, Spec.lastRegFit o.cfg f ops = (lastKw o f calls).map (FitKw.toArgs o)) ∧
      ∀ f sc, RegionalOp.plot f (some sc) ∈ ops → RegCall.plot f (some sc) ∈ calls := by
  induction calls using List.reverseRecOn with
  | nil => exact ⟨[], rfl, fun f => rfl, by simp⟩
  | append_singleton calls c ih =>
    obtain ⟨ops, h1, h2, h3⟩ := ih
    have hrun : ∀ ops', regionalRun o.cfg (ops ++ ops') = ops'.foldl (regionalStep o.cfg) (regionalRun o.cfg ops) := fun ops' => List.foldl_append
    have hrunM : regRunM o (calls ++ [c]) = regStepM o (regRunM o calls) c := by
      unfold regRunM; rw [List.foldl_append]; rfl
    have hlast : ∀ f ops', Spec.lastRegFit o.cfg f (ops ++ ops') = ops'.foldl (Spec.regFitStep o.cfg f) (Spec.lastRegFit o.cfg f ops) := fun f ops' => List.foldl_append
    have hkw : ∀ f, lastKw o f (calls ++ [c]) = kwStep o f (lastKw o f calls) c := by
      intro f; unfold lastKw; rw [List.foldl_append]; rfl
    have hfit : ∀ f, (regRunM o calls).fitted f = (lastKw o f calls).isSome := by
      intro f
      rw [h1, (C59_trees_of_last_fit o.cfg hc.1 ops f).1, h2 f]
      simp
    have hmem : ∀ f sc, RegionalOp.plot f (some sc) ∈ ops → RegCall.plot f (some sc) ∈ calls ++ [c] := fun f sc h =>
      List.mem_append_left _ (h3 f sc h)
    cases c with
    | fit features kw =>
      by_cases hm : kw.minPoints < 2
      · refine ⟨ops, ?_, fun f => ?_, hmem⟩
        · rw [hrunM, ← h1]
          simp only [regStepM, regionalFit, if_pos hm]
        · rw [hkw, h2]
          simp only [kwStep]
          rw [if_neg (by omega)]
      · refine ⟨ops ++ ((columns features D).takeWhile (kwFits o kw)).map (RegionalOp.fit (kw.toArgs o)), ?_, fun f => ?_, fun f sc h => ?_⟩
        · rw [hrunM, hrun, ← h1]
          simp only [regStepM, regionalFit, if_neg hm, bind, columns]
          cases (prepFeatures features D).bind (resolveFeatures D) with
          | error e => rfl
          | ok l => exact (regionalFitLoop_run hc.1 (by omega) l _).1
        · rw [hkw, hlast, fitFold_mem (kw := kw) (by omega) f _ (fun g hg => takeWhile_true hg), h2]
          simp only [kwStep]
          by_cases hf : f ∈ (columns features D).takeWhile (kwFits o kw)
          · rw [if_pos hf, if_pos ⟨by omega, hf⟩]; rfl
          · rw [if_neg hf, if_neg (by tauto)]
        · rcases List.mem_append.mp h with h | h
          · exact hmem f sc h
          · obtain ⟨g, -, hg⟩ := List.mem_map.mp h
            cases hg
    | eval g n xs het ce =>
      rcases regionalEvalM_cases hc (regRunM o calls) g n xs het ce with ⟨e, e1, e2, e3⟩ | ⟨e1, e2⟩
      · refine ⟨ops, ?_, fun f => ?_, hmem⟩
        · rw [hrunM, ← h1]
          simp only [regStepM, e1]
        · rw [hkw, h2]
          simp only [kwStep]
          rw [if_neg]
          rintro ⟨rfl, -, h⟩
          rw [e3] at h
          cases h
      · refine ⟨ops ++ [.eval g n xs het ce], ?_, fun f => ?_, fun f sc h => ?_⟩
        · rw [hrunM, hrun, ← h1]
          simp only [regStepM, e1, List.foldl_cons, List.foldl_nil, regionalStep]
        · rw [hkw, hlast]
          simp only [List.foldl_cons, List.foldl_nil, Spec.regFitStep, kwStep]
          refine lastKw_step hc f g _ _ (h2 f) ?_
          rintro rfl hn
          rcases e2 with e2 | e2
          · rw [hfit, hn] at e2; cases e2
          · exact e2
        · rcases List.mem_append.mp h with h | h
          · exact hmem f sc h
          · simp at h
    | plot g sc' =>
      rcases regionalPlotM_cases hc (regRunM o calls) g sc' with ⟨e, e1, e2, e3⟩ | ⟨e1, e2⟩
      · refine ⟨ops, ?_, fun f => ?_, hmem⟩
        · rw [hrunM, ← h1]
          simp only [regStepM, e1]
        · rw [hkw, h2]
          simp only [kwStep]
          rw [if_neg]
          rintro ⟨rfl, -, h⟩
          rw [e3] at h
          cases h
      · refine ⟨ops ++ [.plot g sc'], ?_, fun f => ?_, fun f sc h => ?_⟩
        · rw [hrunM, hrun, ← h1]
          simp only [regStepM, e1, List.foldl_cons, List.foldl_nil, regionalStep]
        · rw [hkw, hlast]
          simp only [List.foldl_cons, List.foldl_nil, Spec.regFitStep, kwStep]
          refine lastKw_step hc f g _ _ (h2 f) ?_
          rintro rfl hn
          rcases e2 with e2 | e2
          · rw [hfit, hn] at e2; cases e2
          · exact e2
        · rcases List.mem_append.mp h with h | h
          · exact hmem f sc h
          · simp only [List.mem_singleton, RegionalOp.plot.injEq] at h
            obtain ⟨rfl, rfl⟩ := h
            simp

end Effector
