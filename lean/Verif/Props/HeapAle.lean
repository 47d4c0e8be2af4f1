import Verif.Props.HeapObjects

/-!
# C105: ALE and RHALE objects over a heap
-/

set_option linter.unusedSectionVars false

namespace Effector

variable {K : Type} [Field K] [LinearOrder K] {D : ℕ}

/-- `model_jac` does not write into its argument. -/
def JacCallable.Quiet (j : JacCallable K D) : Prop := ∀ X, (j.call X).1 = X

/-- `_fit_feature` on the heap computes `fitF`, leaves every existing array alone and keeps `Inv` (what is known about memory and `self.data_effect`). -/
structure FitsLike (cfg : HeapAleCfg K D) (fitF : Fin D → BinMethod K → Py (AleParams K)) (Inv : Memory K D → Option (EffRef K D) → Prop) : Prop where
  later : ∀ h e ext, Inv h e → Inv (h ++ ext) e
  step : ∀ h e s bm, Inv h e → ∃ ext e', cfg.fitF e s bm h = (h ++ ext, (e', fitF s bm)) ∧ Inv (h ++ ext) e'

theorem normConst_pure (cfg : HeapAleCfg K D) (f g : Fin D → BinMethod K → Py (AleParams K)) (p : AleParams K) (s : Fin D) (c : Centering) :
    aleNormConst (cfg.pure f) p s c = aleNormConst (cfg.pure g) p s c := rfl

theorem evalFitted_pure [PySqrt K] (cfg : HeapAleCfg K D) (f g : Fin D → BinMethod K → Py (AleParams K)) (st : AleState K D) (s : Fin D) (xs : List K) (het : Bool)
    (c : Centering) : aleEvalFitted (cfg.pure f) st s xs het c = aleEvalFitted (cfg.pure g) st s xs het c := rfl

section

variable {cfg : HeapAleCfg K D} {fitF : Fin D → BinMethod K → Py (AleParams K)} {Inv : Memory K D → Option (EffRef K D) → Prop}

theorem heapFitOne_eq (hf : FitsLike cfg fitF Inv) (s : Fin D) (bm : BinMethod K) (c : Centering) (h : Memory K D) (o : HeapAle K D) (hi : Inv h o.eff) :
    ∃ ext o', heapFitOne cfg o s bm c h = (h ++ ext, (o', (fitOne (cfg.pure fitF) o.st s bm c).2)) ∧ o'.st = (fitOne (cfg.pure fitF) o.st s bm c).1 ∧
      Inv (h ++ ext) o'.eff := by
  obtain ⟨ext, e', hrun, hi'⟩ := hf.step h o.eff s bm hi
  unfold heapFitOne fitOne
  have hp : (cfg.pure fitF).fitF s bm = fitF s bm := rfl
  rw [hp]
  simp only [bind, hrun]
  cases fitF s bm with
  | error x => exact ⟨ext, _, rfl, rfl, hi'⟩
  | ok p =>
    simp only
    rw [normConst_pure cfg (fun _ _ => .ok p) fitF]
    cases aleNormConst (cfg.pure fitF) p s c with
    | error x => exact ⟨ext, _, rfl, rfl, hi'⟩
    | ok z => exact ⟨ext, _, rfl, rfl, hi'⟩

theorem heapAleLoop_eq (hf : FitsLike cfg fitF Inv) (bm : BinMethod K) (c : Centering) (l : List (Fin D)) (h : Memory K D) (o : HeapAle K D) (hi : Inv h o.eff) :
    ∃ ext o', heapAleLoop cfg bm c o l h = (h ++ ext, (o', (fitLoop (cfg.pure fitF) bm c o.st l).2)) ∧ o'.st = (fitLoop (cfg.pure fitF) bm c o.st l).1 ∧
      Inv (h ++ ext) o'.eff := by
  induction l generalizing h o with
  | nil => exact ⟨[], o, by simp [heapAleLoop, fitLoop, pure], rfl, by simpa using hi⟩
  | cons s t ih =>
    obtain ⟨ext, o', hrun, hst, hi'⟩ := heapFitOne_eq hf s bm c h o hi
    unfold heapAleLoop fitLoop
    simp only [bind, hrun]
    revert hst
    rcases fitOne (cfg.pure fitF) o.st s bm c with ⟨st', r⟩
    intro hst
    simp only at hst
    cases r with
    | error e => exact ⟨ext, o', rfl, hst, hi'⟩
    | ok u =>
      obtain ⟨ext2, o2, hrun2, hst2, hi2⟩ := ih (h ++ ext) o' hi'
      refine ⟨ext ++ ext2, o2, ?_, ?_, ?_⟩
      · simp only [hrun2, List.append_assoc, hst]
      · rw [hst2, hst]
      · rw [← List.append_assoc]; exact hi2

theorem heapAleFitCall_eq (hf : FitsLike cfg fitF Inv) (features : PyVal) (bm : BinMethod K) (centering : PyVal) (h : Memory K D) (o : HeapAle K D)
    (hi : Inv h o.eff) :
    ∃ ext o', heapAleFitCall cfg o features bm centering h = (h ++ ext, (o', (aleFit (cfg.pure fitF) o.st features bm centering).2)) ∧
      o'.st = (aleFit (cfg.pure fitF) o.st features bm centering).1 ∧ Inv (h ++ ext) o'.eff := by
  unfold heapAleFitCall aleFit
  have ha : (cfg.pure fitF).allowed = cfg.allowed := rfl
  rw [ha]
  cases cfg.allowed bm with
  | false => exact ⟨[], o, by simp [pure], rfl, by simpa using hi⟩
  | true =>
    simp only [if_true]
    generalize (do let f ← prepFeatures features D
                   let c ← prepCentering centering
                   let l ← resolveFeatures D f
                   return (l, c) : Py (List (Fin D) × Centering)) = q
    cases q with
    | error e => exact ⟨[], o, by simp [pure], rfl, by simpa using hi⟩
    | ok q => exact heapAleLoop_eq hf bm q.2 q.1 h o hi

theorem heapAleEval_eq [PySqrt K] (hf : FitsLike cfg fitF Inv) (s : Fin D) (xs : List K) (het : Bool) (centering : PyVal) (h : Memory K D) (o : HeapAle K D)
    (hi : Inv h o.eff) :
    ∃ ext o', heapAleEval cfg o s xs het centering h = (h ++ ext, (o', (aleEval (cfg.pure fitF) o.st s xs het centering).2)) ∧
      o'.st = (aleEval (cfg.pure fitF) o.st s xs het centering).1 ∧ Inv (h ++ ext) o'.eff := by
  unfold heapAleEval aleEval
  cases prepCentering centering with
  | error e => exact ⟨[], o, by simp [pure], rfl, by simpa using hi⟩
  | ok c =>
    simp only
    cases needsRefit (o.st.fitted s) (o.st.args s) c with
    | error e => exact ⟨[], o, by simp [pure], rfl, by simpa using hi⟩
    | ok b =>
      cases b with
      | false =>
        refine ⟨[], o, ?_, rfl, by simpa using hi⟩
        simp only [pure, List.append_nil]
        rfl
      | true =>
        obtain ⟨ext, o', hrun, hst, hi'⟩ := heapAleLoop_eq hf cfg.defaultBin c [s] h o hi
        have hb : (cfg.pure fitF).defaultBin = cfg.defaultBin := rfl
        rw [hb]
        simp only [bind, hrun]
        revert hst
        rcases fitLoop (cfg.pure fitF) cfg.defaultBin c o.st [s] with ⟨st', r⟩
        intro hst
        simp only at hst
        cases r with
        | error e => exact ⟨ext, o', rfl, hst, hi'⟩
        | ok u =>
          refine ⟨ext, o', ?_, hst, hi'⟩
          simp only [pure, hst]
          rfl

theorem heapAlePlot_eq [PySqrt K] (hf : FitsLike cfg fitF Inv) (s : Fin D) (centering : PyVal) (h : Memory K D) (o : HeapAle K D) (hi : Inv h o.eff) :
    ∃ ext o', heapAlePlot cfg o s centering h = (h ++ ext, (o', (alePlot (cfg.pure fitF) o.st s centering).2)) ∧
      o'.st = (alePlot (cfg.pure fitF) o.st s centering).1 ∧ Inv (h ++ ext) o'.eff := by
  obtain ⟨ext, o1, hrun, hst, hi'⟩ := heapAleEval_eq hf s [cfg.axisLo s] false centering h o hi
  unfold heapAlePlot alePlot
  have hl : (cfg.pure fitF).axisLo = cfg.axisLo := rfl
  rw [hl]
  simp only [bind, hrun]
  revert hst
  rcases aleEval (cfg.pure fitF) o.st s [cfg.axisLo s] false centering with ⟨st1, r⟩
  intro hst
  simp only at hst
  cases r with
  | error e => exact ⟨ext, o1, rfl, hst, hi'⟩
  | ok v =>
    simp only [← hst]
    cases hfe : o1.st.fe s with
    | none => exact ⟨ext, o1, rfl, rfl, hi'⟩
    | some q =>
      obtain ⟨p, nc⟩ := q
      simp only
      cases pyIndex p.limits 0 with
      | error e => exact ⟨ext, o1, rfl, rfl, hi'⟩
      | ok a =>
        cases pyIndex p.limits (p.limits.length - 1) with
        | error e => exact ⟨ext, o1, rfl, rfl, hi'⟩
        | ok b =>
          obtain ⟨ext2, o2, hrun2, hst2, hi2⟩ := heapAleEval_eq hf s (linspace a b 1000) true centering (h ++ ext) o1 hi'
          simp only [hrun2]
          revert hst2
          rcases aleEval (cfg.pure fitF) o1.st s (linspace a b 1000) true centering with ⟨st2, r2⟩
          intro hst2
          simp only at hst2
          refine ⟨ext ++ ext2, o2, ?_, ?_, by rw [← List.append_assoc]; exact hi2⟩
          · cases r2 <;> simp only [pure, List.append_assoc]
          · cases r2 <;> exact hst2

theorem heapAleRun_eq [PySqrt K] (hf : FitsLike cfg fitF Inv) (ops : List (AleOp K D)) (h : Memory K D) (o : HeapAle K D) (hi : Inv h o.eff) :
    ∃ ext o', heapAleRun cfg o ops h = (h ++ ext, o') ∧ o'.st = ops.foldl (aleStep (cfg.pure fitF)) o.st ∧ Inv (h ++ ext) o'.eff := by
  induction ops generalizing h o with
  | nil => exact ⟨[], o, by simp [heapAleRun, pure], rfl, by simpa using hi⟩
  | cons op t ih =>
    have hstep : ∃ ext o', heapAleStep cfg o op h = (h ++ ext, o') ∧ o'.st = aleStep (cfg.pure fitF) o.st op ∧ Inv (h ++ ext) o'.eff := by
      cases op with
      | fit f bm c =>
        obtain ⟨ext, o', hrun, hst, hi'⟩ := heapAleFitCall_eq hf f bm c h o hi
        exact ⟨ext, o', by simp only [heapAleStep, bind, pure, hrun], hst, hi'⟩
      | eval s xs het c =>
        obtain ⟨ext, o', hrun, hst, hi'⟩ := heapAleEval_eq hf s xs het c h o hi
        exact ⟨ext, o', by simp only [heapAleStep, bind, pure, hrun], hst, hi'⟩
      | plot s c =>
        obtain ⟨ext, o', hrun, hst, hi'⟩ := heapAlePlot_eq hf s c h o hi
        exact ⟨ext, o', by simp only [heapAleStep, bind, pure, hrun], hst, hi'⟩
    obtain ⟨ext, o', hrun, hst, hi'⟩ := hstep
    obtain ⟨ext2, o2, hrun2, hst2, hi2⟩ := ih (h ++ ext) o' hi'
    refine ⟨ext ++ ext2, o2, ?_, ?_, ?_⟩
    · simp only [heapAleRun, bind, hrun, hrun2, List.append_assoc]
    · rw [hst2, hst]; rfl
    · rw [← List.append_assoc]; exact hi2

end

/-! ## ALE -/

theorem ale_fitsLike (cast : K → K) (m : Callable K D) (data : ℕ) (X : List (Row K D)) (lo hi : Fin D → K) :
    FitsLike (heapAleCfg cast m data lo hi) (aleFitFeature cast m.value X lo hi) (fun h e => data < h.length ∧ h.getD data [] = X ∧ e = none) where
  later h e ext hi := ⟨by simp; omega, by rw [getD_old _ _ _ hi.1]; exact hi.2.1, hi.2.2⟩
  step h e s bm hinv := by
    obtain ⟨hd, hX, rfl⟩ := hinv
    obtain ⟨ext, he⟩ := C105_ale_fit cast m data lo hi s bm h
    rw [hX] at he
    refine ⟨ext, none, ?_, by simp; omega, by rw [getD_old _ _ _ hd]; exact hX, rfl⟩
    simp only [heapAleCfg, bind, pure, he]

/-- **C105** (ALE objects, every history): the caller's array `data`, a constructor call, any sequence of `fit`, `eval` and `plot` calls, one more `eval`.  Whatever the model does
to the arrays it is handed, the result is that of the object without references and the caller's arrays are as they were (`avg_output` given, or a
model that does not write). -/
theorem C105_ale_session [PySqrt K] (cast : K → K) (m : Callable K D) (data : ℕ) (rows : List ℕ) (avgGiven : Bool) (hq : avgGiven = true ∨ m.Quiet)
    (lo hi : Fin D → K) (ops : List (AleOp K D)) (s : Fin D) (xs : List K) (het : Bool) (centering : PyVal) (h : Memory K D) :
    Gives (do let self ← heapConstruct m data rows avgGiven
              let o ← heapAleRun (heapAleCfg cast m self lo hi) { eff := none, st := AleState.init } ops
              let r ← heapAleEval (heapAleCfg cast m self lo hi) o s xs het centering
              return r.2) h
      (let cfg := aleCfg cast m.value { data := pickRows (h.getD data []) rows, indices := rows, axisLo := lo, axisHi := hi }
       (aleEval cfg (aleRun cfg ops) s xs het centering).2) := by
  have hc := C105_constructor_partial m data rows avgGiven hq h
  have hf := ale_fitsLike cast m h.length (pickRows (h.getD data []) rows) lo hi
  obtain ⟨ext, o', hrun, hst, hi'⟩ := heapAleRun_eq hf ops (h ++ [pickRows (h.getD data []) rows]) { eff := none, st := AleState.init }
    ⟨by simp, getD_new h [_] 0, rfl⟩
  obtain ⟨ext2, o2, hrun2, _, _⟩ := heapAleEval_eq hf s xs het centering _ _ hi'
  refine ⟨[pickRows (h.getD data []) rows] ++ (ext ++ ext2), ?_⟩
  simp only [bind, pure, hc, hrun, hrun2, hst]
  simp only [List.append_assoc]
  rfl

/-! ## RHALE -/

/-- A reference that reads `J` as long as the array at address `data` holds `X`. -/
def EffRef.Reads (r : EffRef K D) (data : ℕ) (X J : List (Row K D)) : Prop :=
  match r with
  | .owned J' => J' = J
  | .view a g => a = data ∧ g X = J

theorem EffRef.Reads.read {r : EffRef K D} {data : ℕ} {X J : List (Row K D)} (hr : r.Reads data X J) (h : Memory K D) (hX : h.getD data [] = X) :
    readEff r h = (h, J) := by
  cases r with
  | owned J' => cases hr; rfl
  | view a g =>
    obtain ⟨rfl, hg⟩ := hr
    simp only [readEff, load, bind, pure, hX, hg]

/-- What is known about an RHALE object between calls: `self.data` holds `X`, and `self.data_effect`, once there, reads `J`. -/
def RhaleInv (data : ℕ) (X J : List (Row K D)) (given : Option (List (Row K D))) (h : Memory K D) (e : Option (EffRef K D)) : Prop :=
  data < h.length ∧ h.getD data [] = X ∧ (e = none → given = none) ∧ ∀ r, e = some r → r.Reads data X J

theorem callJac_quiet (j : JacCallable K D) (hj : j.Quiet) (data : ℕ) (h : Memory K D) (hd : data < h.length) :
    ∃ e, callJacOn j data h = (h, e) ∧ e.Reads data (h.getD data []) (j.value (h.getD data [])) := by
  have hset : h.set data (h.getD data []) = h := by
    apply List.ext_getElem?
    intro i
    by_cases hi : i = data
    · subst hi
      simp [List.getD_eq_getElem?_getD, hd]
    · simp [Ne.symm hi]
  simp only [callJacOn, load, store, bind, pure, hj _, hset]
  unfold JacCallable.value
  cases hc : (j.call (h.getD data [])).2 with
  | fresh J => exact ⟨.owned J, rfl, rfl⟩
  | view g => exact ⟨.view data g, rfl, rfl, by simp only [hj _]⟩

theorem rhale_fitsLike (m : Callable K D) (jac : Option (JacCallable K D)) (hq : m.Quiet) (hj : ∀ j, jac = some j → j.Quiet) (data : ℕ) (X : List (Row K D))
    (given : Option (List (Row K D))) (lo hi : Fin D → K) :
    FitsLike (heapRhaleCfg m jac data lo hi) (rhaleFitFeature X (rhaleEffects m.value (jac.map JacCallable.value) given X) lo hi)
      (RhaleInv data X (rhaleEffects m.value (jac.map JacCallable.value) given X) given) where
  later h e ext hi := ⟨by have := hi.1; simp; omega, by rw [getD_old _ _ _ hi.1]; exact hi.2.1, hi.2.2⟩
  step h e s bm hinv := by
    obtain ⟨hd, hX, hg, hread⟩ := hinv
    cases e with
    | some r =>
      refine ⟨[], some r, ?_, by simpa using hd, by simpa using hX, hg, hread⟩
      have := (hread r rfl).read h hX
      simp only [heapRhaleCfg, heapRhaleFit, bind, pure, load, this, hX, List.append_nil]
    | none =>
      have hgiven := hg rfl
      subst hgiven
      have hcomp : ∃ ext e', heapCompile m jac data h = (h ++ ext, e') ∧ e'.Reads data X (rhaleEffects m.value (jac.map JacCallable.value) none X) := by
        cases hjac : jac with
        | some j =>
          obtain ⟨e', hrun, hr⟩ := callJac_quiet j (hj j hjac) data h hd
          refine ⟨[], e', by simpa [heapCompile] using hrun, ?_⟩
          rw [hX] at hr
          exact hr
        | none =>
          obtain ⟨ext, he⟩ := C105_jacobian_partial m hq data EPS h hd
          refine ⟨ext, .owned (computeJacobianNumerically m.value (h.getD data []) EPS), by simp only [heapCompile, bind, pure, he], ?_⟩
          rw [hX]
          rfl
      obtain ⟨ext, e', hrun, hr⟩ := hcomp
      have hX' : (h ++ ext).getD data [] = X := by rw [getD_old _ _ _ hd]; exact hX
      refine ⟨ext, some e', ?_, by simp; omega, hX', fun h => by simp at h, fun r' hr' => by cases hr'; exact hr⟩
      have h0 := hr.read (h ++ ext) hX'
      simp only [heapRhaleCfg, heapRhaleFit, bind, pure, load, hrun, h0, hX']

/-- **C105** (RHALE objects, every history), only for callables that do not write into their arguments (they may return views, also of `self.data`):
constructor with or without `avg_output`, with or without effects given by the caller. -/
theorem C105_rhale_session_partial [PySqrt K] (m : Callable K D) (jac : Option (JacCallable K D)) (hq : m.Quiet) (hj : ∀ j, jac = some j → j.Quiet) (data : ℕ)
    (rows : List ℕ) (avgGiven : Bool) (given : Option (List (Row K D))) (lo hi : Fin D → K) (ops : List (AleOp K D)) (s : Fin D) (xs : List K) (het : Bool)
    (centering : PyVal) (h : Memory K D) :
    Gives (do let self ← heapConstruct m data rows avgGiven
              let o ← heapAleRun (heapRhaleCfg m jac self lo hi) { eff := given.map EffRef.owned, st := AleState.init } ops
              let r ← heapAleEval (heapRhaleCfg m jac self lo hi) o s xs het centering
              return r.2) h
      (let X := pickRows (h.getD data []) rows
       let cfg := rhaleCfg (rhaleEffects m.value (jac.map JacCallable.value) given X) { data := X, indices := rows, axisLo := lo, axisHi := hi }
       (aleEval cfg (aleRun cfg ops) s xs het centering).2) := by
  have hc := C105_constructor_partial m data rows avgGiven (Or.inr hq) h
  have hf := rhale_fitsLike m jac hq hj h.length (pickRows (h.getD data []) rows) given lo hi
  obtain ⟨ext, o', hrun, hst, hi'⟩ := heapAleRun_eq hf ops (h ++ [pickRows (h.getD data []) rows]) { eff := given.map EffRef.owned, st := AleState.init }
    ⟨by simp, getD_new h [_] 0, fun h => by simpa using h, fun r hr => by
      cases given with
      | none => simp at hr
      | some e => simp at hr; subst hr; rfl⟩
  obtain ⟨ext2, o2, hrun2, _, _⟩ := heapAleEval_eq hf s xs het centering _ _ hi'
  refine ⟨[pickRows (h.getD data []) rows] ++ (ext ++ ext2), ?_⟩
  simp only [bind, pure, hc, hrun, hrun2, hst]
  simp only [List.append_assoc]
  rfl

end Effector
