import Verif.Lemmas.Calls

/-!
# The calls of `PDP` and `DerPDP`
-/

set_option linter.unusedSectionVars false

namespace Effector

variable {K : Type} [Field K] [LinearOrder K] {D : ℕ} {σ S : Type}

/-! ## Specification -/

/-- Every row of `data` once for each position, with feature `s` set to the position. -/
def Spec.gridRows (cast : K → K) (data : List (Row K D)) (s : Fin D) (xs : List K) : List (Row K D) :=
  xs.flatMap fun v => data.map fun r => Function.update r s (cast v)

/-- The calls that the curves of the rows at the positions `xs` take. -/
def Spec.curveCalls (cast : K → K) (which : PdpWhich) (data : List (Row K D)) (s : Fin D) (xs : List K) (vec : Bool) : List (Call K D) :=
  match which, vec with
  | .pdp, true => [.model (Spec.gridRows cast data s xs)]
  | .pdp, false => xs.map fun v => .model (Spec.gridRows cast data s [v])
  | .derJac, true => [.jac (Spec.gridRows cast data s xs)]
  | .derJac, false => xs.map fun v => .jac (Spec.gridRows cast data s [v])
  | .derNum, true => [.model (Spec.gridRows cast data s (xs.map (· + FD_STEP))), .model (Spec.gridRows cast data s (xs.map (· - FD_STEP)))]
  | .derNum, false => xs.flatMap fun v => [.model (Spec.gridRows cast data s [v + FD_STEP]), .model (Spec.gridRows cast data s [v - FD_STEP])]

/-- The calls that fitting one feature takes: the curves on the grid of the centring. -/
def Spec.centringCalls (cfg : RunPdpCfg K D) (data : List (Row K D)) (s : Fin D) (c : Centering) (points : ℕ) (vec : Bool) : List (Call K D) :=
  match c with
  | .zeroIntegral => Spec.curveCalls cfg.cast cfg.which data s (linspace (cfg.axisLo s) (cfg.axisHi s) points) vec
  | .zeroStart => Spec.curveCalls cfg.cast cfg.which data s [cfg.axisLo s] vec
  | .off => []

/-- The call-free object with the same attributes whose black box is `m` (its gradient `j`). -/
def RunPdpCfg.with (cfg : RunPdpCfg K D) (m : List (Row K D) → List K) (j : List (Row K D) → List (Row K D)) : PdpCfg K D where
  cast := cfg.cast
  kind := match cfg.which with
    | .pdp => .pdp m
    | .derJac => .derJac j
    | .derNum => .derNum m
  axisLo := cfg.axisLo
  axisHi := cfg.axisHi

/-- The calls of a fit of the features `l`, one after the other; an exception ends it. -/
def Spec.pdpFitCalls (cfg : RunPdpCfg K D) (m : List (Row K D) → List K) (j : List (Row K D) → List (Row K D)) (c : Centering) (points : ℕ)
    (vec : Bool) : List (Row K D) → List (Fin D) → List (Call K D)
  | _, [] => []
  | data, s :: t =>
    Spec.centringCalls cfg (dropOutside data (cfg.axisLo s) (cfg.axisHi s) s) s c points vec ++
      match (pdpFitFeature (cfg.with m j) data s c points vec).2 with
      | .ok _ => Spec.pdpFitCalls cfg m j c points vec (dropOutside data (cfg.axisLo s) (cfg.axisHi s) s) t
      | .error _ => []

/-- What an interrupted fit of the features `l` leaves behind: the features before some `s` are fitted; `s` and those after it are as they were; the rows outside
the range of `s` are gone already. -/
def Spec.pdpInterrupted (cfg : RunPdpCfg K D) (m : List (Row K D) → List K) (j : List (Row K D) → List (Row K D)) (c : Centering) (points : ℕ)
    (vec : Bool) (st : PdpState K D) (l : List (Fin D)) (o : PdpState K D) : Prop :=
  ∃ l1 s l2 st1, l = l1 ++ s :: l2 ∧ pdpFitLoop (cfg.with m j) c points vec st l1 = (st1, .ok ()) ∧
    o = { st1 with data := dropOutside st1.data (cfg.axisLo s) (cfg.axisHi s) s }

open Spec

theorem gridRows_one (cast : K → K) (data : List (Row K D)) (s : Fin D) (v : K) : gridRows cast data s [v] = setAll cast data s v := by
  simp [gridRows, setAll]

theorem gridRows_eq (cast : K → K) (data : List (Row K D)) (s : Fin D) (xs : List K) : gridRows cast data s xs = pdpBatch cast data xs s := rfl

variable {w : World σ K D} {m : List (Row K D) → List K} {j ex : List (Row K D) → List (Row K D)}

/-- The curve of the rows at one position. -/
def rowValue (m : List (Row K D) → List K) (j : List (Row K D) → List (Row K D)) (cast : K → K) (which : PdpWhich) (data : List (Row K D)) (s : Fin D)
    (v : K) : List K :=
  match which with
  | .pdp => m (setAll cast data s v)
  | .derJac => col (j (setAll cast data s v)) s
  | .derNum => centralDiff (m (setAll cast data s (v + FD_STEP))) (m (setAll cast data s (v - FD_STEP)))

theorem runs_row (hw : AnswersWith w m j ex) (cast : K → K) (which : PdpWhich) (data : List (Row K D)) (s : Fin D) (v : K)
    (y : Sys σ K D S) {L : S → Prop} (hL : L y.obj) :
    Runs w (runRow w cast which data s v) y y.obj (.ok (rowValue m j cast which data s v)) (curveCalls cast which data s [v] false) L := by
  cases which with
  | pdp =>
    simp only [runRow, rowValue, curveCalls, List.map_cons, List.map_nil, gridRows_one]
    exact runs_callModel hw _ y hL
  | derJac =>
    simp only [runRow, rowValue, curveCalls, List.map_cons, List.map_nil, gridRows_one]
    have h := Spec.Runs.bind (f := fun jj => (pure (col jj s) : RunM σ K D S (List K))) (runs_callJac hw (setAll cast data s v) y hL)
      (fun y1 h1 => h1 ▸ Spec.Runs.pure w _ y1 L)
    simpa using h
  | derNum =>
    simp only [runRow, rowValue, curveCalls, List.flatMap_cons, List.flatMap_nil, gridRows_one, List.append_nil]
    refine Spec.Runs.bind (c1 := [_]) (c2 := [_]) (runs_callModel hw _ y hL) fun y1 h1 => ?_
    have h := Spec.Runs.bind
      (f := fun y2 => (pure (centralDiff (m (setAll cast data s (v + FD_STEP))) y2) : RunM σ K D S (List K)))
      (runs_callModel hw (setAll cast data s (v - FD_STEP)) y1 (L := L) (h1 ▸ hL)) (fun y2 h2 => h2 ▸ Spec.Runs.pure w _ y2 L)
    rw [← h1]
    simpa using h

theorem curveCalls_cons (cast : K → K) (which : PdpWhich) (data : List (Row K D)) (s : Fin D) (v : K) (t : List K) :
    curveCalls cast which data s (v :: t) false = curveCalls cast which data s [v] false ++ curveCalls cast which data s t false := by
  cases which <;> simp [curveCalls]

theorem runs_rows (hw : AnswersWith w m j ex) (cast : K → K) (which : PdpWhich) (data : List (Row K D)) (s : Fin D) :
    ∀ (xs : List K) (y : Sys σ K D S) {L : S → Prop}, L y.obj →
      Runs w (runRows w cast which data s xs) y y.obj (.ok (xs.map (rowValue m j cast which data s))) (curveCalls cast which data s xs false) L
  | [], y, L, hL => by
    have : curveCalls cast which data s [] false = [] := by cases which <;> simp [curveCalls]
    rw [this]
    exact Spec.Runs.pure w _ y L
  | v :: t, y, L, hL => by
    rw [curveCalls_cons]
    simp only [runRows]
    refine Spec.Runs.bind (runs_row hw cast which data s v y hL) fun y1 h1 => ?_
    have h := Spec.Runs.bind
      (f := fun ys => (pure (rowValue m j cast which data s v :: ys) : RunM σ K D S (List (List K))))
      (runs_rows hw cast which data s t y1 (L := L) (h1 ▸ hL)) (fun y2 h2 => h2 ▸ Spec.Runs.pure w _ y2 L)
    rw [← h1]
    simpa using h

theorem nonVec_rows (cfg : RunPdpCfg K D) (data : List (Row K D)) (s : Fin D) (xs : List K) :
    pdpPredict cfg.cast (cfg.with m j).kind data xs s false =
      if xs = [] then .error .valueError else .ok (xs.map (rowValue m j cfg.cast cfg.which data s)) := by
  obtain ⟨cast, which, lo, hi, avg⟩ := cfg
  cases which <;> simp only [RunPdpCfg.with, pdpPredict, pdpNonVecY, Bool.false_eq_true, if_false] <;> rfl

theorem runs_predict (hw : AnswersWith w m j ex) (cfg : RunPdpCfg K D) (data : List (Row K D)) (xs : List K) (s : Fin D) (vec : Bool)
    (y : Sys σ K D S) {L : S → Prop} (hL : L y.obj) :
    Runs w (runPredict w cfg.cast cfg.which data xs s vec) y y.obj (pdpPredict cfg.cast (cfg.with m j).kind data xs s vec)
      (curveCalls cfg.cast cfg.which data s xs vec) L := by
  cases vec with
  | false =>
    rw [nonVec_rows]
    simp only [runPredict, Bool.false_eq_true, if_false]
    have h := Spec.Runs.bind
      (f := fun ys => (inert (if xs = [] then .error .valueError else .ok ys) : RunM σ K D S (List (List K))))
      (runs_rows hw cfg.cast cfg.which data s xs y (L := L) hL) (fun y2 h2 => h2 ▸ Spec.Runs.inert w _ y2 L)
    simpa using h
  | true =>
    simp only [runPredict, if_true]
    obtain ⟨cast, which, lo, hi, avg⟩ := cfg
    cases which with
    | pdp =>
      have h := Spec.Runs.bind
        (f := fun ys => (inert (reshape2 xs.length data.length ys) : RunM σ K D S (List (List K))))
        (runs_callModel hw (pdpBatch cast data xs s) y (L := L) hL) (fun y2 h2 => h2 ▸ Spec.Runs.inert w _ y2 L)
      simpa [curveCalls, gridRows_eq, RunPdpCfg.with, pdpPredict, pdpVecY, BlackBox.out, runBatch] using h
    | derJac =>
      have h := Spec.Runs.bind
        (f := fun ys => (inert (reshape2 xs.length data.length (col ys s)) : RunM σ K D S (List (List K))))
        (runs_callJac hw (pdpBatch cast data xs s) y (L := L) hL) (fun y2 h2 => h2 ▸ Spec.Runs.inert w _ y2 L)
      simpa [curveCalls, gridRows_eq, RunPdpCfg.with, pdpPredict, pdpVecY, BlackBox.out, runBatch] using h
    | derNum =>
      simp only [runBatch, curveCalls, gridRows_eq]
      refine Spec.Runs.bind (c1 := [_]) (c2 := [_]) (runs_callModel hw _ y hL) fun y1 h1 => ?_
      have h := Spec.Runs.bind
        (f := fun y2 => (inert (reshape2 xs.length data.length (centralDiff (m (pdpBatch cast data (xs.map (· + FD_STEP)) s)) y2)) :
          RunM σ K D S (List (List K))))
        (runs_callModel hw (pdpBatch cast data (xs.map (· - FD_STEP)) s) y1 (L := L) (h1 ▸ hL)) (fun y2 h2 => h2 ▸ Spec.Runs.inert w _ y2 L)
      rw [← h1]
      simpa [RunPdpCfg.with, pdpPredict, pdpVecY] using h

theorem pdpFitFeature_data (cfg : RunPdpCfg K D) (data : List (Row K D)) (s : Fin D) (c : Centering) (points : ℕ) (vec : Bool) :
    (pdpFitFeature (cfg.with m j) data s c points vec).1 = dropOutside data (cfg.axisLo s) (cfg.axisHi s) s := rfl

theorem runs_pdpFitFeature (hw : AnswersWith w m j ex) (cfg : RunPdpCfg K D) (s : Fin D) (c : Centering) (points : ℕ) (vec : Bool)
    (y : Sys σ K D (PdpState K D)) :
    Runs w (runPdpFitFeature w cfg s c points vec) y { y.obj with data := dropOutside y.obj.data (cfg.axisLo s) (cfg.axisHi s) s }
      (pdpFitFeature (cfg.with m j) y.obj.data s c points vec).2
      (centringCalls cfg (dropOutside y.obj.data (cfg.axisLo s) (cfg.axisHi s) s) s c points vec)
      (· = { y.obj with data := dropOutside y.obj.data (cfg.axisLo s) (cfg.axisHi s) s }) := by
  unfold runPdpFitFeature
  refine Spec.Runs.readBind (Spec.Runs.writeBind fun y1 h1 => ?_)
  generalize hd : dropOutside y.obj.data (cfg.axisLo s) (cfg.axisHi s) s = d at h1 ⊢
  have hr : (pdpFitFeature (cfg.with m j) y.obj.data s c points vec).2 = (match c with
    | .zeroIntegral => do
      let y ← pdpPredict cfg.cast (cfg.with m j).kind d (linspace (cfg.axisLo s) (cfg.axisHi s) points) s vec
      return .vec (colMeans d.length y)
    | .zeroStart => do
      let y ← pdpPredict cfg.cast (cfg.with m j).kind d [cfg.axisLo s] s vec
      return .vec (← pyIndex y 0)
    | .off => .ok (.scalar EMPTY_SYMBOL)) := by subst hd; rfl
  rw [hr, ← h1]
  cases c with
  | off => exact Spec.Runs.pure w _ y1 _
  | zeroIntegral =>
    simp only [centringCalls]
    have hp := runs_predict hw cfg d (linspace (cfg.axisLo s) (cfg.axisHi s) points) s vec y1 (L := (· = y1.obj)) rfl
    revert hp
    generalize pdpPredict cfg.cast (cfg.with m j).kind d (linspace (cfg.axisLo s) (cfg.axisHi s) points) s vec = P
    intro hp
    cases P with
    | error e => exact Spec.Runs.bindError hp
    | ok v =>
      have := Spec.Runs.bind (f := fun yy => (pure (NormConst.vec (colMeans d.length yy)) : RunM σ K D (PdpState K D) (NormConst K))) hp
        (fun y2 h2 => h2 ▸ Spec.Runs.pure w _ y2 _)
      simpa using this
  | zeroStart =>
    simp only [centringCalls]
    have hp := runs_predict hw cfg d [cfg.axisLo s] s vec y1 (L := (· = y1.obj)) rfl
    revert hp
    generalize pdpPredict cfg.cast (cfg.with m j).kind d [cfg.axisLo s] s vec = P
    intro hp
    cases P with
    | error e => exact Spec.Runs.bindError hp
    | ok v =>
      have := Spec.Runs.bind (f := fun yy => (do let y0 ← inert (pyIndex yy 0); pure (NormConst.vec y0) : RunM σ K D (PdpState K D) (NormConst K))) hp
        (o2 := y1.obj) (r := (do let y0 ← pyIndex v 0; pure (NormConst.vec y0))) (c2 := []) (fun y2 h2 => ?_)
      · rw [List.append_nil] at this
        exact this
      · refine Spec.Runs.inertBind (fun a ha => ?_) (fun e he => ⟨h2.symm, by rw [he]; rfl, rfl⟩)
        rw [ha, ← h2]
        exact Spec.Runs.pure w _ y2 _

theorem runs_pdpFitLoop (hw : AnswersWith w m j ex) (cfg : RunPdpCfg K D) (c : Centering) (points : ℕ) (vec : Bool) :
    ∀ (l : List (Fin D)) (y : Sys σ K D (PdpState K D)),
      Runs w (runPdpFitLoop w cfg c points vec l) y (pdpFitLoop (cfg.with m j) c points vec y.obj l).1
        (pdpFitLoop (cfg.with m j) c points vec y.obj l).2 (pdpFitCalls cfg m j c points vec y.obj.data l)
        (pdpInterrupted cfg m j c points vec y.obj l)
  | [], y => Spec.Runs.pure w _ y _
  | s :: t, y => by
    simp only [runPdpFitLoop, pdpFitCalls]
    have hf := (runs_pdpFitFeature hw cfg s c points vec y).mono (L' := pdpInterrupted cfg m j c points vec y.obj (s :: t))
      (fun o ho => ⟨[], s, t, y.obj, rfl, rfl, ho⟩)
    have hl : pdpFitLoop (cfg.with m j) c points vec y.obj (s :: t) = match (pdpFitFeature (cfg.with m j) y.obj.data s c points vec).2 with
      | .error e => ({ y.obj with data := dropOutside y.obj.data (cfg.axisLo s) (cfg.axisHi s) s }, .error e)
      | .ok nc => pdpFitLoop (cfg.with m j) c points vec
        { data := dropOutside y.obj.data (cfg.axisLo s) (cfg.axisHi s) s
          fe := Function.update y.obj.fe s (some nc)
          fitted := Function.update y.obj.fitted s true
          args := Function.update y.obj.args s (some c) } t := by
      rw [pdpFitLoop]
      rw [← pdpFitFeature_data (m := m) (j := j) cfg y.obj.data s c points vec]
      generalize pdpFitFeature (cfg.with m j) y.obj.data s c points vec = q
      obtain ⟨d, r⟩ := q
      cases r <;> rfl
    have hl1 : ∀ (l1 : List (Fin D)) nc, (pdpFitFeature (cfg.with m j) y.obj.data s c points vec).2 = .ok nc →
        pdpFitLoop (cfg.with m j) c points vec y.obj (s :: l1) = pdpFitLoop (cfg.with m j) c points vec
        { data := dropOutside y.obj.data (cfg.axisLo s) (cfg.axisHi s) s
          fe := Function.update y.obj.fe s (some nc)
          fitted := Function.update y.obj.fitted s true
          args := Function.update y.obj.args s (some c) } l1 := by
      intro l1 nc hnc
      rw [pdpFitLoop]
      rw [← pdpFitFeature_data (m := m) (j := j) cfg y.obj.data s c points vec]
      revert hnc
      generalize pdpFitFeature (cfg.with m j) y.obj.data s c points vec = q
      obtain ⟨d, r⟩ := q
      intro hnc
      simp only at hnc
      subst hnc
      rfl
    rw [hl]
    revert hf hl1
    generalize (pdpFitFeature (cfg.with m j) y.obj.data s c points vec).2 = R
    intro hf hl1
    cases R with
    | error e => simpa using Spec.Runs.bindError hf
    | ok nc =>
      refine Spec.Runs.bind hf fun y1 h1 => Spec.Runs.readBind (Spec.Runs.writeBind fun y2 h2 => ?_)
      rw [h1] at h2
      simp only at h2 ⊢
      have h := runs_pdpFitLoop hw cfg c points vec t y2
      have hd : y2.obj.data = dropOutside y.obj.data (cfg.axisLo s) (cfg.axisHi s) s := by rw [h2]
      rw [hd, h2] at h
      refine h.mono ?_
      rintro o ⟨l1, s', l2, st1, he, hst, ho⟩
      exact ⟨s :: l1, s', l2, st1, by rw [he]; rfl, by rw [hl1 l1 nc rfl]; exact hst, ho⟩


/-! ## `fit`, `eval`, `plot` -/

theorem runs_pdpFit (hw : AnswersWith w m j ex) (cfg : RunPdpCfg K D) (features centering f : PyVal) (c : Centering) (l : List (Fin D))
    (hc : prepCentering centering = .ok c) (hf : prepFeatures features D = .ok f) (hl : resolveFeatures D f = .ok l) (points : ℕ) (vec : Bool)
    (y : Sys σ K D (PdpState K D)) :
    Runs w (runPdpFit w cfg features centering points vec) y (pdpFit (cfg.with m j) y.obj features centering points vec).1
      (pdpFit (cfg.with m j) y.obj features centering points vec).2 (pdpFitCalls cfg m j c points vec y.obj.data l)
      (pdpInterrupted cfg m j c points vec y.obj l) := by
  have h1 : pdpFit (cfg.with m j) y.obj features centering points vec = pdpFitLoop (cfg.with m j) c points vec y.obj l := by
    simp only [pdpFit, hc, hf, hl, bind, Except.bind, pure, Except.pure]
  have h2 : runPdpFit w cfg features centering points vec y = runPdpFitLoop w cfg c points vec l y := by
    simp only [runPdpFit, hc, hf, inert_ok, hl]
  have h := runs_pdpFitLoop hw cfg c points vec l y
  unfold Runs at h ⊢
  rw [h1, h2]
  exact h

/-- `fit` with arguments it refuses makes no call and changes nothing. -/
theorem runs_pdpFit_refused (cfg : RunPdpCfg K D) (features centering : PyVal) (e : PyErr)
    (he : (do let c ← prepCentering centering
              let f ← prepFeatures features D
              let l ← resolveFeatures D f
              return (l, c)) = .error e) (points : ℕ) (vec : Bool) (y : Sys σ K D (PdpState K D)) :
    runPdpFit w cfg features centering points vec y = (y, .error e) := by
  unfold runPdpFit
  revert he
  cases hc : prepCentering centering with
  | error e' => intro he; simp only [bind, Except.bind] at he; injection he with he; subst he; rfl
  | ok c =>
    cases hf : prepFeatures features D with
    | error e' => intro he; simp only [bind, Except.bind] at he; injection he with he; subst he; rfl
    | ok f =>
      simp only [bind, Except.bind]
      cases hl : resolveFeatures D f with
      | error e' => intro he; injection he with he; subst he; simp only [runThen, inert, hl]
      | ok l => intro he; simp only [pure, Except.pure] at he; injection he

/-- The calls of `eval`: those of the fit, if one is needed, then those of the curves at `xs`. -/
def Spec.pdpEvalCalls (cfg : RunPdpCfg K D) (m : List (Row K D) → List K) (j : List (Row K D) → List (Row K D)) (st : PdpState K D) (s : Fin D)
    (xs : List K) (c : Centering) (vec : Bool) : List (Call K D) :=
  match needsRefit (st.fitted s) (st.args s) c with
  | .error _ => []
  | .ok false => if cfg.axisLo s < cfg.axisHi s then Spec.curveCalls cfg.cast cfg.which st.data s xs vec else []
  | .ok true =>
    Spec.pdpFitCalls cfg m j c 100 vec st.data [s] ++
      match (pdpFitLoop (cfg.with m j) c 100 vec st [s]).2 with
      | .error _ => []
      | .ok _ => if cfg.axisLo s < cfg.axisHi s
        then Spec.curveCalls cfg.cast cfg.which (dropOutside st.data (cfg.axisLo s) (cfg.axisHi s) s) s xs vec else []

theorem runs_pdpEvalFitted [PySqrt K] (hw : AnswersWith w m j ex) (cfg : RunPdpCfg K D) (s : Fin D) (xs : List K) (het : Bool) (c : Centering)
    (all vec : Bool) (y : Sys σ K D (PdpState K D)) {L : PdpState K D → Prop} (hL : L y.obj) :
    Runs w (do
      inert (pyAssert (decide (cfg.axisLo s < cfg.axisHi s)))
      let o ← readObj
      let yy ← runPredict w cfg.cast cfg.which o.data xs s vec
      inert (pdpSummary (o.fe s) het c all yy)) y y.obj (pdpEvalFitted (cfg.with m j) y.obj s xs het c all vec)
      (if cfg.axisLo s < cfg.axisHi s then curveCalls cfg.cast cfg.which y.obj.data s xs vec else []) L := by
  have hr : pdpEvalFitted (cfg.with m j) y.obj s xs het c all vec = (do
      pyAssert (decide (cfg.axisLo s < cfg.axisHi s))
      let yy ← pdpPredict cfg.cast (cfg.with m j).kind y.obj.data xs s vec
      pdpSummary (y.obj.fe s) het c all yy) := rfl
  rw [hr]
  by_cases hlt : cfg.axisLo s < cfg.axisHi s
  · have ha : pyAssert (decide (cfg.axisLo s < cfg.axisHi s)) = .ok () := by simp [pyAssert, hlt]
    rw [ha, if_pos hlt]
    refine Spec.Runs.inertBind (fun _ _ => Spec.Runs.readBind ?_) (fun e he => by cases he)
    have hp := runs_predict hw cfg y.obj.data xs s vec y (L := L) hL
    revert hp
    generalize pdpPredict cfg.cast (cfg.with m j).kind y.obj.data xs s vec = P
    intro hp
    cases P with
    | error e => exact Spec.Runs.bindError hp
    | ok v =>
      have := Spec.Runs.bind (f := fun yy => (inert (pdpSummary (y.obj.fe s) het c all yy) : RunM σ K D (PdpState K D) (PdpOut K))) hp
        (fun y2 h2 => h2 ▸ Spec.Runs.inert w _ y2 _)
      rw [List.append_nil] at this
      exact this
  · have ha : pyAssert (decide (cfg.axisLo s < cfg.axisHi s)) = .error .assertionError := by simp [pyAssert, hlt]
    rw [ha, if_neg hlt]
    exact Spec.Runs.bindError (Spec.Runs.inert w _ y _)

theorem pdpFitLoop_one_data (cfg : PdpCfg K D) (c : Centering) (points : ℕ) (vec : Bool) (st : PdpState K D) (s : Fin D) :
    (pdpFitLoop cfg c points vec st [s]).1.data = dropOutside st.data (cfg.axisLo s) (cfg.axisHi s) s := by
  rw [pdpFitLoop]
  have : (pdpFitFeature cfg st.data s c points vec).1 = dropOutside st.data (cfg.axisLo s) (cfg.axisHi s) s := rfl
  revert this
  generalize pdpFitFeature cfg st.data s c points vec = q
  obtain ⟨d, r⟩ := q
  intro h
  cases r <;> exact h

theorem runs_pdpEval [PySqrt K] (hw : AnswersWith w m j ex) (cfg : RunPdpCfg K D) (s : Fin D) (xs : List K) (het : Bool) (centering : PyVal)
    (c : Centering) (hc : prepCentering centering = .ok c) (all vec : Bool) (y : Sys σ K D (PdpState K D)) :
    Runs w (runPdpEval w cfg s xs het centering all vec) y (pdpEval (cfg.with m j) y.obj s xs het centering all vec).1
      (pdpEval (cfg.with m j) y.obj s xs het centering all vec).2 (pdpEvalCalls cfg m j y.obj s xs c vec)
      (fun o => (needsRefit (y.obj.fitted s) (y.obj.args s) c = .ok true ∧ pdpInterrupted cfg m j c 100 vec y.obj [s] o) ∨
        o = (pdpEval (cfg.with m j) y.obj s xs het centering all vec).1) := by
  simp only [pdpEval, hc, pdpEvalCalls]
  unfold runPdpEval
  rw [hc]
  refine Spec.Runs.inertBind (fun c' hc' => ?_) (fun e he => by cases he)
  injection hc' with hc'
  subst hc'
  refine Spec.Runs.readBind ?_
  cases hn : needsRefit (y.obj.fitted s) (y.obj.args s) c with
  | error e => exact Spec.Runs.bindError (Spec.Runs.inert w _ y _)
  | ok b =>
    refine Spec.Runs.inertBind (fun b' hb' => ?_) (fun e he => by cases he)
    injection hb' with hb'
    subst hb'
    cases b with
    | false =>
      exact runs_pdpEvalFitted hw cfg s xs het c all vec y (.inr rfl)
    | true =>
      simp only [if_true, true_and]
      have hf := runs_pdpFitLoop hw cfg c 100 vec [s] y
      have hd := pdpFitLoop_one_data (cfg.with m j) c 100 vec y.obj s
      revert hf hd
      generalize pdpFitLoop (cfg.with m j) c 100 vec y.obj [s] = q
      obtain ⟨st', r⟩ := q
      intro hf hd
      cases r with
      | error e =>
        have := Spec.Runs.bindError (f := fun _ => (do
          inert (pyAssert (decide (cfg.axisLo s < cfg.axisHi s)))
          let o ← readObj
          let yy ← runPredict w cfg.cast cfg.which o.data xs s vec
          inert (pdpSummary (o.fe s) het c all yy) : RunM σ K D (PdpState K D) (PdpOut K))) hf
        simp only [List.append_nil]
        exact this.mono fun o ho => .inl ho
      | ok u =>
        simp only
        refine Spec.Runs.bind (hf.mono fun o ho => .inl ho) fun y1 h1 => ?_
        simp only at h1 hd
        have := runs_pdpEvalFitted hw cfg s xs het c all vec y1
          (L := fun o => pdpInterrupted cfg m j c 100 vec y.obj [s] o ∨ o = st') (.inr h1)
        rw [h1, hd] at this
        exact this

theorem runs_pdpPlot [PySqrt K] (hw : AnswersWith w m j ex) (cfg : RunPdpCfg K D) (s : Fin D) (het centering h' : PyVal) (c : Centering)
    (hh : prepConfidenceInterval het = .ok h') (hc : prepCentering centering = .ok c) (nofPoints : ℕ) (showAvg : Bool) (scaleY : Option (Scale K))
    (vec : Bool) (y : Sys σ K D (PdpState K D)) :
    let E := pdpEval (cfg.with m j) y.obj s (linspace (cfg.axisLo s) (cfg.axisHi s) nofPoints) false centering true vec
    Runs w (runPdpPlot w cfg s het centering nofPoints showAvg scaleY vec) y E.1
      (E.2.map fun yy => (yy, averageLine showAvg cfg.avg scaleY))
      (pdpEvalCalls cfg m j y.obj s (linspace (cfg.axisLo s) (cfg.axisHi s) nofPoints) c vec)
      (fun o => (needsRefit (y.obj.fitted s) (y.obj.args s) c = .ok true ∧ pdpInterrupted cfg m j c 100 vec y.obj [s] o) ∨ o = E.1) := by
  intro E
  unfold runPdpPlot
  refine Spec.Runs.inertBind (fun _ _ => ?_) (fun e he => by rw [hh] at he; cases he)
  refine Spec.Runs.inertBind (fun c' hc' => ?_) (fun e he => by rw [hc] at he; cases he)
  rw [hc] at hc'
  injection hc' with hc'
  subst hc'
  have hcv : prepCentering c.toVal = .ok c := by cases c <;> rfl
  have hE : pdpEval (cfg.with m j) y.obj s (linspace (cfg.axisLo s) (cfg.axisHi s) nofPoints) false c.toVal true vec = E := by
    simp only [E, pdpEval, hc, hcv]
  have h := runs_pdpEval hw cfg s (linspace (cfg.axisLo s) (cfg.axisHi s) nofPoints) false c.toVal c hcv true vec y
  rw [hE] at h
  generalize E = q at h ⊢
  obtain ⟨st', r⟩ := q
  cases r with
  | error e => exact Spec.Runs.bindError h
  | ok yy =>
    have h2 := Spec.Runs.bind (f := fun yy => (do
        let o ← readObj
        let a ← if showAvg then do
            let a ← runAvgOutput w o.data (some cfg.avg) scaleY
            pure (some a)
          else pure none
        return (yy, a) : RunM σ K D (PdpState K D) (PdpOut K × Option K))) (o2 := st') (c2 := [])
      (r := .ok (yy, averageLine showAvg cfg.avg scaleY)) h (fun y2 h2 => by
          subst h2
          cases showAvg <;> cases scaleY <;> exact Spec.Runs.pure w _ y2 _)
    rw [List.append_nil] at h2
    exact h2

/-! ## How many calls -/

/-- The number of calls the curves at `T` positions take. -/
def Spec.curveCost (which : PdpWhich) (vec : Bool) (T : ℕ) : ℕ := (if vec then 1 else T) * (if which = .derNum then 2 else 1)

/-- The number of calls fitting one feature takes. -/
def Spec.centringCost (which : PdpWhich) (c : Centering) (points : ℕ) (vec : Bool) : ℕ :=
  match c with
  | .off => 0
  | .zeroStart => Spec.curveCost which vec 1
  | .zeroIntegral => Spec.curveCost which vec points

/-- The rows a call hands over. -/
def Spec.rowsIn : Call K D → List (Row K D)
  | .model X => X
  | .jac X => X
  | .explain X => X

theorem curveCalls_length (cast : K → K) (which : PdpWhich) (data : List (Row K D)) (s : Fin D) (xs : List K) (vec : Bool) :
    (curveCalls cast which data s xs vec).length = curveCost which vec xs.length := by
  cases which <;> cases vec <;> simp [curveCalls, curveCost, List.length_flatMap, List.map_const', List.sum_replicate]

theorem gridRows_length (cast : K → K) (data : List (Row K D)) (s : Fin D) (xs : List K) :
    (gridRows cast data s xs).length = xs.length * data.length := by
  simp [gridRows, List.length_flatMap, List.map_const', List.sum_replicate]

/-- In all, the curves at the positions `xs` ask for `|xs|` values per row, twice as many for numerical derivatives. -/
theorem curveCalls_rows (cast : K → K) (which : PdpWhich) (data : List (Row K D)) (s : Fin D) (xs : List K) (vec : Bool) :
    ((curveCalls cast which data s xs vec).map fun c => (rowsIn c).length).sum = xs.length * data.length * (if which = .derNum then 2 else 1) := by
  cases which <;> cases vec <;>
    simp [curveCalls, rowsIn, gridRows_length, Function.comp_def, List.map_const', List.sum_replicate, List.map_flatMap]
  · induction xs with
    | nil => simp
    | cons a t ih => simp [List.flatMap_cons, ih]; ring
  · ring

end Effector
