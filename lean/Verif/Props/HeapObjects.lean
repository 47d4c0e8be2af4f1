import Verif.Props.Heap

/-!
# C105, continued: ALE's local effects, the numerical Jacobian, and every history of a PDP object
-/

set_option linter.unusedSectionVars false

namespace Effector

variable {K : Type} [Field K] [LinearOrder K] {D : ℕ}

/-! ## compute_local_effects -/

theorem heapDifference_eq (cast : K → K) (m : Callable K D) (data : ℕ) (s : Fin D) (right left : List K) (h : Memory K D) (hd : data < h.length) :
    Gives (heapDifference cast m data s right left) h
      (List.zipWith (· - ·) (m.value (setCol cast (h.getD data []) s right)) (m.value (setCol cast (h.getD data []) s left))) := by
  have e0 : ∀ Y, (h ++ [Y]).getD data [] = h.getD data [] := fun Y => getD_old h [Y] data hd
  have e1 : ∀ Y Z, (h ++ [Y, Z]).getD h.length [] = Y := fun Y Z => getD_new h [Y, Z] 0
  have e2 : ∀ Y Z, (h ++ [Y, Z]).getD (h.length + 1) [] = Z := fun Y Z => getD_new h [Y, Z] 1
  have e3 : ∀ Y Z W, (h ++ [Y, Z]).set h.length W = h ++ [W, Z] := fun Y Z W => set_new h [Y, Z] 0 W
  have e4 : ∀ Y Z W, (h ++ [Y, Z]).set (h.length + 1) W = h ++ [Y, W] := fun Y Z W => set_new h [Y, Z] 1 W
  generalize hX : h.getD data [] = X at e0 ⊢
  refine ⟨[(m.call (setCol cast X s right)).1, (m.call (setCol cast X s left)).1], ?_⟩
  simp only [heapDifference, copyOf, alloc, load, store, bind, pure, callOn_eq, hX, e0, e1, e2, e3, e4, List.append_assoc, List.cons_append, List.nil_append,
    List.length_append, List.length_cons, List.length_nil, zero_add]
  rw [readArr_ref _ _ _ _ (e1 _ _)]
  simp only
  rw [readArr_ref _ _ _ _ (e2 _ _)]

theorem localEffects_prep (cast : K → K) (data : List (Row K D)) (model : List (Row K D) → List K) (limits : List K) (s : Fin D) :
    computeLocalEffects cast data model limits s = (localEffectsPrep data limits s).bind fun q =>
      .ok ((List.zipWith (· - ·) (model (setCol cast data s q.2.1)) (model (setCol cast data s q.2.2.1))).map (· / q.2.2.2), q.1) := by
  simp only [computeLocalEffects, localEffectsPrep, bind, Except.bind, pure, Except.pure]
  repeat' (first | rfl | split)

/-- **C105** (ALE): the local effects. -/
theorem C105_local_effects (cast : K → K) (m : Callable K D) (data : ℕ) (limits : List K) (s : Fin D) (h : Memory K D) (hd : data < h.length) :
    Gives (heapLocalEffects cast m data limits s) h (computeLocalEffects cast (h.getD data []) m.value limits s) := by
  rw [localEffects_prep]
  simp only [heapLocalEffects, load, bind]
  unfold Gives
  cases hp : localEffectsPrep (h.getD data []) limits s with
  | error e =>
    refine ⟨[], ?_⟩
    simp only [hp, pure, Except.bind, List.append_nil]
  | ok q =>
    obtain ⟨ext, hrun⟩ := heapDifference_eq cast m data s q.2.1 q.2.2.1 h hd
    refine ⟨ext, ?_⟩
    simp only [hp, hrun, pure, Except.bind]

/-! ## compute_jacobian_numerically -/

theorem heapJacobianCols_eq (m : Callable K D) (hq : m.Quiet) (data : ℕ) (eps : K) (l : List (Fin D)) (h : Memory K D) (hd : data < h.length) :
    Gives (heapJacobianCols m data eps l) h (l.map (jacobianCol m.value (h.getD data []) eps)) := by
  induction l generalizing h with
  | nil => exact ⟨[], by simp [heapJacobianCols, pure]⟩
  | cons f t ih =>
    have e0 : ∀ Y, (h ++ [Y]).getD data [] = h.getD data [] := fun Y => getD_old h [Y] data hd
    have e1 : ∀ Y, (h ++ [Y]).getD h.length [] = Y := fun Y => getD_new h [Y] 0
    have e2 : ∀ Y Z, (h ++ [Y]).set h.length Z = h ++ [Z] := fun Y Z => set_new h [Y] 0 Z
    have e3 : ∀ Y, (h ++ [Y]).set data (h.getD data []) = h ++ [Y] := by
      intro Y
      rw [List.set_append_left _ _ hd]
      congr 1
      rw [List.getD_eq_getElem?_getD, List.getElem?_eq_getElem hd]
      simp
    generalize hX : h.getD data [] = X at e0 e3 ⊢
    obtain ⟨ext, hrun⟩ := ih (h ++ [X.map fun r => Function.update r f (r f + eps)]) (by simp; omega)
    rw [e0] at hrun
    refine ⟨[X.map fun r => Function.update r f (r f + eps)] ++ ext, ?_⟩
    simp only [heapJacobianCols, copyOf, alloc, load, store, bind, pure, callOn_eq, hX, e0, e1, e2, hq _, e3]
    have r1 := readArr_ref m h.length (X.map fun r => Function.update r f (r f + eps)) (h ++ [X.map fun r => Function.update r f (r f + eps)]) (by rw [e1, hq])
    have r2 := readArr_ref m data X (h ++ [X.map fun r => Function.update r f (r f + eps)]) (by rw [e0, hq])
    simp only [r1, r2, hrun]
    simp [jacobianCol]

/-- **C105** (the numerical Jacobian), only for callables that do not write into their argument (they may return views of it). -/
theorem C105_jacobian_partial (m : Callable K D) (hq : m.Quiet) (data : ℕ) (eps : K) (h : Memory K D) (hd : data < h.length) :
    Gives (heapJacobian m data eps) h (computeJacobianNumerically m.value (h.getD data []) eps) := by
  obtain ⟨ext, hrun⟩ := heapJacobianCols_eq m hq data eps (allFeatures D) h hd
  refine ⟨ext, ?_⟩
  simp only [heapJacobian, load, bind, pure, hrun, computeJacobianNumerically]
  congr 1
  refine List.map_congr_left fun i _ => ?_
  funext f
  simp [allFeatures, List.getD_eq_getElem?_getD]

/-! ## The constructor -/

/-- The rows `data[indices, :]`. -/
def pickRows (X : List (Row K D)) (rows : List ℕ) : List (Row K D) := rows.filterMap fun i => X[i]?

theorem heapConstruct_call (m : Callable K D) (data : ℕ) (rows : List ℕ) (h : Memory K D) :
    heapConstruct m data rows false h = (h ++ [(m.call (pickRows (h.getD data []) rows)).1], h.length) := by
  have e1 : ∀ Y, (h ++ [Y]).getD h.length [] = Y := fun Y => getD_new h [Y] 0
  have e2 : ∀ Y Z, (h ++ [Y]).set h.length Z = h ++ [Z] := fun Y Z => set_new h [Y] 0 Z
  have : heapConstruct m data rows false h =
      ((readArr (callOn m h.length (h ++ [pickRows (h.getD data []) rows])).2 (callOn m h.length (h ++ [pickRows (h.getD data []) rows])).1).1, h.length) := rfl
  rw [this, callOn_eq, e1, e2]
  simp only
  rw [readArr_ref _ _ _ _ (e1 _)]

/-- **C105** (constructors): the caller's array is left as it was, and the object's own copy holds the selected rows - provided that `avg_output` is given or
that the callable does not write into its argument. -/
theorem C105_constructor_partial (m : Callable K D) (data : ℕ) (rows : List ℕ) (avgGiven : Bool) (hq : avgGiven = true ∨ m.Quiet) (h : Memory K D) :
    heapConstruct m data rows avgGiven h = (h ++ [pickRows (h.getD data []) rows], h.length) := by
  cases avgGiven with
  | true => rfl
  | false =>
    rcases hq with hq | hq
    · cases hq
    · rw [heapConstruct_call, hq]

/-- Whatever the callable does, constructing an object leaves every array of the caller as it was. -/
theorem C105_constructor_frame (m : Callable K D) (data : ℕ) (rows : List ℕ) (avgGiven : Bool) (h : Memory K D) :
    Gives (heapConstruct m data rows avgGiven) h h.length := by
  cases avgGiven with
  | true => exact ⟨[pickRows (h.getD data []) rows], rfl⟩
  | false => exact ⟨_, heapConstruct_call m data rows h⟩

/-! ## ALE -/

/-- **C105** (ALE): fitting a feature. -/
theorem C105_ale_fit (cast : K → K) (m : Callable K D) (data : ℕ) (lo hi : Fin D → K) (s : Fin D) (bm : BinMethod K) (h : Memory K D) :
    Gives (heapAleFit cast m data lo hi s bm) h (aleFitFeature cast m.value (h.getD data []) lo hi s bm) := by
  have e1 : ∀ Y, (h ++ [Y]).getD h.length [] = Y := fun Y => getD_new h [Y] 0
  have e2 : ∀ Y (ext : Memory K D), (h ++ [Y] ++ ext).getD h.length [] = Y := fun Y ext => by
    rw [List.append_assoc]; exact getD_new h ([Y] ++ ext) 0
  unfold heapAleFit aleFitFeature Gives
  cases isFixedMethod bm with
  | false =>
    refine ⟨[(h.getD data []).filter (inAxis (lo s) (hi s) s)], ?_⟩
    simp only [Bool.false_eq_true, if_false, pyAssert]
    rfl
  | true =>
    simp only [if_true, pyAssert]
    simp only [load, alloc, bind, e1, Except.bind, pure]
    generalize h.getD data [] = X
    cases hf : findLimits { xs := col (X.filter (inAxis (lo s) (hi s) s)) s, eff := none, xmin := lo s, xmax := hi s } (orFixed bm) with
    | error e => exact ⟨[X.filter (inAxis (lo s) (hi s) s)], by cases bm <;> (simp only [orFixed] at hf ⊢; simp only [hf])⟩
    | ok l =>
      cases l with
      | impossible => exact ⟨[X.filter (inAxis (lo s) (hi s) s)], by cases bm <;> (simp only [orFixed] at hf ⊢; simp only [hf])⟩
      | arr limits =>
        obtain ⟨ext, he⟩ := C105_local_effects cast m h.length limits s (h ++ [X.filter (inAxis (lo s) (hi s) s)]) (by simp)
        rw [e1] at he
        refine ⟨[X.filter (inAxis (lo s) (hi s) s)] ++ ext, ?_⟩
        cases bm <;> (simp only [orFixed] at hf ⊢; simp only [hf, he, e2]; simp only [List.append_assoc])

/-! ## Every history of a PDP object -/

/-- The kind of object the callables stand for. -/
def HeapKind.value : HeapKind K D → PdpKind K D
  | .pdp m => .pdp m.value
  | .derJac j => .derJac j.value
  | .derNum m => .derNum m.value

/-- The call is outside the case in which the callable matters: finite differences row by row with a callable that returns views or writes into its argument. -/
def HeapKind.Safe (k : HeapKind K D) (vec : Bool) : Prop :=
  match k with
  | .derNum m => vec = true ∨ (m.Quiet ∧ m.Owns)
  | _ => True

/-- The object without references. -/
def HeapPdpCfg.value (cfg : HeapPdpCfg K D) : PdpCfg K D := { cast := cfg.cast, kind := cfg.kind.value, axisLo := cfg.axisLo, axisHi := cfg.axisHi }

theorem jac_rows (cast : K → K) (j : JacCallable K D) (X : List (Row K D)) (x : List K) (s : Fin D) :
    pdpNonVecY cast (.pred (j.column s).value) X x s false = pdpNonVecY cast (.jac j.value) X x s false := by
  simp [pdpNonVecY, BlackBox.out, column_value]

theorem jac_vec (cast : K → K) (j : JacCallable K D) (X : List (Row K D)) (x : List K) (s : Fin D) :
    pdpVecY cast (.pred (j.column s).value) X x s false = pdpVecY cast (.jac j.value) X x s false := by
  simp [pdpVecY, BlackBox.out, column_value]

theorem Gives.ifRows {p : HeapM K D (List (List K))} {h : Memory K D} {v : List (List K)} (hp : Gives p h v) (xx : List K) :
    Gives (if xx = [] then (pure (.error .valueError) : HeapM K D (Py (List (List K)))) else do
      let y ← p
      return .ok y) h (if xx = [] then .error .valueError else .ok v) := by
  by_cases hx : xx = []
  · exact ⟨[], by simp [hx, pure]⟩
  · obtain ⟨ext, he⟩ := hp
    refine ⟨ext, ?_⟩
    rw [if_neg hx, if_neg hx]
    simp only [bind, pure, he]

/-- **C105** (`_predict` of PDP and DerPDP). -/
theorem C105_predict (cast : K → K) (kind : HeapKind K D) (data : ℕ) (xx : List K) (s : Fin D) (vec : Bool) (hs : kind.Safe vec) (h : Memory K D)
    (hd : data < h.length) :
    Gives (heapPredict cast kind data xx s vec) h (pdpPredict cast kind.value (h.getD data []) xx s vec) := by
  cases kind with
  | pdp m =>
    cases vec with
    | true => exact C105_vec cast m data xx s h
    | false => exact (C105_rows cast m data xx s h hd).ifRows xx
  | derJac j =>
    cases vec with
    | true =>
      have := C105_vec cast (j.column s) data xx s h
      rw [jac_vec] at this
      exact this
    | false =>
      have := C105_rows cast (j.column s) data xx s h hd
      rw [jac_rows] at this
      exact this.ifRows xx
  | derNum m =>
    cases vec with
    | true => exact C105_vec_derivative cast m data xx s h
    | false =>
      obtain ⟨hq, ho⟩ := hs.resolve_left (by simp)
      exact (C105_rows_derivative_partial cast m hq ho data xx s h hd).ifRows xx

/-- The object over memory `h` is the object `st` without references. -/
structure Shows (n : ℕ) (h : Memory K D) (o : HeapPdp K D) (st : PdpState K D) : Prop where
  own : n ≤ o.data
  here : o.data < h.length
  data : h.getD o.data [] = st.data
  fe : o.fe = st.fe
  fitted : o.fitted = st.fitted
  args : o.args = st.args

theorem Shows.later {n : ℕ} {h : Memory K D} {o : HeapPdp K D} {st : PdpState K D} (hs : Shows n h o st) (ext : Memory K D) : Shows n (h ++ ext) o st :=
  ⟨hs.own, by simp; exact Nat.lt_of_lt_of_le hs.here (Nat.le_add_right _ _), by rw [getD_old _ _ _ hs.here]; exact hs.data, hs.fe, hs.fitted, hs.args⟩

theorem heapFitFeature_eq (cfg : HeapPdpCfg K D) (data : ℕ) (s : Fin D) (c : Centering) (points : ℕ) (vec : Bool) (hs : cfg.kind.Safe vec) (h : Memory K D) :
    ∃ ext d, heapFitFeature cfg data s c points vec h = (h ++ ext, (d, (pdpFitFeature cfg.value (h.getD data []) s c points vec).2)) ∧
      h.length ≤ d ∧ d < (h ++ ext).length ∧ (h ++ ext).getD d [] = (pdpFitFeature cfg.value (h.getD data []) s c points vec).1 := by
  have e1 : ∀ Y, (h ++ [Y]).getD h.length [] = Y := fun Y => getD_new h [Y] 0
  generalize hX : h.getD data [] = X
  have e2 : ∀ (Y Z : List (Row K D)) ext, (h ++ [Y, Z] ++ ext).getD (h.length + 1) [] = Z := fun Y Z ext => by
    rw [List.append_assoc]; exact getD_new h ([Y, Z] ++ ext) 1
  have hlen : ∀ (Y Z : List (Row K D)) (ext : Memory K D), h.length + 1 < (h ++ [Y, Z] ++ ext).length := fun Y Z ext => by simp
  have hdrop : (X.filter fun r => decide (cfg.axisLo s ≤ r s)).filter (fun r => decide (r s ≤ cfg.axisHi s)) = dropOutside X (cfg.axisLo s) (cfg.axisHi s) s := rfl
  have hp : ∀ xx, ∃ ext, heapPredict cfg.cast cfg.kind (h.length + 1) xx s vec
      (h ++ [X.filter fun r => decide (cfg.axisLo s ≤ r s), dropOutside X (cfg.axisLo s) (cfg.axisHi s) s]) =
      (h ++ [X.filter fun r => decide (cfg.axisLo s ≤ r s), dropOutside X (cfg.axisLo s) (cfg.axisHi s) s] ++ ext,
        pdpPredict cfg.cast cfg.kind.value (dropOutside X (cfg.axisLo s) (cfg.axisHi s) s) xx s vec) := by
    intro xx
    obtain ⟨ext, he⟩ := C105_predict cfg.cast cfg.kind (h.length + 1) xx s vec hs
      (h ++ [X.filter fun r => decide (cfg.axisLo s ≤ r s), dropOutside X (cfg.axisLo s) (cfg.axisHi s) s]) (by simp)
    have hg : (h ++ [X.filter fun r => decide (cfg.axisLo s ≤ r s), dropOutside X (cfg.axisLo s) (cfg.axisHi s) s]).getD (h.length + 1) []
        = dropOutside X (cfg.axisLo s) (cfg.axisHi s) s := getD_new h [_, _] 1
    rw [hg] at he
    exact ⟨ext, he⟩
  cases c with
  | off =>
    refine ⟨[X.filter fun r => decide (cfg.axisLo s ≤ r s), dropOutside X (cfg.axisLo s) (cfg.axisHi s) s], h.length + 1, ?_, Nat.le_succ _, ?_, ?_⟩
    · simp only [heapFitFeature, load, alloc, bind, pure, hX, e1, hdrop, List.append_assoc, List.cons_append, List.nil_append, List.length_append,
        List.length_cons, List.length_nil, zero_add, pdpFitFeature]
    · simp
    · exact getD_new h [_, _] 1
  | zeroStart =>
    obtain ⟨ext, he⟩ := hp [cfg.axisLo s]
    refine ⟨[X.filter fun r => decide (cfg.axisLo s ≤ r s), dropOutside X (cfg.axisLo s) (cfg.axisHi s) s] ++ ext, h.length + 1, ?_, Nat.le_succ _, ?_, ?_⟩
    · simp only [heapFitFeature, load, alloc, bind, pure, hX, e1, hdrop, List.append_assoc, List.cons_append, List.nil_append, List.length_append,
        List.length_cons, List.length_nil, zero_add]
      simp only [List.append_assoc, List.cons_append, List.nil_append] at he
      rw [he]
      simp only [pdpFitFeature, HeapPdpCfg.value, bind, Except.bind, pure, Except.pure]
      congr 2
    · rw [← List.append_assoc]; exact hlen _ _ _
    · rw [← List.append_assoc]; exact e2 _ _ _
  | zeroIntegral =>
    obtain ⟨ext, he⟩ := hp (linspace (cfg.axisLo s) (cfg.axisHi s) points)
    refine ⟨[X.filter fun r => decide (cfg.axisLo s ≤ r s), dropOutside X (cfg.axisLo s) (cfg.axisHi s) s] ++ ext, h.length + 1, ?_, Nat.le_succ _, ?_, ?_⟩
    · simp only [heapFitFeature, load, alloc, bind, pure, hX, e1, hdrop, List.append_assoc, List.cons_append, List.nil_append, List.length_append,
        List.length_cons, List.length_nil, zero_add]
      simp only [List.append_assoc, List.cons_append, List.nil_append] at he e2
      rw [he]
      simp only [e2, pdpFitFeature, HeapPdpCfg.value, bind, Except.bind, pure, Except.pure]
      congr 2
    · rw [← List.append_assoc]; exact hlen _ _ _
    · rw [← List.append_assoc]; exact e2 _ _ _

theorem heapFitLoop_eq (cfg : HeapPdpCfg K D) (c : Centering) (points : ℕ) (vec : Bool) (hs : cfg.kind.Safe vec) (l : List (Fin D)) (h : Memory K D)
    (o : HeapPdp K D) (st : PdpState K D) {n : ℕ} (ho : Shows n h o st) :
    ∃ ext o', heapFitLoop cfg c points vec o l h = (h ++ ext, (o', (pdpFitLoop cfg.value c points vec st l).2)) ∧
      Shows n (h ++ ext) o' (pdpFitLoop cfg.value c points vec st l).1 := by
  induction l generalizing h o st with
  | nil => exact ⟨[], o, by simp [heapFitLoop, pdpFitLoop, pure], by simpa [pdpFitLoop] using ho⟩
  | cons s t ih =>
    obtain ⟨ext, d, hrun, hnew, hd, hdata⟩ := heapFitFeature_eq cfg o.data s c points vec hs h
    have hown : n ≤ d := Nat.le_trans (Nat.le_trans ho.own (Nat.le_of_lt ho.here)) hnew
    rw [ho.data] at hrun hdata
    simp only [heapFitLoop, bind, hrun, pdpFitLoop]
    revert hdata
    cases hf : pdpFitFeature cfg.value st.data s c points vec with
    | mk X r =>
      intro hdata
      cases r with
      | error e => exact ⟨ext, { o with data := d }, rfl, ⟨hown, hd, hdata, ho.fe, ho.fitted, ho.args⟩⟩
      | ok nc =>
        obtain ⟨ext2, o', hrun2, ho'⟩ := ih (h ++ ext)
          { data := d, fe := Function.update o.fe s (some nc), fitted := Function.update o.fitted s true, args := Function.update o.args s (some c) }
          { data := X, fe := Function.update st.fe s (some nc), fitted := Function.update st.fitted s true, args := Function.update st.args s (some c) }
          ⟨hown, hd, hdata, by simp [ho.fe], by simp [ho.fitted], by simp [ho.args]⟩
        refine ⟨ext ++ ext2, o', ?_, ?_⟩
        · simp only [hrun2, List.append_assoc]
        · rw [← List.append_assoc]; exact ho'

theorem heapFit_eq (cfg : HeapPdpCfg K D) (features centering : PyVal) (points : ℕ) (vec : Bool) (hs : cfg.kind.Safe vec) (h : Memory K D)
    (o : HeapPdp K D) (st : PdpState K D) {n : ℕ} (ho : Shows n h o st) :
    ∃ ext o', heapFit cfg o features centering points vec h = (h ++ ext, (o', (pdpFit cfg.value st features centering points vec).2)) ∧
      Shows n (h ++ ext) o' (pdpFit cfg.value st features centering points vec).1 := by
  unfold heapFit pdpFit
  split
  · rename_i e he
    simp only [he]
    exact ⟨[], o, by simp [pure], by simpa using ho⟩
  · rename_i l c he
    simp only [he]
    exact heapFitLoop_eq cfg c points vec hs l h o st ho

variable [PySqrt K]

theorem heapEvalFitted_eq (cfg : HeapPdpCfg K D) (s : Fin D) (xs : List K) (het : Bool) (c : Centering) (all vec : Bool) (hs : cfg.kind.Safe vec)
    (h : Memory K D) (o : HeapPdp K D) (st : PdpState K D) {n : ℕ} (ho : Shows n h o st) :
    Gives (heapEvalFitted cfg o s xs het c all vec) h (pdpEvalFitted cfg.value st s xs het c all vec) := by
  unfold heapEvalFitted
  by_cases hlt : cfg.axisLo s < cfg.axisHi s
  · obtain ⟨ext, he⟩ := C105_predict cfg.cast cfg.kind o.data xs s vec hs h ho.here
    refine ⟨ext, ?_⟩
    rw [if_pos hlt]
    simp only [bind, pure, he, ho.data, ho.fe]
    simp only [pdpEvalFitted, HeapPdpCfg.value, pyAssert, hlt, decide_true, if_true, bind, Except.bind, pure, Except.pure]
    rfl
  · refine ⟨[], ?_⟩
    simp [hlt, pure, pdpEvalFitted, HeapPdpCfg.value, pyAssert, bind, Except.bind]

/-- **C105**: every `eval`. -/
theorem C105_eval (cfg : HeapPdpCfg K D) (s : Fin D) (xs : List K) (het : Bool) (centering : PyVal) (all vec : Bool) (hs : cfg.kind.Safe vec)
    (h : Memory K D) (o : HeapPdp K D) (st : PdpState K D) {n : ℕ} (ho : Shows n h o st) :
    ∃ ext o', heapEval cfg o s xs het centering all vec h = (h ++ ext, (o', (pdpEval cfg.value st s xs het centering all vec).2)) ∧
      Shows n (h ++ ext) o' (pdpEval cfg.value st s xs het centering all vec).1 := by
  unfold heapEval pdpEval
  rw [ho.fitted, ho.args]
  cases prepCentering centering with
  | error e => exact ⟨[], o, by simp [pure], by simpa using ho⟩
  | ok c =>
    simp only
    cases needsRefit (st.fitted s) (st.args s) c with
    | error e => exact ⟨[], o, by simp [pure], by simpa using ho⟩
    | ok b =>
      cases b with
      | false =>
        obtain ⟨ext, he⟩ := heapEvalFitted_eq cfg s xs het c all vec hs h o st ho
        refine ⟨ext, o, ?_, ho.later ext⟩
        simp only [bind, pure, he]
      | true =>
        obtain ⟨ext, o', hrun, ho'⟩ := heapFitLoop_eq cfg c 100 vec hs [s] h o st ho
        simp only [bind, hrun]
        revert ho'
        cases hf : pdpFitLoop cfg.value c 100 vec st [s] with
        | mk st' r =>
          intro ho'
          cases r with
          | error e => exact ⟨ext, o', rfl, ho'⟩
          | ok u =>
            obtain ⟨ext2, he⟩ := heapEvalFitted_eq cfg s xs het c all vec hs (h ++ ext) o' st' ho'
            refine ⟨ext ++ ext2, o', ?_, ?_⟩
            · simp only [pure, he, List.append_assoc]
            · rw [← List.append_assoc]; exact ho'.later ext2

/-- The `use_vectorized` argument of a call. -/
def PdpOp.vec : PdpOp K D → Bool
  | .fit _ _ _ v => v
  | .eval _ _ _ _ _ v => v

/-- **C105**: every history.  Whatever the callables do to the arrays they are handed, after any sequence of calls of `fit` and `eval` the object is the one all
other theorems speak about, and every array that existed before - the caller's data set among them - is as it was. -/
theorem C105_history (cfg : HeapPdpCfg K D) (ops : List (PdpOp K D)) (hs : ∀ op ∈ ops, cfg.kind.Safe op.vec) (h : Memory K D) (o : HeapPdp K D)
    (st : PdpState K D) {n : ℕ} (ho : Shows n h o st) :
    ∃ ext o', heapRun cfg o ops h = (h ++ ext, o') ∧ Shows n (h ++ ext) o' (ops.foldl (pdpStep cfg.value) st) := by
  induction ops generalizing h o st with
  | nil => exact ⟨[], o, by simp [heapRun, pure], by simpa using ho⟩
  | cons op t ih =>
    have hstep : ∃ ext o', heapStep cfg o op h = (h ++ ext, o') ∧ Shows n (h ++ ext) o' (pdpStep cfg.value st op) := by
      have hop := hs op (List.mem_cons_self ..)
      cases op with
      | fit f c p v =>
        obtain ⟨ext, o', hrun, ho'⟩ := heapFit_eq cfg f c p v hop h o st ho
        exact ⟨ext, o', by simp only [heapStep, bind, pure, hrun], ho'⟩
      | eval s xs het c all vec =>
        obtain ⟨ext, o', hrun, ho'⟩ := C105_eval cfg s xs het c all vec hop h o st ho
        exact ⟨ext, o', by simp only [heapStep, bind, pure, hrun], ho'⟩
    obtain ⟨ext, o', hrun, ho'⟩ := hstep
    obtain ⟨ext2, o2, hrun2, ho2⟩ := ih (fun op' h' => hs op' (List.mem_cons_of_mem _ h')) (h ++ ext) o' _ ho'
    refine ⟨ext ++ ext2, o2, ?_, ?_⟩
    · simp only [heapRun, bind, hrun, hrun2, List.append_assoc]
    · rw [← List.append_assoc]; exact ho2

/-- **C105** end to end: the caller's array `data`, a constructor call, any history, one more `eval`: the result is that of the object without references, and the
caller's arrays are as they were. -/
theorem C105_session (cfg : HeapPdpCfg K D) (m : Callable K D) (data : ℕ) (rows : List ℕ) (avgGiven : Bool) (hq : avgGiven = true ∨ m.Quiet)
    (ops : List (PdpOp K D)) (hops : ∀ op ∈ ops, cfg.kind.Safe op.vec) (s : Fin D) (xs : List K) (het : Bool) (centering : PyVal) (all vec : Bool)
    (hs : cfg.kind.Safe vec) (h : Memory K D) :
    Gives (do let self ← heapConstruct m data rows avgGiven
              let o ← heapRun cfg (HeapPdp.init self) ops
              let r ← heapEval cfg o s xs het centering all vec
              return r.2) h
      (pdpEval cfg.value (pdpRun cfg.value (pickRows (h.getD data []) rows) ops) s xs het centering all vec).2 := by
  have hc := C105_constructor_partial m data rows avgGiven hq h
  have h0 : Shows h.length (h ++ [pickRows (h.getD data []) rows]) (HeapPdp.init h.length) (PdpState.init (pickRows (h.getD data []) rows)) :=
    ⟨le_refl _, by simp [HeapPdp.init], getD_new h [_] 0, rfl, rfl, rfl⟩
  obtain ⟨ext, o', hrun, ho'⟩ := C105_history cfg ops hops _ _ _ h0
  obtain ⟨ext2, o2, hrun2, _⟩ := C105_eval cfg s xs het centering all vec hs _ _ _ ho'
  refine ⟨[pickRows (h.getD data []) rows] ++ (ext ++ ext2), ?_⟩
  simp only [bind, pure, hc, hrun, hrun2, pdpRun]
  simp only [List.append_assoc]

end Effector
