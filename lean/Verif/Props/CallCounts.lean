import Verif.Props.CrashesRetry

/-!
# C108: how often the user's code is called

Models are expensive.  These theorems say how many calls each public operation makes, of which function, and on which rows; for every state of the object, and
whatever the user's code does (if it raises, the operation ends, with fewer calls).
-/

set_option linter.unusedSectionVars false

namespace Effector

variable {K : Type} [Field K] [LinearOrder K] [IsStrictOrderedRing K] {D : ℕ} {σ S α β : Type}

/-! ## Specification -/

/-- Run from `y`, the program makes at most `n` calls, exactly `n` if it returns, and each of them is `each`. -/
def Spec.Costs (p : RunM σ K D S α) (y : Sys σ K D S) (n : ℕ) (each : Call K D → Prop) : Prop :=
  ∃ evs : List (Event K D), (p y).1.trace = y.trace ++ evs ∧ evs.length ≤ n ∧ (∀ e ∈ evs, each e.call) ∧ ∀ v, (p y).2 = .ok v → evs.length = n

/-- The call is one of the model (of its gradient, for a `DerPDP` that was given one), and all its rows are rows of `data` with another value in column `s`. -/
def Spec.OnCopies (which : PdpWhich) (data : List (Row K D)) (s : Fin D) (c : Call K D) : Prop :=
  (match which with
    | .derJac => ∃ X, c = .jac X
    | _ => ∃ X, c = .model X) ∧
  ∀ r ∈ Spec.rowsIn c, ∃ r0 ∈ data, ∃ v, r = Function.update r0 s v

open Spec

variable {w : World σ K D} {m : List (Row K D) → List K} {j ex : List (Row K D) → List (Row K D)}

theorem costs_of_runs {p : RunM σ K D S α} {y : Sys σ K D S} {o : S} {r : Py α} {cs : List (Call K D)} {L : S → Prop} {n : ℕ} {each : Call K D → Prop}
    (h : Runs w p y o r cs L) (hle : cs.length ≤ n) (heach : ∀ c ∈ cs, each c) (hok : ∀ v, r = .ok v → cs.length = n) : Costs p y n each := by
  rcases h with ⟨ht, _, hr⟩ | ⟨k, c, e, t, hk, _, ht, hr, _⟩
  · refine ⟨answered cs, ht, by simpa [answered] using hle, ?_, fun v hv => ?_⟩
    · intro ev hev
      simp only [answered, List.mem_map] at hev
      obtain ⟨c, hc, rfl⟩ := hev
      exact heach c hc
    · rw [hr] at hv
      simpa [answered] using hok v hv
  · have hlt : k < cs.length := (List.getElem?_eq_some_iff.1 hk).1
    refine ⟨answered (cs.take k) ++ [⟨c, some e⟩], by rw [ht, List.append_assoc], ?_, ?_, fun v hv => ?_⟩
    · simp only [answered, List.length_append, List.length_map, List.length_take, List.length_singleton]
      omega
    · intro ev hev
      simp only [answered, List.mem_append, List.mem_map, List.mem_singleton] at hev
      rcases hev with ⟨c', hc', rfl⟩ | rfl
      · exact heach c' (List.mem_of_mem_take hc')
      · exact heach c (List.mem_of_getElem? hk)
    · rw [hr] at hv; cases hv

theorem costs_refused {p : RunM σ K D S α} {y : Sys σ K D S} {e : PyErr} (n : ℕ) (each : Call K D → Prop) (h : p y = (y, .error e)) : Costs p y n each := by
  refine ⟨[], by rw [h]; simp, by simp, by simp, fun v hv => ?_⟩
  rw [h] at hv; cases hv

/-! ## The constructors -/

/-- What a constructor costs: one call of the model, on the rows kept, unless `avg_output` is given. -/
theorem costs_base (hw : AnswersWith w m j ex) (choice : ℕ → ℕ → List ℕ) (data : List (Row K D)) (nof : PyVal)
    (axisLimits : Option ((Fin D → K) × (Fin D → K))) (avg : Option K) (f : Base K D × K → β) (y : Sys σ K D S) :
    Costs (runBase w choice data nof axisLimits avg >>= fun r => pure (f r)) y (if avg = none then 1 else 0)
      (fun c => ∃ rows, sampled choice data nof = .ok rows ∧ c = .model rows) := by
  have h := runs_mapOk f (runs_base hw choice data nof axisLimits avg y (L := fun _ => True) trivial)
  refine costs_of_runs h ?_ ?_ ?_
  · unfold constructorCalls
    cases avg <;> cases sampled choice data nof <;> simp
  · intro c hc
    unfold constructorCalls at hc
    cases avg with
    | some a => simp at hc
    | none =>
      cases hs : sampled choice data nof with
      | error e => simp [hs] at hc
      | ok rows => simp only [hs, List.mem_singleton] at hc; exact ⟨rows, rfl, hc⟩
  · intro v hv
    unfold constructorCalls
    cases avg with
    | some a => simp
    | none =>
      cases hs : sampled choice data nof with
      | ok rows => simp
      | error e =>
        exfalso
        have : Base.init choice data nof axisLimits = .error e := by
          revert hs
          unfold sampled Base.init
          simp only [bind, Except.bind]
          cases prepNofInstances choice nof data.length with
          | error e' => intro hs; injection hs with hs; subst hs; rfl
          | ok p =>
            simp only
            cases takeRows data p.2 with
            | error e' => intro hs; injection hs with hs; subst hs; rfl
            | ok rows => intro hs; cases hs
        rw [this] at hv
        cases hv

/-- **C108, constructors of PDP, DerPDP and ALE.** The model is called once, on the rows that are kept, if `avg_output` is not given, and not at all if it is.  (So
also a `DerPDP` that is given the gradient calls the model.) -/
theorem C108_pdp_constructor (hw : AnswersWith w m j ex) (choice : ℕ → ℕ → List ℕ) (cast : K → K) (which : PdpWhich) (data : List (Row K D)) (nof : PyVal)
    (axisLimits : Option ((Fin D → K) × (Fin D → K))) (avg : Option K) (y : Sys σ K D S) :
    Costs (runPdpNew w choice cast which data nof axisLimits avg) y (if avg = none then 1 else 0)
      (fun c => ∃ rows, sampled choice data nof = .ok rows ∧ c = .model rows) :=
  costs_base hw choice data nof axisLimits avg _ y

theorem C108_ale_constructor (hw : AnswersWith w m j ex) (choice : ℕ → ℕ → List ℕ) (cast : K → K) (data : List (Row K D)) (nof : PyVal)
    (axisLimits : Option ((Fin D → K) × (Fin D → K))) (avg : Option K) (y : Sys σ K D S) :
    Costs (runAleNew w choice cast data nof axisLimits avg) y (if avg = none then 1 else 0)
      (fun c => ∃ rows, sampled choice data nof = .ok rows ∧ c = .model rows) :=
  costs_base hw choice data nof axisLimits avg _ y

/-! ## PDP and DerPDP -/

theorem gridRows_copies (cast : K → K) (data : List (Row K D)) (s : Fin D) (xs : List K) :
    ∀ r ∈ gridRows cast data s xs, ∃ r0 ∈ data, ∃ v, r = Function.update r0 s v := by
  intro r hr
  simp only [gridRows, List.mem_flatMap, List.mem_map] at hr
  obtain ⟨v, _, r0, h0, rfl⟩ := hr
  exact ⟨r0, h0, cast v, rfl⟩

theorem curveCalls_copies (cast : K → K) (which : PdpWhich) (data : List (Row K D)) (s : Fin D) (xs : List K) (vec : Bool) :
    ∀ c ∈ curveCalls cast which data s xs vec, OnCopies which data s c := by
  intro c hc
  cases which <;> cases vec <;> simp only [curveCalls, List.mem_map, List.mem_flatMap, List.mem_cons, List.not_mem_nil, or_false] at hc
  · obtain ⟨v, _, rfl⟩ := hc; exact ⟨⟨_, rfl⟩, gridRows_copies cast data s _⟩
  · subst hc; exact ⟨⟨_, rfl⟩, gridRows_copies cast data s _⟩
  · obtain ⟨v, _, rfl⟩ := hc; exact ⟨⟨_, rfl⟩, gridRows_copies cast data s _⟩
  · subst hc; exact ⟨⟨_, rfl⟩, gridRows_copies cast data s _⟩
  · obtain ⟨v, _, rfl | rfl⟩ := hc <;> exact ⟨⟨_, rfl⟩, gridRows_copies cast data s _⟩
  · rcases hc with rfl | rfl <;> exact ⟨⟨_, rfl⟩, gridRows_copies cast data s _⟩

theorem Spec.OnCopies.sub {which : PdpWhich} {data data' : List (Row K D)} {s : Fin D} {c : Call K D} (h : OnCopies which data s c) (hs : ∀ r ∈ data, r ∈ data') :
    OnCopies which data' s c :=
  ⟨h.1, fun r hr => by obtain ⟨r0, h0, v, e⟩ := h.2 r hr; exact ⟨r0, hs r0 h0, v, e⟩⟩

theorem dropOutside_sub (data : List (Row K D)) (lo hi : Fin D → K) (s : Fin D) : ∀ r ∈ dropOutside data (lo s) (hi s) s, r ∈ data := by
  intro r hr
  rw [dropOutside_eq] at hr
  exact (List.mem_filter.1 hr).1

theorem centringCalls_length (cfg : RunPdpCfg K D) (data : List (Row K D)) (s : Fin D) (c : Centering) (points : ℕ) (vec : Bool) :
    (centringCalls cfg data s c points vec).length = centringCost cfg.which c points vec := by
  cases c with
  | off => rfl
  | zeroStart => exact curveCalls_length _ _ _ _ _ _
  | zeroIntegral => simp only [centringCalls, centringCost, curveCalls_length, length_linspace]

theorem centringCalls_copies (cfg : RunPdpCfg K D) (data : List (Row K D)) (s : Fin D) (c : Centering) (points : ℕ) (vec : Bool) :
    ∀ cl ∈ centringCalls cfg data s c points vec, OnCopies cfg.which data s cl := by
  cases c with
  | off => intro cl hc; simp [centringCalls] at hc
  | zeroStart => exact curveCalls_copies _ _ _ _ _ _
  | zeroIntegral => exact curveCalls_copies _ _ _ _ _ _

theorem pdpFitCalls_count (cfg : RunPdpCfg K D) (c : Centering) (points : ℕ) (vec : Bool) : ∀ (l : List (Fin D)) (st : PdpState K D),
    (pdpFitCalls cfg m j c points vec st.data l).length ≤ l.length * centringCost cfg.which c points vec ∧
    (∀ cl ∈ pdpFitCalls cfg m j c points vec st.data l, ∃ s ∈ l, OnCopies cfg.which st.data s cl) ∧
    (∀ v, (pdpFitLoop (cfg.with m j) c points vec st l).2 = .ok v →
      (pdpFitCalls cfg m j c points vec st.data l).length = l.length * centringCost cfg.which c points vec)
  | [], st => by simp [pdpFitCalls]
  | s :: t, st => by
    have h0 : (pdpFitFeature (cfg.with m j) st.data s c points vec).1 = dropOutside st.data (cfg.axisLo s) (cfg.axisHi s) s := rfl
    have hsub := dropOutside_sub st.data cfg.axisLo cfg.axisHi s
    have hlen := centringCalls_length cfg (dropOutside st.data (cfg.axisLo s) (cfg.axisHi s) s) s c points vec
    have hcop := centringCalls_copies cfg (dropOutside st.data (cfg.axisLo s) (cfg.axisHi s) s) s c points vec
    simp only [pdpFitCalls]
    rw [pdpFitLoop]
    revert h0
    generalize pdpFitFeature (cfg.with m j) st.data s c points vec = q
    obtain ⟨d, r⟩ := q
    intro h0
    simp only at h0
    subst h0
    cases r with
    | error e =>
      simp only [List.append_nil, List.length_cons, Nat.succ_mul, hlen]
      refine ⟨by omega, fun cl hc => ⟨s, by simp, (hcop cl hc).sub hsub⟩, fun v hv => by cases hv⟩
    | ok nc =>
      obtain ⟨h1, h2, h3⟩ := pdpFitCalls_count cfg c points vec t
        { data := dropOutside st.data (cfg.axisLo s) (cfg.axisHi s) s
          fe := Function.update st.fe s (some nc)
          fitted := Function.update st.fitted s true
          args := Function.update st.args s (some c) }
      simp only at h1 h2 h3
      simp only [List.length_append, List.length_cons, Nat.succ_mul, hlen]
      refine ⟨by omega, fun cl hc => ?_, fun v hv => ?_⟩
      · rcases List.mem_append.1 hc with hc | hc
        · exact ⟨s, by simp, (hcop cl hc).sub hsub⟩
        · obtain ⟨s', hs', hO⟩ := h2 cl hc
          exact ⟨s', by simp [hs'], hO.sub hsub⟩
      · have := h3 v hv
        omega

/-- **C108, `fit` of PDP and DerPDP.** Each feature that is named costs: nothing without centring; for `zero_start` one call; for `zero_integral` one call, or
`points_for_centering` calls without vectorisation; for numerical derivatives twice as many. -/
theorem C108_pdp_fit (hw : AnswersWith w m j ex) (cfg : RunPdpCfg K D) (features centering : PyVal) (points : ℕ) (vec : Bool)
    (y : Sys σ K D (PdpState K D)) (c : Centering) (hc : prepCentering centering = .ok c) :
    Costs (runPdpFit w cfg features centering points vec) y ((named D features).length * centringCost cfg.which c points vec)
      (fun cl => ∃ s ∈ named D features, OnCopies cfg.which y.obj.data s cl) := by
  unfold named
  cases hf : prepFeatures features D with
  | error e =>
    refine costs_refused (e := e) _ _ ?_
    simp only [runPdpFit, hc, inert_ok, hf]; rfl
  | ok f =>
    simp only [Except.bind]
    cases hl : resolveFeatures D f with
    | error e =>
      refine costs_refused (e := e) _ _ ?_
      simp only [runPdpFit, hc, inert_ok, hf, hl]; rfl
    | ok l =>
      obtain ⟨h1, h2, h3⟩ := pdpFitCalls_count (m := m) (j := j) cfg c points vec l y.obj
      refine costs_of_runs (runs_pdpFit hw cfg features centering f c l hc hf hl points vec y) h1 h2 fun v hv => h3 v ?_
      rw [← hv]
      simp only [pdpFit, hc, hf, hl, bind, Except.bind, pure, Except.pure]

open Classical in
/-- What `eval` at `T` positions costs: the fit with 100 points, if the feature has to be fitted; then one call, or `T` without vectorisation; twice as many for
numerical derivatives. -/
noncomputable def Spec.pdpEvalCost (which : PdpWhich) (st : PdpState K D) (s : Fin D) (T : ℕ) (c : Centering) (vec : Bool) : ℕ :=
  (if ToBeFitted st.fitted st.args s c then centringCost which c 100 vec else 0) + curveCost which vec T

theorem pdpEvalCalls_count [PySqrt K] (cfg : RunPdpCfg K D) (st : PdpState K D) (s : Fin D) (xs : List K) (het : Bool) (centering : PyVal) (c : Centering)
    (hc : prepCentering centering = .ok c) (all vec : Bool) :
    (pdpEvalCalls cfg m j st s xs c vec).length ≤ pdpEvalCost cfg.which st s xs.length c vec ∧
    (∀ cl ∈ pdpEvalCalls cfg m j st s xs c vec, OnCopies cfg.which st.data s cl) ∧
    (∀ v, (pdpEval (cfg.with m j) st s xs het centering all vec).2 = .ok v →
      (pdpEvalCalls cfg m j st s xs c vec).length = pdpEvalCost cfg.which st s xs.length c vec) := by
  have hax : ∀ st' v, pdpEvalFitted (cfg.with m j) st' s xs het c all vec = .ok v → cfg.axisLo s < cfg.axisHi s := by
    intro st' v hv
    by_contra hlt
    have ha : pyAssert (decide (cfg.axisLo s < cfg.axisHi s)) = .error .assertionError := by simp [pyAssert, hlt]
    have : pdpEvalFitted (cfg.with m j) st' s xs het c all vec = .error .assertionError := by
      unfold pdpEvalFitted
      change (pyAssert (decide (cfg.axisLo s < cfg.axisHi s)) >>= _) = _
      rw [ha]; rfl
    rw [this] at hv; cases hv
  simp only [pdpEvalCalls, pdpEvalCost, pdpEval, hc]
  cases hn : needsRefit (st.fitted s) (st.args s) c with
  | error e => exact ⟨by simp, by simp, fun v hv => by cases hv⟩
  | ok b =>
    cases b with
    | false =>
      have hnt : ¬ ToBeFitted st.fitted st.args s c := by
        intro h; rw [needsRefit_true.2 h] at hn; cases hn
      simp only [if_neg hnt, Nat.zero_add]
      refine ⟨?_, ?_, fun v hv => ?_⟩
      · split_ifs
        · rw [curveCalls_length]
        · simp
      · intro cl hcl
        split_ifs at hcl
        · exact curveCalls_copies _ _ _ _ _ _ cl hcl
        · simp at hcl
      · rw [if_pos (hax _ v hv), curveCalls_length]
    | true =>
      have hyt := needsRefit_true.1 hn
      obtain ⟨h1, h2, h3⟩ := pdpFitCalls_count (m := m) (j := j) cfg c 100 vec [s] st
      simp only [if_pos hyt, List.length_append]
      simp only [List.length_singleton, Nat.one_mul, List.mem_singleton, exists_eq_left] at h1 h2 h3
      revert h3
      generalize hq : pdpFitLoop (cfg.with m j) c 100 vec st [s] = q
      obtain ⟨st', r⟩ := q
      intro h3
      cases r with
      | error e =>
        simp only [List.length_nil, List.append_nil, Nat.add_zero]
        exact ⟨by omega, h2, fun v hv => by cases hv⟩
      | ok u =>
        have h3 := h3 u rfl
        simp only
        refine ⟨?_, ?_, fun v hv => ?_⟩
        · split_ifs
          · rw [curveCalls_length]; omega
          · simp; omega
        · intro cl hcl
          rcases List.mem_append.1 hcl with hcl | hcl
          · exact h2 cl hcl
          · split_ifs at hcl
            · exact (curveCalls_copies _ _ _ _ _ _ cl hcl).sub (dropOutside_sub _ _ _ _)
            · simp at hcl
        · rw [if_pos (hax _ v hv), curveCalls_length, h3]

/-- **C108, `eval` of PDP and DerPDP.** Evaluating at `T` positions costs one call with vectorisation and `T` without, twice as many for numerical derivatives, and the
fit before it if the feature is not fitted or fitted with another centring. -/
theorem C108_pdp_eval [PySqrt K] (hw : AnswersWith w m j ex) (cfg : RunPdpCfg K D) (s : Fin D) (xs : List K) (het : Bool) (centering : PyVal) (c : Centering)
    (hc : prepCentering centering = .ok c) (all vec : Bool) (y : Sys σ K D (PdpState K D)) :
    Costs (runPdpEval w cfg s xs het centering all vec) y (pdpEvalCost cfg.which y.obj s xs.length c vec) (OnCopies cfg.which y.obj.data s) := by
  obtain ⟨h1, h2, h3⟩ := pdpEvalCalls_count (m := m) (j := j) cfg y.obj s xs het centering c hc all vec
  exact costs_of_runs (runs_pdpEval hw cfg s xs het centering c hc all vec y) h1 h2 h3

/-- **C108, `plot` of PDP and DerPDP.** Drawing costs what one `eval` on the grid costs; the line of the average output costs nothing. -/
theorem C108_pdp_plot [PySqrt K] (hw : AnswersWith w m j ex) (cfg : RunPdpCfg K D) (s : Fin D) (het centering : PyVal) (c : Centering)
    (hc : prepCentering centering = .ok c) (nofPoints : ℕ) (showAvg : Bool) (scaleY : Option (Scale K)) (vec : Bool) (y : Sys σ K D (PdpState K D)) :
    Costs (runPdpPlot w cfg s het centering nofPoints showAvg scaleY vec) y (pdpEvalCost cfg.which y.obj s nofPoints c vec)
      (OnCopies cfg.which y.obj.data s) := by
  cases hh : prepConfidenceInterval het with
  | error e =>
    refine costs_refused (e := e) _ _ ?_
    simp only [runPdpPlot, hh]; rfl
  | ok h' =>
    obtain ⟨h1, h2, h3⟩ := pdpEvalCalls_count (m := m) (j := j) cfg y.obj s (linspace (cfg.axisLo s) (cfg.axisHi s) nofPoints) false centering c hc true vec
    rw [length_linspace] at h1 h3
    refine costs_of_runs (runs_pdpPlot hw cfg s het centering h' c hh hc nofPoints showAvg scaleY vec y) h1 h2 fun v hv => ?_
    cases hr : (pdpEval (cfg.with m j) y.obj s (linspace (cfg.axisLo s) (cfg.axisHi s) nofPoints) false centering true vec).2 with
    | error e => rw [hr] at hv; cases hv
    | ok o => exact h3 o hr

end Effector
