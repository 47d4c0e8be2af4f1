import Verif.Model.Plotting

/-!
# C56: the interaction measures cannot be evaluated

Every path of `HIndex` and `REPID` that computes a value passes the keyword `uncertainty`, which the called functions do not have.
-/

set_option linter.unusedSectionVars false

namespace Effector

section

variable {K : Type} [Field K] [LinearOrder K] [IsStrictOrderedRing K] [PySqrt K] {D : ℕ}

/-- `bindCall` accepts exactly the calls that python accepts: the positional arguments fit, every keyword names a parameter that is not already
filled by position, and no parameter without default is left over. -/
theorem C56_bindCall_spec (params : List String) (required nPos : ℕ) (kwargs : List String) :
    bindCall params required nPos kwargs = .ok () ↔ nPos ≤ params.length ∧ (∀ k ∈ kwargs, k ∈ params ∧ k ∉ params.take nPos) ∧
      ∀ p ∈ (params.take required).drop nPos, p ∈ kwargs := by
  unfold bindCall
  by_cases h1 : params.length < nPos
  · rw [if_pos h1]
    exact ⟨fun h => (by cases h), fun h => absurd h.1 (by omega)⟩
  rw [if_neg h1]
  by_cases h2 : kwargs.any (fun k => !(params.contains k)) = true
  · rw [if_pos h2]
    refine ⟨fun h => (by cases h), fun h => ?_⟩
    obtain ⟨k, hk, hk'⟩ := List.any_eq_true.mp h2
    have := (h.2.1 k hk).1
    simp [this] at hk'
  rw [if_neg h2]
  by_cases h3 : kwargs.any (fun k => (params.take nPos).contains k) = true
  · rw [if_pos h3]
    refine ⟨fun h => (by cases h), fun h => ?_⟩
    obtain ⟨k, hk, hk'⟩ := List.any_eq_true.mp h3
    have := (h.2.1 k hk).2
    simp [this] at hk'
  rw [if_neg h3]
  by_cases h4 : ((params.take required).drop nPos).any (fun p => !(kwargs.contains p)) = true
  · rw [if_pos h4]
    refine ⟨fun h => (by cases h), fun h => ?_⟩
    obtain ⟨k, hk, hk'⟩ := List.any_eq_true.mp h4
    have := h.2.2 k hk
    simp [this] at hk'
  rw [if_neg h4]
  refine ⟨fun _ => ⟨by omega, fun k hk => ⟨?_, ?_⟩, fun p hp => ?_⟩, fun _ => rfl⟩
  · by_contra hc
    exact h2 (List.any_eq_true.mpr ⟨k, hk, by simp [hc]⟩)
  · intro hc
    exact h3 (List.any_eq_true.mpr ⟨k, hk, by simp [hc]⟩)
  · by_contra hc
    exact h4 (List.any_eq_true.mpr ⟨p, hp, by simp [hc]⟩)

theorem hPdp1d_raises (m : List (Row K D) → List K) (data : List (Row K D)) (f : Fin D) (x : List K) : hPdp1d m data f x = .error .typeError := by
  unfold hPdp1d
  rw [show bindCall pdp1dParams 6 4 ["uncertainty", "model_returns_jac"] = .error .typeError from by decide]
  rfl

theorem hEvalPairwise_raises (m : List (Row K D) → List K) (data : List (Row K D)) (i j : Fin D) : hEvalPairwise m data i j = .error .typeError := by
  unfold hEvalPairwise
  simp only [hPdp1d_raises]
  rfl

theorem hEvalOneVsAll_raises (m : List (Row K D) → List K) (data : List (Row K D)) (i : Fin D) : hEvalOneVsAll m data i = .error .typeError := by
  unfold hEvalOneVsAll
  rw [hPdp1d_raises]
  rfl

/-- No value is ever stored outside the diagonal. -/
def HEmpty (st : HState K D) : Prop := (∀ i j, i ≠ j → st.pair i j = H_EMPTY) ∧ ∀ i, st.one i = H_EMPTY

theorem hPair_empty {m : List (Row K D) → List K} {data : List (Row K D)} {st : HState K D} (h : HEmpty st) (i j : Fin D) :
    HEmpty (hPair m data st i j).1 ∧ (i ≠ j → (hPair m data st i j).2 = .error .typeError) := by
  unfold hPair
  by_cases h1 : st.pair i j ≠ H_EMPTY
  · rw [if_pos h1]
    exact ⟨h, fun hij => absurd (h.1 i j hij) h1⟩
  · rw [if_neg h1, hEvalPairwise_raises]
    exact ⟨h, fun _ => rfl⟩

theorem hOne_empty {m : List (Row K D) → List K} {data : List (Row K D)} {st : HState K D} (h : HEmpty st) (i : Fin D) :
    HEmpty (hOne m data st i).1 ∧ (hOne m data st i).2 = .error .typeError := by
  unfold hOne
  rw [if_neg (by rw [h.2 i]; simp), hEvalOneVsAll_raises]
  exact ⟨h, rfl⟩

theorem forEach_inv {σ α β : Type} {P : σ → Prop} {step : σ → α → σ × Py β} (hs : ∀ s a, P s → P (step s a).1) (l : List α) (s : σ) (h : P s) :
    P (forEach step s l).1 := by
  induction l generalizing s with
  | nil => exact h
  | cons a t ih =>
    unfold forEach
    have h1 := hs s a h
    rcases e : step s a with ⟨s', e' | b⟩
    · rw [e] at h1; exact h1
    · rw [e] at h1; exact ih s' h1

theorem hFit_empty {m : List (Row K D) → List K} {data : List (Row K D)} {st : HState K D} (h : HEmpty st) (p o : Bool) : HEmpty (hFit m data st p o).1 := by
  have hdiag : ∀ (s : HState K D) (i : Fin D), HEmpty s → HEmpty { s with pair := fun a b => if a = i ∧ b = i then 0 else s.pair a b } := by
    intro s i hs
    refine ⟨fun a b hab => ?_, hs.2⟩
    simp only
    rw [if_neg (by rintro ⟨rfl, rfl⟩; exact hab rfl)]
    exact hs.1 a b hab
  have hloop := forEach_inv (P := HEmpty) (step := fun (s : HState K D) i =>
          forEach (hPair m data · i) { s with pair := fun a b => if a = i ∧ b = i then 0 else s.pair a b } ((List.finRange D).filter (i < ·)))
    (fun s i hs => forEach_inv (P := HEmpty) (fun s' j hs' => (hPair_empty hs' i j).1) _ _ (hdiag s i hs)) (List.finRange D) st h
  have hloop2 : ∀ s : HState K D, HEmpty s → HEmpty (forEach (hOne m data) s (List.finRange D)).1 := fun s hs =>
    forEach_inv (P := HEmpty) (fun s' i hs' => (hOne_empty hs' i).1) _ _ hs
  unfold hFit
  cases p with
  | true =>
    simp only [if_true]
    rcases e : forEach (fun (s : HState K D) i =>
          forEach (hPair m data · i) { s with pair := fun a b => if a = i ∧ b = i then 0 else s.pair a b } ((List.finRange D).filter (i < ·)))
          st (List.finRange D) with ⟨s, e' | ⟨⟩⟩
    · rw [e] at hloop
      exact hloop
    · rw [e] at hloop
      simp only
      cases o with
      | false => exact ⟨hloop.1, hloop.2⟩
      | true =>
        have := hloop2 { s with fittedPair := true } ⟨hloop.1, hloop.2⟩
        simp only [if_true]
        rcases e2 : forEach (hOne m data) { s with fittedPair := true } (List.finRange D) with ⟨s', e' | ⟨⟩⟩
        · rw [e2] at this; exact this
        · rw [e2] at this; exact ⟨this.1, this.2⟩
  | false =>
    simp only [Bool.false_eq_true, if_false]
    cases o with
    | false => exact h
    | true =>
      have := hloop2 st h
      simp only [if_true]
      rcases e2 : forEach (hOne m data) st (List.finRange D) with ⟨s', e' | ⟨⟩⟩
      · rw [e2] at this; exact this
      · rw [e2] at this; exact ⟨this.1, this.2⟩

theorem hPlot_empty {m : List (Row K D) → List K} {data : List (Row K D)} {st : HState K D} (h : HEmpty st) (p o : Bool) : HEmpty (hPlot m data st p o).1 := by
  unfold hPlot
  have h1 : HEmpty (if (!st.fittedPair && p) = true then hFit m data st true false else (st, Except.ok ())).1 := by
    split
    · exact hFit_empty h _ _
    · exact h
  rcases e : (if (!st.fittedPair && p) = true then hFit m data st true false else (st, Except.ok ())) with ⟨s, e' | ⟨⟩⟩
  · rw [e] at h1; exact h1
  rw [e] at h1
  simp only at h1 ⊢
  have h2 : HEmpty (if (!s.fittedOne && o) = true then hFit m data s false true else (s, Except.ok ())).1 := by
    split
    · exact hFit_empty h1 _ _
    · exact h1
  rcases e2 : (if (!s.fittedOne && o) = true then hFit m data s false true else (s, Except.ok ())) with ⟨s', e' | ⟨⟩⟩
  · rw [e2] at h2; exact h2
  rw [e2] at h2
  simp only at h2 ⊢
  split
  · exact ⟨fun a b hab => by simp only; rw [if_neg hab]; exact h2.1 a b hab, h2.2⟩
  · exact h2

theorem hRun_empty (m : List (Row K D) → List K) (data : List (Row K D)) (ops : List (HOp D)) : HEmpty (hRun m data ops) := by
  unfold hRun
  have h0 : HEmpty (HState.init : HState K D) := ⟨fun _ _ _ => rfl, fun _ => rfl⟩
  generalize (HState.init : HState K D) = st at *
  induction ops generalizing st with
  | nil => exact h0
  | cons op t ih =>
    rw [List.foldl_cons]
    apply ih
    cases op with
    | fit p o => exact hFit_empty h0 p o
    | plot p o => exact hPlot_empty h0 p o
    | pair i j => exact (hPair_empty h0 i j).1
    | one i => exact (hOne_empty h0 i).1

/-- **C56 is false for `HIndex.eval_pairwise`**: for every data set, model, pair of different features and history of calls it raises `TypeError`. -/
theorem C56_false_pairwise (m : List (Row K D) → List K) (data : List (Row K D)) (ops : List (HOp D)) (i j : Fin D) (hij : i ≠ j) :
    (hPair m data (hRun m data ops) i j).2 = .error .typeError := (hPair_empty (hRun_empty m data ops) i j).2 hij

/-- **C56 is false for `HIndex.eval_one_vs_all`.** -/
theorem C56_false_one_vs_all (m : List (Row K D) → List K) (data : List (Row K D)) (ops : List (HOp D)) (i : Fin D) :
    (hOne m data (hRun m data ops) i).2 = .error .typeError := (hOne_empty (hRun_empty m data ops) i).2

/-- `HIndex.fit` raises too, whenever there is something to compute. -/
theorem C56_false_fit (m : List (Row K D) → List K) (data : List (Row K D)) (ops : List (HOp D)) :
    (1 ≤ D → (hFit m data (hRun m data ops) false true).2 = .error .typeError) ∧
    (2 ≤ D → ∀ o, (hFit m data (hRun m data ops) true o).2 = .error .typeError) := by
  have h := hRun_empty m data ops
  generalize hRun m data ops = st at *
  constructor
  · intro hD
    obtain ⟨D, rfl⟩ : ∃ n, D = n + 1 := ⟨D - 1, by omega⟩
    unfold hFit
    simp only [Bool.false_eq_true, if_false, if_true]
    rw [List.finRange_succ]
    unfold forEach
    have := (hOne_empty (m := m) (data := data) h 0).2
    rcases e : hOne m data st 0 with ⟨s, e' | v⟩
    · rw [e] at this; simp only at this ⊢; exact congrArg _ (by cases this; rfl)
    · rw [e] at this; cases this
  · intro hD o
    obtain ⟨D, rfl⟩ : ∃ n, D = n + 2 := ⟨D - 2, by omega⟩
    unfold hFit
    simp only [if_true]
    rw [List.finRange_succ]
    set st1 : HState K (D + 2) := { st with pair := fun a b => if a = 0 ∧ b = 0 then 0 else st.pair a b } with hst1
    have h1 : HEmpty st1 := by
      refine ⟨fun a b hab => ?_, h.2⟩
      simp only [hst1]
      rw [if_neg (by rintro ⟨rfl, rfl⟩; exact hab rfl)]
      exact h.1 a b hab
    have hl : ∃ t, ((0 : Fin (D + 2)) :: (List.finRange (D + 1)).map Fin.succ).filter (0 < ·) = 1 :: t := by
      rw [List.finRange_succ]
      simp only [List.map_cons, List.filter_cons]
      rw [if_neg (by simp), if_pos (by simp)]
      exact ⟨_, rfl⟩
    obtain ⟨t, ht⟩ := hl
    have hin : (forEach (fun x => hPair m data x 0) st1 (1 :: t)).2 = .error .typeError := by
      unfold forEach
      have := (hPair_empty (m := m) (data := data) h1 0 1).2 (by simp)
      rcases e : hPair m data st1 0 1 with ⟨s, e' | v⟩
      · rw [e] at this; simp only at this ⊢; exact congrArg _ (by cases this; rfl)
      · rw [e] at this; cases this
    have hout : ∀ l : List (Fin (D + 2)), (forEach (fun (s : HState K (D + 2)) i =>
          forEach (hPair m data · i) { s with pair := fun a b => if a = i ∧ b = i then 0 else s.pair a b }
            (((0 : Fin (D + 2)) :: (List.finRange (D + 1)).map Fin.succ).filter (i < ·))) st (0 :: l)).2 = .error .typeError := by
      intro l
      unfold forEach
      rw [ht]
      rcases e : forEach (fun x => hPair m data x 0) st1 (1 :: t) with ⟨s, e' | v⟩
      · rw [e] at hin; simp only at hin ⊢; exact congrArg _ (by cases hin; rfl)
      · rw [e] at hin; cases hin
    have := hout ((List.finRange (D + 1)).map Fin.succ)
    rcases e : (forEach (fun (s : HState K (D + 2)) i =>
          forEach (hPair m data · i) { s with pair := fun a b => if a = i ∧ b = i then 0 else s.pair a b }
            (((0 : Fin (D + 2)) :: (List.finRange (D + 1)).map Fin.succ).filter (i < ·))) st (0 :: (List.finRange (D + 1)).map Fin.succ)) with ⟨s, e' | ⟨⟩⟩
    · rw [e] at this; simp only at this ⊢; exact congrArg _ (by cases this; rfl)
    · rw [e] at this; cases this

/-- **C56 is false for `REPID.eval_one_vs_all`**: it returns for no data set, no model and no feature. -/
theorem C56_false_repid (choice : ℕ → ℕ → List ℕ) (m : List (Row K D) → List K) (data : List (Row K D)) (f : Fin D) (v : K) :
    repidEvalOneVsAll choice m data f ≠ .ok v := by
  intro h
  unfold repidEvalOneVsAll at h
  simp only [bind, Except.bind] at h
  rcases h1 : axisLimitsAll data with e | ⟨lo, hi⟩
  · rw [h1] at h; cases h
  rw [h1] at h
  simp only at h
  rcases h2 : Base.init choice data (.int 300) (some (lo, hi)) with e | b
  · rw [h2] at h; cases h
  rw [h2] at h
  simp only at h
  rw [show bindCall pdpEvalParams 2 0 ["feature", "xs", "uncertainty", "centering"] = .error .typeError from by decide] at h
  split at h <;> cases h

end

/-- The refutations concern real data: here `REPID` gets as far as the wrong call (and the same call without the wrong keyword would be accepted). -/
theorem C56_wrong_call : bindCall pdpEvalParams 2 0 ["feature", "xs", "uncertainty", "centering"] = .error .typeError ∧
    bindCall pdpEvalParams 2 0 ["feature", "xs", "heterogeneity", "centering"] = .ok () ∧
    bindCall pdp1dParams 6 4 ["uncertainty", "model_returns_jac"] = .error .typeError ∧
    bindCall pdp1dParams 6 4 ["heterogeneity", "model_returns_jac"] = .ok () ∧
    bindCall pdpNdParams 6 4 ["uncertainty", "model_returns_jac"] = .error .typeError := by decide

end Effector
