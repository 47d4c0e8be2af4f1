import Verif.Props.RegionalOrder
import Verif.Props.Units

/-!
# C90: evaluating at several positions is evaluating at each of them
-/

set_option linter.unusedSectionVars false

namespace Effector

variable {K : Type} [Field K] [LinearOrder K] [IsStrictOrderedRing K] {D : ℕ}

namespace Spec

/-- The results of calling `f` in turn with the elements of a list; every call may change the state of the object. -/
def inTurn {St A B : Type} (f : St → A → St × B) : St → List A → List B
  | _, [] => []
  | st, x :: t => (f st x).2 :: inTurn f (f st x).1 t

/-- One result put together from several. -/
def joined {Out : Type} (append : Out → Out → Out) : List Out → Option Out
  | [] => none
  | [p] => some p
  | p :: q :: t => (joined append (q :: t)).map (append p)

/-- The result `r` of one call for all positions is that of one call per position: the same numbers one after the other or, if it is an exception, one that a
single call raises. -/
def SameAsSingles {Out : Type} (append : Out → Out → Out) (r : Py Out) (singles : List (Py Out)) : Prop :=
  match r with
  | .ok o => ∃ parts, singles = parts.map .ok ∧ joined append parts = some o
  | .error e => .error e ∈ singles

/-- Effects and, if asked for, heterogeneities, one after the other. -/
def appendEval (a b : EvalOut K) : EvalOut K :=
  (a.1 ++ b.1, match a.2, b.2 with
    | some u, some v => some (u ++ v)
    | _, _ => none)

/-- The same for what (d-)PDP returns. -/
def appendPdp : PdpOut K → PdpOut K → PdpOut K
  | .all y, .all z => .all (y ++ z)
  | .meanOnly m, .meanOnly n => .meanOnly (m ++ n)
  | .meanStd m s, .meanStd n t => .meanStd (m ++ n) (s ++ t)
  | .meanStdErr m s u, .meanStdErr n t v => .meanStdErr (m ++ n) (s ++ t) (u ++ v)
  | a, _ => a

end Spec

open Spec

/-! ### A criterion -/

/-- `E` of a longer list of positions is put together from `E` of the first and `E` of the others. -/
structure Splits2 {Out : Type} (app : Out → Out → Out) (E : List K → Py Out) : Prop where
  ok : ∀ x xs o, xs ≠ [] → E (x :: xs) = .ok o → ∃ a b, E [x] = .ok a ∧ E xs = .ok b ∧ o = app a b
  err : ∀ x xs e, xs ≠ [] → E (x :: xs) = .error e → E [x] = .error e ∨ E xs = .error e

theorem Splits2.singles {Out : Type} {app : Out → Out → Out} {E : List K → Py Out} (h : Splits2 app E) (x : K) (xs : List K) :
    SameAsSingles app (E (x :: xs)) ((x :: xs).map fun v => E [v]) := by
  induction xs generalizing x with
  | nil =>
    unfold SameAsSingles
    cases e : E [x] with
    | ok o => exact ⟨[o], by simp [e], rfl⟩
    | error er => simp [e]
  | cons y t ih =>
    have ih := ih y
    unfold SameAsSingles at ih ⊢
    cases e : E (x :: y :: t) with
    | ok o =>
      obtain ⟨a, b, e1, e2, rfl⟩ := h.ok x (y :: t) o (List.cons_ne_nil _ _) e
      rw [e2] at ih
      obtain ⟨parts, p1, p2⟩ := ih
      refine ⟨a :: parts, by rw [List.map_cons (l := y :: t), List.map_cons (l := parts), e1, p1], ?_⟩
      cases parts with
      | nil => simp at p1
      | cons q r => simp only [joined, p2, Option.map_some]
    | error er =>
      simp only [List.map_cons]
      rcases h.err x (y :: t) er (List.cons_ne_nil _ _) e with h1 | h1
      · rw [h1]; exact List.mem_cons_self
      · rw [h1] at ih
        exact List.mem_cons_of_mem _ ih

theorem Splits2.const_error {Out : Type} {app : Out → Out → Out} (e : PyErr) : Splits2 (K := K) app (fun _ => (.error e : Py Out)) :=
  ⟨(fun _ _ _ _ h => by cases h), (fun _ _ _ _ h => Or.inl h)⟩

theorem Splits2.map_out {Out Out' : Type} {app : Out → Out → Out} {app' : Out' → Out' → Out'} {E : List K → Py Out} (h : Splits2 app E) (g : Out → Out')
    (hg : ∀ a b, g (app a b) = app' (g a) (g b)) : Splits2 app' (fun xs => (E xs).map g) := by
  refine ⟨fun x xs o hx he => ?_, fun x xs e hx he => ?_⟩
  · cases e1 : E (x :: xs) with
    | error er => rw [e1] at he; cases he
    | ok o1 =>
      rw [e1] at he
      obtain ⟨a, b, h1, h2, rfl⟩ := h.ok x xs o1 hx e1
      cases he
      exact ⟨g a, g b, by rw [h1]; rfl, by rw [h2]; rfl, hg a b⟩
  · cases e1 : E (x :: xs) with
    | ok o1 => rw [e1] at he; cases he
    | error er =>
      rw [e1] at he
      cases he
      rcases h.err x xs e hx e1 with h1 | h1
      · left; rw [h1]; rfl
      · right; rw [h1]; rfl

theorem mapM_splits {A : Type} (F : K → Py A) : Splits2 (· ++ ·) (fun xs : List K => xs.mapM F) := by
  refine ⟨fun x xs o _ he => ?_, fun x xs e _ he => ?_⟩
  · rw [List.mapM_cons] at he
    simp only [bind, Except.bind, pure, Except.pure] at he
    cases h1 : F x with
    | error er => rw [h1] at he; cases he
    | ok a =>
      rw [h1] at he
      cases h2 : xs.mapM F with
      | error er => rw [h2] at he; cases he
      | ok b =>
        rw [h2] at he
        cases he
        refine ⟨[a], b, ?_, rfl, rfl⟩
        rw [List.mapM_cons]
        simp [bind, Except.bind, pure, Except.pure, h1]
  · rw [List.mapM_cons] at he
    simp only [bind, Except.bind, pure, Except.pure] at he
    cases h1 : F x with
    | error er =>
      rw [h1] at he
      cases he
      left
      rw [List.mapM_cons]
      simp [bind, Except.bind, h1]
    | ok a =>
      rw [h1] at he
      cases h2 : xs.mapM F with
      | error er => rw [h2] at he; cases he; exact Or.inr rfl
      | ok b => rw [h2] at he; cases he

/-! ### ALE and RHALE -/

theorem accumulated_splits (limits be dx : List K) : Splits2 (· ++ ·) (fun xs => computeAccumulatedEffect xs limits be dx) := by
  rcases digitize_form limits with h | ⟨F, h⟩
  · have : (fun xs => computeAccumulatedEffect xs limits be dx) = fun _ => .error .valueError := by
      funext xs
      unfold computeAccumulatedEffect
      rw [h]; rfl
    rw [this]
    exact .const_error _
  · by_cases hl : be.length ≠ dx.length
    · have : (fun xs => computeAccumulatedEffect xs limits be dx) = fun _ => .error .valueError := by
        funext xs
        unfold computeAccumulatedEffect
        rw [h]; simp only [bind, Except.bind, if_pos hl]
      rw [this]
      exact .const_error _
    · have : (fun xs => computeAccumulatedEffect xs limits be dx) = fun xs => xs.mapM fun x => accAt limits be dx false x (F x) := by
        funext xs
        unfold computeAccumulatedEffect
        rw [h]
        simp only [bind, Except.bind, if_neg hl]
        induction xs with
        | nil => rfl
        | cons x t ih =>
          rw [List.map_cons, List.zip_cons_cons, List.mapM_cons, List.mapM_cons, ih]
      rw [this]
      exact mapM_splits _

theorem Splits2.then_error {Out Out' : Type} {app : Out → Out → Out} {app' : Out' → Out' → Out'} {E : List K → Py Out} (h : Splits2 app E) (e : PyErr) :
    Splits2 app' (fun xs => (E xs).bind fun _ => (.error e : Py Out')) := by
  refine ⟨fun x xs o hx he => ?_, fun x xs e' hx he => ?_⟩
  · cases e1 : E (x :: xs) <;> rw [e1] at he <;> cases he
  · cases e1 : E (x :: xs) with
    | error er =>
      rw [e1] at he
      cases he
      rcases h.err x xs e' hx e1 with h1 | h1
      · left; rw [h1]; rfl
      · right; rw [h1]; rfl
    | ok o =>
      rw [e1] at he
      cases he
      obtain ⟨a, b, h1, h2, _⟩ := h.ok x xs o hx e1
      left; rw [h1]; rfl

/-- Effect and heterogeneity of fitted parameters. -/
def bothParts [PySqrt K] (p : AleParams K) (het : Bool) (xs : List K) : Py (EvalOut K) :=
  (evalUnnorm p xs).bind fun y => (if het then (evalHet p xs).map some else .ok none : Py (Option (List K))).bind fun z => .ok (y, z)

theorem bothParts_splits [PySqrt K] (p : AleParams K) (het : Bool) : Splits2 appendEval (bothParts p het) := by
  have h1 : Splits2 (· ++ ·) (evalUnnorm p) := accumulated_splits _ _ _
  have h2 : Splits2 (· ++ ·) (evalHet p) := accumulated_splits _ _ _
  unfold bothParts
  refine ⟨fun x xs o hx he => ?_, fun x xs e hx he => ?_⟩
  · cases e1 : evalUnnorm p (x :: xs) with
    | error er => rw [e1] at he; cases he
    | ok y =>
      obtain ⟨a, b, a1, a2, rfl⟩ := h1.ok x xs y hx e1
      rw [e1] at he
      simp only [a1, a2, Except.bind] at he ⊢
      cases het with
      | false => simp at he; subst he; exact ⟨_, _, rfl, rfl, rfl⟩
      | true =>
        simp only [if_true] at he ⊢
        cases e2 : evalHet p (x :: xs) with
        | error er => rw [e2] at he; simp [Except.map] at he
        | ok z =>
          obtain ⟨a', b', b1, b2, rfl⟩ := h2.ok x xs z hx e2
          rw [e2] at he
          simp only [Except.map, Except.ok.injEq] at he
          subst he
          exact ⟨_, _, by rw [b1]; rfl, by rw [b2]; rfl, rfl⟩
  · cases e1 : evalUnnorm p (x :: xs) with
    | error er =>
      rw [e1] at he
      cases he
      rcases h1.err x xs e hx e1 with h | h
      · left; rw [h]; rfl
      · right; rw [h]; rfl
    | ok y =>
      obtain ⟨a, b, a1, a2, rfl⟩ := h1.ok x xs y hx e1
      rw [e1] at he
      simp only [a1, a2, Except.bind] at he ⊢
      cases het with
      | false => simp at he
      | true =>
        simp only [if_true] at he ⊢
        cases e2 : evalHet p (x :: xs) with
        | ok z => rw [e2] at he; simp [Except.map] at he
        | error er =>
          rw [e2] at he
          simp only [Except.map, Except.error.injEq] at he
          subst he
          rcases h2.err x xs er hx e2 with h | h
          · left; rw [h]; rfl
          · right; rw [h]; rfl

theorem aleEvalFitted_splits [PySqrt K] (cfg : AleCfg K D) (st : AleState K D) (s : Fin D) (het : Bool) (c : Centering) :
    Splits2 appendEval (fun xs => aleEvalFitted cfg st s xs het c) := by
  cases ha : pyAssert (decide (cfg.axisLo s < cfg.axisHi s)) with
  | error e =>
    have : (fun xs => aleEvalFitted cfg st s xs het c) = fun _ => .error e := by
      funext xs; unfold aleEvalFitted; simp only [bind, Except.bind, ha]
    rw [this]; exact .const_error e
  | ok u =>
    cases hf : st.fe s with
    | none =>
      have : (fun xs => aleEvalFitted cfg st s xs het c) = fun _ => .error .keyError := by
        funext xs; unfold aleEvalFitted; simp only [bind, Except.bind, ha, hf]
      rw [this]; exact .const_error _
    | some q =>
      obtain ⟨p, nc⟩ := q
      by_cases hc : c = .off
      · have : (fun xs => aleEvalFitted cfg st s xs het c) = bothParts p het := by
          funext xs; unfold aleEvalFitted bothParts; simp only [bind, Except.bind, pure, Except.pure, ha, hf, if_pos hc]
          cases het <;> rfl
        rw [this]; exact bothParts_splits p het
      · cases nc with
        | none =>
          have : (fun xs => aleEvalFitted cfg st s xs het c) = fun xs => (bothParts p het xs).bind fun _ => .error .keyError := by
            funext xs; unfold aleEvalFitted bothParts; simp only [bind, Except.bind, pure, Except.pure, ha, hf, if_neg hc]
            cases evalUnnorm p xs with
            | error e => rfl
            | ok y => cases het <;> cases evalHet p xs <;> rfl
          rw [this]; exact (bothParts_splits p het).then_error _
        | some n =>
          have : (fun xs => aleEvalFitted cfg st s xs het c) = fun xs => (bothParts p het xs).map fun q => (q.1.map (· - n), q.2) := by
            funext xs; unfold aleEvalFitted bothParts; simp only [bind, Except.bind, pure, Except.pure, ha, hf, if_neg hc]
            cases evalUnnorm p xs with
            | error e => rfl
            | ok y => cases het <;> cases evalHet p xs <;> rfl
          rw [this]
          exact (bothParts_splits p het).map_out _ fun a b => by simp [appendEval]

theorem aleEval_splits [PySqrt K] (cfg : AleCfg K D) (st : AleState K D) (s : Fin D) (het : Bool) (c : PyVal) :
    Splits2 appendEval (fun xs => (aleEval cfg st s xs het c).2) := by
  unfold aleEval
  cases prepCentering c with
  | error e => exact .const_error e
  | ok m =>
    simp only []
    cases needsRefit (st.fitted s) (st.args s) m with
    | error e => exact .const_error e
    | ok b =>
      cases b with
      | false => exact aleEvalFitted_splits cfg st s het m
      | true =>
        simp only []
        rcases fitLoop cfg cfg.defaultBin m st [s] with ⟨st', e | ⟨⟩⟩
        · exact .const_error e
        · exact aleEvalFitted_splits cfg st' s het m

/-! ### Repeated calls -/

/-- A second call of `eval` with the same feature and centring changes nothing and answers as the first one would have. -/
structure Settles {St Out : Type} (ev : St → List K → St × Py Out) : Prop where
  state : ∀ st xs ys, (ev st xs).1 = (ev st ys).1
  again : ∀ st xs ys, ev (ev st xs).1 ys = ev st ys

theorem Settles.inTurn {St Out : Type} {ev : St → List K → St × Py Out} (h : Settles ev) (st : St) (xs : List K) :
    Spec.inTurn (fun st x => ev st [x]) st xs = xs.map fun x => (ev st [x]).2 := by
  induction xs generalizing st with
  | nil => rfl
  | cons x t ih =>
    unfold Spec.inTurn
    rw [ih, List.map_cons]
    congr 1
    apply List.map_congr_left
    intro y _
    rw [h.again]

theorem needsRefit_done {m : Centering} : needsRefit true (some m) m = .ok false := by
  unfold needsRefit
  by_cases h : m = .off <;> simp [h]

theorem fitLoop_again (cfg : AleCfg K D) (bm : BinMethod K) (m : Centering) (st : AleState K D) (s : Fin D) :
    (∀ st' e, fitLoop cfg bm m st [s] = (st', .error e) →
      st'.fitted s = st.fitted s ∧ st'.args s = st.args s ∧ fitLoop cfg bm m st' [s] = (st', .error e)) ∧
    (∀ st', fitLoop cfg bm m st [s] = (st', .ok ()) → st'.fitted s = true ∧ st'.args s = some m) := by
  unfold fitLoop fitOne
  cases hf : cfg.fitF s bm with
  | error e => exact ⟨fun st' e' h => by cases h; exact ⟨rfl, rfl, rfl⟩, fun st' h => by cases h⟩
  | ok p =>
    simp only []
    cases hz : aleNormConst cfg p s m with
    | error e => exact ⟨fun st' e' h => by cases h; simp, fun st' h => by cases h⟩
    | ok z => exact ⟨fun st' e' h => (by simp [fitLoop] at h), fun st' h => (by simp only [fitLoop, Prod.mk.injEq, and_true] at h; subst h; simp)⟩

theorem aleEval_settles [PySqrt K] (cfg : AleCfg K D) (s : Fin D) (het : Bool) (c : PyVal) :
    Settles (fun st xs => aleEval cfg st s xs het c) := by
  refine ⟨fun st xs ys => aleEval_state_xs cfg st s xs ys het het c, fun st xs ys => ?_⟩
  unfold aleEval
  cases hm : prepCentering c with
  | error e => rfl
  | ok m =>
    simp only []
    cases hn : needsRefit (st.fitted s) (st.args s) m with
    | error e => simp only [hn]
    | ok b =>
      cases b with
      | false => simp only [hn]
      | true =>
        obtain ⟨h1, h2⟩ := fitLoop_again cfg cfg.defaultBin m st s
        simp only []
        rcases hr : fitLoop cfg cfg.defaultBin m st [s] with ⟨st', e | ⟨⟩⟩
        · obtain ⟨f1, f2, f3⟩ := h1 st' e hr
          simp only [f1, f2, hn, f3]
        · obtain ⟨f1, f2⟩ := h2 st' hr
          simp only [f1, f2, needsRefit_done]

/-! ### PDP, d-PDP -/

theorem report_append [PySqrt K] (het all : Bool) (a b : List (List K)) :
    (if all then PdpOut.all (a ++ b) else if het then .meanStd ((a ++ b).map mean) ((a ++ b).map npStd) else .meanOnly ((a ++ b).map mean)) =
      appendPdp (if all then PdpOut.all a else if het then .meanStd (a.map mean) (a.map npStd) else .meanOnly (a.map mean))
        (if all then PdpOut.all b else if het then .meanStd (b.map mean) (b.map npStd) else .meanOnly (b.map mean)) := by
  cases all <;> cases het <;> simp [appendPdp]

theorem pdpEvalFitted_splits [PySqrt K] (cast : K → K) (M : PdpModel K D) (lo hi : Fin D → K) (st : PdpState K D) (s : Fin D) (het all vec : Bool) (m : Centering) :
    Splits2 appendPdp (fun xs => pdpEvalFitted { cast := cast, kind := M.kind, axisLo := lo, axisHi := hi } st s xs het m all vec) := by
  have hpred : Splits2 (· ++ ·) (fun xs => pdpPredict cast M.kind st.data xs s vec) := by
    have e : ∀ xs : List K, xs ≠ [] → pdpPredict cast M.kind st.data xs s vec = .ok (xs.map fun v => st.data.map (atCast cast M s v)) := fun xs hx => by
      rw [predict_values, if_neg fun h => hx h.1]
    refine ⟨fun x xs o hx he => ?_, fun x xs er hx he => ?_⟩
    · simp only [e _ hx, e (x :: xs) (List.cons_ne_nil _ _), e [x] (List.cons_ne_nil _ _)] at he ⊢
      cases he
      exact ⟨_, _, rfl, rfl, rfl⟩
    · simp only [e (x :: xs) (List.cons_ne_nil _ _)] at he
      cases he
  have hcent : Splits2 (· ++ ·) (fun xs => (pdpPredict cast M.kind st.data xs s vec).bind fun yy =>
      if m = .off then .ok yy else match st.fe s with
        | none => .error .keyError
        | some nc => yy.mapM (subNorm nc)) := by
    by_cases hm : m = .off
    · simp only [if_pos hm]
      have : (fun xs => (pdpPredict cast M.kind st.data xs s vec).bind fun yy => (.ok yy : Py (List (List K)))) = fun xs => pdpPredict cast M.kind st.data xs s vec := by
        funext xs
        cases pdpPredict cast M.kind st.data xs s vec <;> rfl
      rw [this]
      exact hpred
    · simp only [if_neg hm]
      cases st.fe s with
      | none => exact hpred.then_error _
      | some nc =>
        simp only []
        refine ⟨fun x xs o hx he => ?_, fun x xs er hx he => ?_⟩
        · simp only [predict_values, hx, List.cons_ne_nil, false_and, if_false, Except.bind] at he ⊢
          rw [List.map_cons, List.mapM_cons] at he
          simp only [bind, Except.bind, pure, Except.pure] at he
          simp only [List.map_cons, List.map_nil, List.mapM_cons, List.mapM_nil, bind, Except.bind, pure, Except.pure]
          cases h1 : subNorm nc (st.data.map (atCast cast M s x)) with
          | error e => rw [h1] at he; cases he
          | ok a =>
            rw [h1] at he
            cases h2 : (xs.map fun v => st.data.map (atCast cast M s v)).mapM (subNorm nc) with
            | error e => rw [h2] at he; cases he
            | ok b => rw [h2] at he; cases he; exact ⟨_, _, rfl, rfl, rfl⟩
        · simp only [predict_values, hx, List.cons_ne_nil, false_and, if_false, Except.bind] at he ⊢
          rw [List.map_cons, List.mapM_cons] at he
          simp only [bind, Except.bind, pure, Except.pure] at he
          simp only [List.map_cons, List.map_nil, List.mapM_cons, List.mapM_nil, bind, Except.bind, pure, Except.pure]
          cases h1 : subNorm nc (st.data.map (atCast cast M s x)) with
          | error e => rw [h1] at he; cases he; exact Or.inl rfl
          | ok a =>
            rw [h1] at he
            cases h2 : (xs.map fun v => st.data.map (atCast cast M s v)).mapM (subNorm nc) with
            | error e => rw [h2] at he; cases he; exact Or.inr rfl
            | ok b => rw [h2] at he; cases he
  cases ha : pyAssert (decide (lo s < hi s)) with
  | error e =>
    have : (fun xs => pdpEvalFitted { cast := cast, kind := M.kind, axisLo := lo, axisHi := hi } st s xs het m all vec) = fun _ => .error e := by
      funext xs; unfold pdpEvalFitted; simp only [bind, Except.bind, ha]
    rw [this]; exact .const_error e
  | ok u =>
    have : (fun xs => pdpEvalFitted { cast := cast, kind := M.kind, axisLo := lo, axisHi := hi } st s xs het m all vec) = fun xs =>
        ((pdpPredict cast M.kind st.data xs s vec).bind fun yy =>
          if m = .off then .ok yy else match st.fe s with
            | none => .error .keyError
            | some nc => yy.mapM (subNorm nc)).map fun yy =>
          if all then .all yy else if het then .meanStd (yy.map mean) (yy.map npStd) else .meanOnly (yy.map mean) := by
      funext xs
      unfold pdpEvalFitted
      simp only [bind, Except.bind, pure, Except.pure, ha]
      cases pdpPredict cast M.kind st.data xs s vec with
      | error e => rfl
      | ok yy =>
        simp only []
        by_cases hm : m = .off
        · simp only [if_pos hm]; rfl
        · simp only [if_neg hm]
          cases st.fe s with
          | none => rfl
          | some nc => simp only []; cases yy.mapM (subNorm nc) <;> rfl
    rw [this]
    exact hcent.map_out _ fun a b => report_append het all a b

theorem pdpEval_splits [PySqrt K] (cast : K → K) (M : PdpModel K D) (lo hi : Fin D → K) (st : PdpState K D) (s : Fin D) (het : Bool) (c : PyVal) (all vec : Bool) :
    Splits2 appendPdp (fun xs => (pdpEval { cast := cast, kind := M.kind, axisLo := lo, axisHi := hi } st s xs het c all vec).2) := by
  unfold pdpEval
  cases prepCentering c with
  | error e => exact .const_error e
  | ok m =>
    simp only []
    cases needsRefit (st.fitted s) (st.args s) m with
    | error e => exact .const_error e
    | ok b =>
      cases b with
      | false => exact pdpEvalFitted_splits cast M lo hi st s het all vec m
      | true =>
        simp only []
        rcases pdpFitLoop { cast := cast, kind := M.kind, axisLo := lo, axisHi := hi } m 100 vec st [s] with ⟨st', e | ⟨⟩⟩
        · exact .const_error e
        · exact pdpEvalFitted_splits cast M lo hi st' s het all vec m

theorem dropOutside_twice (data : List (Row K D)) (lo hi : K) (s : Fin D) : dropOutside (dropOutside data lo hi s) lo hi s = dropOutside data lo hi s := by
  unfold dropOutside
  simp only [List.filter_filter]
  congr 1
  funext r
  cases decide (lo ≤ r s) <;> cases decide (r s ≤ hi) <;> rfl

theorem pdpFitLoop_again (cfg : PdpCfg K D) (m : Centering) (vec : Bool) (st : PdpState K D) (s : Fin D) :
    (∀ st' e, pdpFitLoop cfg m 100 vec st [s] = (st', .error e) →
      st'.fitted s = st.fitted s ∧ st'.args s = st.args s ∧ pdpFitLoop cfg m 100 vec st' [s] = (st', .error e)) ∧
    (∀ st', pdpFitLoop cfg m 100 vec st [s] = (st', .ok ()) → st'.fitted s = true ∧ st'.args s = some m) := by
  have h1 : (pdpFitFeature cfg st.data s m 100 vec).1 = dropOutside st.data (cfg.axisLo s) (cfg.axisHi s) s := rfl
  have h2 : pdpFitFeature cfg (dropOutside st.data (cfg.axisLo s) (cfg.axisHi s) s) s m 100 vec = pdpFitFeature cfg st.data s m 100 vec := by
    unfold pdpFitFeature
    rw [dropOutside_twice]
  unfold pdpFitLoop
  rcases hf : pdpFitFeature cfg st.data s m 100 vec with ⟨d, e | z⟩
  · rw [hf] at h1 h2
    obtain rfl : d = dropOutside st.data (cfg.axisLo s) (cfg.axisHi s) s := h1
    refine ⟨fun st' e' h => ?_, fun st' h => by cases h⟩
    cases h
    exact ⟨rfl, rfl, by simp only [h2]⟩
  · exact ⟨fun st' e' h => (by simp [pdpFitLoop] at h), fun st' h => (by simp only [pdpFitLoop, Prod.mk.injEq, and_true] at h; subst h; simp)⟩

theorem pdpEval_settles [PySqrt K] (cfg : PdpCfg K D) (s : Fin D) (het : Bool) (c : PyVal) (all vec : Bool) :
    Settles (fun st xs => pdpEval cfg st s xs het c all vec) := by
  refine ⟨fun st xs ys => ?_, fun st xs ys => ?_⟩
  · unfold pdpEval
    cases prepCentering c with
    | error e => rfl
    | ok m =>
      simp only []
      cases needsRefit (st.fitted s) (st.args s) m with
      | error e => rfl
      | ok b =>
        cases b with
        | false => rfl
        | true =>
          simp only []
          rcases pdpFitLoop cfg m 100 vec st [s] with ⟨st', e | ⟨⟩⟩ <;> rfl
  · unfold pdpEval
    cases hm : prepCentering c with
    | error e => rfl
    | ok m =>
      simp only []
      cases hn : needsRefit (st.fitted s) (st.args s) m with
      | error e => simp only [hn]
      | ok b =>
        cases b with
        | false => simp only [hn]
        | true =>
          obtain ⟨h1, h2⟩ := pdpFitLoop_again cfg m vec st s
          simp only []
          rcases hr : pdpFitLoop cfg m 100 vec st [s] with ⟨st', e | ⟨⟩⟩
          · obtain ⟨f1, f2, f3⟩ := h1 st' e hr
            simp only [f1, f2, hn, f3]
          · obtain ⟨f1, f2⟩ := h2 st' hr
            simp only [f1, f2, needsRefit_done]

/-! ### ShapDP -/

theorem shapEval_splits (cfg : ShapCfg K D) (st : ShapState K D) (s : Fin D) (het : Bool) (c : PyVal) :
    Splits2 appendEval (fun xs => (shapEval cfg st s xs het c).2) := by
  have key : ∀ (st : ShapState K D) (m : Centering), Splits2 appendEval (fun xs => shapEvalFitted cfg st s xs het m) := by
    intro st m
    cases ha : pyAssert (decide (cfg.axisLo s < cfg.axisHi s)) with
    | error e =>
      have : (fun xs => shapEvalFitted cfg st s xs het m) = fun _ => .error e := by
        funext xs; unfold shapEvalFitted; simp only [bind, Except.bind, ha]
      rw [this]; exact .const_error e
    | ok u =>
      cases hf : st.fe s with
      | none =>
        have : (fun xs => shapEvalFitted cfg st s xs het m) = fun _ => .error .keyError := by
          funext xs; unfold shapEvalFitted; simp only [bind, Except.bind, ha, hf]
        rw [this]; exact .const_error _
      | some fe =>
        have e : ∀ xs, shapEvalFitted cfg st s xs het m = .ok
            (if m = .off then xs.map fe.splineMean else (xs.map fe.splineMean).map (· - fe.normConst), if het then some (xs.map fe.splineStd) else none) := fun xs => by
          unfold shapEvalFitted; simp only [bind, Except.bind, pure, Except.pure, ha, hf]
        refine ⟨fun x xs o _ he => ?_, fun x xs er _ he => ?_⟩
        · simp only [e] at he ⊢
          cases he
          refine ⟨_, _, rfl, rfl, ?_⟩
          unfold appendEval
          by_cases hm : m = .off <;> cases het <;> simp [hm]
        · simp only [e] at he; cases he
  unfold shapEval
  cases prepCentering c with
  | error e => exact .const_error e
  | ok m =>
    simp only []
    cases needsRefit (st.fitted s) (st.args s) m with
    | error e => exact .const_error e
    | ok b =>
      cases b with
      | false => exact key st m
      | true =>
        simp only []
        rcases shapFitLoop cfg m 100 st [s] with ⟨st', e | ⟨⟩⟩
        · exact .const_error e
        · exact key st' m

theorem shapFitLoop_again (cfg : ShapCfg K D) (m : Centering) (st : ShapState K D) (s : Fin D) :
    (∀ st' e, shapFitLoop cfg m 100 st [s] = (st', .error e) →
      st'.fitted s = st.fitted s ∧ st'.args s = st.args s ∧ shapFitLoop cfg m 100 st' [s] = (st', .error e)) ∧
    (∀ st', shapFitLoop cfg m 100 st [s] = (st', .ok ()) → st'.fitted s = true ∧ st'.args s = some m) := by
  have h1 : (shapFitFeature cfg.ext cfg.axisLo cfg.axisHi st.data s m 100).1 = dropOutside st.data (cfg.axisLo s) (cfg.axisHi s) s := rfl
  have h2 : shapFitFeature cfg.ext cfg.axisLo cfg.axisHi (dropOutside st.data (cfg.axisLo s) (cfg.axisHi s) s) s m 100 = shapFitFeature cfg.ext cfg.axisLo cfg.axisHi st.data s m 100 := by
    unfold shapFitFeature
    rw [dropOutside_twice]
  unfold shapFitLoop
  rcases hf : shapFitFeature cfg.ext cfg.axisLo cfg.axisHi st.data s m 100 with ⟨d, e | z⟩
  · rw [hf] at h1 h2
    obtain rfl : d = dropOutside st.data (cfg.axisLo s) (cfg.axisHi s) s := h1
    refine ⟨fun st' e' h => ?_, fun st' h => by cases h⟩
    cases h
    exact ⟨rfl, rfl, by simp only [h2]⟩
  · exact ⟨fun st' e' h => (by simp [shapFitLoop] at h), fun st' h => (by simp only [shapFitLoop, Prod.mk.injEq, and_true] at h; subst h; simp)⟩

theorem shapEval_settles (cfg : ShapCfg K D) (s : Fin D) (het : Bool) (c : PyVal) : Settles (fun st xs => shapEval cfg st s xs het c) := by
  refine ⟨fun st xs ys => ?_, fun st xs ys => ?_⟩
  · unfold shapEval
    cases prepCentering c with
    | error e => rfl
    | ok m =>
      simp only []
      cases needsRefit (st.fitted s) (st.args s) m with
      | error e => rfl
      | ok b =>
        cases b with
        | false => rfl
        | true =>
          simp only []
          rcases shapFitLoop cfg m 100 st [s] with ⟨st', e | ⟨⟩⟩ <;> rfl
  · unfold shapEval
    cases hm : prepCentering c with
    | error e => rfl
    | ok m =>
      simp only []
      cases hn : needsRefit (st.fitted s) (st.args s) m with
      | error e => simp only [hn]
      | ok b =>
        cases b with
        | false => simp only [hn]
        | true =>
          obtain ⟨h1, h2⟩ := shapFitLoop_again cfg m st s
          simp only []
          rcases hr : shapFitLoop cfg m 100 st [s] with ⟨st', e | ⟨⟩⟩
          · obtain ⟨f1, f2, f3⟩ := h1 st' e hr
            simp only [f1, f2, hn, f3]
          · obtain ⟨f1, f2⟩ := h2 st' hr
            simp only [f1, f2, needsRefit_done]

/-! ### The regional classes -/

theorem pdpEval_shape [PySqrt K] (cfg : PdpCfg K D) (st : PdpState K D) (s : Fin D) (xs : List K) (het : Bool) (c : PyVal) (vec : Bool) (o : PdpOut K)
    (h : (pdpEval cfg st s xs het c false vec).2 = .ok o) : ∃ y : List (List K), o = if het then .meanStd (y.map mean) (y.map npStd) else .meanOnly (y.map mean) := by
  have key : ∀ (st : PdpState K D) (m : Centering), pdpEvalFitted cfg st s xs het m false vec = .ok o →
      ∃ y : List (List K), o = if het then .meanStd (y.map mean) (y.map npStd) else .meanOnly (y.map mean) := by
    intro st m h
    unfold pdpEvalFitted at h
    simp only [bind, Except.bind, pure, Except.pure] at h
    cases h1 : pyAssert (decide (cfg.axisLo s < cfg.axisHi s)) with
    | error e => rw [h1] at h; cases h
    | ok u =>
      rw [h1] at h
      cases h2 : pdpPredict cfg.cast cfg.kind st.data xs s vec with
      | error e => rw [h2] at h; cases h
      | ok yy =>
        rw [h2] at h
        by_cases hm : m = .off
        · simp only [if_pos hm, Except.ok.injEq] at h
          exact ⟨yy, by simpa using h.symm⟩
        · simp only [if_neg hm] at h
          cases h3 : st.fe s with
          | none => rw [h3] at h; cases h
          | some nc =>
            rw [h3] at h
            simp only [] at h
            cases h4 : yy.mapM (subNorm nc) with
            | error e => rw [h4] at h; cases h
            | ok z =>
              rw [h4] at h
              simp only [Except.ok.injEq] at h
              exact ⟨z, by simpa using h.symm⟩
  unfold pdpEval at h
  cases h1 : prepCentering c with
  | error e => rw [h1] at h; cases h
  | ok m =>
    rw [h1] at h
    simp only [] at h
    cases h2 : needsRefit (st.fitted s) (st.args s) m with
    | error e => rw [h2] at h; cases h
    | ok b =>
      rw [h2] at h
      cases b with
      | false => exact key st m h
      | true =>
        simp only [] at h
        rcases h3 : pdpFitLoop cfg m 100 vec st [s] with ⟨st', e | ⟨⟩⟩
        · rw [h3] at h; cases h
        · rw [h3] at h
          exact key st' m h

theorem Splits2.toPair [PySqrt K] {E : List K → Py (PdpOut K)} (h : Splits2 appendPdp E) (het : Bool)
    (hsh : ∀ xs o, E xs = .ok o → ∃ y : List (List K), o = if het then .meanStd (y.map mean) (y.map npStd) else .meanOnly (y.map mean)) :
    Splits2 appendEval (fun xs => (E xs).bind PdpOut.toPair) := by
  refine ⟨fun x xs o hx he => ?_, fun x xs e hx he => ?_⟩
  · cases e1 : E (x :: xs) with
    | error er => rw [e1] at he; cases he
    | ok q =>
      rw [e1] at he
      obtain ⟨a, b, h1, h2, rfl⟩ := h.ok x xs q hx e1
      obtain ⟨y, rfl⟩ := hsh _ _ h1
      obtain ⟨z, rfl⟩ := hsh _ _ h2
      rw [h1, h2]
      cases het with
      | false => cases he; exact ⟨_, _, rfl, rfl, rfl⟩
      | true => cases he; exact ⟨_, _, rfl, rfl, rfl⟩
  · cases e1 : E (x :: xs) with
    | error er =>
      rw [e1] at he
      cases he
      rcases h.err x xs e hx e1 with h1 | h1
      · left; rw [h1]; rfl
      · right; rw [h1]; rfl
    | ok q =>
      rw [e1] at he
      obtain ⟨y, rfl⟩ := hsh _ _ e1
      cases het <;> cases he

theorem pdpOnce_splits [PySqrt K] (choice : ℕ → ℕ → List ℕ) (cast : K → K) (M : PdpModel K D) (data : List (Row K D)) (eff : Option (List (Row K D))) (s : Fin D)
    (het : Bool) (c : PyVal) : Splits2 appendEval (fun xs => pdpOnce choice cast M.kind data eff s xs het c) := by
  unfold pdpOnce
  simp only [bind]
  cases Base.init choice data (.int 300) none with
  | error e => exact .const_error e
  | ok b =>
    exact (pdpEval_splits cast M b.axisLo b.axisHi (PdpState.init b.data) s het c false true).toPair het
      fun xs o => pdpEval_shape { cast := cast, kind := M.kind, axisLo := b.axisLo, axisHi := b.axisHi } (PdpState.init b.data) s xs het c true o

theorem createAndEval_splits [PySqrt K] (choice : ℕ → ℕ → List ℕ) (cast : K → K) (g : Row K D → K) (jac : Option (Row K D → Row K D)) (ext : ShapExt K D)
    (meth : String) (data : List (Row K D)) (eff : Option (List (Row K D))) (s : Fin D) (het : Bool) (c : PyVal) :
    Splits2 appendEval (fun xs => createAndEval (rowBoxes choice cast g jac ext) meth data eff s xs het c) := by
  unfold createAndEval
  by_cases h1 : meth = "rhale"
  · simp only [if_pos h1]
    unfold rhaleOnce
    simp only [bind]
    cases rhaleInit (rowBoxes choice cast g jac ext).choice (rowBoxes choice cast g jac ext).model (rowBoxes choice cast g jac ext).jac data eff (.str "all") none with
    | error e => exact .const_error e
    | ok b => exact aleEval_splits b.1 AleState.init s het c
  simp only [if_neg h1]
  by_cases h2 : meth = "ale"
  · simp only [if_pos h2]
    unfold aleOnce
    simp only [bind]
    cases Base.init (rowBoxes choice cast g jac ext).choice data (.str "all") none with
    | error e => exact .const_error e
    | ok b => exact aleEval_splits _ AleState.init s het c
  simp only [if_neg h2]
  by_cases h3 : meth = "shap"
  · simp only [if_pos h3]
    unfold shapOnce
    simp only [bind]
    cases shapInit (rowBoxes choice cast g jac ext).choice data (.int 100) none with
    | error e => exact .const_error e
    | ok b => exact shapEval_splits _ _ s het c
  simp only [if_neg h3]
  by_cases h4 : meth = "pdp"
  · simp only [if_pos h4]
    exact pdpOnce_splits choice cast (.pdp g) data eff s het c
  simp only [if_neg h4]
  by_cases h5 : meth = "d-pdp"
  · simp only [if_pos h5]
    cases jac with
    | none => exact pdpOnce_splits choice cast (.derNum g) data eff s het c
    | some j => exact pdpOnce_splits choice cast (.derJac j) data eff s het c
  simp only [if_neg h5]
  exact .const_error _

theorem regionalEvalM_splits [PySqrt K] (o : RegionalObj K D) (choice : ℕ → ℕ → List ℕ) (cast : K → K) (g : Row K D → K) (jac : Option (Row K D → Row K D))
    (ext : ShapExt K D) (hb : o.cfg.bb = rowBoxes choice cast g jac ext) (st : RegionalState K D) (f : Fin D) (node : ℕ) (het : Bool) (c : PyVal) :
    Splits2 appendEval (fun xs => (regionalEvalM o st f node xs het c).2) := by
  unfold regionalEvalM
  rcases regionalRefitM o st f with ⟨st', e | ⟨⟩⟩
  · exact .const_error e
  simp only []
  unfold regionalEval
  rcases regionalRefit o.cfg st' f with ⟨st', e | ⟨⟩⟩
  · exact .const_error e
  simp only [bind, Except.bind]
  cases prepCentering c with
  | error e => exact .const_error e
  | ok m =>
    simp only []
    cases getNodeInfo st' f node with
    | error e => exact .const_error e
    | ok n =>
      simp only []
      rw [hb]
      exact createAndEval_splits choice cast g jac ext _ _ _ f het _

theorem regionalFitOne_state [PySqrt K] (o : RegionalObj K D) (kw : FitKw K D) (st : RegionalState K D) (f : Fin D) :
    (∀ st' e, regionalFitOne o kw st f = (st', .error e) → st' = st) ∧ (∀ st', regionalFitOne o kw st f = (st', .ok ()) → st'.fitted f = true) := by
  unfold regionalFitOne
  split
  · exact ⟨(fun st' e h => by cases h; rfl), (fun st' h => by cases h)⟩
  · exact ⟨(fun st' e h => by cases h), (fun st' h => by cases h; simp)⟩

theorem regionalEvalM_settles [PySqrt K] (o : RegionalObj K D) (f : Fin D) (node : ℕ) (het : Bool) (c : PyVal) :
    Settles (fun st xs => regionalEvalM o st f node xs het c) := by
  have key : ∀ st xs, (regionalEvalM o st f node xs het c).1 = (regionalRefitM o st f).1 := by
    intro st xs
    unfold regionalEvalM
    rcases hr : regionalRefitM o st f with ⟨st', e | ⟨⟩⟩
    · rfl
    · have hf : st'.fitted f = true := by
        unfold regionalRefitM at hr
        by_cases hf : st.fitted f = true
        · rw [if_pos hf] at hr; cases hr; exact hf
        · rw [if_neg hf, regionalFit_int _ _ _ _ (by simp [FitKw.default])] at hr
          exact (regionalFitOne_state o _ st f).2 st' hr
      simp only []
      unfold regionalEval
      rw [refit_idle _ _ _ hf]
  have again : ∀ st, regionalRefitM o (regionalRefitM o st f).1 f = regionalRefitM o st f := by
    intro st
    by_cases hf : st.fitted f = true
    · have : regionalRefitM o st f = (st, .ok ()) := by unfold regionalRefitM; rw [if_pos hf]
      rw [this, this]
    · have h1 : regionalRefitM o st f = regionalFitOne o (FitKw.default o.cfg.methodName) st f := by
        unfold regionalRefitM; rw [if_neg hf, regionalFit_int _ _ _ _ (by simp [FitKw.default])]
      obtain ⟨h2, h3⟩ := regionalFitOne_state o (FitKw.default o.cfg.methodName) st f
      rcases hr : regionalFitOne o (FitKw.default o.cfg.methodName) st f with ⟨st', e | ⟨⟩⟩
      · obtain rfl := h2 st' e hr
        rw [h1, hr]
        show regionalRefitM o st' f = _
        rw [h1, hr]
      · rw [h1, hr]
        show regionalRefitM o st' f = _
        unfold regionalRefitM
        rw [if_pos (h3 st' hr)]
  refine ⟨fun st xs ys => by rw [key, key], fun st xs ys => ?_⟩
  rw [key]
  unfold regionalEvalM
  rw [again]

/-! ### The property -/

/-- **C90, ALE and RHALE.**  For every object, after any history of calls: one call of `eval` for a list of positions returns exactly what a loop over the positions
returns, one call for each - effects and heterogeneities, one after the other; if it raises, one of the single calls raises the same. -/
theorem C90_ale [PySqrt K] (cfg : AleCfg K D) (ops : List (AleOp K D)) (s : Fin D) (xs : List K) (hx : xs ≠ []) (het : Bool) (c : PyVal) :
    SameAsSingles appendEval (aleEval cfg (aleRun cfg ops) s xs het c).2 (Spec.inTurn (fun st x => aleEval cfg st s [x] het c) (aleRun cfg ops) xs) := by
  rw [(aleEval_settles cfg s het c).inTurn (aleRun cfg ops) xs]
  obtain ⟨x, t, rfl⟩ := List.exists_cons_of_ne_nil hx
  exact (aleEval_splits cfg _ s het c).singles x t

/-- **C90, PDP and d-PDP** of a row-wise model, also for `return_all` and for both ways to compute the values. -/
theorem C90_pdp [PySqrt K] (cast : K → K) (M : PdpModel K D) (lo hi : Fin D → K) (data : List (Row K D)) (ops : List (PdpOp K D)) (s : Fin D) (xs : List K)
    (hx : xs ≠ []) (het : Bool) (c : PyVal) (all vec : Bool) :
    SameAsSingles appendPdp
      (pdpEval { cast := cast, kind := M.kind, axisLo := lo, axisHi := hi } (pdpRun { cast := cast, kind := M.kind, axisLo := lo, axisHi := hi } data ops) s xs het c all vec).2
      (Spec.inTurn (fun st x => pdpEval { cast := cast, kind := M.kind, axisLo := lo, axisHi := hi } st s [x] het c all vec)
        (pdpRun { cast := cast, kind := M.kind, axisLo := lo, axisHi := hi } data ops) xs) := by
  rw [(pdpEval_settles { cast := cast, kind := M.kind, axisLo := lo, axisHi := hi } s het c all vec).inTurn _ xs]
  obtain ⟨x, t, rfl⟩ := List.exists_cons_of_ne_nil hx
  exact (pdpEval_splits cast M lo hi _ s het c all vec).singles x t

/-- **C90, ShapDP**, for every explainer and every curve fit. -/
theorem C90_shap (cfg : ShapCfg K D) (data : List (Row K D)) (ops : List (ShapOp K D)) (s : Fin D) (xs : List K) (hx : xs ≠ []) (het : Bool) (c : PyVal) :
    SameAsSingles appendEval (shapEval cfg (shapRun cfg data ops) s xs het c).2
      (Spec.inTurn (fun st x => shapEval cfg st s [x] het c) (shapRun cfg data ops) xs) := by
  rw [(shapEval_settles cfg s het c).inTurn _ xs]
  obtain ⟨x, t, rfl⟩ := List.exists_cons_of_ne_nil hx
  exact (shapEval_splits cfg _ s het c).singles x t

/-- **C90, the regional classes** with a row-wise model (and gradient). -/
theorem C90_regional [PySqrt K] (o : RegionalObj K D) (choice : ℕ → ℕ → List ℕ) (cast : K → K) (g : Row K D → K) (jac : Option (Row K D → Row K D))
    (ext : ShapExt K D) (hb : o.cfg.bb = rowBoxes choice cast g jac ext) (calls : List (RegCall K D)) (f : Fin D) (node : ℕ) (xs : List K) (hx : xs ≠ [])
    (het : Bool) (c : PyVal) :
    SameAsSingles appendEval (regionalEvalM o (regRunM o calls) f node xs het c).2
      (Spec.inTurn (fun st x => regionalEvalM o st f node [x] het c) (regRunM o calls) xs) := by
  rw [(regionalEvalM_settles o f node het c).inTurn _ xs]
  obtain ⟨x, t, rfl⟩ := List.exists_cons_of_ne_nil hx
  exact (regionalEvalM_splits o choice cast g jac ext hb _ f node het c).singles x t

/-- Three positions at once, and one by one: PDP (`x_0 x_1`, nothing fitted before) and RHALE. -/
theorem C90_example :
    (pdpEval (pdpCfgOf (.pdp fun r : Row ℚ 2 => r 0 * r 1) ![0, 0] ![2, 3]) (PdpState.init [![0, 1], ![1, 2], ![2, 3]]) 0 [0, 1, 3] false (.bool false) false true).2 =
      .ok (.meanOnly [0, 2, 6]) ∧
    Spec.inTurn (fun st x => pdpEval (pdpCfgOf (.pdp fun r : Row ℚ 2 => r 0 * r 1) ![0, 0] ![2, 3]) st 0 [x] false (.bool false) false true)
        (PdpState.init [![0, 1], ![1, 2], ![2, 3]]) [0, 1, 3] = [.ok (.meanOnly [0]), .ok (.meanOnly [2]), .ok (.meanOnly [6])] ∧
    joined appendPdp [.meanOnly [0], .meanOnly [2], .meanOnly [(6 : ℚ)]] = some (.meanOnly [0, 2, 6]) := by
  decide +kernel

end Effector
