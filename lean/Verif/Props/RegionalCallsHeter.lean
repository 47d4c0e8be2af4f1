import Verif.Props.RegionalCallsSearch
import Verif.Props.CallsShap
import Verif.Props.CallsPdp
import Verif.Props.CallsAle
import Verif.Props.Crashes

/-!
# C110: the heterogeneity functions with the calls of the black box as effects
-/

set_option linter.unusedSectionVars false

namespace Effector

variable {K : Type} [Field K] [LinearOrder K] {D : ℕ} {σ S S' α β : Type}

open Spec

/-! ## Rules -/

theorem answered_all (cs : List (Call K D)) : AllAnswered (answered cs) := by
  intro e he
  simp only [answered, List.mem_map] at he
  obtain ⟨c, _, rfl⟩ := he
  rfl

variable {w : World σ K D} {m : List (Row K D) → List K} {j ex : List (Row K D) → List (Row K D)}

theorem ifAnswered_runs {p : RunM σ K D S α} {y : Sys σ K D S} {o : S} {r : Py α} {cs : List (Call K D)} {L : S → Prop} (h : Runs w p y o r cs L) :
    IfAnswered p y (· = o) r := by
  rcases h with ⟨ht, ho, hr⟩ | ⟨k, c, e, t, hk, hra, ht, hr, hl⟩
  · exact ⟨_, ht, fun _ => ⟨ho, hr⟩⟩
  · refine ⟨answered (cs.take k) ++ [⟨c, some e⟩], by rw [ht, List.append_assoc], fun ha => ?_⟩
    exact absurd ha (Spec.EndsWith.not_answered ⟨_, c, rfl, answered_all _⟩)

theorem ifAnswered_same {p : RunM σ K D S α} {y : Sys σ K D S} {r : Py α} {Q : S → Prop} (h : p y = (y, r)) (hq : Q y.obj) : IfAnswered p y Q r :=
  ⟨[], by rw [h]; simp, fun _ => by rw [h]; exact ⟨hq, rfl⟩⟩

theorem Spec.IfAnswered.weaken {p : RunM σ K D S α} {y : Sys σ K D S} {r : Py α} {Q Q' : S → Prop} (h : IfAnswered p y Q r) (hq : ∀ o, Q o → Q' o) :
    IfAnswered p y Q' r := by
  obtain ⟨evs, h1, h2⟩ := h
  exact ⟨evs, h1, fun ha => ⟨hq _ (h2 ha).1, (h2 ha).2⟩⟩

theorem ifAnswered_bind {p : RunM σ K D S α} {f : α → RunM σ K D S β} {y : Sys σ K D S} {a : α} {r : Py β} {Q Q' : S → Prop}
    (h1 : IfAnswered p y Q (.ok a)) (hg : ∀ a, Grows (f a)) (h2 : ∀ y1 : Sys σ K D S, Q y1.obj → IfAnswered (f a) y1 Q' r) : IfAnswered (p >>= f) y Q' r := by
  unfold IfAnswered
  rw [run_bind]
  obtain ⟨e1, t1, h1⟩ := h1
  generalize p y = q at t1 h1
  obtain ⟨y1, r1⟩ := q
  simp only at t1 h1
  cases r1 with
  | error e =>
    refine ⟨e1, t1, fun ha => ?_⟩
    have := (h1 ha).2
    cases this
  | ok a' =>
    obtain ⟨e2, t2⟩ := hg a' y1
    refine ⟨e1 ++ e2, by simp only [runThen]; rw [t2, t1, List.append_assoc], fun ha => ?_⟩
    obtain ⟨ha1, ha2⟩ := allAnswered_append.1 ha
    obtain ⟨hq, hr⟩ := h1 ha1
    injection hr with hr
    subst hr
    obtain ⟨e3, t3, h3⟩ := h2 y1 hq
    rw [t2] at t3
    rw [List.append_cancel_left t3] at ha2
    exact h3 ha2

theorem ifAnswered_bindError {p : RunM σ K D S α} {f : α → RunM σ K D S β} {y : Sys σ K D S} {e : PyErr} {Q : S → Prop}
    (h1 : IfAnswered p y Q (.error e)) (hg : ∀ a, Grows (f a)) : IfAnswered (p >>= f) y Q (.error e) := by
  unfold IfAnswered
  rw [run_bind]
  obtain ⟨e1, t1, h1⟩ := h1
  generalize p y = q at t1 h1
  obtain ⟨y1, r1⟩ := q
  simp only at t1 h1
  cases r1 with
  | error e' =>
    refine ⟨e1, t1, fun ha => ⟨(h1 ha).1, ?_⟩⟩
    have := (h1 ha).2
    injection this with this
    subst this
    rfl
  | ok a' =>
    obtain ⟨e2, t2⟩ := hg a' y1
    refine ⟨e1 ++ e2, by simp only [runThen]; rw [t2, t1, List.append_assoc], fun ha => ?_⟩
    have := (h1 (allAnswered_append.1 ha).1).2
    cases this

/-- What `attempt` returns. -/
def okPart : Py α → Option α
  | .ok a => some a
  | .error _ => none

theorem ifAnswered_attempt {p : RunM σ K D S α} {y : Sys σ K D S} {r : Py α} {Q : S → Prop} (h : IfAnswered p y Q r) :
    IfAnswered (attempt p) y Q (.ok (okPart r)) := by
  unfold IfAnswered attempt
  obtain ⟨e1, t1, h1⟩ := h
  generalize p y = q at t1 h1
  obtain ⟨y1, r1⟩ := q
  simp only at t1 h1
  cases r1 with
  | error e => exact ⟨e1, t1, fun ha => ⟨(h1 ha).1, by rw [← (h1 ha).2]; rfl⟩⟩
  | ok a => exact ⟨e1, t1, fun ha => ⟨(h1 ha).1, by rw [← (h1 ha).2]; rfl⟩⟩

theorem means_onNew (o : S') {p : RunM σ K D S' α} {r : Py α} {Q : S' → Prop} (h : ∀ y : Sys σ K D S', y.obj = o → IfAnswered p y Q r) :
    Means (onNew o p : RunM σ K D S α) r := fun y => by
  obtain ⟨evs, h1, h2⟩ := h ⟨y.world, y.trace, o⟩ rfl
  exact ⟨rfl, evs, h1, fun ha v => by rw [show (onNew o p y).2 = r from (h2 ha).2]⟩

theorem means_runs {p : RunM σ K D S α} {r : Py α} {cs : List (Call K D)} (h : ∀ y, Runs w p y y.obj r cs (· = y.obj)) : Means p r := fun y => by
  obtain ⟨evs, h1, h2⟩ := ifAnswered_runs (h y)
  refine ⟨?_, evs, h1, fun ha v => by rw [(h2 ha).2]⟩
  rcases h y with ⟨_, ho, _⟩ | ⟨k, c, e, t, _, _, _, _, hl⟩
  · exact ho
  · exact hl

/-- When the first program catches nothing, what it returned is what it means. -/
theorem means_bind' {p : RunM σ K D S α} {f : α → RunM σ K D S β} {x : Py α} {g : α → Py β} (h1 : Means p x) (hp : Propagates p)
    (h2 : ∀ a, x = .ok a → Means (f a) (g a)) : Means (p >>= f) (x.bind g) := by
  intro y
  rw [run_bind]
  obtain ⟨e1', t1', hpr⟩ := hp y
  obtain ⟨o1, e1, t1, h1⟩ := h1 y
  have : e1' = e1 := List.append_cancel_left (t1'.symm.trans t1)
  subst this
  generalize p y = q at o1 t1 h1 hpr
  obtain ⟨y1, r⟩ := q
  simp only at o1 t1 h1 hpr
  cases r with
  | error e =>
    refine ⟨o1, e1', t1, fun ha v => ?_⟩
    cases x with
    | error e' => simp [runThen, Except.bind]
    | ok a => have := (h1 ha a).2 rfl; cases this
  | ok a =>
    have ha1 : AllAnswered e1' := by
      rcases hpr with h | ⟨e, _, h⟩
      · exact h
      · cases h
    have hx := (h1 ha1 a).1 rfl
    subst hx
    obtain ⟨o2, e2, t2, h3⟩ := h2 a rfl y1
    refine ⟨by simp only [runThen]; rw [o2]; exact o1, e1' ++ e2, by simp only [runThen]; rw [t2, t1, List.append_assoc], fun ha v => ?_⟩
    exact h3 (allAnswered_append.1 ha).2 v

/-! ## The global objects, for all arguments -/

theorem answered_pdpFit (hw : AnswersWith w m j ex) (cfg : RunPdpCfg K D) (features centering : PyVal) (points : ℕ) (vec : Bool) (y : Sys σ K D (PdpState K D)) :
    IfAnswered (runPdpFit w cfg features centering points vec) y (· = (pdpFit (cfg.with m j) y.obj features centering points vec).1)
      (pdpFit (cfg.with m j) y.obj features centering points vec).2 := by
  cases hc : prepCentering centering with
  | error e =>
    refine ifAnswered_same ?_ ?_ <;> simp only [runPdpFit, pdpFit, hc, bind, Except.bind, inert, runThen]
  | ok c =>
    cases hf : prepFeatures features D with
    | error e =>
      refine ifAnswered_same ?_ ?_ <;> simp only [runPdpFit, pdpFit, hc, hf, bind, Except.bind, inert, runThen]
    | ok f =>
      cases hl : resolveFeatures D f with
      | error e =>
        refine ifAnswered_same ?_ ?_ <;> simp only [runPdpFit, pdpFit, hc, hf, hl, bind, Except.bind, inert, runThen]
      | ok l => exact ifAnswered_runs (runs_pdpFit hw cfg features centering f c l hc hf hl points vec y)

theorem answered_pdpEval [PySqrt K] (hw : AnswersWith w m j ex) (cfg : RunPdpCfg K D) (s : Fin D) (xs : List K) (het : Bool) (centering : PyVal) (all vec : Bool)
    (y : Sys σ K D (PdpState K D)) : IfAnswered (runPdpEval w cfg s xs het centering all vec) y (· = (pdpEval (cfg.with m j) y.obj s xs het centering all vec).1)
      (pdpEval (cfg.with m j) y.obj s xs het centering all vec).2 := by
  cases hc : prepCentering centering with
  | error e => refine ifAnswered_same ?_ ?_ <;> simp only [runPdpEval, pdpEval, hc, bind, inert, runThen]
  | ok c => exact ifAnswered_runs (runs_pdpEval hw cfg s xs het centering c hc all vec y)

theorem answered_shapFit (hw : AnswersWith w m j ex) (cfg : RunShapCfg K D) (features centering : PyVal) (points : ℕ) (y : Sys σ K D (ShapState K D)) :
    IfAnswered (runShapFit w cfg features centering points) y (· = (shapFit (cfg.with ex) y.obj features centering points).1)
      (shapFit (cfg.with ex) y.obj features centering points).2 := by
  cases hc : prepCentering centering with
  | error e =>
    refine ifAnswered_same ?_ ?_ <;> simp only [runShapFit, shapFit, hc, bind, Except.bind, inert, runThen]
  | ok c =>
    cases hf : prepFeatures features D with
    | error e =>
      refine ifAnswered_same ?_ ?_ <;> simp only [runShapFit, shapFit, hc, hf, bind, Except.bind, inert, runThen]
    | ok f =>
      cases hl : resolveFeatures D f with
      | error e =>
        refine ifAnswered_same ?_ ?_ <;> simp only [runShapFit, shapFit, hc, hf, hl, bind, Except.bind, inert, runThen]
      | ok l => exact ifAnswered_runs (runs_shapFit hw cfg features centering f c l hc hf hl points y)

theorem answered_shapEval (hw : AnswersWith w m j ex) (cfg : RunShapCfg K D) (s : Fin D) (xs : List K) (het : Bool) (centering : PyVal)
    (y : Sys σ K D (ShapState K D)) : IfAnswered (runShapEval w cfg s xs het centering) y (· = (shapEval (cfg.with ex) y.obj s xs het centering).1)
      (shapEval (cfg.with ex) y.obj s xs het centering).2 := by
  cases hc : prepCentering centering with
  | error e => refine ifAnswered_same ?_ ?_ <;> simp only [runShapEval, shapEval, hc, bind, inert, runThen]
  | ok c => exact ifAnswered_runs (runs_shapEval hw cfg s xs het centering c hc y)

section ale
variable {cfg : RunAleCfg σ K D} {pu : AleCfg K D} {inv : Option (List (Row K D)) → Prop} {calls : Fin D → BinMethod K → Option (List (Row K D)) → List (Call K D)}
  {after : Option (List (Row K D)) → Option (List (Row K D))}

theorem answered_aleFit (h : FitCalls w cfg pu inv calls after) (features centering : PyVal) (bm : BinMethod K) (y : Sys σ K D (AleObj K D)) (hi : inv y.obj.eff) :
    IfAnswered (runAleFit cfg features bm centering) y (fun o => o.st = (aleFit pu y.obj.st features bm centering).1 ∧ inv o.eff)
      (aleFit pu y.obj.st features bm centering).2 := by
  by_cases hb : pu.allowed bm = true
  · cases hf : prepFeatures features D with
    | error e =>
      refine ifAnswered_same ?_ ⟨?_, hi⟩ <;> simp only [runAleFit, aleFit, h.allowed, hb, pyAssert, if_true, hf, bind, Except.bind, inert, runThen]
    | ok f =>
      cases hc : prepCentering centering with
      | error e =>
        refine ifAnswered_same ?_ ⟨?_, hi⟩ <;> simp only [runAleFit, aleFit, h.allowed, hb, pyAssert, if_true, hf, hc, bind, Except.bind, inert, runThen]
      | ok c =>
        cases hl : resolveFeatures D f with
        | error e =>
          refine ifAnswered_same ?_ ⟨?_, hi⟩ <;> simp only [runAleFit, aleFit, h.allowed, hb, pyAssert, if_true, hf, hc, hl, bind, Except.bind, inert, runThen]
        | ok l =>
          refine (ifAnswered_runs (runs_aleFit h features centering f bm c l hb hc hf hl y hi)).weaken fun o ho => ?_
          subst ho
          refine ⟨rfl, ?_⟩
          simp only [effAfter]
          split
          · exact hi
          · exact h.keeps _ hi
  · refine ifAnswered_same ?_ ⟨?_, hi⟩ <;> simp only [runAleFit, aleFit, h.allowed, hb, pyAssert, bind, Except.bind, inert, runThen, if_false, Bool.false_eq_true]

theorem answered_aleEval [PySqrt K] (h : FitCalls w cfg pu inv calls after) (s : Fin D) (xs : List K) (het : Bool) (centering : PyVal) (y : Sys σ K D (AleObj K D))
    (hi : inv y.obj.eff) : IfAnswered (runAleEval cfg s xs het centering) y (fun _ => True) (aleEval pu y.obj.st s xs het centering).2 := by
  cases hc : prepCentering centering with
  | error e => refine ifAnswered_same ?_ trivial; simp only [runAleEval, aleEval, hc, bind, inert, runThen]
  | ok c => exact (ifAnswered_runs (runs_aleEval h s xs het centering c hc y hi)).weaken fun _ _ => trivial

end ale

end Effector
