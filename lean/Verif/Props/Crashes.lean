import Verif.Props.CallsPdp
import Verif.Props.CallsAle
import Verif.Props.CallsShap

/-!
# C109: the user's code raises

A model can be a remote service, a process that runs out of memory, a function with a bug.  Here it may raise at any call, in any state of its own.  An account of a
history says, request by request, what came out, which calls were made, and what the object was afterwards.
-/

set_option linter.unusedSectionVars false

namespace Effector

variable {K : Type} [Field K] [LinearOrder K] {D : ℕ} {σ : Type}

/-! ## Accounts -/

/-- A history: every request is made, whatever the ones before it raised (the caller catches the exceptions).  Returns the outcomes. -/
def runReqs {Q A O : Type} (req : Q → RunM σ K D O A) : List Q → Sys σ K D O → Sys σ K D O × List (Py A)
  | [], y => (y, [])
  | q :: qs, y => ((runReqs req qs (req q y).1).1, (req q y).2 :: (runReqs req qs (req q y).1).2)

/-- The account of a history of requests `qs` with the outcomes `rs` and the calls `evs`, on an object with the contents `st`, then `st'`: each request was served as
by a black box that is a function and never raises (`answer`), all the calls it made having been answered; or the last call it made raised `e`, and it ended with `e`,
and left behind what `left` says. -/
inductive Spec.Account {Q A T : Type} (answer : T → Q → T × Py A) (left : T → Q → T → Prop) : T → List Q → List (Py A) → List (Event K D) → T → Prop
  | nil (st) : Account answer left st [] [] [] st
  | served {st q qs rs evs st'} (cs : List (Call K D)) : Account answer left (answer st q).1 qs rs evs st' →
      Account answer left st (q :: qs) ((answer st q).2 :: rs) (Spec.answered cs ++ evs) st'
  | interrupted {st q qs rs evs st1 st'} (cs : List (Call K D)) (c : Call K D) (e : PyErr) : left st q st1 → Account answer left st1 qs rs evs st' →
      Account answer left st (q :: qs) (.error e :: rs) (Spec.answered cs ++ ⟨c, some e⟩ :: evs) st'

theorem account_of_runs {Q A O T : Type} {w : World σ K D} (req : Q → RunM σ K D O A) (contents : O → T) (inv : O → Prop) (answer : T → Q → T × Py A)
    (left : T → Q → T → Prop)
    (h : ∀ q (y : Sys σ K D O), inv y.obj → ∃ o cs, inv o ∧ contents o = (answer (contents y.obj) q).1 ∧
      Spec.Runs w (req q) y o (answer (contents y.obj) q).2 cs (fun o => inv o ∧ left (contents y.obj) q (contents o))) :
    ∀ (qs : List Q) (y : Sys σ K D O), inv y.obj →
      ∃ evs, (runReqs req qs y).1.trace = y.trace ++ evs ∧ inv (runReqs req qs y).1.obj ∧
        Spec.Account answer left (contents y.obj) qs (runReqs req qs y).2 evs (contents (runReqs req qs y).1.obj)
  | [], y, hi => ⟨[], by simp [runReqs], hi, .nil _⟩
  | q :: qs, y, hi => by
    obtain ⟨o, cs, ho1, ho2, hr⟩ := h q y hi
    rcases hr with ⟨ht, ho, hres⟩ | ⟨k, c, e, t, hk, _, ht, hres, hl⟩
    · obtain ⟨evs, h1, h2, h3⟩ := account_of_runs req contents inv answer left h qs (req q y).1 (by rw [ho]; exact ho1)
      refine ⟨Spec.answered cs ++ evs, ?_, h2, ?_⟩
      · simp only [runReqs]
        rw [h1, ht, List.append_assoc]
      · simp only [runReqs]
        rw [hres]
        rw [ho, ho2] at h3
        exact .served cs h3
    · obtain ⟨evs, h1, h2, h3⟩ := account_of_runs req contents inv answer left h qs (req q y).1 hl.1
      refine ⟨Spec.answered (cs.take k) ++ ⟨c, some e⟩ :: evs, ?_, h2, ?_⟩
      · simp only [runReqs]
        rw [h1, ht]
        simp
      · simp only [runReqs]
        rw [hres]
        exact .interrupted (cs.take k) c e hl.2 h3

/-! ## ALE and RHALE -/

/-- The public calls on an ALE/RHALE object, with all their arguments. -/
inductive AleReq (K : Type) (D : ℕ)
  | fit (features : PyVal) (bm : BinMethod K) (centering : PyVal)
  | eval (s : Fin D) (xs : List K) (het : Bool) (centering : PyVal)
  | plot (s : Fin D) (het centering : PyVal) (showAvg : Bool) (scaleY : Option (Scale K))

/-- What a request returns: `fit` nothing, `eval` the curve (and the heterogeneity), `plot` what it draws. -/
inductive AleAns (K : Type)
  | fitted
  | curve (v : List K × Option (List K))
  | drawn (v : List K × List K × Option (List K) × Option K)
deriving DecidableEq

/-- global_effect_ale.py:107-239, 350-380, 520-560: a request. -/
def runAleReq [PySqrt K] (w : World σ K D) (cfg : RunAleCfg σ K D) (data : List (Row K D)) : AleReq K D → RunM σ K D (AleObj K D) (AleAns K)
  | .fit f bm c => do
    runAleFit cfg f bm c
    return .fitted
  | .eval s xs het c => do
    let v ← runAleEval cfg s xs het c
    return .curve v
  | .plot s het c showAvg scaleY => do
    let v ← runAlePlot w cfg data s het c showAvg scaleY
    return .drawn v

/-- The same request to an object whose black box is a function that never raises. -/
def Spec.aleAnswer [PySqrt K] (pu : AleCfg K D) (avg : K) (st : AleState K D) : AleReq K D → AleState K D × Py (AleAns K)
  | .fit f bm c => ((aleFit pu st f bm c).1, (aleFit pu st f bm c).2.map fun _ => .fitted)
  | .eval s xs het c => ((aleEval pu st s xs het c).1, (aleEval pu st s xs het c).2.map .curve)
  | .plot s het c showAvg scaleY =>
    match prepConfidenceInterval het with
    | .error e => (st, .error e)
    | .ok _ => ((alePlot pu st s c).1, (alePlot pu st s c).2.map fun r => .drawn (r.1, r.2.1, r.2.2, Spec.averageLine showAvg avg scaleY))

/-- What a request that the user's code interrupted leaves behind: `eval` and `plot` nothing at all; `fit` what it would leave behind had it only been asked for
some of the first features. -/
def Spec.aleLeft (pu : AleCfg K D) (st : AleState K D) : AleReq K D → AleState K D → Prop
  | .fit f bm c, st' => ∃ v l1 s l2 c', pu.allowed bm = true ∧ prepFeatures f D = .ok v ∧ resolveFeatures D v = .ok (l1 ++ s :: l2) ∧ prepCentering c = .ok c' ∧
      fitLoop pu bm c' st l1 = (st', .ok ())
  | _, st' => st' = st

open Spec

variable {w : World σ K D} {m : List (Row K D) → List K} {j ex : List (Row K D) → List (Row K D)}
variable {cfg : RunAleCfg σ K D} {pu : AleCfg K D} {inv : Option (List (Row K D)) → Prop}
  {calls : Fin D → BinMethod K → Option (List (Row K D)) → List (Call K D)} {after : Option (List (Row K D)) → Option (List (Row K D))}

/-- Forgetting what a program returns. -/
theorem runs_mapOk {α β S : Type} {p : RunM σ K D S α} {y : Sys σ K D S} {o : S} {r : Py α} {cs : List (Call K D)} {L : S → Prop} (f : α → β)
    (h : Runs w p y o r cs L) : Runs w (p >>= fun a => pure (f a)) y o (r.map f) cs L := by
  cases r with
  | error e => exact Spec.Runs.bindError h
  | ok a =>
    have := Spec.Runs.bind (f := fun a => (pure (f a) : RunM σ K D S β)) h (fun y1 h1 => h1 ▸ Spec.Runs.pure w _ y1 L)
    rw [List.append_nil] at this
    exact this

theorem evalCalls_shape (o : AleObj K D) (s : Fin D) (c : Centering) :
    (aleEvalCalls pu calls after o s c = [] ∧ effAfterEval after o s c = o.eff) ∨
    ∃ bm c' l, aleEvalCalls pu calls after o s c = aleFitCalls pu calls after bm c' o.eff l ∧ effAfterEval after o s c = effAfter after o.eff l := by
  unfold aleEvalCalls effAfterEval
  split
  · exact .inr ⟨_, c, [s], rfl, by simp [effAfter]⟩
  · exact .inl ⟨rfl, rfl⟩

/-- One request, whatever its arguments; the calls are none, or those of a fit. -/
theorem runs_aleReq [PySqrt K] (h : FitCalls w cfg pu inv calls after) (data : List (Row K D)) (q : AleReq K D) (y : Sys σ K D (AleObj K D))
    (hi : inv y.obj.eff) :
    ∃ e' cs, inv e' ∧ ((cs = [] ∧ e' = y.obj.eff) ∨ ∃ bm c l, cs = aleFitCalls pu calls after bm c y.obj.eff l ∧ e' = effAfter after y.obj.eff l) ∧ Runs w (runAleReq w cfg data q) y ⟨(aleAnswer pu cfg.avg y.obj.st q).1, e'⟩ (aleAnswer pu cfg.avg y.obj.st q).2 cs
      (fun o => inv o.eff ∧ aleLeft pu y.obj.st q o.st) := by
  cases q with
  | fit f bm c =>
    by_cases hb : pu.allowed bm = true
    · cases hf : prepFeatures f D with
      | error e =>
        refine ⟨y.obj.eff, [], hi, .inl ⟨rfl, rfl⟩, ?_⟩
        have h1 : aleAnswer pu cfg.avg y.obj.st (.fit f bm c) = (y.obj.st, .error e) := by
          simp only [aleAnswer, aleFit, hb, hf, if_true, bind, Except.bind]; rfl
        have h2 : runAleReq w cfg data (.fit f bm c) y = (y, .error e) := by
          simp only [runAleReq, runAleFit, h.allowed, hb, pyAssert, if_true, inert_ok, hf]; rfl
        left; rw [h1, h2]; simp [answered]
      | ok v =>
        cases hc : prepCentering c with
        | error e =>
          refine ⟨y.obj.eff, [], hi, .inl ⟨rfl, rfl⟩, ?_⟩
          have h1 : aleAnswer pu cfg.avg y.obj.st (.fit f bm c) = (y.obj.st, .error e) := by
            simp only [aleAnswer, aleFit, hb, hf, hc, if_true, bind, Except.bind]; rfl
          have h2 : runAleReq w cfg data (.fit f bm c) y = (y, .error e) := by
            simp only [runAleReq, runAleFit, h.allowed, hb, pyAssert, if_true, inert_ok, hf, hc]; rfl
          left; rw [h1, h2]; simp [answered]
        | ok c' =>
          cases hl : resolveFeatures D v with
          | error e =>
            refine ⟨y.obj.eff, [], hi, .inl ⟨rfl, rfl⟩, ?_⟩
            have h1 : aleAnswer pu cfg.avg y.obj.st (.fit f bm c) = (y.obj.st, .error e) := by
              simp only [aleAnswer, aleFit, hb, hf, hc, hl, if_true, bind, Except.bind]; rfl
            have h2 : runAleReq w cfg data (.fit f bm c) y = (y, .error e) := by
              simp only [runAleReq, runAleFit, h.allowed, hb, pyAssert, if_true, inert_ok, hf, hc, hl]; rfl
            left; rw [h1, h2]; simp [answered]
          | ok l =>
            have hk := fun l' => show inv (effAfter after y.obj.eff l') by
              unfold effAfter
              split_ifs
              · exact hi
              · exact h.keeps _ hi
            refine ⟨effAfter after y.obj.eff l, aleFitCalls pu calls after bm c' y.obj.eff l, hk l, .inr ⟨bm, c', l, rfl, rfl⟩, ?_⟩
            refine (runs_mapOk (fun _ => AleAns.fitted) (runs_aleFit h f c v bm c' l hb hc hf hl y hi)).mono ?_
            rintro o ⟨l1, s, l2, he, hst, ho⟩
            exact ⟨ho ▸ hk l1, v, l1, s, l2, c', hb, hf, by rw [hl, he], hc, hst⟩
    · refine ⟨y.obj.eff, [], hi, .inl ⟨rfl, rfl⟩, ?_⟩
      have h1 : aleAnswer pu cfg.avg y.obj.st (.fit f bm c) = (y.obj.st, .error .assertionError) := by
        simp only [aleAnswer, aleFit, hb, if_false, Bool.false_eq_true]; rfl
      have h2 : runAleReq w cfg data (.fit f bm c) y = (y, .error .assertionError) := by
        simp only [runAleReq, runAleFit, h.allowed, hb, pyAssert, if_false, Bool.false_eq_true]; rfl
      left; rw [h1, h2]; simp [answered]
  | eval s xs het c =>
    cases hc : prepCentering c with
    | error e =>
      refine ⟨y.obj.eff, [], hi, .inl ⟨rfl, rfl⟩, ?_⟩
      have h1 : aleAnswer pu cfg.avg y.obj.st (.eval s xs het c) = (y.obj.st, .error e) := by
        simp only [aleAnswer, aleEval, hc]; rfl
      have h2 : runAleReq w cfg data (.eval s xs het c) y = (y, .error e) := by
        simp only [runAleReq, runAleEval, hc]; rfl
      left; rw [h1, h2]; simp [answered]
    | ok c' =>
      refine ⟨effAfterEval after y.obj s c', aleEvalCalls pu calls after y.obj s c', ?_, evalCalls_shape y.obj s c', ?_⟩
      · unfold effAfterEval
        split
        · exact h.keeps _ hi
        · exact hi
      · refine (runs_mapOk AleAns.curve (runs_aleEval h s xs het c c' hc y hi)).mono ?_
        rintro o rfl
        exact ⟨hi, rfl⟩
  | plot s het c showAvg scaleY =>
    cases hh : prepConfidenceInterval het with
    | error e =>
      refine ⟨y.obj.eff, [], hi, .inl ⟨rfl, rfl⟩, ?_⟩
      have h1 : aleAnswer pu cfg.avg y.obj.st (.plot s het c showAvg scaleY) = (y.obj.st, .error e) := by
        simp only [aleAnswer, hh]
      have h2 : runAleReq w cfg data (.plot s het c showAvg scaleY) y = (y, .error e) := by
        simp only [runAleReq, runAlePlot, hh]; rfl
      left; rw [h1, h2]; simp [answered]
    | ok h' =>
      cases hc : prepCentering c with
      | error e =>
        refine ⟨y.obj.eff, [], hi, .inl ⟨rfl, rfl⟩, ?_⟩
        have h1 : aleAnswer pu cfg.avg y.obj.st (.plot s het c showAvg scaleY) = (y.obj.st, .error e) := by
          simp only [aleAnswer, hh, alePlot, aleEval, hc]; rfl
        have h2 : runAleReq w cfg data (.plot s het c showAvg scaleY) y = (y, .error e) := by
          simp only [runAleReq, runAlePlot, hh, inert_ok, hc]; rfl
        left; rw [h1, h2]; simp [answered]
      | ok c' =>
        refine ⟨effAfterEval after y.obj s c', aleEvalCalls pu calls after y.obj s c', ?_, evalCalls_shape y.obj s c', ?_⟩
        · unfold effAfterEval
          split
          · exact h.keeps _ hi
          · exact hi
        · have := (runs_mapOk AleAns.drawn (runs_alePlot h data s het c h' c' hh hc showAvg scaleY y hi)).mono
            (L' := fun o => inv o.eff ∧ aleLeft pu y.obj.st (.plot s het c showAvg scaleY) o.st) (by rintro o rfl; exact ⟨hi, rfl⟩)
          have h1 : aleAnswer pu cfg.avg y.obj.st (.plot s het c showAvg scaleY) = ((alePlot pu y.obj.st s c).1,
            (alePlot pu y.obj.st s c).2.map fun r => .drawn (r.1, r.2.1, r.2.2, averageLine showAvg cfg.avg scaleY)) := by
            simp only [aleAnswer, hh]
          rw [h1]
          cases hr : (alePlot pu y.obj.st s c).2 <;> rw [hr] at this <;> exact this

theorem ale_account [PySqrt K] (h : FitCalls w cfg pu inv calls after) (data : List (Row K D)) (qs : List (AleReq K D)) (y : Sys σ K D (AleObj K D))
    (hi : inv y.obj.eff) :
    ∃ evs, (runReqs (runAleReq w cfg data) qs y).1.trace = y.trace ++ evs ∧ inv (runReqs (runAleReq w cfg data) qs y).1.obj.eff ∧
      Account (aleAnswer pu cfg.avg) (aleLeft pu) y.obj.st qs (runReqs (runAleReq w cfg data) qs y).2 evs
        (runReqs (runAleReq w cfg data) qs y).1.obj.st :=
  account_of_runs (runAleReq w cfg data) (fun o => o.st) (fun o => inv o.eff) (aleAnswer pu cfg.avg) (aleLeft pu)
    (fun q y hi => by
      obtain ⟨e', cs, he', _, hr⟩ := runs_aleReq h data q y hi
      exact ⟨_, cs, he', rfl, hr⟩) qs y hi

/-- **C109 (ALE).** Let the user's model raise whenever it likes; whenever it answers, it answers with the function `m`.  Then every history of public calls on an ALE object,
exceptions caught by the caller, has an account: each request either returns exactly what an ALE object in the same state with a model that never raises returns, or it
ends with the very exception the model raised, at once, and the object is then exactly as before (`eval`, `plot`), or as after a fit of the first few features (`fit`). -/
theorem C109_ale [PySqrt K] (hw : AnswersWith w m j ex) (cast : K → K) (b : Base K D) (avg : K) (qs : List (AleReq K D)) (y : Sys σ K D (AleObj K D)) :
    ∃ evs, (runReqs (runAleReq w (runAleCfg w cast b avg) b.data) qs y).1.trace = y.trace ++ evs ∧
      Account (aleAnswer (aleCfg cast m b) avg) (aleLeft (aleCfg cast m b)) y.obj.st qs (runReqs (runAleReq w (runAleCfg w cast b avg) b.data) qs y).2 evs
        (runReqs (runAleReq w (runAleCfg w cast b avg) b.data) qs y).1.obj.st := by
  obtain ⟨evs, h1, _, h3⟩ := ale_account (fitCalls_ale hw cast b avg) b.data qs y trivial
  exact ⟨evs, h1, h3⟩

/-- **C109 (RHALE).** The same for RHALE, whichever way it gets its gradients; `given` is the `data_effect` the object was constructed with (after sub-sampling).
Gradients that could not be computed are computed the next time they are needed. -/
theorem C109_rhale [PySqrt K] (hw : AnswersWith w m j ex) (hasJac : Bool) (given : Option (List (Row K D))) (b : Base K D) (avg : K) (qs : List (AleReq K D))
    (y : Sys σ K D (AleObj K D)) (hy : y.obj.eff = given) :
    ∃ evs, (runReqs (runAleReq w (runRhaleCfg w hasJac b avg) b.data) qs y).1.trace = y.trace ++ evs ∧
      Account (aleAnswer (rhaleCfg (rhaleEffects m (if hasJac then some j else none) given b.data) b) avg)
        (aleLeft (rhaleCfg (rhaleEffects m (if hasJac then some j else none) given b.data) b)) y.obj.st qs
        (runReqs (runAleReq w (runRhaleCfg w hasJac b avg) b.data) qs y).2 evs (runReqs (runAleReq w (runRhaleCfg w hasJac b avg) b.data) qs y).1.obj.st := by
  have hi : (y.obj.eff = none ∧ given = none) ∨ y.obj.eff = some (effectsOf m j hasJac given b.data) := by
    rw [hy]
    cases given with
    | none => exact .inl ⟨rfl, rfl⟩
    | some e => exact .inr rfl
  obtain ⟨evs, h1, _, h3⟩ := ale_account (fitCalls_rhale hw hasJac given b avg) b.data qs y hi
  exact ⟨evs, h1, h3⟩

end Effector
