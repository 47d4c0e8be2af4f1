import Verif.Model.Calls

/-!
# Specification and rules for programs that call the black box (C108, C109)
-/

set_option linter.unusedSectionVars false

namespace Effector

variable {K : Type} [Field K] [LinearOrder K] {D : ℕ} {σ S α β : Type}

/-! ## Specification -/

/-- The user's code raises `e` when asked `c` in state `t`. -/
def Spec.Raises (w : World σ K D) (t : σ) : Call K D → PyErr → Prop
  | .model X, e => (w.model t X).2 = .error e
  | .jac X, e => (w.jac t X).2 = .error e
  | .explain X, e => (w.explain t X).2 = .error e

/-- Whenever the user's code answers at all, it answers with these functions.  It may have any state, and it may raise at any call. -/
structure Spec.AnswersWith (w : World σ K D) (m : List (Row K D) → List K) (j ex : List (Row K D) → List (Row K D)) : Prop where
  model : ∀ t X y, (w.model t X).2 = .ok y → y = m X
  jac : ∀ t X y, (w.jac t X).2 = .ok y → y = j X
  explain : ∀ t X y, (w.explain t X).2 = .ok y → y = ex X

/-- The user's code never raises. -/
def Spec.Reliable (w : World σ K D) : Prop := ∀ t c e, ¬ Spec.Raises w t c e

/-- These calls, all answered. -/
def Spec.answered (cs : List (Call K D)) : List (Event K D) := cs.map fun c => ⟨c, none⟩

/-- Run from `y`, the program either makes exactly the calls `cs`, in this order, all of them answered, and ends with the object `o` and the outcome `r`; or the
user's code raises `e` at one of these calls, the ones before it having been answered, the program ends there and then with this very exception, and the object it
leaves behind satisfies `left`. -/
def Spec.Runs (w : World σ K D) (p : RunM σ K D S α) (y : Sys σ K D S) (o : S) (r : Py α) (cs : List (Call K D)) (left : S → Prop) : Prop :=
  ((p y).1.trace = y.trace ++ Spec.answered cs ∧ (p y).1.obj = o ∧ (p y).2 = r) ∨
  (∃ k c e t, cs[k]? = some c ∧ Spec.Raises w t c e ∧ (p y).1.trace = y.trace ++ Spec.answered (cs.take k) ++ [⟨c, some e⟩] ∧
    (p y).2 = .error e ∧ left (p y).1.obj)

/-- The height of the line of the average output, if it is shown: the stored average in the user's units. -/
def Spec.averageLine (showAvg : Bool) (avg : K) (scaleY : Option (Scale K)) : Option K :=
  if showAvg then some (match scaleY with
    | some sc => avg * sc.std + sc.mean
    | none => avg) else none

open Spec

/-! ## Rules -/

theorem run_bind (p : RunM σ K D S α) (f : α → RunM σ K D S β) (y : Sys σ K D S) : (p >>= f) y = runThen f (p y) := rfl

theorem run_pure (a : α) (y : Sys σ K D S) : (pure a : RunM σ K D S α) y = (y, .ok a) := rfl

theorem inert_ok (a : α) (f : α → RunM σ K D S β) : (inert (.ok a) >>= f) = f a := rfl

theorem answered_append (a b : List (Call K D)) : answered (a ++ b) = answered a ++ answered b := by
  simp [answered]

theorem Spec.Runs.pure (w : World σ K D) (a : α) (y : Sys σ K D S) (L : S → Prop) :
    Runs w (pure a : RunM σ K D S α) y y.obj (.ok a) [] L := by
  left; simp [run_pure, answered]

theorem Spec.Runs.inert (w : World σ K D) (x : Py α) (y : Sys σ K D S) (L : S → Prop) :
    Runs w (Effector.inert x : RunM σ K D S α) y y.obj x [] L := by
  left; simp [Effector.inert, answered]

theorem Spec.Runs.read (w : World σ K D) (y : Sys σ K D S) (L : S → Prop) :
    Runs w (readObj : RunM σ K D S S) y y.obj (.ok y.obj) [] L := by
  left; simp [readObj, answered]

theorem Spec.Runs.write (w : World σ K D) (o : S) (y : Sys σ K D S) (L : S → Prop) :
    Runs w (writeObj o : RunM σ K D S Unit) y o (.ok ()) [] L := by
  left; simp [writeObj, answered]

theorem Spec.Runs.bind {w : World σ K D} {p : RunM σ K D S α} {f : α → RunM σ K D S β} {y : Sys σ K D S} {o1 o2 : S} {a : α} {r : Py β}
    {c1 c2 : List (Call K D)} {L : S → Prop} (h1 : Runs w p y o1 (.ok a) c1 L) (h2 : ∀ y1 : Sys σ K D S, y1.obj = o1 → Runs w (f a) y1 o2 r c2 L) :
    Runs w (p >>= f) y o2 r (c1 ++ c2) L := by
  unfold Runs
  rw [run_bind]
  rcases h1 with ⟨ht, ho, hr⟩ | ⟨k, c, e, t, hk, hra, ht, hr, hl⟩
  · generalize p y = q at ht ho hr
    obtain ⟨y1, r1⟩ := q
    simp only at ht ho hr
    subst hr
    simp only [runThen]
    rcases h2 y1 ho with ⟨ht2, ho2, hr2⟩ | ⟨k, c, e, t, hk, hra, ht2, hr2, hl2⟩
    · left
      exact ⟨by rw [ht2, ht, answered_append, List.append_assoc], ho2, hr2⟩
    · right
      refine ⟨c1.length + k, c, e, t, ?_, hra, ?_, hr2, hl2⟩
      · rw [List.getElem?_append_right (by omega)]; simpa using hk
      · have e1 : (c1 ++ c2).take (c1.length + k) = c1 ++ c2.take k := by simp [List.take_append]
        rw [ht2, ht, e1, answered_append]
        simp [List.append_assoc]
  · right
    generalize p y = q at ht hr hl
    obtain ⟨y1, r1⟩ := q
    simp only at ht hr hl
    subst hr
    have hlt : k < c1.length := (List.getElem?_eq_some_iff.1 hk).1
    refine ⟨k, c, e, t, ?_, hra, ?_, rfl, hl⟩
    · rw [List.getElem?_append_left hlt]; exact hk
    · simp only [runThen]
      rw [ht, List.take_append, show k - c1.length = 0 by omega]; simp

theorem Spec.Runs.bindError {w : World σ K D} {p : RunM σ K D S α} {f : α → RunM σ K D S β} {y : Sys σ K D S} {o1 : S} {e : PyErr}
    {c1 : List (Call K D)} {L : S → Prop} (h1 : Runs w p y o1 (.error e) c1 L) :
    Runs w (p >>= f) y o1 (.error e) c1 L := by
  unfold Runs
  rw [run_bind]
  rcases h1 with ⟨ht, ho, hr⟩ | ⟨k, c, e', t, hk, hra, ht, hr, hl⟩
  · left
    generalize p y = q at ht ho hr
    obtain ⟨y1, r1⟩ := q
    simp only at ht ho hr
    subst hr
    exact ⟨ht, ho, rfl⟩
  · right
    generalize p y = q at ht hr hl
    obtain ⟨y1, r1⟩ := q
    simp only at ht hr hl
    subst hr
    exact ⟨k, c, e', t, hk, hra, ht, rfl, hl⟩

/-- A call-free step first. -/
theorem Spec.Runs.inertBind {w : World σ K D} {x : Py α} {f : α → RunM σ K D S β} {y : Sys σ K D S} {o : S} {r : Py β}
    {cs : List (Call K D)} {L : S → Prop} (hok : ∀ a, x = .ok a → Runs w (f a) y o r cs L)
    (herr : ∀ e, x = .error e → o = y.obj ∧ r = .error e ∧ cs = []) : Runs w (Effector.inert x >>= f) y o r cs L := by
  cases x with
  | ok a => exact hok a rfl
  | error e =>
    obtain ⟨rfl, rfl, rfl⟩ := herr e rfl
    exact .bindError (.inert w _ y L)

theorem Spec.Runs.readBind {w : World σ K D} {f : S → RunM σ K D S β} {y : Sys σ K D S} {o : S} {r : Py β}
    {cs : List (Call K D)} {L : S → Prop} (h : Runs w (f y.obj) y o r cs L) : Runs w (readObj >>= f) y o r cs L := h

theorem Spec.Runs.writeBind {w : World σ K D} {f : Unit → RunM σ K D S β} {y : Sys σ K D S} {o1 o : S} {r : Py β}
    {cs : List (Call K D)} {L : S → Prop} (h : ∀ y1 : Sys σ K D S, y1.obj = o1 → Runs w (f ()) y1 o r cs L) :
    Runs w (writeObj o1 >>= f) y o r cs L := by
  have := Spec.Runs.bind (.write w o1 y L) h
  simpa using this

theorem Spec.Runs.mono {w : World σ K D} {p : RunM σ K D S α} {y : Sys σ K D S} {o : S} {r : Py α} {cs : List (Call K D)} {L L' : S → Prop}
    (h : Runs w p y o r cs L) (hL : ∀ o, L o → L' o) : Runs w p y o r cs L' := by
  rcases h with h | ⟨k, c, e, t, hk, hra, ht, hr, hl⟩
  · exact .inl h
  · exact .inr ⟨k, c, e, t, hk, hra, ht, hr, hL _ hl⟩

/-- With user code that never raises only the first alternative is left. -/
theorem Spec.Runs.reliable {w : World σ K D} {p : RunM σ K D S α} {y : Sys σ K D S} {o : S} {r : Py α} {cs : List (Call K D)} {L : S → Prop}
    (h : Runs w p y o r cs L) (hw : Reliable w) : (p y).1.trace = y.trace ++ answered cs ∧ (p y).1.obj = o ∧ (p y).2 = r := by
  rcases h with h | ⟨k, c, e, t, hk, hra, ht, hr, hl⟩
  · exact h
  · exact absurd hra (hw t c e)

theorem runs_callModel {w : World σ K D} {m : List (Row K D) → List K} {j ex : List (Row K D) → List (Row K D)} (hw : AnswersWith w m j ex)
    (X : List (Row K D)) (y : Sys σ K D S) {L : S → Prop} (hL : L y.obj) :
    Runs w (callModel w X) y y.obj (.ok (m X)) [.model X] L := by
  cases h : (w.model y.world X).2 with
  | ok v =>
    left
    have := hw.model _ _ _ h
    simp [callModel, h, failure, answered, this]
  | error e =>
    right
    exact ⟨0, .model X, e, y.world, rfl, h, by simp [callModel, h, failure, answered], by simp [callModel, h], hL⟩

theorem runs_callJac {w : World σ K D} {m : List (Row K D) → List K} {j ex : List (Row K D) → List (Row K D)} (hw : AnswersWith w m j ex)
    (X : List (Row K D)) (y : Sys σ K D S) {L : S → Prop} (hL : L y.obj) :
    Runs w (callJac w X) y y.obj (.ok (j X)) [.jac X] L := by
  cases h : (w.jac y.world X).2 with
  | ok v =>
    left
    have := hw.jac _ _ _ h
    simp [callJac, h, failure, answered, this]
  | error e =>
    right
    exact ⟨0, .jac X, e, y.world, rfl, h, by simp [callJac, h, failure, answered], by simp [callJac, h], hL⟩

theorem runs_callExplain {w : World σ K D} {m : List (Row K D) → List K} {j ex : List (Row K D) → List (Row K D)} (hw : AnswersWith w m j ex)
    (X : List (Row K D)) (y : Sys σ K D S) {L : S → Prop} (hL : L y.obj) :
    Runs w (callExplain w X) y y.obj (.ok (ex X)) [.explain X] L := by
  cases h : (w.explain y.world X).2 with
  | ok v =>
    left
    have := hw.explain _ _ _ h
    simp [callExplain, h, failure, answered, this]
  | error e =>
    right
    exact ⟨0, .explain X, e, y.world, rfl, h, by simp [callExplain, h, failure, answered], by simp [callExplain, h], hL⟩

end Effector
