import Verif.Model.RegionalCalls
import Verif.Lemmas.Calls

/-!
# Rules for programs that call the black box and may catch what it raises (C110)
-/

set_option linter.unusedSectionVars false

namespace Effector

variable {K : Type} [Field K] [LinearOrder K] {D : ℕ} {σ S S' α β : Type}

/-! ## Specification -/

/-- Some calls, all answered. -/
def Spec.AllAnswered (evs : List (Event K D)) : Prop := ∀ e ∈ evs, e.failed = none

/-- Some calls, all answered but the last one, which raised `e`. -/
def Spec.EndsWith (evs : List (Event K D)) (e : PyErr) : Prop := ∃ init c, evs = init ++ [⟨c, some e⟩] ∧ Spec.AllAnswered init

/-- Whatever the user's code raises, at whatever call, ends the program at once and reaches its caller. -/
def Spec.Propagates (p : RunM σ K D S α) : Prop := ∀ y : Sys σ K D S, ∃ evs, (p y).1.trace = y.trace ++ evs ∧
  (Spec.AllAnswered evs ∨ ∃ e, Spec.EndsWith evs e ∧ (p y).2 = .error e)

/-- Run from `y`: if no call raises, the object satisfies `Q` and the outcome is `r`. -/
def Spec.IfAnswered (p : RunM σ K D S α) (y : Sys σ K D S) (Q : S → Prop) (r : Py α) : Prop := ∃ evs, (p y).1.trace = y.trace ++ evs ∧
  (Spec.AllAnswered evs → Q (p y).1.obj ∧ (p y).2 = r)

/-- A program that leaves the object alone, and, if no call raises, returns what `x` returns (and raises if `x` raises). -/
def Spec.Means (p : RunM σ K D S α) (x : Py α) : Prop := ∀ y : Sys σ K D S, (p y).1.obj = y.obj ∧ ∃ evs, (p y).1.trace = y.trace ++ evs ∧
  (Spec.AllAnswered evs → ∀ v, (p y).2 = .ok v ↔ x = .ok v)

open Spec

/-! ## Every program only adds to the calls made -/

/-- The calls made are never forgotten. -/
def Grows (p : RunM σ K D S α) : Prop := ∀ y : Sys σ K D S, ∃ evs, (p y).1.trace = y.trace ++ evs

/-- Nor is the object touched. -/
def Keeps (p : RunM σ K D S α) : Prop := ∀ y : Sys σ K D S, (p y).1.obj = y.obj ∧ ∃ evs, (p y).1.trace = y.trace ++ evs

theorem Keeps.grows {p : RunM σ K D S α} (h : Keeps p) : Grows p := fun y => (h y).2

theorem Spec.Means.keeps {p : RunM σ K D S α} {x : Py α} (h : Means p x) : Keeps p := fun y =>
  let ⟨h1, evs, h2, _⟩ := h y
  ⟨h1, evs, h2⟩

theorem Spec.Propagates.grows {p : RunM σ K D S α} (h : Propagates p) : Grows p := fun y =>
  let ⟨evs, h2, _⟩ := h y
  ⟨evs, h2⟩

theorem grows_bind {p : RunM σ K D S α} {f : α → RunM σ K D S β} (h1 : Grows p) (h2 : ∀ a, Grows (f a)) : Grows (p >>= f) := by
  intro y
  rw [run_bind]
  obtain ⟨e1, h1⟩ := h1 y
  generalize p y = q at h1
  obtain ⟨y1, r⟩ := q
  cases r with
  | error e => exact ⟨e1, h1⟩
  | ok a =>
    obtain ⟨e2, h2⟩ := h2 a y1
    exact ⟨e1 ++ e2, by simp only [runThen]; rw [h2, h1, List.append_assoc]⟩

theorem keeps_pure (a : α) : Keeps (pure a : RunM σ K D S α) := fun y => ⟨rfl, [], by simp [run_pure]⟩

theorem keeps_inert (x : Py α) : Keeps (inert x : RunM σ K D S α) := fun y => ⟨rfl, [], by simp [inert]⟩

theorem keeps_bind {p : RunM σ K D S α} {f : α → RunM σ K D S β} (h1 : Keeps p) (h2 : ∀ a, Keeps (f a)) : Keeps (p >>= f) := by
  intro y
  rw [run_bind]
  obtain ⟨o1, e1, h1⟩ := h1 y
  generalize p y = q at o1 h1
  obtain ⟨y1, r⟩ := q
  cases r with
  | error e => exact ⟨o1, e1, h1⟩
  | ok a =>
    obtain ⟨o2, e2, h2⟩ := h2 a y1
    exact ⟨by simp only [runThen]; rw [o2]; exact o1, e1 ++ e2, by simp only [runThen]; rw [h2, h1, List.append_assoc]⟩

theorem keeps_callModel (w : World σ K D) (X : List (Row K D)) : Keeps (callModel w X : RunM σ K D S (List K)) := fun _ => ⟨rfl, _, rfl⟩

theorem grows_attempt {p : RunM σ K D S α} (h : Grows p) : Grows (attempt p) := by
  intro y
  obtain ⟨evs, h⟩ := h y
  unfold attempt
  generalize p y = q at h
  obtain ⟨y1, r⟩ := q
  cases r <;> exact ⟨evs, h⟩

theorem keeps_onNew (o : S') {p : RunM σ K D S' α} (h : Grows p) : Keeps (onNew o p : RunM σ K D S α) := fun y =>
  ⟨rfl, by obtain ⟨evs, h⟩ := h ⟨y.world, y.trace, o⟩; exact ⟨evs, h⟩⟩

theorem keeps_each {f : β → RunM σ K D S α} (h : ∀ b, Keeps (f b)) : ∀ l : List β, Keeps (runEach f l)
  | [] => keeps_pure _
  | b :: t => keeps_bind (h b) fun _ => keeps_bind (keeps_each h t) fun _ => keeps_pure _

/-! ## Propagation -/

theorem allAnswered_nil : AllAnswered ([] : List (Event K D)) := fun _ h => by cases h

theorem allAnswered_append {a b : List (Event K D)} : AllAnswered (a ++ b) ↔ AllAnswered a ∧ AllAnswered b := by
  constructor
  · exact fun h => ⟨fun e he => h e (by simp [he]), fun e he => h e (by simp [he])⟩
  · rintro ⟨h1, h2⟩ e he
    rcases List.mem_append.1 he with h | h
    · exact h1 e h
    · exact h2 e h

theorem Spec.EndsWith.not_answered {evs : List (Event K D)} {e : PyErr} (h : EndsWith evs e) : ¬ AllAnswered evs := by
  obtain ⟨init, c, rfl, _⟩ := h
  intro h
  have := h ⟨c, some e⟩ (by simp)
  cases this

theorem propagates_pure (a : α) : Propagates (pure a : RunM σ K D S α) := fun y => ⟨[], by simp [run_pure], .inl allAnswered_nil⟩

theorem propagates_inert (x : Py α) : Propagates (inert x : RunM σ K D S α) := fun y => ⟨[], by simp [inert], .inl allAnswered_nil⟩

theorem propagates_read : Propagates (readObj : RunM σ K D S S) := fun y => ⟨[], by simp [readObj], .inl allAnswered_nil⟩

theorem propagates_write (o : S) : Propagates (writeObj o : RunM σ K D S Unit) := fun y => ⟨[], by simp [writeObj], .inl allAnswered_nil⟩

theorem propagates_bind {p : RunM σ K D S α} {f : α → RunM σ K D S β} (h1 : Propagates p) (h2 : ∀ a, Propagates (f a)) : Propagates (p >>= f) := by
  intro y
  rw [run_bind]
  obtain ⟨e1, t1, h1⟩ := h1 y
  generalize p y = q at t1 h1
  obtain ⟨y1, r⟩ := q
  simp only at t1 h1
  rcases h1 with h1 | ⟨e, h1, rfl⟩
  · cases r with
    | error e => exact ⟨e1, t1, .inl h1⟩
    | ok a =>
      obtain ⟨e2, t2, h2⟩ := h2 a y1
      refine ⟨e1 ++ e2, by simp only [runThen]; rw [t2, t1, List.append_assoc], ?_⟩
      rcases h2 with h2 | ⟨e, ⟨init, c, rfl, h2⟩, h3⟩
      · exact .inl (allAnswered_append.2 ⟨h1, h2⟩)
      · exact .inr ⟨e, ⟨e1 ++ init, c, by rw [List.append_assoc], allAnswered_append.2 ⟨h1, h2⟩⟩, h3⟩
  · exact ⟨e1, t1, .inr ⟨e, h1, rfl⟩⟩

theorem propagates_call {p : RunM σ K D S α} (h : ∀ y : Sys σ K D S, ∃ c, (p y).1.trace = y.trace ++ [⟨c, failure (p y).2⟩]) : Propagates p := by
  intro y
  obtain ⟨c, h⟩ := h y
  refine ⟨_, h, ?_⟩
  cases hr : (p y).2 with
  | ok a => exact .inl fun e he => by simp only [List.mem_singleton] at he; subst he; rfl
  | error e => exact .inr ⟨e, ⟨[], c, rfl, allAnswered_nil⟩, rfl⟩

theorem propagates_callModel (w : World σ K D) (X : List (Row K D)) : Propagates (callModel w X : RunM σ K D S (List K)) :=
  propagates_call fun _ => ⟨.model X, rfl⟩

theorem propagates_callJac (w : World σ K D) (X : List (Row K D)) : Propagates (callJac w X : RunM σ K D S (List (Row K D))) :=
  propagates_call fun _ => ⟨.jac X, rfl⟩

theorem propagates_callExplain (w : World σ K D) (X : List (Row K D)) : Propagates (callExplain w X : RunM σ K D S (List (Row K D))) :=
  propagates_call fun _ => ⟨.explain X, rfl⟩

theorem propagates_onNew (o : S') {p : RunM σ K D S' α} (h : Propagates p) : Propagates (onNew o p : RunM σ K D S α) := fun y =>
  h ⟨y.world, y.trace, o⟩

theorem propagates_each {f : β → RunM σ K D S α} (h : ∀ b, Propagates (f b)) : ∀ l : List β, Propagates (runEach f l)
  | [] => propagates_pure _
  | b :: t => propagates_bind (h b) fun _ => propagates_bind (propagates_each h t) fun _ => propagates_pure _

/-- One step of a structural proof. -/
macro "propagate1" : tactic => `(tactic| first
  | with_reducible exact propagates_pure _ | with_reducible exact propagates_inert _ | with_reducible exact propagates_read | with_reducible exact propagates_write _
  | with_reducible exact propagates_callModel _ _ | with_reducible exact propagates_callJac _ _ | with_reducible exact propagates_callExplain _ _
  | assumption
  | (refine propagates_bind ?_ (fun _ => ?_))
  | split)

/-- A structural proof. -/
macro "propagate" : tactic => `(tactic| repeat propagate1)

theorem propagates_base (w : World σ K D) (choice : ℕ → ℕ → List ℕ) (data : List (Row K D)) (nof : PyVal)
    (axisLimits : Option ((Fin D → K) × (Fin D → K))) (avg : Option K) : Propagates (runBase w choice data nof axisLimits avg : RunM σ K D S _) := by
  unfold runBase
  propagate

theorem propagates_pdpNew (w : World σ K D) (choice : ℕ → ℕ → List ℕ) (cast : K → K) (which : PdpWhich) (data : List (Row K D)) (nof : PyVal)
    (axisLimits : Option ((Fin D → K) × (Fin D → K))) (avg : Option K) : Propagates (runPdpNew w choice cast which data nof axisLimits avg : RunM σ K D S _) := by
  unfold runPdpNew
  have := propagates_base (S := S) w choice data nof axisLimits avg
  propagate

theorem propagates_aleNew (w : World σ K D) (choice : ℕ → ℕ → List ℕ) (cast : K → K) (data : List (Row K D)) (nof : PyVal)
    (axisLimits : Option ((Fin D → K) × (Fin D → K))) (avg : Option K) : Propagates (runAleNew w choice cast data nof axisLimits avg : RunM σ K D S _) := by
  unfold runAleNew
  have := propagates_base (S := S) w choice data nof axisLimits avg
  propagate

theorem propagates_rhaleNew (w : World σ K D) (choice : ℕ → ℕ → List ℕ) (hasJac : Bool) (data : List (Row K D)) (given : Option (List (Row K D))) (nof : PyVal)
    (axisLimits : Option ((Fin D → K) × (Fin D → K))) (avg : Option K) : Propagates (runRhaleNew w choice hasJac data given nof axisLimits avg : RunM σ K D S _) := by
  unfold runRhaleNew
  have := fun d => propagates_base (S := S) w choice d (.str "all") axisLimits avg
  repeat (first | exact propagates_bind (this _) (fun _ => propagates_pure _) | propagate1)

theorem propagates_shapNew (w : World σ K D) (choice : ℕ → ℕ → List ℕ) (spline : List (K × K) → Py (K → K)) (data : List (Row K D)) (nof : PyVal)
    (axisLimits : Option ((Fin D → K) × (Fin D → K))) (avg : Option K) : Propagates (runShapNew w choice spline data nof axisLimits avg : RunM σ K D S _) := by
  unfold runShapNew
  have := fun d => propagates_base (S := S) w choice d nof axisLimits avg
  repeat (first | exact propagates_bind (this _) (fun _ => propagates_pure _) | propagate1)

theorem propagates_row (w : World σ K D) (cast : K → K) (which : PdpWhich) (data : List (Row K D)) (s : Fin D) (v : K) :
    Propagates (runRow w cast which data s v : RunM σ K D S _) := by
  unfold runRow
  cases which <;> propagate

theorem propagates_rows (w : World σ K D) (cast : K → K) (which : PdpWhich) (data : List (Row K D)) (s : Fin D) :
    ∀ xs : List K, Propagates (runRows w cast which data s xs : RunM σ K D S _)
  | [] => propagates_pure _
  | v :: t => propagates_bind (propagates_row w cast which data s v) fun _ => propagates_bind (propagates_rows w cast which data s t) fun _ => propagates_pure _

theorem propagates_predict (w : World σ K D) (cast : K → K) (which : PdpWhich) (data : List (Row K D)) (xx : List K) (s : Fin D) (vec : Bool) :
    Propagates (runPredict w cast which data xx s vec : RunM σ K D S _) := by
  unfold runPredict
  have := propagates_rows (S := S) w cast which data s xx
  split
  · unfold runBatch; cases which <;> propagate
  · propagate

theorem propagates_pdpFitFeature (w : World σ K D) (cfg : RunPdpCfg K D) (s : Fin D) (c : Centering) (points : ℕ) (vec : Bool) :
    Propagates (runPdpFitFeature w cfg s c points vec) := by
  unfold runPdpFitFeature
  have := fun d xs => propagates_predict (S := PdpState K D) w cfg.cast cfg.which d xs s vec
  repeat (first | exact propagates_bind (this _ _) (fun _ => by propagate) | propagate1)

theorem propagates_pdpFitLoop (w : World σ K D) (cfg : RunPdpCfg K D) (c : Centering) (points : ℕ) (vec : Bool) :
    ∀ l : List (Fin D), Propagates (runPdpFitLoop w cfg c points vec l)
  | [] => propagates_pure _
  | s :: t => propagates_bind (propagates_pdpFitFeature w cfg s c points vec) fun _ => propagates_bind propagates_read fun _ =>
      propagates_bind (propagates_write _) fun _ => propagates_pdpFitLoop w cfg c points vec t

theorem propagates_pdpFit (w : World σ K D) (cfg : RunPdpCfg K D) (features centering : PyVal) (points : ℕ) (vec : Bool) :
    Propagates (runPdpFit w cfg features centering points vec) := by
  unfold runPdpFit
  repeat (first | exact propagates_pdpFitLoop w cfg _ points vec _ | propagate1)

theorem propagates_pdpEval [PySqrt K] (w : World σ K D) (cfg : RunPdpCfg K D) (s : Fin D) (xs : List K) (het : Bool) (centering : PyVal) (all vec : Bool) :
    Propagates (runPdpEval w cfg s xs het centering all vec) := by
  unfold runPdpEval
  repeat (first | exact propagates_pdpFitLoop w cfg _ 100 vec _ | exact propagates_predict w cfg.cast cfg.which _ _ _ _ | propagate1)

theorem propagates_localEffects (w : World σ K D) (cast : K → K) (data : List (Row K D)) (limits : List K) (s : Fin D) :
    Propagates (runLocalEffects w cast data limits s : RunM σ K D S _) := by
  unfold runLocalEffects
  propagate

theorem propagates_aleFitFeature (w : World σ K D) (cast : K → K) (data : List (Row K D)) (lo hi : Fin D → K) (s : Fin D) (bm : BinMethod K) :
    Propagates (runAleFitFeature w cast data lo hi s bm : RunM σ K D S _) := by
  unfold runAleFitFeature
  repeat (first | exact propagates_localEffects w cast _ _ _ | propagate1)

theorem propagates_jacobianCols (w : World σ K D) (data : List (Row K D)) (eps : K) :
    ∀ l : List (Fin D), Propagates (runJacobianCols w data eps l : RunM σ K D S _)
  | [] => propagates_pure _
  | _ :: t => propagates_bind (propagates_callModel _ _) fun _ => propagates_bind (propagates_callModel _ _) fun _ =>
      propagates_bind (propagates_jacobianCols w data eps t) fun _ => propagates_pure _

theorem propagates_compile (w : World σ K D) (hasJac : Bool) (data : List (Row K D)) : Propagates (runCompile w hasJac data) := by
  unfold runCompile runJacobian
  have := propagates_jacobianCols (S := AleObj K D) w data EPS (allFeatures D)
  propagate

theorem propagates_rhaleFitFeature (w : World σ K D) (hasJac : Bool) (data : List (Row K D)) (lo hi : Fin D → K) (s : Fin D) (bm : BinMethod K) :
    Propagates (runRhaleFitFeature w hasJac data lo hi s bm) := by
  unfold runRhaleFitFeature
  have := propagates_compile w hasJac data
  propagate

theorem propagates_aleFitLoop (cfg : RunAleCfg σ K D) (h : ∀ s bm, Propagates (cfg.fitF s bm)) (bm : BinMethod K) (c : Centering) :
    ∀ l : List (Fin D), Propagates (runAleFitLoop cfg bm c l)
  | [] => propagates_pure _
  | s :: t => propagates_bind (h s bm) fun _ => propagates_bind propagates_read fun _ => propagates_bind (propagates_write _) fun _ =>
      propagates_bind (propagates_inert _) fun _ => propagates_bind (propagates_write _) fun _ => propagates_aleFitLoop cfg h bm c t

theorem propagates_aleFit (cfg : RunAleCfg σ K D) (h : ∀ s bm, Propagates (cfg.fitF s bm)) (features : PyVal) (bm : BinMethod K) (centering : PyVal) :
    Propagates (runAleFit cfg features bm centering) := by
  unfold runAleFit
  repeat (first | exact propagates_aleFitLoop cfg h bm _ _ | propagate1)

theorem propagates_aleEval [PySqrt K] (cfg : RunAleCfg σ K D) (h : ∀ s bm, Propagates (cfg.fitF s bm)) (s : Fin D) (xs : List K) (het : Bool) (centering : PyVal) :
    Propagates (runAleEval cfg s xs het centering) := by
  unfold runAleEval
  repeat (first | exact propagates_aleFitLoop cfg h _ _ _ | propagate1)

theorem propagates_shapFitLoop (w : World σ K D) (cfg : RunShapCfg K D) (c : Centering) (points : ℕ) :
    ∀ l : List (Fin D), Propagates (runShapFitLoop w cfg c points l)
  | [] => propagates_pure _
  | s :: t => propagates_bind (by unfold runShapFitFeature; propagate) fun _ => propagates_bind propagates_read fun _ =>
      propagates_bind (propagates_write _) fun _ => propagates_shapFitLoop w cfg c points t

theorem propagates_shapFit (w : World σ K D) (cfg : RunShapCfg K D) (features centering : PyVal) (points : ℕ) :
    Propagates (runShapFit w cfg features centering points) := by
  unfold runShapFit
  repeat (first | exact propagates_shapFitLoop w cfg _ points _ | propagate1)

theorem propagates_shapEval (w : World σ K D) (cfg : RunShapCfg K D) (s : Fin D) (xs : List K) (het : Bool) (centering : PyVal) :
    Propagates (runShapEval w cfg s xs het centering) := by
  unfold runShapEval
  repeat (first | exact propagates_shapFitLoop w cfg _ _ _ | propagate1)

end Effector
