import Verif.Model.Indices
import Verif.Props.Refit

/-!
# C97: the names of a feature

Feature `f` of `D` features can be named `f` or `f - D`.
-/

set_option linter.unusedSectionVars false

namespace Effector

variable {K : Type} [Field K] [LinearOrder K] [IsStrictOrderedRing K] {D : ℕ}

open Spec

namespace Spec

/-- One name for every column: `f` itself or `f - D`. -/
def Naming (ρ : Fin D → ℤ) : Prop := ∀ f, ρ f = (f : ℕ) ∨ ρ f = ((f : ℕ) : ℤ) - D

/-- Calls of ALE and RHALE, with the features as columns. -/
inductive AleCall (K : Type) (D : ℕ)
  | fit (features : List (Fin D)) (bm : BinMethod K) (centering : PyVal)
  | eval (f : Fin D) (xs : List K) (het : Bool) (centering : PyVal)

/-- The call with the columns named by `ρ`. -/
def AleCall.raw (ρ : Fin D → ℤ) : AleCall K D → RawAleOp K
  | .fit l bm c => .fit (.list (l.map ρ)) bm c
  | .eval f xs het c => .eval (ρ f) xs het c

/-- The call in the rest of the model. -/
def AleCall.col : AleCall K D → AleOp K D
  | .fit l bm c => .fit (.list (l.map fun f : Fin D => ((f : ℕ) : ℤ))) bm c
  | .eval f xs het c => .eval f xs het c

/-- Calls of PDP and d-PDP, with the features as columns. -/
inductive PdpCall (K : Type) (D : ℕ)
  | fit (features : List (Fin D)) (centering : PyVal) (points : ℕ) (vec : Bool)
  | eval (f : Fin D) (xs : List K) (het : Bool) (centering : PyVal) (all vec : Bool)

/-- The call with the columns named by `ρ`. -/
def PdpCall.raw (ρ : Fin D → ℤ) : PdpCall K D → RawPdpOp K
  | .fit l c p v => .fit (.list (l.map ρ)) c p v
  | .eval f xs het c a v => .eval (ρ f) xs het c a v

/-- The call in the rest of the model. -/
def PdpCall.col : PdpCall K D → PdpOp K D
  | .fit l c p v => .fit (.list (l.map fun f : Fin D => ((f : ℕ) : ℤ))) c p v
  | .eval f xs het c a v => .eval f xs het c a v

/-- Calls of ShapDP, with the features as columns. -/
inductive ShapCall (K : Type) (D : ℕ)
  | fit (features : List (Fin D)) (centering : PyVal) (points : ℕ)
  | eval (f : Fin D) (xs : List K) (het : Bool) (centering : PyVal)

/-- The call with the columns named by `ρ`. -/
def ShapCall.raw (ρ : Fin D → ℤ) : ShapCall K D → RawShapOp K
  | .fit l c p => .fit (.list (l.map ρ)) c p
  | .eval f xs het c => .eval (ρ f) xs het c

/-- The call in the rest of the model. -/
def ShapCall.col : ShapCall K D → ShapOp K D
  | .fit l c p => .fit (.list (l.map fun f : Fin D => ((f : ℕ) : ℤ))) c p
  | .eval f xs het c => .eval f xs het c

end Spec

/-! ### Names -/

theorem pyColumn_nat (f : Fin D) : pyColumn D ((f : ℕ) : ℤ) = .ok f := by
  unfold pyColumn
  rw [dif_pos ⟨by positivity, by simp⟩]
  simp

theorem pyColumn_neg (f : Fin D) : pyColumn D (((f : ℕ) : ℤ) - D) = .ok f := by
  have hf := f.isLt
  unfold pyColumn
  rw [dif_neg (by omega), dif_pos ⟨by omega, by omega, by omega⟩]
  congr 1
  ext
  simp

theorem naming_column {ρ : Fin D → ℤ} (h : Naming ρ) (f : Fin D) : pyColumn D (ρ f) = .ok f := by
  rcases h f with e | e
  · rw [e]; exact pyColumn_nat f
  · rw [e]; exact pyColumn_neg f

theorem naming_inj {ρ : Fin D → ℤ} (h : Naming ρ) {f g : Fin D} (e : ρ f = ρ g) : f = g := by
  have h1 := naming_column h f
  rw [e, naming_column h g] at h1
  cases h1
  rfl

/-- Exactly the integers from `-D` to `D - 1` are names. -/
theorem pyColumn_error (i : ℤ) : (i < -(D : ℤ) ∨ (D : ℤ) ≤ i) ↔ pyColumn D i = .error .indexError := by
  unfold pyColumn
  split_ifs with h1 h2
  · exact ⟨fun h => by omega, fun h => by cases h⟩
  · exact ⟨fun h => by omega, fun h => by cases h⟩
  · simp only [iff_true]; omega

theorem resolve_cols (l : List (Fin D)) : resolveFeatures D (.list (l.map fun f : Fin D => ((f : ℕ) : ℤ))) = .ok l := by
  unfold resolveFeatures
  induction l with
  | nil => rfl
  | cons a t ih =>
    simp only [List.map_cons, List.mapM_cons] at ih ⊢
    rw [ih]
    have ha := a.isLt
    rw [dif_pos ⟨by positivity, by simp⟩]
    simp [bind, Except.bind, pure, Except.pure]

/-! ### Methods that use the entries of one feature only -/

section

variable {S E X R : Type} (A : Attrs S E X D)

/-- The attributes determine the object. -/
structure Attrs.Lawful : Prop where
  eta : ∀ s, A.make (A.fe s) (A.fitted s) (A.args s) (A.own s) = s
  fe : ∀ a b c x, A.fe (A.make a b c x) = a
  fitted : ∀ a b c x, A.fitted (A.make a b c x) = b
  args : ∀ a b c x, A.args (A.make a b c x) = c
  own : ∀ a b c x, A.own (A.make a b c x) = x

/-- The method reads and writes the entries of its feature only. -/
def LocalOp (op : S → Fin D → S × Py R) : Prop :=
  ∀ (f : Fin D) (s s' : S), A.fe s f = A.fe s' f → A.fitted s f = A.fitted s' f → A.args s f = A.args s' f → A.own s = A.own s' →
    (op s f).2 = (op s' f).2 ∧ A.fe (op s f).1 f = A.fe (op s' f).1 f ∧ A.fitted (op s f).1 f = A.fitted (op s' f).1 f ∧
      A.args (op s f).1 f = A.args (op s' f).1 f ∧ A.own (op s f).1 = A.own (op s' f).1 ∧
      ∀ g, g ≠ f → A.fe (op s f).1 g = A.fe s g ∧ A.fitted (op s f).1 g = A.fitted s g ∧ A.args (op s f).1 g = A.args s g

/-- The object as the rest of the model has it, when column `f` is always named `ρ f`. -/
def Raw.view (ρ : Fin D → ℤ) (st : Raw E X D) : S := A.make (fun f => st.fe (ρ f)) st.fitted (fun f => st.args (ρ f)) st.own

variable {A}

theorem Raw.on_view (hA : A.Lawful) {ρ : Fin D → ℤ} (hρ : Naming ρ) {op : S → Fin D → S × Py R} (hop : LocalOp A op) (st : Raw E X D) (f : Fin D) :
    (st.on A (ρ f) op).1.view A ρ = (op (st.view A ρ) f).1 ∧ (st.on A (ρ f) op).2 = (op (st.view A ρ) f).2 := by
  unfold Raw.on
  rw [naming_column hρ f]
  simp only []
  obtain ⟨h1, h2, h3, h4, h5, h6⟩ := hop f (st.slot A (ρ f)) (st.view A ρ) (by simp only [Raw.slot, Raw.view, hA.fe]) (by simp only [Raw.slot, Raw.view, hA.fitted])
    (by simp only [Raw.slot, Raw.view, hA.args]) (by simp only [Raw.slot, Raw.view, hA.own])
  obtain ⟨-, -, -, -, -, h6'⟩ := hop f (st.view A ρ) (st.view A ρ) rfl rfl rfl rfl
  refine ⟨?_, h1⟩
  rw [← hA.eta (op (st.view A ρ) f).1]
  have e1 : (fun g => (st.put A (ρ f) f (op (st.slot A (ρ f)) f).1).fe (ρ g)) = A.fe (op (st.view A ρ) f).1 := by
    funext g
    by_cases hg : g = f
    · subst hg; simp only [Raw.put, Function.update_self]; exact h2
    · have : ρ g ≠ ρ f := fun e => hg (naming_inj hρ e)
      rw [(h6' g hg).1]; simp only [Raw.put, Function.update_of_ne this, Raw.view, hA.fe]
  have e2 : (fun g => (st.put A (ρ f) f (op (st.slot A (ρ f)) f).1).args (ρ g)) = A.args (op (st.view A ρ) f).1 := by
    funext g
    by_cases hg : g = f
    · subst hg; simp only [Raw.put, Function.update_self]; exact h4
    · have : ρ g ≠ ρ f := fun e => hg (naming_inj hρ e)
      rw [(h6' g hg).2.2]; simp only [Raw.put, Function.update_of_ne this, Raw.view, hA.args]
  have e3 : (st.put A (ρ f) f (op (st.slot A (ρ f)) f).1).fitted = A.fitted (op (st.view A ρ) f).1 := by
    funext g
    by_cases hg : g = f
    · subst hg; exact h3
    · show A.fitted (op (st.slot A (ρ f)) f).1 g = _
      rw [(h6 g hg).2.1, (h6' g hg).2.1]
      simp only [Raw.slot, Raw.view, hA.fitted]
  unfold Raw.view at e1 e2 e3 ⊢
  rw [e1, e2, e3]
  congr 1

theorem Raw.each_view (hA : A.Lawful) {ρ : Fin D → ℤ} (hρ : Naming ρ) {op : S → Fin D → S × Py Unit} (hop : LocalOp A op) (l : List (Fin D))
    (st : Raw E X D) :
    (st.each A op (l.map ρ)).1.view A ρ = (loopOver op (st.view A ρ) l).1 ∧ (st.each A op (l.map ρ)).2 = (loopOver op (st.view A ρ) l).2 := by
  induction l generalizing st with
  | nil => exact ⟨rfl, rfl⟩
  | cons f t ih =>
    obtain ⟨h1, h2⟩ := Raw.on_view hA hρ hop st f
    simp only [List.map_cons]
    unfold Raw.each loopOver
    revert h1 h2
    generalize st.on A (ρ f) op = P
    generalize op (st.view A ρ) f = Q
    rcases P with ⟨p, r⟩
    rcases Q with ⟨q, r'⟩
    intro h1 h2
    simp only at h1 h2
    subst h2
    subst h1
    cases r with
    | error e => exact ⟨rfl, rfl⟩
    | ok u => exact ih p

/-- A list of features of which the `i`-th entry is no column: the features before it are fitted, then `IndexError`. -/
theorem Raw.each_stops (op : S → Fin D → S × Py Unit) (good rest : List ℤ) (i : ℤ) (hi : i < -(D : ℤ) ∨ (D : ℤ) ≤ i) (st : Raw E X D)
    (hg : (st.each A op good).2 = .ok ()) : st.each A op (good ++ i :: rest) = ((st.each A op good).1, .error .indexError) := by
  induction good generalizing st with
  | nil =>
    simp only [List.nil_append, Raw.each, Raw.on, (pyColumn_error i).mp hi]
  | cons a t ih =>
    simp only [List.cons_append]
    unfold Raw.each at hg ⊢
    rcases e : st.on A a op with ⟨st', r | ⟨⟩⟩
    · rw [e] at hg; cases hg
    · rw [e] at hg
      exact ih st' hg

end

/-! ### ALE and RHALE -/

theorem aleAttrs_lawful : (aleAttrs : Attrs (AleState K D) _ _ D).Lawful :=
  ⟨fun _ => rfl, fun _ _ _ _ => rfl, fun _ _ _ _ => rfl, fun _ _ _ _ => rfl, fun _ _ _ _ => rfl⟩

theorem fitOne_local (cfg : AleCfg K D) (bm : BinMethod K) (c : Centering) : LocalOp aleAttrs (fun s f => fitOne cfg s f bm c) := by
  intro f s s' h1 h2 h3 _
  simp only [aleAttrs] at h1 h2 h3 ⊢
  unfold fitOne
  cases cfg.fitF f bm with
  | error e => exact ⟨rfl, h1, h2, h3, trivial, fun g _ => ⟨rfl, rfl, rfl⟩⟩
  | ok p =>
    simp only []
    cases aleNormConst cfg p f c with
    | error e => exact ⟨rfl, by simp, h2, h3, trivial, fun g hg => ⟨by simp [Function.update_of_ne hg], rfl, rfl⟩⟩
    | ok z => exact ⟨rfl, by simp, by simp, by simp, trivial, fun g hg => by simp [Function.update_of_ne hg]⟩

theorem aleEval_local [PySqrt K] (cfg : AleCfg K D) (xs : List K) (het : Bool) (c : PyVal) : LocalOp aleAttrs (fun s f => aleEval cfg s f xs het c) := by
  intro f s s' h1 h2 h3 _
  have hfit := fun m => fitOne_local cfg cfg.defaultBin m f s s' h1 h2 h3 rfl
  have hself := fun m => (fitOne_local cfg cfg.defaultBin m f s s rfl rfl rfl rfl).2.2.2.2.2
  simp only [aleAttrs] at h1 h2 h3 hfit hself ⊢
  unfold aleEval
  rw [h2, h3]
  have ev : ∀ (t t' : AleState K D) (m : Centering), t.fe f = t'.fe f → aleEvalFitted cfg t f xs het m = aleEvalFitted cfg t' f xs het m := by
    intro t t' m e
    unfold aleEvalFitted
    rw [e]
  cases prepCentering c with
  | error e => exact ⟨rfl, h1, h2, h3, trivial, fun g _ => ⟨rfl, rfl, rfl⟩⟩
  | ok m =>
    simp only []
    cases needsRefit (s'.fitted f) (s'.args f) m with
    | error e => exact ⟨rfl, h1, h2, h3, trivial, fun g _ => ⟨rfl, rfl, rfl⟩⟩
    | ok b =>
      cases b with
      | false => exact ⟨ev s s' m h1, h1, h2, h3, trivial, fun g _ => ⟨rfl, rfl, rfl⟩⟩
      | true =>
        simp only [fitLoop]
        have h := hfit m
        have h' := hself m
        revert h h'
        generalize fitOne cfg s f cfg.defaultBin m = P
        generalize fitOne cfg s' f cfg.defaultBin m = Q
        rcases P with ⟨p, r⟩
        rcases Q with ⟨q, r'⟩
        rintro ⟨g1, g2, g3, g4, -, -⟩ h'
        simp only at g1 g2 g3 g4 h'
        subst g1
        cases r with
        | error e => exact ⟨rfl, g2, g3, g4, trivial, h'⟩
        | ok u => exact ⟨ev p q m g2, g2, g3, g4, trivial, h'⟩

theorem rawAleFit_view (cfg : AleCfg K D) {ρ : Fin D → ℤ} (hρ : Naming ρ) (st : RawAle K D) (l : List (Fin D)) (bm : BinMethod K) (c : PyVal) :
    (rawAleFit cfg st (.list (l.map ρ)) bm c).1.view aleAttrs ρ = (aleFit cfg (st.view aleAttrs ρ) (.list (l.map fun f : Fin D => ((f : ℕ) : ℤ))) bm c).1 ∧
      (rawAleFit cfg st (.list (l.map ρ)) bm c).2 = (aleFit cfg (st.view aleAttrs ρ) (.list (l.map fun f : Fin D => ((f : ℕ) : ℤ))) bm c).2 := by
  unfold rawAleFit aleFit
  by_cases ha : cfg.allowed bm = true
  · simp only [ha, if_true, prepFeatures, bind, Except.bind, pure, Except.pure]
    cases prepCentering c with
    | error e => exact ⟨rfl, rfl⟩
    | ok m =>
      simp only [resolve_cols]
      simp only [Raw.loop, fitLoop_loop]
      exact Raw.each_view aleAttrs_lawful hρ (fitOne_local cfg bm m) l st
  · simp only [ha, if_false, Bool.false_eq_true]
    exact ⟨trivial, trivial⟩

theorem rawAleEval_view [PySqrt K] (cfg : AleCfg K D) {ρ : Fin D → ℤ} (hρ : Naming ρ) (st : RawAle K D) (f : Fin D) (xs : List K) (het : Bool) (c : PyVal) :
    (rawAleEval cfg st (ρ f) xs het c).1.view aleAttrs ρ = (aleEval cfg (st.view aleAttrs ρ) f xs het c).1 ∧
      (rawAleEval cfg st (ρ f) xs het c).2 = (aleEval cfg (st.view aleAttrs ρ) f xs het c).2 := by
  unfold rawAleEval
  cases hc : prepCentering c with
  | error e =>
    unfold aleEval
    rw [hc]
    exact ⟨rfl, rfl⟩
  | ok m => exact Raw.on_view aleAttrs_lawful hρ (aleEval_local cfg xs het c) st f

theorem rawAleRun_view [PySqrt K] (cfg : AleCfg K D) {ρ : Fin D → ℤ} (hρ : Naming ρ) (calls : List (AleCall K D)) :
    (rawAleRun cfg (calls.map (AleCall.raw ρ))).view aleAttrs ρ = aleRun cfg (calls.map AleCall.col) := by
  unfold rawAleRun aleRun
  have : ∀ st : RawAle K D, ((calls.map (AleCall.raw ρ)).foldl (rawAleStep cfg) st).view aleAttrs ρ =
      (calls.map AleCall.col).foldl (aleStep cfg) (st.view aleAttrs ρ) := by
    induction calls with
    | nil => intro st; rfl
    | cons a t ih =>
      intro st
      simp only [List.map_cons, List.foldl_cons]
      rw [ih]
      congr 1
      cases a with
      | fit l bm c => exact (rawAleFit_view cfg hρ st l bm c).1
      | eval f xs het c => exact (rawAleEval_view cfg hρ st f xs het c).1
  exact this _

/-- **C97, ALE and RHALE (partial).**  If every column is named by one of its two names throughout - `f` or `f - D`, not both - then `eval` returns what it returns
with the names `0, ..., D - 1`, after every history of fits and evals. -/
theorem C97_ale_partial [PySqrt K] (cfg : AleCfg K D) (ρ : Fin D → ℤ) (hρ : Naming ρ) (calls : List (AleCall K D)) (f : Fin D) (xs : List K) (het : Bool)
    (c : PyVal) :
    (rawAleEval cfg (rawAleRun cfg (calls.map (AleCall.raw ρ))) (ρ f) xs het c).2 = (aleEval cfg (aleRun cfg (calls.map AleCall.col)) f xs het c).2 := by
  rw [(rawAleEval_view cfg hρ _ f xs het c).2, rawAleRun_view cfg hρ]

/-- The outcome of `fit`, likewise. -/
theorem C97_ale_fit_partial [PySqrt K] (cfg : AleCfg K D) (ρ : Fin D → ℤ) (hρ : Naming ρ) (calls : List (AleCall K D)) (l : List (Fin D)) (bm : BinMethod K)
    (c : PyVal) :
    (rawAleFit cfg (rawAleRun cfg (calls.map (AleCall.raw ρ))) (.list (l.map ρ)) bm c).2 =
      (aleFit cfg (aleRun cfg (calls.map AleCall.col)) (.list (l.map fun f : Fin D => ((f : ℕ) : ℤ))) bm c).2 := by
  rw [(rawAleFit_view cfg hρ _ l bm c).2, rawAleRun_view cfg hρ]

/-! ### PDP and d-PDP -/

theorem pdpAttrs_lawful : (pdpAttrs : Attrs (PdpState K D) _ _ D).Lawful :=
  ⟨fun _ => rfl, fun _ _ _ _ => rfl, fun _ _ _ _ => rfl, fun _ _ _ _ => rfl, fun _ _ _ _ => rfl⟩

theorem pdpFitOne_local (cfg : PdpCfg K D) (c : Centering) (points : ℕ) (vec : Bool) : LocalOp pdpAttrs (fun s f => pdpFitLoop cfg c points vec s [f]) := by
  intro f s s' h1 h2 h3 h4
  simp only [pdpAttrs] at h1 h2 h3 h4 ⊢
  simp only [pdpFitLoop, h4]
  rcases pdpFitFeature cfg s'.data f c points vec with ⟨d, e | nc⟩
  · exact ⟨rfl, h1, h2, h3, rfl, fun g _ => ⟨rfl, rfl, rfl⟩⟩
  · exact ⟨rfl, by simp, by simp, by simp, rfl, fun g hg => by simp [Function.update_of_ne hg]⟩

theorem pdpEval_local [PySqrt K] (cfg : PdpCfg K D) (xs : List K) (het : Bool) (c : PyVal) (all vec : Bool) :
    LocalOp pdpAttrs (fun s f => pdpEval cfg s f xs het c all vec) := by
  intro f s s' h1 h2 h3 h4
  have hfit := fun m => pdpFitOne_local cfg m 100 vec f s s' h1 h2 h3 h4
  have hself := fun m => (pdpFitOne_local cfg m 100 vec f s s rfl rfl rfl rfl).2.2.2.2.2
  simp only [pdpAttrs] at h1 h2 h3 h4 hfit hself ⊢
  unfold pdpEval
  rw [h2, h3]
  have ev : ∀ (t t' : PdpState K D) (m : Centering), t.fe f = t'.fe f → t.data = t'.data → pdpEvalFitted cfg t f xs het m all vec = pdpEvalFitted cfg t' f xs het m all vec := by
    intro t t' m e e'
    unfold pdpEvalFitted
    rw [e, e']
  cases prepCentering c with
  | error e => exact ⟨rfl, h1, h2, h3, h4, fun g _ => ⟨rfl, rfl, rfl⟩⟩
  | ok m =>
    simp only []
    cases needsRefit (s'.fitted f) (s'.args f) m with
    | error e => exact ⟨rfl, h1, h2, h3, h4, fun g _ => ⟨rfl, rfl, rfl⟩⟩
    | ok b =>
      cases b with
      | false => exact ⟨ev s s' m h1 h4, h1, h2, h3, h4, fun g _ => ⟨rfl, rfl, rfl⟩⟩
      | true =>
        simp only []
        have h := hfit m
        have h' := hself m
        revert h h'
        generalize pdpFitLoop cfg m 100 vec s [f] = P
        generalize pdpFitLoop cfg m 100 vec s' [f] = Q
        rcases P with ⟨p, r⟩
        rcases Q with ⟨q, r'⟩
        rintro ⟨g1, g2, g3, g4, g5, -⟩ h'
        simp only at g1 g2 g3 g4 g5 h'
        subst g1
        cases r with
        | error e => exact ⟨rfl, g2, g3, g4, g5, h'⟩
        | ok u => exact ⟨ev p q m g2 g5, g2, g3, g4, g5, h'⟩

theorem pdpFitLoop_each (cfg : PdpCfg K D) (c : Centering) (points : ℕ) (vec : Bool) (st : PdpState K D) (l : List (Fin D)) :
    pdpFitLoop cfg c points vec st l = loopOver (fun s f => pdpFitLoop cfg c points vec s [f]) st l := by
  induction l generalizing st with
  | nil => rfl
  | cons a t ih =>
    unfold loopOver
    simp only [pdpFitLoop]
    rcases pdpFitFeature cfg st.data a c points vec with ⟨d, e | nc⟩
    · rfl
    · exact ih _

theorem rawPdpFit_view (cfg : PdpCfg K D) {ρ : Fin D → ℤ} (hρ : Naming ρ) (st : RawPdp K D) (l : List (Fin D)) (c : PyVal) (points : ℕ) (vec : Bool) :
    (rawPdpFit cfg st (.list (l.map ρ)) c points vec).1.view pdpAttrs ρ = (pdpFit cfg (st.view pdpAttrs ρ) (.list (l.map fun f : Fin D => ((f : ℕ) : ℤ))) c points vec).1 ∧
      (rawPdpFit cfg st (.list (l.map ρ)) c points vec).2 = (pdpFit cfg (st.view pdpAttrs ρ) (.list (l.map fun f : Fin D => ((f : ℕ) : ℤ))) c points vec).2 := by
  unfold rawPdpFit pdpFit
  simp only [prepFeatures, bind, Except.bind, pure, Except.pure]
  cases prepCentering c with
  | error e => exact ⟨rfl, rfl⟩
  | ok m =>
    simp only [resolve_cols]
    rw [pdpFitLoop_each]
    exact Raw.each_view pdpAttrs_lawful hρ (pdpFitOne_local cfg m points vec) l st

theorem rawPdpEval_view [PySqrt K] (cfg : PdpCfg K D) {ρ : Fin D → ℤ} (hρ : Naming ρ) (st : RawPdp K D) (f : Fin D) (xs : List K) (het : Bool) (c : PyVal)
    (all vec : Bool) :
    (rawPdpEval cfg st (ρ f) xs het c all vec).1.view pdpAttrs ρ = (pdpEval cfg (st.view pdpAttrs ρ) f xs het c all vec).1 ∧
      (rawPdpEval cfg st (ρ f) xs het c all vec).2 = (pdpEval cfg (st.view pdpAttrs ρ) f xs het c all vec).2 := by
  unfold rawPdpEval
  cases hc : prepCentering c with
  | error e =>
    unfold pdpEval
    rw [hc]
    exact ⟨rfl, rfl⟩
  | ok m => exact Raw.on_view pdpAttrs_lawful hρ (pdpEval_local cfg xs het c all vec) st f

theorem rawPdpRun_view [PySqrt K] (cfg : PdpCfg K D) (data : List (Row K D)) {ρ : Fin D → ℤ} (hρ : Naming ρ) (calls : List (PdpCall K D)) :
    (rawPdpRun cfg data (calls.map (PdpCall.raw ρ))).view pdpAttrs ρ = pdpRun cfg data (calls.map PdpCall.col) := by
  unfold rawPdpRun pdpRun
  have : ∀ st : RawPdp K D, ((calls.map (PdpCall.raw ρ)).foldl (rawPdpStep cfg) st).view pdpAttrs ρ =
      (calls.map PdpCall.col).foldl (pdpStep cfg) (st.view pdpAttrs ρ) := by
    induction calls with
    | nil => intro st; rfl
    | cons a t ih =>
      intro st
      simp only [List.map_cons, List.foldl_cons]
      rw [ih]
      congr 1
      cases a with
      | fit l c p v => exact (rawPdpFit_view cfg hρ st l c p v).1
      | eval f xs het c a v => exact (rawPdpEval_view cfg hρ st f xs het c a v).1
  exact this _

/-- **C97, PDP and d-PDP (partial).** -/
theorem C97_pdp_partial [PySqrt K] (cfg : PdpCfg K D) (data : List (Row K D)) (ρ : Fin D → ℤ) (hρ : Naming ρ) (calls : List (PdpCall K D)) (f : Fin D)
    (xs : List K) (het : Bool) (c : PyVal) (all vec : Bool) :
    (rawPdpEval cfg (rawPdpRun cfg data (calls.map (PdpCall.raw ρ))) (ρ f) xs het c all vec).2 =
      (pdpEval cfg (pdpRun cfg data (calls.map PdpCall.col)) f xs het c all vec).2 := by
  rw [(rawPdpEval_view cfg hρ _ f xs het c all vec).2, rawPdpRun_view cfg data hρ]

/-! ### ShapDP -/

theorem shapAttrs_lawful : (shapAttrs : Attrs (ShapState K D) _ _ D).Lawful :=
  ⟨fun _ => rfl, fun _ _ _ _ => rfl, fun _ _ _ _ => rfl, fun _ _ _ _ => rfl, fun _ _ _ _ => rfl⟩

theorem shapFitOne_local (cfg : ShapCfg K D) (c : Centering) (points : ℕ) : LocalOp shapAttrs (fun s f => shapFitLoop cfg c points s [f]) := by
  intro f s s' h1 h2 h3 h4
  simp only [shapAttrs] at h1 h2 h3 h4 ⊢
  simp only [shapFitLoop, h4]
  rcases shapFitFeature cfg.ext cfg.axisLo cfg.axisHi s'.data f c points with ⟨d, e | nc⟩
  · exact ⟨rfl, h1, h2, h3, rfl, fun g _ => ⟨rfl, rfl, rfl⟩⟩
  · exact ⟨rfl, by simp, by simp, by simp, rfl, fun g hg => by simp [Function.update_of_ne hg]⟩

theorem shapEval_local (cfg : ShapCfg K D) (xs : List K) (het : Bool) (c : PyVal) : LocalOp shapAttrs (fun s f => shapEval cfg s f xs het c) := by
  intro f s s' h1 h2 h3 h4
  have hfit := fun m => shapFitOne_local cfg m 100 f s s' h1 h2 h3 h4
  have hself := fun m => (shapFitOne_local cfg m 100 f s s rfl rfl rfl rfl).2.2.2.2.2
  simp only [shapAttrs] at h1 h2 h3 h4 hfit hself ⊢
  unfold shapEval
  rw [h2, h3]
  have ev : ∀ (t t' : ShapState K D) (m : Centering), t.fe f = t'.fe f → shapEvalFitted cfg t f xs het m = shapEvalFitted cfg t' f xs het m := by
    intro t t' m e
    unfold shapEvalFitted
    rw [e]
  cases prepCentering c with
  | error e => exact ⟨rfl, h1, h2, h3, h4, fun g _ => ⟨rfl, rfl, rfl⟩⟩
  | ok m =>
    simp only []
    cases needsRefit (s'.fitted f) (s'.args f) m with
    | error e => exact ⟨rfl, h1, h2, h3, h4, fun g _ => ⟨rfl, rfl, rfl⟩⟩
    | ok b =>
      cases b with
      | false => exact ⟨ev s s' m h1, h1, h2, h3, h4, fun g _ => ⟨rfl, rfl, rfl⟩⟩
      | true =>
        simp only []
        have h := hfit m
        have h' := hself m
        revert h h'
        generalize shapFitLoop cfg m 100 s [f] = P
        generalize shapFitLoop cfg m 100 s' [f] = Q
        rcases P with ⟨p, r⟩
        rcases Q with ⟨q, r'⟩
        rintro ⟨g1, g2, g3, g4, g5, -⟩ h'
        simp only at g1 g2 g3 g4 g5 h'
        subst g1
        cases r with
        | error e => exact ⟨rfl, g2, g3, g4, g5, h'⟩
        | ok u => exact ⟨ev p q m g2, g2, g3, g4, g5, h'⟩

theorem shapFitLoop_each (cfg : ShapCfg K D) (c : Centering) (points : ℕ) (st : ShapState K D) (l : List (Fin D)) :
    shapFitLoop cfg c points st l = loopOver (fun s f => shapFitLoop cfg c points s [f]) st l := by
  induction l generalizing st with
  | nil => rfl
  | cons a t ih =>
    unfold loopOver
    simp only [shapFitLoop]
    rcases shapFitFeature cfg.ext cfg.axisLo cfg.axisHi st.data a c points with ⟨d, e | nc⟩
    · rfl
    · exact ih _

theorem rawShapFit_view (cfg : ShapCfg K D) {ρ : Fin D → ℤ} (hρ : Naming ρ) (st : RawShap K D) (l : List (Fin D)) (c : PyVal) (points : ℕ) :
    (rawShapFit cfg st (.list (l.map ρ)) c points).1.view shapAttrs ρ = (shapFit cfg (st.view shapAttrs ρ) (.list (l.map fun f : Fin D => ((f : ℕ) : ℤ))) c points).1 ∧
      (rawShapFit cfg st (.list (l.map ρ)) c points).2 = (shapFit cfg (st.view shapAttrs ρ) (.list (l.map fun f : Fin D => ((f : ℕ) : ℤ))) c points).2 := by
  unfold rawShapFit shapFit
  simp only [prepFeatures, bind, Except.bind, pure, Except.pure]
  cases prepCentering c with
  | error e => exact ⟨rfl, rfl⟩
  | ok m =>
    simp only [resolve_cols]
    rw [shapFitLoop_each]
    exact Raw.each_view shapAttrs_lawful hρ (shapFitOne_local cfg m points) l st

theorem rawShapEval_view (cfg : ShapCfg K D) {ρ : Fin D → ℤ} (hρ : Naming ρ) (st : RawShap K D) (f : Fin D) (xs : List K) (het : Bool) (c : PyVal) :
    (rawShapEval cfg st (ρ f) xs het c).1.view shapAttrs ρ = (shapEval cfg (st.view shapAttrs ρ) f xs het c).1 ∧
      (rawShapEval cfg st (ρ f) xs het c).2 = (shapEval cfg (st.view shapAttrs ρ) f xs het c).2 := by
  unfold rawShapEval
  cases hc : prepCentering c with
  | error e =>
    unfold shapEval
    rw [hc]
    exact ⟨rfl, rfl⟩
  | ok m => exact Raw.on_view shapAttrs_lawful hρ (shapEval_local cfg xs het c) st f

theorem rawShapRun_view (cfg : ShapCfg K D) (data : List (Row K D)) {ρ : Fin D → ℤ} (hρ : Naming ρ) (calls : List (ShapCall K D)) :
    (rawShapRun cfg data (calls.map (ShapCall.raw ρ))).view shapAttrs ρ = shapRun cfg data (calls.map ShapCall.col) := by
  unfold rawShapRun shapRun
  have : ∀ st : RawShap K D, ((calls.map (ShapCall.raw ρ)).foldl (rawShapStep cfg) st).view shapAttrs ρ =
      (calls.map ShapCall.col).foldl (shapStep cfg) (st.view shapAttrs ρ) := by
    induction calls with
    | nil => intro st; rfl
    | cons a t ih =>
      intro st
      simp only [List.map_cons, List.foldl_cons]
      rw [ih]
      congr 1
      cases a with
      | fit l c p => exact (rawShapFit_view cfg hρ st l c p).1
      | eval f xs het c => exact (rawShapEval_view cfg hρ st f xs het c).1
  exact this _

/-- **C97, ShapDP (partial).** -/
theorem C97_shap_partial (cfg : ShapCfg K D) (data : List (Row K D)) (ρ : Fin D → ℤ) (hρ : Naming ρ) (calls : List (ShapCall K D)) (f : Fin D)
    (xs : List K) (het : Bool) (c : PyVal) :
    (rawShapEval cfg (rawShapRun cfg data (calls.map (ShapCall.raw ρ))) (ρ f) xs het c).2 =
      (shapEval cfg (shapRun cfg data (calls.map ShapCall.col)) f xs het c).2 := by
  rw [(rawShapEval_view cfg hρ _ f xs het c).2, rawShapRun_view cfg data hρ]

/-! ### Integers that name no column -/

/-- **C97, out of range.**  `eval` of an integer that names no column raises `IndexError` and changes nothing; `fit` of a list with such an integer fits the features before it
and raises `IndexError` when it gets there. -/
theorem C97_out_of_range [PySqrt K] (cfg : AleCfg K D) (st : RawAle K D) (i : ℤ) (hi : i < -(D : ℤ) ∨ (D : ℤ) ≤ i) :
    (∀ xs het c m, prepCentering c = .ok m → rawAleEval cfg st i xs het c = (st, .error .indexError)) ∧
    (∀ good rest bm c, (rawAleFit cfg st (.list good) bm c).2 = .ok () →
      rawAleFit cfg st (.list (good ++ i :: rest)) bm c = ((rawAleFit cfg st (.list good) bm c).1, .error .indexError)) := by
  constructor
  · intro xs het c m hc
    unfold rawAleEval
    rw [hc]
    simp only [Raw.on, (pyColumn_error i).mp hi]
  · intro good rest bm c h
    unfold rawAleFit at h ⊢
    by_cases ha : cfg.allowed bm = true
    · simp only [ha, if_true, prepFeatures, bind, Except.bind, pure, Except.pure] at h ⊢
      cases hc : prepCentering c with
      | error e => rw [hc] at h; cases h
      | ok m =>
        rw [hc] at h
        simp only [Raw.loop] at h ⊢
        exact Raw.each_stops _ good rest i hi st h
    · simp only [ha, if_false, Bool.false_eq_true] at h
      cases h

/-! ### Mixing the two names -/

/-- RHALE of four rows with the effects given. -/
def exIdx : AleCfg ℚ 2 := rhaleCfg [![1, 1], ![1, 2], ![1, 3], ![1, 4]]
  { data := [![0, 0], ![1, 1], ![2, 2], ![3, 3]], indices := [0, 1, 2, 3], axisLo := ![0, 0], axisHi := ![3, 3] }

/-- **C97 is false when the names are mixed**: after `fit(-1)` the last feature counts as fitted but has no entry under its other name: RHALE's `eval(1, ...)` raises
`KeyError`, while `eval(-1, ...)` returns the effect; and PDP's `eval(1, ..., centering=True)` raises `KeyError` after `fit(-1)`. -/
theorem C97_false_mixed :
    (rawAleEval exIdx (rawAleRun exIdx [.fit (.int (-1)) (.fixed 1 (some 1) 1) (.bool false)]) 1 [3] false (.bool false)).2 = .error .keyError ∧
    (rawAleEval exIdx (rawAleRun exIdx [.fit (.int (-1)) (.fixed 1 (some 1) 1) (.bool false)]) (-1) [3] false (.bool false)).2 = .ok ([15 / 2], none) ∧
    (rawAleEval exIdx (rawAleRun exIdx [.fit (.int 1) (.fixed 1 (some 1) 1) (.bool false)]) 1 [3] false (.bool false)).2 = .ok ([15 / 2], none) ∧
    (rawPdpEval (pdpCfgOf (.pdp fun r : Row ℚ 2 => r 0 * r 1) ![0, 0] ![2, 3])
      (rawPdpRun (pdpCfgOf (.pdp fun r : Row ℚ 2 => r 0 * r 1) ![0, 0] ![2, 3]) [![0, 1], ![1, 2], ![2, 3]] [.fit (.int (-1)) (.str "zero_start") 2 true])
      1 [0] false (.str "zero_start") false true).2 = .error .keyError := by
  decide +kernel

/-- A case that meets the hypotheses of `C97_ale_partial`: the last column is always called `-1`. -/
example : Naming (![0, -1] : Fin 2 → ℤ) ∧
    (rawAleEval exIdx (rawAleRun exIdx ([.fit [0, 1] (.fixed 1 (some 1) 1) (.bool false)].map (AleCall.raw ![0, -1]))) (-1) [3] false (.bool false)).2 = .ok ([15 / 2], none) := by
  refine ⟨fun f => ?_, by decide +kernel⟩
  fin_cases f <;> simp

/-! ### Regional fits -/

theorem rawFoc_nat (f : Fin D) : rawFoc D ((f : ℕ) : ℤ) = focAll f := by
  unfold rawFoc focAll
  congr 1
  funext j
  simp [Fin.ext_iff]

theorem rawFoc_neg (i : ℤ) (hi : i < 0) : rawFoc D i = List.finRange D := by
  unfold rawFoc
  apply List.filter_eq_self.mpr
  intro j _
  have : ((j : ℕ) : ℤ) ≠ i := by omega
  simpa using this

/-- **C97, the regional classes (partial)**: with explicit conditioning features, or named `0, ..., D - 1`, a feature is fitted as in the rest of the model. -/
theorem C97_regional_partial [PySqrt K] (o : RegionalObj K D) (kw : FitKw K D) (st : RegionalState K D) (f : Fin D) :
    rawRegionalFitOne o { kw with foc := some (kw.foc.getD (focAll f)) } st (((f : ℕ) : ℤ) - D) =
      rawRegionalFitOne o { kw with foc := some (kw.foc.getD (focAll f)) } st ((f : ℕ) : ℤ) := by
  unfold rawRegionalFitOne
  rw [pyColumn_nat, pyColumn_neg]
  rfl

/-- Named `0, ..., D - 1`, a feature is fitted as in the rest of the model, with or without explicit conditioning features; and named by its negative index with the default
`"all"`, it is fitted as if the caller had listed every column, its own included. -/
theorem C97_regional_names [PySqrt K] (o : RegionalObj K D) (kw : FitKw K D) (st : RegionalState K D) (f : Fin D) :
    rawRegionalFitOne o kw st ((f : ℕ) : ℤ) = regionalFitOne o kw st f ∧
    (kw.foc = none → rawRegionalFitOne o kw st (((f : ℕ) : ℤ) - D) = regionalFitOne o { kw with foc := some (List.finRange D) } st f) ∧
    (∀ l, kw.foc = some l → rawRegionalFitOne o kw st (((f : ℕ) : ℤ) - D) = regionalFitOne o kw st f) := by
  refine ⟨?_, ?_, ?_⟩
  · unfold rawRegionalFitOne
    rw [pyColumn_nat, rawFoc_nat]
    simp only
    unfold regionalFitOne
    have e1 : regionalHeter o { kw with foc := some (kw.foc.getD (focAll f)) } f = regionalHeter o kw f := by
      unfold regionalHeter; rfl
    have e2 : regionsOf o.cfg (({ kw with foc := some (kw.foc.getD (focAll f)) } : FitKw K D).toArgs o) f = regionsOf o.cfg (kw.toArgs o) f := by
      simp only [regionsOf, FitKw.toArgs, Option.getD_some, e1]
    rw [e1, e2]
  · intro h
    unfold rawRegionalFitOne
    rw [pyColumn_neg]
    simp only [h, Option.getD_none]
    rw [rawFoc_neg _ (by have := f.isLt; omega)]
  · intro l h
    unfold rawRegionalFitOne
    rw [pyColumn_neg]
    simp only [h, Option.getD_some]
    rw [← h]

/-- The model is `max(0, 4 (x_1 - 2))`. -/
def hingeBB : BlackBoxes ℚ 2 :=
  { interactionBB with model := List.map fun r => if r 1 < 2 then 0 else 4 * (r 1 - 2), jac := some (List.map fun r => ![0, if r 1 < 2 then 0 else 4]) }

/-- Feature 1 takes the values 0, 1, 2, 3, each twice. -/
def hingeData : List (Row ℚ 2) := [![0, 0], ![1, 0], ![0, 1], ![1, 1], ![0, 2], ![1, 2], ![0, 3], ![1, 3]]

/-- The nodes of the pruned tree of a feature: name and number of instances. -/
def namesIn (st : RegionalState ℚ 2) (f : Fin 2) : Option (List (String × ℕ)) := (st.treePruned f).join.map (·.map fun nd => (nd.name, nd.rows.length))

/-- RegionalRHALE: construct and fit feature 1, named by `i`. -/
def hingeFit (i : ℤ) : Option (List (String × ℕ)) :=
  match regionalNew hingeBB "rhale" hingeData none (.str "all") none none 3 none (fun q => toString q) with
  | .ok o => namesIn (rawRegionalFitOne o { interactionKw (.fixed 1 (some 2) 1) with nofCandidates := 1 } RegionalState.init i).1 1
  | .error _ => none

/-- **C97 is false for regional fits**: `candidate_conditioning_features="all"` means all *other* features, but for a feature with a negative name it includes the feature itself.
RegionalRHALE of the model `max(0, 4 (x_1 - 2))`, which has no interactions: `fit(1)` leaves the feature unsplit, `fit(-1)` splits it on itself. -/
theorem C97_false_regional :
    hingeFit 1 = some [("x_1", 8)] ∧ hingeFit (-1) = some [("x_1", 8), ("x_1 | x_1 <= 3/2", 4), ("x_1 | x_1  > 3/2", 4)] := by
  decide +kernel

end Effector
