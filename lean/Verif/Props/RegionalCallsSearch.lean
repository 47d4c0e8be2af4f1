import Verif.Lemmas.RegionalCalls
import Verif.Props.AleState

/-!
# C110: the search for sub-regions with the calls of the black box as effects
-/

set_option linter.unusedSectionVars false

namespace Effector

variable {K : Type} [Field K] [LinearOrder K] {D : ℕ} {σ S S' α β γ : Type}

open Spec

/-! ## What programs mean -/

theorem means_pure (a : α) : Means (pure a : RunM σ K D S α) (.ok a) := fun y => ⟨rfl, [], by simp [run_pure], fun _ v => by simp [run_pure]⟩

theorem means_inert (x : Py α) : Means (inert x : RunM σ K D S α) x := fun y => ⟨rfl, [], by simp [inert], fun _ v => by simp [inert]⟩

theorem Spec.Means.congr {p : RunM σ K D S α} {x x' : Py α} (h : Means p x) (hx : ∀ v, x = .ok v ↔ x' = .ok v) : Means p x' := fun y => by
  obtain ⟨h1, evs, h2, h3⟩ := h y
  exact ⟨h1, evs, h2, fun ha v => (h3 ha v).trans (hx v)⟩

theorem means_bind {p : RunM σ K D S α} {f : α → RunM σ K D S β} {x : Py α} {g : α → Py β} (h1 : Means p x) (hk : ∀ a, Keeps (f a))
    (h2 : ∀ a, x = .ok a → Means (f a) (g a)) : Means (p >>= f) (x.bind g) := by
  intro y
  rw [run_bind]
  obtain ⟨o1, e1, t1, h1⟩ := h1 y
  generalize p y = q at o1 t1 h1
  obtain ⟨y1, r⟩ := q
  simp only at o1 t1 h1
  cases r with
  | error e =>
    refine ⟨o1, e1, t1, fun ha v => ?_⟩
    cases x with
    | error e' => simp [runThen, Except.bind]
    | ok a => have := (h1 ha a).2 rfl; cases this
  | ok a =>
    obtain ⟨o2, e2, t2⟩ := hk a y1
    refine ⟨by simp only [runThen]; rw [o2]; exact o1, e1 ++ e2, by simp only [runThen]; rw [t2, t1, List.append_assoc], fun ha v => ?_⟩
    obtain ⟨ha1, ha2⟩ := allAnswered_append.1 ha
    have hx := (h1 ha1 a).1 rfl
    subst hx
    obtain ⟨_, e3, t3, h3⟩ := h2 a rfl y1
    rw [t2] at t3
    rw [List.append_cancel_left t3] at ha2
    exact h3 ha2 v

theorem means_each {f : β → RunM σ K D S α} {g : β → Py α} (h : ∀ b, Means (f b) (g b)) : ∀ l : List β, Means (runEach f l) (l.mapM g)
  | [] => means_pure _
  | b :: t => by
    rw [List.mapM_cons]
    exact means_bind (h b) (fun _ => keeps_bind (keeps_each (fun b => (h b).keeps) t) fun _ => keeps_pure _)
      fun a _ => means_bind (means_each h t) (fun _ => keeps_pure _) fun as _ => means_pure _

/-! ## The search propagates what the heterogeneity function raises -/

section propagates
variable {h : HeterR σ K D S} (hp : ∀ x e, Propagates (h x e))
include hp

theorem propagates_heters (xs : List (List (Row K D))) (js : Option (List (List (Row K D)))) : Propagates (runHeters h xs js) := by
  cases js with
  | none => exact propagates_each (fun _ => hp _ _) _
  | some js => exact propagates_each (fun _ => hp _ _) _

theorem propagates_rowFrom (w : ℕ) (xs : List (List (Row K D))) (js : Option (List (List (Row K D)))) (before : List K) (f : Fin D) (typ : FeatType) :
    ∀ (i : ℕ) (l : List K), Propagates (runRowFrom h w xs js before f typ i l)
  | _, [] => propagates_pure _
  | i, _ :: t => propagates_bind (propagates_bind (propagates_heters hp _ _) fun _ => propagates_pure _) fun _ => propagates_bind (propagates_inert _) fun _ =>
      propagates_bind (propagates_rowFrom w xs js before f typ (i + 1) t) fun _ => propagates_pure _

theorem propagates_singleLevel (cfg : RegCfg K D) (xs : List (List (Row K D))) (js : Option (List (List (Row K D)))) (before : List K) :
    Propagates (runSingleLevel cfg h xs js before) := by
  unfold runSingleLevel
  repeat (first | exact propagates_heters hp _ _ | exact propagates_each (fun _ => propagates_rowFrom hp _ _ _ _ _ _ _ _) _ | propagate1)

theorem propagates_levels (cfg : RegCfg K D) : ∀ (n : ℕ) (xs : List (List (Row K D))) (js : Option (List (List (Row K D)))) (before : List K),
    Propagates (runLevels cfg h n xs js before)
  | 0, _, _, _ => propagates_pure _
  | n + 1, xs, js, before => by
    rw [runLevels]
    split
    · exact propagates_pure _
    · exact propagates_bind (propagates_singleLevel hp cfg xs js before) fun _ => propagates_bind (propagates_levels cfg n _ _ _) fun _ => propagates_pure _

theorem propagates_search (cfg : RegCfg K D) : Propagates (runSearch cfg h) := by
  unfold runSearch
  repeat (first | exact hp _ _ | exact propagates_levels hp _ _ _ _ _ | propagate1)

end propagates

/-! ## The search leaves the object alone -/

section keeps
variable {h : HeterR σ K D S} (hk : ∀ x e, Keeps (h x e))
include hk

theorem keeps_heters (xs : List (List (Row K D))) (js : Option (List (List (Row K D)))) : Keeps (runHeters h xs js) := by
  cases js with
  | none => exact keeps_each (fun _ => hk _ _) _
  | some js => exact keeps_each (fun _ => hk _ _) _

theorem keeps_rowFrom (w : ℕ) (xs : List (List (Row K D))) (js : Option (List (List (Row K D)))) (before : List K) (f : Fin D) (typ : FeatType) :
    ∀ (i : ℕ) (l : List K), Keeps (runRowFrom h w xs js before f typ i l)
  | _, [] => keeps_pure _
  | i, _ :: t => keeps_bind (keeps_bind (keeps_heters hk _ _) fun _ => keeps_pure _) fun _ => keeps_bind (keeps_inert _) fun _ =>
      keeps_bind (keeps_rowFrom w xs js before f typ (i + 1) t) fun _ => keeps_pure _

/-- One step of a structural proof. -/
macro "keep1" : tactic => `(tactic| first
  | with_reducible exact keeps_pure _ | with_reducible exact keeps_inert _ | assumption | (refine keeps_bind ?_ (fun _ => ?_)) | split)

theorem keeps_singleLevel (cfg : RegCfg K D) (xs : List (List (Row K D))) (js : Option (List (List (Row K D)))) (before : List K) :
    Keeps (runSingleLevel cfg h xs js before) := by
  unfold runSingleLevel
  repeat (first | exact keeps_heters hk _ _ | exact keeps_each (fun _ => keeps_rowFrom hk _ _ _ _ _ _ _ _) _ | keep1)

theorem keeps_levels (cfg : RegCfg K D) : ∀ (n : ℕ) (xs : List (List (Row K D))) (js : Option (List (List (Row K D)))) (before : List K),
    Keeps (runLevels cfg h n xs js before)
  | 0, _, _, _ => keeps_pure _
  | n + 1, xs, js, before => by
    rw [runLevels]
    split
    · exact keeps_pure _
    · exact keeps_bind (keeps_singleLevel hk cfg xs js before) fun _ => keeps_bind (keeps_levels cfg n _ _ _) fun _ => keeps_pure _

theorem keeps_search (cfg : RegCfg K D) : Keeps (runSearch cfg h) := by
  unfold runSearch
  repeat (first | exact hk _ _ | exact keeps_levels hk _ _ _ _ _ | keep1)

end keeps

/-! ## If no call raises, it is the search of Model/SearchM.lean -/

section means
variable {h : HeterR σ K D S} {hp : HeterM K D} (hm : ∀ x e, Means (h x e) (hp x e))
include hm

theorem means_heters (xs : List (List (Row K D))) (js : Option (List (List (Row K D)))) : Means (runHeters h xs js) (hetersM hp xs js) := by
  cases js with
  | none => exact means_each (fun _ => hm _ _) _
  | some js => exact means_each (fun _ => hm _ _) _

theorem means_candidate (xs : List (List (Row K D))) (js : Option (List (List (Row K D)))) (before : List K) (f : Fin D) (typ : FeatType) (pos : K) :
    Means (runCandidate h xs js before f typ pos) (evalCandidateM hp xs js before f pos typ) :=
  means_bind (means_heters hm _ _) (fun _ => keeps_pure _) fun _ _ => means_pure _

omit hm in
/-- The values of the candidates from number `i` on, if they fit into the matrix. -/
def rowFromM (hp : HeterM K D) (w : ℕ) (xs : List (List (Row K D))) (js : Option (List (List (Row K D)))) (before : List K) (f : Fin D) (typ : FeatType)
    (i : ℕ) (l : List K) : Py (List (K × K)) :=
  (l.mapM fun pos => evalCandidateM hp xs js before f pos typ).bind fun v => if l = [] ∨ i + l.length ≤ w then .ok v else .error .indexError

theorem means_rowFrom (w : ℕ) (xs : List (List (Row K D))) (js : Option (List (List (Row K D)))) (before : List K) (f : Fin D) (typ : FeatType) :
    ∀ (i : ℕ) (l : List K), Means (runRowFrom h w xs js before f typ i l) (rowFromM hp w xs js before f typ i l)
  | _, [] => means_pure _
  | i, pos :: t => by
    have hk : ∀ x e, Keeps (h x e) := fun x e => (hm x e).keeps
    have := means_bind (f := fun v => (do
        inert (if i < w then .ok () else .error .indexError)
        let vs ← runRowFrom h w xs js before f typ (i + 1) t
        return v :: vs : RunM σ K D S (List (K × K)))) (means_candidate hm xs js before f typ pos)
      (fun _ => keeps_bind (keeps_inert _) fun _ => keeps_bind (keeps_rowFrom hk w xs js before f typ (i + 1) t) fun _ => keeps_pure _)
      (fun v _ => means_bind (means_inert (if i < w then .ok () else .error .indexError))
        (fun _ => keeps_bind (keeps_rowFrom hk w xs js before f typ (i + 1) t) fun _ => keeps_pure _)
        (fun _ _ => means_bind (means_rowFrom w xs js before f typ (i + 1) t) (fun _ => keeps_pure _) fun vs _ => means_pure (v :: vs)))
    refine this.congr fun v => ?_
    unfold rowFromM
    rw [List.mapM_cons]
    simp only [bind, pure, Except.pure]
    cases evalCandidateM hp xs js before f pos typ with
    | error e => simp [Except.bind]
    | ok a =>
      simp only [Except.bind]
      cases t.mapM fun pos => evalCandidateM hp xs js before f pos typ with
      | error e => split_ifs <;> simp
      | ok as =>
        simp only [List.length_cons]
        by_cases h1 : i < w
        · have e1 : (t = [] ∨ i + 1 + t.length ≤ w) ↔ (pos :: t = [] ∨ i + (t.length + 1) ≤ w) := by
            constructor
            · rintro (rfl | h')
              · exact .inr (by simp; omega)
              · exact .inr (by omega)
            · rintro (h' | h')
              · cases h'
              · exact .inr (by omega)
          simp only [if_pos h1, e1]
          split_ifs <;> simp
        · have e1 : ¬ (pos :: t = [] ∨ i + (t.length + 1) ≤ w) := by
            rintro (h' | h')
            · cases h'
            · omega
          simp only [if_neg h1, if_neg e1]

end means

theorem matrixRowM_eq (hp : HeterM K D) (w : ℕ) (xs : List (List (Row K D))) (js : Option (List (List (Row K D)))) (before : List K) (f : Fin D) (typ : FeatType)
    (l : List K) : matrixRowM hp w xs js before f typ l =
      (rowFromM hp w xs js before f typ 0 l).bind fun r => .ok (r.map (·.1) ++ List.replicate (w - r.length) (-BIG_M)) := by
  unfold matrixRowM rowFromM
  simp only [bind]
  cases hv : l.mapM fun pos => evalCandidateM hp xs js before f pos typ with
  | error e => rfl
  | ok v =>
    have hl := mapM_len hv
    simp only [Except.bind, padRow, List.length_map, hl, Nat.zero_add]
    by_cases h : l.length ≤ w
    · rw [if_pos h, if_pos (.inr h)]; simp [hl]
    · rw [if_neg h, if_neg]
      rintro (h' | h')
      · subst h'; simp at h
      · exact h h'

theorem mapM_bind_ok {g : β → Py α} (f : α → γ) (l : List β) :
    (l.mapM fun b => (g b).bind fun r => .ok (f r)) = (l.mapM g).bind fun rs => .ok (rs.map f) := by
  induction l with
  | nil => rfl
  | cons b t ih =>
    rw [List.mapM_cons, List.mapM_cons, ih]
    simp only [bind, pure, Except.pure]
    cases g b with
    | error e => rfl
    | ok a =>
      simp only [Except.bind]
      cases t.mapM g <;> rfl

theorem mapM_at {g : β → Py α} {l : List β} {r : List α} (h : l.mapM g = .ok r) : ∀ (i : ℕ) (b : β), l[i]? = some b → ∃ a, r[i]? = some a ∧ g b = .ok a := by
  induction l generalizing r with
  | nil => intro i b hb; simp at hb
  | cons c t ih =>
    rw [List.mapM_cons] at h
    simp only [bind, pure, Except.pure] at h
    cases hc : g c with
    | error e => rw [hc] at h; cases h
    | ok a =>
      rw [hc] at h
      simp only [Except.bind] at h
      cases ht : t.mapM g with
      | error e => rw [ht] at h; cases h
      | ok as =>
        rw [ht] at h
        injection h with h
        subst h
        intro i b hb
        cases i with
        | zero => simp only [List.getElem?_cons_zero, Option.some.injEq] at hb; subst hb; exact ⟨a, rfl, hc⟩
        | succ i => exact ih ht i b hb

theorem pyIndex_some {l : List α} {i : ℕ} {a : α} (h : pyIndex l i = .ok a) : l[i]? = some a := by
  unfold pyIndex at h
  cases hl : l[i]? with
  | none => rw [hl] at h; cases h
  | some b => rw [hl] at h; injection h with h; rw [h]

section means
variable {h : HeterR σ K D S} {hp : HeterM K D} (hm : ∀ x e, Means (h x e) (hp x e))
include hm

theorem means_singleLevel (cfg : RegCfg K D) (xs : List (List (Row K D))) (js : Option (List (List (Row K D)))) (before : List K) :
    Means (runSingleLevel cfg h xs js before) (singleLevelSplitsM cfg hp xs js before) := by
  have hk : ∀ x e, Keeps (h x e) := fun x e => (hm x e).keeps
  unfold runSingleLevel singleLevelSplitsM
  refine means_bind (means_inert _) (fun _ => ?_) fun cands hcands => ?_
  · repeat (first | exact keeps_heters hk _ _ | exact keeps_each (fun _ => keeps_rowFrom hk _ _ _ _ _ _ _ _) _ | keep1)
  simp only [matrixRowM_eq]
  rw [mapM_bind_ok]
  change Means _ (Except.bind (Except.bind _ _) _)
  have hassoc : ∀ {A B C : Type} (x : Py A) (f : A → Py B) (g : B → Py C), (x.bind f).bind g = x.bind fun a => (f a).bind g := by
    intro A B C x f g; cases x <;> rfl
  rw [hassoc]
  refine means_bind (means_each (fun (p : Fin D × List K) => means_rowFrom hm _ xs js before p.1 (cfg.types p.1) 0 p.2) _) (fun _ => ?_) fun rows hrows => ?_
  · repeat (first | exact keeps_heters hk _ _ | keep1)
  simp only [Except.bind]
  have hflat : (rows.map fun r => r.map (·.1) ++ List.replicate (max cfg.nofSplits cfg.catLimit - r.length) (-BIG_M)).flatten =
      rows.flatMap fun r => r.map (·.1) ++ List.replicate (max cfg.nofSplits cfg.catLimit - r.length) (-BIG_M) := by
    rw [List.flatMap]
  rw [hflat]
  generalize rows.flatMap (fun r => r.map (·.1) ++ List.replicate (max cfg.nofSplits cfg.catLimit - r.length) (-BIG_M)) = flat
  by_cases hf : flat = []
  · rw [if_pos hf, if_pos hf]
    exact means_bind (g := fun _ => .error .valueError) (means_inert (.error .valueError : Py Unit))
      (fun _ => by repeat (first | exact keeps_heters hk _ _ | keep1)) (fun _ h => by cases h)
  rw [if_neg hf, if_neg hf]
  rw [inert_ok]
  generalize npArgmax flat = a
  refine means_bind (means_inert _) (fun _ => by repeat (first | exact keeps_heters hk _ _ | keep1)) fun f hfi => ?_
  refine means_bind (means_inert _) (fun _ => by repeat (first | exact keeps_heters hk _ _ | keep1)) fun ps hps => ?_
  refine means_bind (means_inert _) (fun _ => by repeat (first | exact keeps_heters hk _ _ | keep1)) fun pos hpos => ?_
  refine means_bind (means_heters hm _ _) (fun _ => by repeat keep1) fun sub hsub => ?_
  refine means_bind (means_inert _) (fun _ => by repeat keep1) fun mn hmn => ?_
  refine means_bind (means_inert _) (fun _ => by repeat keep1) fun mx hmx => ?_
  have hz : (cfg.foc.zip cands)[a / max cfg.nofSplits cfg.catLimit]? = some (f, ps) := by
    rw [List.getElem?_zip_eq_some]
    exact ⟨pyIndex_some hfi, pyIndex_some hps⟩
  obtain ⟨r, hr, hr'⟩ := mapM_at hrows _ _ hz
  unfold rowFromM at hr'
  cases hv : ps.mapM fun pos => evalCandidateM hp xs js before f pos (cfg.types f) with
  | error e => simp only [hv] at hr'; cases hr'
  | ok v =>
    simp only [hv, Except.bind] at hr'
    split_ifs at hr' with hlen
    · injection hr' with hr'
      subst hr'
      obtain ⟨e, he, he'⟩ := mapM_at hv _ _ (pyIndex_some hpos)
      rw [pyIndex_ok hr, inert_ok, pyIndex_ok he, inert_ok, he']
      exact means_pure _

theorem means_levels (cfg : RegCfg K D) : ∀ (n : ℕ) (xs : List (List (Row K D))) (js : Option (List (List (Row K D)))) (before : List K),
    Means (runLevels cfg h n xs js before) (searchLoopM cfg hp n xs js before)
  | 0, _, _, _ => means_pure _
  | n + 1, xs, js, before => by
    rw [runLevels, searchLoopM]
    split
    · exact means_pure _
    · exact means_bind (means_singleLevel hm cfg xs js before)
        (fun _ => keeps_bind (keeps_levels (fun x e => (hm x e).keeps) cfg n _ _ _) fun _ => keeps_pure _)
        fun _ _ => means_bind (means_levels cfg n _ _ _) (fun _ => keeps_pure _) fun _ _ => means_pure _

theorem means_search (cfg : RegCfg K D) : Means (runSearch cfg h) (searchAllSplitsM cfg hp) := by
  have hk : ∀ x e, Keeps (h x e) := fun x e => (hm x e).keeps
  unfold runSearch searchAllSplitsM
  split
  · exact means_pure _
  · by_cases hl : cfg.foc.length < cfg.maxLevels
    · rw [if_pos hl, if_pos hl]
      exact means_bind (g := fun _ => .error .assertionError) (means_inert (.error .assertionError : Py Unit))
        (fun _ => by repeat (first | exact hk _ _ | exact keeps_levels hk _ _ _ _ _ | keep1)) (fun _ h => by cases h)
    · rw [if_neg hl, if_neg hl, inert_ok]
      exact means_bind (hm _ _) (fun _ => by repeat (first | exact keeps_levels hk _ _ _ _ _ | keep1))
        fun _ _ => means_bind (means_levels hm cfg _ _ _ _) (fun _ => keeps_pure _) fun _ _ => means_pure _

end means

end Effector
