import Verif.Props.AleInvariance
import Verif.Props.PdpProps

set_option linter.unusedSectionVars false

/-!
# C82: what the model does not look at does not matter

If the model depends only on the features in `S`, then the values that the other features take in the data set have no influence on the effect of a feature in `S`.
-/

namespace Effector

variable {K : Type} [Field K] [LinearOrder K] [IsStrictOrderedRing K] {D : ℕ}

open Spec

namespace Spec

/-- The function looks at the features in `S` only. -/
def LooksAt {α : Type} (S : Fin D → Prop) (f : Row K D → α) : Prop := ∀ r r' : Row K D, (∀ t, S t → r t = r' t) → f r = f r'

/-- Two data sets of the same size whose instances have, one by one, the same values of the features in `S`. -/
def AgreeOn (S : Fin D → Prop) (data data' : List (Row K D)) : Prop := List.Forall₂ (fun r r' => ∀ t, S t → r t = r' t) data data'

end Spec

theorem forall2_filter {α β : Type} {R : α → β → Prop} {p : α → Bool} {q : β → Bool} {l : List α} {l' : List β} (h : List.Forall₂ R l l')
    (hp : ∀ a b, R a b → p a = q b) : List.Forall₂ R (l.filter p) (l'.filter q) := by
  induction h with
  | nil => exact .nil
  | @cons a b l l' hab _ ih =>
    have e := hp a b hab
    cases hq : q b with
    | true => rw [List.filter_cons_of_pos (by rw [e]; exact hq), List.filter_cons_of_pos hq]; exact .cons hab ih
    | false => rw [List.filter_cons_of_neg (by rw [e, hq]; simp), List.filter_cons_of_neg (by rw [hq]; simp)]; exact ih

theorem forall2_map_eq {α β γ : Type} {R : α → β → Prop} {f : α → γ} {g : β → γ} {l : List α} {l' : List β} (h : List.Forall₂ R l l')
    (hf : ∀ a b, R a b → f a = g b) : l.map f = l'.map g := by
  induction h with
  | nil => rfl
  | cons hab _ ih => rw [List.map_cons, List.map_cons, hf _ _ hab, ih]

theorem forall2_zip {α β γ δ : Type} {R : α → β → Prop} {Q : γ → δ → Prop} {l : List α} {l' : List β} {m : List γ} {m' : List δ}
    (h : List.Forall₂ R l l') (h' : List.Forall₂ Q m m') : List.Forall₂ (fun p q => R p.1 q.1 ∧ Q p.2 q.2) (l.zip m) (l'.zip m') := by
  induction h generalizing m m' with
  | nil => exact .nil
  | cons hab _ ih =>
    cases h' with
    | nil => exact .nil
    | cons hcd h' => exact .cons ⟨hab, hcd⟩ (ih h')

theorem agree_setCol {S : Fin D → Prop} (cast : K → K) {d d' : List (Row K D)} (h : AgreeOn S d d') (s : Fin D) (vals : List K) :
    AgreeOn S (setCol cast d s vals) (setCol cast d' s vals) := by
  unfold AgreeOn at h ⊢
  unfold setCol
  induction h generalizing vals with
  | nil => exact .nil
  | cons hab _ ih =>
    cases vals with
    | nil => exact .nil
    | cons v vals =>
      refine .cons (fun t ht => ?_) (ih vals)
      by_cases hts : t = s
      · subst hts; simp
      · simp [Function.update_of_ne hts, hab t ht]

theorem agree_col {S : Fin D → Prop} {d d' : List (Row K D)} (h : AgreeOn S d d') {s : Fin D} (hs : S s) : col d s = col d' s :=
  forall2_map_eq h fun _ _ hab => hab s hs

theorem localEffects_agree {S : Fin D → Prop} (cast : K → K) {f : Row K D → K} (hf : LooksAt S f) {d d' : List (Row K D)} (h : AgreeOn S d d')
    {s : Fin D} (hs : S s) (L : List K) : computeLocalEffects cast d (List.map f) L s = computeLocalEffects cast d' (List.map f) L s := by
  have hm : ∀ vals, (setCol cast d s vals).map f = (setCol cast d' s vals).map f := fun vals => forall2_map_eq (agree_setCol cast h s vals) hf
  unfold computeLocalEffects
  rw [agree_col h hs]
  simp only [hm]

theorem aleFit_agree {S : Fin D → Prop} (cast : K → K) {f : Row K D → K} (hf : LooksAt S f) {d d' : List (Row K D)} (h : AgreeOn S d d')
    {s : Fin D} (hs : S s) {lo hi lo' hi' : Fin D → K} (hlo : lo s = lo' s) (hhi : hi s = hi' s) (bm : BinMethod K) :
    aleFitFeature cast (List.map f) d lo hi s bm = aleFitFeature cast (List.map f) d' lo' hi' s bm := by
  unfold aleFitFeature
  rw [hlo, hhi]
  have h1 : AgreeOn S (d.filter (inAxis (lo' s) (hi' s) s)) (d'.filter (inAxis (lo' s) (hi' s) s)) :=
    forall2_filter h fun a b hab => by unfold inAxis; rw [hab s hs]
  simp only [agree_col h1 hs, localEffects_agree cast hf h1 hs]

theorem axisLimits_agree {S : Fin D → Prop} {d d' : List (Row K D)} (h : AgreeOn S d d') {s : Fin D} (hs : S s) :
    (∃ e, axisLimitsAll d = .error e ∧ axisLimitsAll d' = .error e) ∨
    ∃ l l', axisLimitsAll d = .ok l ∧ axisLimitsAll d' = .ok l' ∧ l.1 s = l'.1 s ∧ l.2 s = l'.2 s := by
  cases h with
  | nil =>
    unfold axisLimitsAll
    by_cases hD : D = 0
    · exact absurd s.2 (by omega)
    · exact Or.inl ⟨_, if_neg hD, if_neg hD⟩
  | cons hab h =>
    refine Or.inr ⟨_, _, rfl, rfl, ?_, ?_⟩
    · simp only [hab s hs, forall2_map_eq h fun _ _ hab => hab s hs]
    · simp only [hab s hs, forall2_map_eq h fun _ _ hab => hab s hs]

theorem limitsOr_agree {S : Fin D → Prop} {d d' : List (Row K D)} (h : AgreeOn S d d') {s : Fin D} (hs : S s) (a : Option ((Fin D → K) × (Fin D → K))) :
    (∃ e, limitsOr d a = .error e ∧ limitsOr d' a = .error e) ∨
    ∃ l l', limitsOr d a = .ok l ∧ limitsOr d' a = .ok l' ∧ l.1 s = l'.1 s ∧ l.2 s = l'.2 s := by
  cases a with
  | none => exact axisLimits_agree h hs
  | some l => exact Or.inr ⟨l, l, rfl, rfl, rfl, rfl⟩

/-- **C82 for ALE.**  If the model looks at the features in `S` only, and two data sets agree instance by instance on these features, then for every feature of `S`
- with given or default axis limits, any binning, any calls for that feature - `eval` returns the same curve and heterogeneity, or raises the same exception, on both. -/
theorem C82_ale_irrelevant_features [PySqrt K] (choice : ℕ → ℕ → List ℕ) (cast : K → K) (S : Fin D → Prop) (f : Row K D → K) (hf : LooksAt S f)
    (data data' : List (Row K D)) (h : AgreeOn S data data') (s : Fin D) (hs : S s) (axisLimits : Option ((Fin D → K) × (Fin D → K)))
    (calls : List (AleOp K D)) (hc : ∀ op ∈ calls, OnlyOn s op) (xs : List K) (het : Bool) (c : PyVal) :
    aleSession choice cast f data axisLimits calls s xs het c = aleSession choice cast f data' axisLimits calls s xs het c := by
  unfold aleSession
  rw [base_init_all, base_init_all]
  rcases limitsOr_agree h hs axisLimits with ⟨e, h1, h2⟩ | ⟨l, l', h1, h2, hlo, hhi⟩
  · rw [h1, h2]; rfl
  · rw [h1, h2]
    simp only [Except.bind]
    have hcfg : CfgSame s (aleCfg cast (List.map f) { data := data, indices := List.range data.length, axisLo := l.1, axisHi := l.2 })
        (aleCfg cast (List.map f) { data := data', indices := List.range data'.length, axisLo := l'.1, axisHi := l'.2 }) :=
      ⟨hlo, hhi, funext fun bm => aleFit_agree cast hf h hs hlo hhi bm, rfl, rfl⟩
    exact (aleEval_same hcfg (aleRun_same hcfg calls hc) xs het c).2

theorem rhaleFit_agree {S : Fin D → Prop} {d d' e e' : List (Row K D)} (h : AgreeOn S d d')
    {s : Fin D} (hs : S s) (hes : List.Forall₂ (fun r r' : Row K D => r s = r' s) e e') {lo hi lo' hi' : Fin D → K} (hlo : lo s = lo' s) (hhi : hi s = hi' s)
    (bm : BinMethod K) : rhaleFitFeature d e lo hi s bm = rhaleFitFeature d' e' lo' hi' s bm := by
  unfold rhaleFitFeature
  rw [hlo, hhi, h.length_eq, hes.length_eq]
  have h1 : AgreeOn S (d.filter (inAxis (lo' s) (hi' s) s)) (d'.filter (inAxis (lo' s) (hi' s) s)) :=
    forall2_filter h fun a b hab => by unfold inAxis; rw [hab s hs]
  have h2 := forall2_filter (p := fun p : Row K D × Row K D => inAxis (lo' s) (hi' s) s p.1) (q := fun p => inAxis (lo' s) (hi' s) s p.1)
    (forall2_zip h hes) fun a b hab => by unfold inAxis; rw [hab.1 s hs]
  have h3 : col (((d.zip e).filter fun p => inAxis (lo' s) (hi' s) s p.1).map (·.2)) s =
      col (((d'.zip e').filter fun p => inAxis (lo' s) (hi' s) s p.1).map (·.2)) s := by
    unfold col
    rw [List.map_map, List.map_map]
    exact forall2_map_eq h2 fun a b hab => hab.2
  simp only [agree_col h1 hs, h3]

namespace Spec

/-- The effects given for feature `s` (if any) are the same. -/
def SameGivenEffects (s : Fin D) (n n' : ℕ) : Option (List (Row K D)) → Option (List (Row K D)) → Prop
  | none, none => True
  | some e, some e' => e.length = n ∧ e'.length = n' ∧ e.map (fun r => r s) = e'.map fun r => r s
  | _, _ => False

end Spec

theorem forall2_of_map_eq {α β γ : Type} {f : α → γ} {g : β → γ} {l : List α} {l' : List β} (h : l.map f = l'.map g) :
    List.Forall₂ (fun a b => f a = g b) l l' := by
  induction l generalizing l' with
  | nil =>
    cases l' with
    | nil => exact .nil
    | cons b t => cases h
  | cons a l ih =>
    cases l' with
    | nil => cases h
    | cons b t =>
      rw [List.map_cons, List.map_cons] at h
      obtain ⟨h1, h2⟩ := List.cons.inj h
      exact .cons h1 (ih h2)

theorem forall2_map {α β γ δ : Type} {R : α → β → Prop} {Q : γ → δ → Prop} {f : α → γ} {g : β → δ} {l : List α} {l' : List β} (h : List.Forall₂ R l l')
    (hf : ∀ a b, R a b → Q (f a) (g b)) : List.Forall₂ Q (l.map f) (l'.map g) := by
  induction h with
  | nil => exact .nil
  | cons hab _ ih => exact .cons (hf _ _ hab) ih

theorem rhaleEffects_agree {S : Fin D → Prop} {f : Row K D → K} (hf : LooksAt S f) {jac : Option (Row K D → Row K D)} {s : Fin D} (hs : S s)
    (hj : ∀ j, jac = some j → LooksAt S fun r => j r s) {d d' : List (Row K D)} (h : AgreeOn S d d') {given given' : Option (List (Row K D))}
    (hg : SameGivenEffects s d.length d'.length given given') :
    List.Forall₂ (fun r r' : Row K D => r s = r' s) (rhaleEffects (List.map f) (jac.map List.map) given d)
      (rhaleEffects (List.map f) (jac.map List.map) given' d') := by
  cases given with
  | some e =>
    cases given' with
    | none => exact hg.elim
    | some e' => exact forall2_of_map_eq hg.2.2
  | none =>
    cases given' with
    | some e' => exact hg.elim
    | none =>
      cases jac with
      | some j => exact forall2_map h fun a b hab => hj j rfl a b hab
      | none =>
        show List.Forall₂ _ (computeJacobianNumerically (List.map f) d EPS) (computeJacobianNumerically (List.map f) d' EPS)
        rw [jacobian_rowwise, jacobian_rowwise]
        refine forall2_map h fun a b hab => ?_
        have h1 : f (Function.update a s (a s + EPS)) = f (Function.update b s (b s + EPS)) := by
          apply hf
          intro t ht
          by_cases hts : t = s
          · subst hts; simp [hab t ht]
          · simp [Function.update_of_ne hts, hab t ht]
        show (f (Function.update a s (a s + EPS)) - f a) / EPS = (f (Function.update b s (b s + EPS)) - f b) / EPS
        rw [h1, hf a b hab]

/-- **C82 for RHALE**, whatever the source of the effects: given (the same column for `s`), a row-wise Jacobian whose column `s` looks at `S` only, or finite
differences of the model. -/
theorem C82_rhale_irrelevant_features [PySqrt K] (choice : ℕ → ℕ → List ℕ) (S : Fin D → Prop) (f : Row K D → K) (hf : LooksAt S f)
    (jac : Option (Row K D → Row K D)) (data data' : List (Row K D)) (h : AgreeOn S data data') (s : Fin D) (hs : S s)
    (hj : ∀ j, jac = some j → LooksAt S fun r => j r s) (given given' : Option (List (Row K D))) (hg : SameGivenEffects s data.length data'.length given given')
    (axisLimits : Option ((Fin D → K) × (Fin D → K))) (calls : List (AleOp K D)) (hc : ∀ op ∈ calls, OnlyOn s op) (xs : List K) (het : Bool) (c : PyVal) :
    rhaleSession choice f jac data given axisLimits calls s xs het c = rhaleSession choice f jac data' given' axisLimits calls s xs het c := by
  have hg1 : ∀ e, given = some e → e.length = data.length := by
    rintro e rfl
    cases given' with
    | none => exact hg.elim
    | some e' => exact hg.1
  have hg2 : ∀ e, given' = some e → e.length = data'.length := by
    rintro e rfl
    cases given with
    | none => exact hg.elim
    | some e' => exact hg.2.1
  unfold rhaleSession
  rw [rhaleInit_all _ _ _ _ _ hg1, rhaleInit_all _ _ _ _ _ hg2]
  rcases limitsOr_agree h hs axisLimits with ⟨e, h1, h2⟩ | ⟨l, l', h1, h2, hlo, hhi⟩
  · rw [h1, h2]; rfl
  · rw [h1, h2]
    simp only [Except.bind]
    have hcfg : CfgSame s (rhaleCfg (rhaleEffects (List.map f) (jac.map List.map) given data)
          { data := data, indices := List.range data.length, axisLo := l.1, axisHi := l.2 })
        (rhaleCfg (rhaleEffects (List.map f) (jac.map List.map) given' data')
          { data := data', indices := List.range data'.length, axisLo := l'.1, axisHi := l'.2 }) :=
      ⟨hlo, hhi, funext fun bm => rhaleFit_agree h hs (rhaleEffects_agree hf hs hj h hg) hlo hhi bm, rfl, rfl⟩
    exact (aleEval_same hcfg (aleRun_same hcfg calls hc) xs het c).2

namespace Spec

/-- The model (or the gradient column `s`) looks at the features in `S` only. -/
def PdpModel.LooksAt (S : Fin D → Prop) (s : Fin D) : PdpModel K D → Prop
  | .pdp f => Spec.LooksAt S f
  | .derJac j => Spec.LooksAt S fun r => j r s
  | .derNum f => Spec.LooksAt S f

end Spec

theorem agree_update {S : Fin D → Prop} {r r' : Row K D} (h : ∀ t, S t → r t = r' t) (s : Fin D) (v : K) :
    ∀ t, S t → Function.update r s v t = Function.update r' s v t := by
  intro t ht
  by_cases hts : t = s
  · subst hts; simp
  · simp [Function.update_of_ne hts, h t ht]

theorem at_agree {S : Fin D → Prop} {s : Fin D} {M : PdpModel K D} (hM : M.LooksAt S s) {r r' : Row K D} (h : ∀ t, S t → r t = r' t) (v : K) :
    M.at s v r = M.at s v r' := by
  cases M with
  | pdp f => exact hM _ _ (agree_update h s v)
  | derJac j => exact hM _ _ (agree_update h s v)
  | derNum f =>
    simp only [PdpModel.at]
    rw [hM _ _ (agree_update h s (v + 1 / 10 ^ 6)), hM _ _ (agree_update h s (v - 1 / 10 ^ 6))]

/-- **C82 for PDP and DerPDP** (with or without a Jacobian): after any calls that respect the axis limits (see C31), ICE curves, average and heterogeneity of a feature in `S`, and the
exceptions, are the same for both data sets; the axis limits may differ for the other features. -/
theorem C82_pdp_irrelevant_features [PySqrt K] (S : Fin D → Prop) (s : Fin D) (hs : S s) (M : PdpModel K D) (hM : M.LooksAt S s) (data data' : List (Row K D))
    (h : AgreeOn S data data') (lo hi lo' hi' : Fin D → K) (hlo : lo s = lo' s) (hhi : hi s = hi' s) (calls calls' : List (PdpOp K D))
    (hcalls : ∀ op ∈ calls, PdpCallOk data lo hi s op) (hcalls' : ∀ op ∈ calls', PdpCallOk data' lo' hi' s op) (xs : List K) (het : Bool) (c : PyVal) (all vec : Bool) :
    pdpEvalAfter M lo hi data calls s xs het c all vec = pdpEvalAfter M lo' hi' data' calls' s xs het c all vec := by
  unfold pdpEvalAfter
  rw [pdp_eval_spec M lo hi data s calls hcalls, pdp_eval_spec M lo' hi' data' s calls' hcalls']
  cases prepCentering c with
  | error e => rfl
  | ok m =>
    have h1 : AgreeOn S (inLimits data lo hi s) (inLimits data' lo' hi' s) := forall2_filter h fun a b hab => by rw [hab s hs, hlo, hhi]
    have h2 : M.ice lo hi (inLimits data lo hi s) s m xs = M.ice lo' hi' (inLimits data' lo' hi' s) s m xs := by
      unfold PdpModel.ice
      apply List.map_congr_left
      intro v _
      refine forall2_map_eq h1 fun a b hab => ?_
      have h3 : M.shift lo hi s a m = M.shift lo' hi' s b m := by
        cases m with
        | off => rfl
        | zeroStart => simp only [PdpModel.shift, hlo]; exact at_agree hM hab _
        | zeroIntegral => simp only [PdpModel.shift, hlo, hhi, at_agree hM hab]
      rw [at_agree hM hab, h3]
    simp only [PdpModel.value, hlo, hhi, h2]

/-! ### Non-vacuity -/

/-- A model of the first of two features; the second one is replaced by other values. -/
example : LooksAt (fun t : Fin 2 => t = 0) (fun r : Row ℚ 2 => r 0 ^ 2) ∧
    AgreeOn (fun t : Fin 2 => t = 0) [(![0, 5] : Row ℚ 2), ![1, 6], ![3, 7], ![4, 8]] [![0, 100], ![1, -6], ![3, 0], ![4, 0]] ∧
    aleSession (K := ℚ) (D := 2) (fun _ _ => []) id (fun r => r 0 ^ 2) [![0, 5], ![1, 6], ![3, 7], ![4, 8]] none
        [.fit (.int 0) (.fixed 2 (some 1) 0) (.bool false)] 0 [2] false (.bool false) = .ok ([4], none) ∧
    aleSession (K := ℚ) (D := 2) (fun _ _ => []) id (fun r => r 0 ^ 2) [![0, 100], ![1, -6], ![3, 0], ![4, 0]] none
        [.fit (.int 0) (.fixed 2 (some 1) 0) (.bool false)] 0 [2] false (.bool false) = .ok ([4], none) := by
  refine ⟨fun r r' h => ?_, ?_, by decide +kernel, by decide +kernel⟩
  · show r 0 ^ 2 = r' 0 ^ 2
    rw [h 0 rfl]
  · refine .cons ?_ (.cons ?_ (.cons ?_ (.cons ?_ .nil))) <;> · rintro t rfl; rfl

end Effector
