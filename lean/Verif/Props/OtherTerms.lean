import Verif.Props.Recode
import Verif.Props.RegionalOrder

/-!
# C98: terms of the model without the feature

Two models whose difference does not depend on feature `s`: the effects of `s` are the same (PDP: up to a shift of the uncentred curves).
-/

set_option linter.unusedSectionVars false

namespace Effector

variable {K : Type} [Field K] [LinearOrder K] [IsStrictOrderedRing K] {D : ℕ}

open Spec

namespace Spec

/-- `g` does not depend on feature `s`. -/
def FreeOf (s : Fin D) (g : Row K D → K) : Prop := ∀ r v, g (Function.update r s v) = g r

/-- `f'` is `f` plus a term without feature `s`. -/
def PlusOther (s : Fin D) (f f' : Row K D → K) : Prop := ∃ g, FreeOf s g ∧ ∀ r, f' r = f r + g r

/-- Gradient functions (if there are any) with the same derivative with respect to feature `s`. -/
def SameSlope (s : Fin D) : Option (Row K D → Row K D) → Option (Row K D → Row K D) → Prop
  | none, none => True
  | some j, some j' => ∀ r, j' r s = j r s
  | _, _ => False

/-- Effects (if there are any) with the same column for feature `s`. -/
def SameColumn (s : Fin D) : Option (List (Row K D)) → Option (List (Row K D)) → Prop
  | none, none => True
  | some e, some e' => List.Forall₂ (fun a b => a s = b s) e e'
  | _, _ => False

/-- d-PDP of two such models. -/
def DerPlusOther (s : Fin D) : PdpModel K D → PdpModel K D → Prop
  | .derNum f, .derNum f' => PlusOther s f f'
  | .derJac j, .derJac j' => ∀ r, j' r s = j r s
  | _, _ => False

end Spec

section

variable {s : Fin D}

theorem plusOther_diff {f f' : Row K D → K} (h : PlusOther s f f') (r : Row K D) (v w : K) :
    f' (Function.update r s v) - f' (Function.update r s w) = f (Function.update r s v) - f (Function.update r s w) := by
  obtain ⟨g, hg, he⟩ := h
  rw [he, he, hg, hg]
  ring

/-! ### ALE -/

theorem localEffects_other {f f' : Row K D → K} (h : PlusOther s f f') (cast : K → K) (d : List (Row K D)) (right left : List K) :
    List.zipWith (· - ·) ((setCol cast d s right).map f') ((setCol cast d s left).map f') =
      List.zipWith (· - ·) ((setCol cast d s right).map f) ((setCol cast d s left).map f) := by
  unfold setCol
  induction d generalizing right left with
  | nil => simp
  | cons r t ih =>
    cases right with
    | nil => simp
    | cons a right =>
      cases left with
      | nil => simp
      | cons b left =>
        simp only [List.zipWith_cons_cons, List.map_cons, plusOther_diff h, ih right left]

theorem computeLocalEffects_other {f f' : Row K D → K} (h : PlusOther s f f') (cast : K → K) (d : List (Row K D)) (limits : List K) :
    computeLocalEffects cast d (List.map f') limits s = computeLocalEffects cast d (List.map f) limits s := by
  unfold computeLocalEffects
  simp only [localEffects_other h]

theorem aleFit_other {f f' : Row K D → K} (h : PlusOther s f f') (cast : K → K) (d : List (Row K D)) (lo hi : Fin D → K) (bm : BinMethod K) :
    aleFitFeature cast (List.map f') d lo hi s bm = aleFitFeature cast (List.map f) d lo hi s bm := by
  rw [aleFitFeature_eq, aleFitFeature_eq]
  split_ifs
  · generalize findLimits (aleCtx d lo hi s) (aleMethod bm) = q
    rcases q with e | l
    · rfl
    · cases l with
      | impossible => rfl
      | arr L => exact congrArg (fun z : Py (List K × List K) => z.bind fun q => computeAleParams (aleCtx d lo hi s).xs q.1 q.2) (computeLocalEffects_other h cast _ L)
  · rfl

theorem aleCfg_other {f f' : Row K D → K} (h : PlusOther s f f') (cast : K → K) (b : Base K D) :
    CfgSame s (aleCfg cast (List.map f') b) (aleCfg cast (List.map f) b) where
  lo := rfl
  hi := rfl
  fit := by
    funext bm
    simp only [aleCfg]
    exact aleFit_other h cast b.data b.axisLo b.axisHi bm
  dflt := rfl
  allowed := rfl

/-- **C98, ALE.**  Adding a term without feature `s` to the model changes nothing in any session about feature `s`: mean effect, heterogeneity, exceptions. -/
theorem C98_ale [PySqrt K] (choice : ℕ → ℕ → List ℕ) (cast : K → K) (f f' : Row K D → K) (h : PlusOther s f f') (data : List (Row K D))
    (axisLimits : Option ((Fin D → K) × (Fin D → K))) (calls : List (AleOp K D)) (hc : ∀ op ∈ calls, OnlyOn s op) (xs : List K) (het : Bool) (c : PyVal) :
    aleSession choice cast f' data axisLimits calls s xs het c = aleSession choice cast f data axisLimits calls s xs het c := by
  unfold aleSession
  have key : ∀ b : Base K D, (aleEval (aleCfg cast (List.map f') b) (aleRun (aleCfg cast (List.map f') b) calls) s xs het c).2 =
      (aleEval (aleCfg cast (List.map f) b) (aleRun (aleCfg cast (List.map f) b) calls) s xs het c).2 := fun b =>
    (aleEval_same (aleCfg_other h cast b) (aleRun_same (aleCfg_other h cast b) calls hc) xs het c).2
  simp only [key]

/-! ### RHALE -/

theorem numericalEffects_other {f f' : Row K D → K} (h : PlusOther s f f') (d : List (Row K D)) (eps : K) :
    List.Forall₂ (fun a b => a s = b s) (computeJacobianNumerically (List.map f') d eps) (computeJacobianNumerically (List.map f) d eps) := by
  have e : jacobianCol (List.map f') d eps s = jacobianCol (List.map f) d eps s := by
    unfold jacobianCol
    rw [List.map_map, List.map_map, List.zipWith_map, List.zipWith_map, List.zipWith_self, List.zipWith_self]
    apply List.map_congr_left
    intro r _
    have := plusOther_diff h r (r s + eps) (r s)
    simp only [Function.update_eq_self] at this
    simp only [Function.comp_def, this]
  unfold computeJacobianNumerically
  apply forall2_of_map_eq
  rw [List.map_map, List.map_map]
  apply List.map_congr_left
  intro i _
  simp only [Function.comp_def, e]

theorem rhaleEffects_other {f f' : Row K D → K} (h : PlusOther s f f') {jac jac' : Option (Row K D → Row K D)} (hj : SameSlope s jac jac')
    {given given' : Option (List (Row K D))} (hg : SameColumn s given' given) (d : List (Row K D)) :
    List.Forall₂ (fun a b => a s = b s) (rhaleEffects (List.map f') (jac'.map List.map) given' d) (rhaleEffects (List.map f) (jac.map List.map) given d) := by
  unfold rhaleEffects
  cases given' with
  | some e' =>
    cases given with
    | none => exact hg.elim
    | some e => exact hg
  | none =>
    cases given with
    | some e => exact hg.elim
    | none =>
      cases jac with
      | none =>
        cases jac' with
        | none => exact numericalEffects_other h d EPS
        | some j' => exact hj.elim
      | some j =>
        cases jac' with
        | none => exact hj.elim
        | some j' =>
          apply forall2_of_map_eq
          simp only [Option.map_some, List.map_map]
          exact List.map_congr_left fun r _ => hj r

theorem rhaleFit_column (d : List (Row K D)) {e e' : List (Row K D)} (he : List.Forall₂ (fun a b => a s = b s) e' e) (lo hi : Fin D → K) (bm : BinMethod K) :
    rhaleFitFeature d e' lo hi s bm = rhaleFitFeature d e lo hi s bm := by
  have hz : (((d.zip e').filter fun p => inAxis (lo s) (hi s) s p.1).map (·.2)).map (· s) = (((d.zip e).filter fun p => inAxis (lo s) (hi s) s p.1).map (·.2)).map (· s) := by
    clear bm
    induction d generalizing e e' with
    | nil => rfl
    | cons r t ih =>
      cases he with
      | nil => rfl
      | cons hab hrest =>
        simp only [List.zip_cons_cons, List.filter_cons]
        split_ifs
        · simp only [List.map_cons, hab, ih hrest]
        · exact ih hrest
  unfold rhaleFitFeature
  simp only [he.length_eq]
  have hc : col (((d.zip e').filter fun p => inAxis (lo s) (hi s) s p.1).map (·.2)) s = col (((d.zip e).filter fun p => inAxis (lo s) (hi s) s p.1).map (·.2)) s := hz
  simp only [hc]

theorem rhaleCfg_column {e e' : List (Row K D)} (he : List.Forall₂ (fun a b => a s = b s) e' e) (b : Base K D) :
    CfgSame s (rhaleCfg e' b) (rhaleCfg e b) :=
  ⟨rfl, rfl, funext fun bm => rhaleFit_column b.data he b.axisLo b.axisHi bm, rfl, rfl⟩

/-- Taking the same rows of two lists. -/
theorem takeRows_column {e e' : List (Row K D)} (he : List.Forall₂ (fun a b => a s = b s) e' e) (idx : List ℕ) :
    PyRel (List.Forall₂ fun a b => a s = b s) (takeRows e' idx) (takeRows e idx) := by
  unfold takeRows
  induction idx with
  | nil => exact .nil
  | cons i t ih =>
    have hi := forall2_pyIndex he i
    simp only [List.mapM_cons, bind, Except.bind, pure, Except.pure]
    revert hi ih
    generalize pyIndex e' i = A
    generalize pyIndex e i = B
    generalize List.mapM (fun i => pyIndex e' i) t = A'
    generalize List.mapM (fun i => pyIndex e i) t = B'
    intro ih hi
    cases A <;> cases B
    · exact hi
    · exact hi.elim
    · exact hi.elim
    · cases A' <;> cases B'
      · exact ih
      · exact ih.elim
      · exact ih.elim
      · exact .cons hi ih

theorem rhaleInit_other (choice : ℕ → ℕ → List ℕ) {f f' : Row K D → K} (h : PlusOther s f f') {jac jac' : Option (Row K D → Row K D)} (hj : SameSlope s jac jac')
    (data : List (Row K D)) {given given' : Option (List (Row K D))} (hg : SameColumn s given' given) (nof : PyVal) (axisLimits : Option ((Fin D → K) × (Fin D → K))) :
    PyRel (fun q' q => CfgSame s q'.1 q.1) (rhaleInit choice (List.map f') (jac'.map List.map) data given' nof axisLimits)
      (rhaleInit choice (List.map f) (jac.map List.map) data given nof axisLimits) := by
  unfold rhaleInit
  simp only [bind, Except.bind, pure, Except.pure]
  cases prepNofInstances choice nof data.length with
  | error e => exact rfl
  | ok p =>
    simp only []
    cases takeRows data p.2 with
    | error e => exact rfl
    | ok d =>
      simp only []
      cases given' with
      | none =>
        cases given with
        | some e => exact hg.elim
        | none =>
          simp only []
          cases Base.init choice d (.str "all") axisLimits with
          | error e => exact rfl
          | ok b => exact rhaleCfg_column (rhaleEffects_other h hj (given := none) (given' := none) trivial b.data) b
      | some e' =>
        cases given with
        | none => exact hg.elim
        | some e =>
          have ht := takeRows_column hg p.2
          simp only []
          revert ht
          generalize takeRows e' p.2 = A
          generalize takeRows e p.2 = B
          intro ht
          cases A <;> cases B
          · exact ht
          · exact ht.elim
          · exact ht.elim
          · rename_i u v
            simp only [Except.map]
            cases Base.init choice d (.str "all") axisLimits with
            | error e => exact rfl
            | ok b => exact rhaleCfg_column (rhaleEffects_other h hj (given := some v) (given' := some u) ht b.data) b

/-- **C98, RHALE**: with numerical derivatives, with a gradient function, or with the effects given. -/
theorem C98_rhale [PySqrt K] (choice : ℕ → ℕ → List ℕ) (f f' : Row K D → K) (h : PlusOther s f f') (jac jac' : Option (Row K D → Row K D)) (hj : SameSlope s jac jac')
    (data : List (Row K D)) (given given' : Option (List (Row K D))) (hg : SameColumn s given' given) (axisLimits : Option ((Fin D → K) × (Fin D → K)))
    (calls : List (AleOp K D)) (hc : ∀ op ∈ calls, OnlyOn s op) (xs : List K) (het : Bool) (c : PyVal) :
    rhaleSession choice f' jac' data given' axisLimits calls s xs het c = rhaleSession choice f jac data given axisLimits calls s xs het c := by
  unfold rhaleSession
  have hi := rhaleInit_other choice h hj data hg (.str "all") axisLimits
  revert hi
  generalize rhaleInit choice (List.map f') (jac'.map List.map) data given' (.str "all") axisLimits = A
  generalize rhaleInit choice (List.map f) (jac.map List.map) data given (.str "all") axisLimits = B
  intro hi
  cases A <;> cases B
  · obtain rfl := hi; rfl
  · exact hi.elim
  · exact hi.elim
  · simp only [Except.bind]
    exact (aleEval_same hi (aleRun_same hi calls hc) xs het c).2

/-! ### d-PDP and PDP -/

theorem derAt_other {M M' : PdpModel K D} (h : DerPlusOther s M M') (cast : K → K) (v : K) (r : Row K D) : atCast cast M' s v r = atCast cast M s v r := by
  cases M with
  | pdp f => cases M' <;> exact h.elim
  | derJac j =>
    cases M' with
    | derJac j' => exact h _
    | pdp f => exact h.elim
    | derNum f => exact h.elim
  | derNum f =>
    cases M' with
    | derNum f' => simp only [atCast, plusOther_diff h]
    | pdp f => exact h.elim
    | derJac j => exact h.elim

theorem predict_der_other {M M' : PdpModel K D} (h : DerPlusOther s M M') (cast : K → K) (d : List (Row K D)) (xx : List K) (vec : Bool) :
    pdpPredict cast M'.kind d xx s vec = pdpPredict cast M.kind d xx s vec := by
  rw [predict_values, predict_values]
  have : ∀ v, atCast cast M' s v = atCast cast M s v := fun v => funext fun r => derAt_other h cast v r
  simp only [this]

/-- Two objects whose predictions for feature `s` agree. -/
theorem pdpFitLoop_predict {cfg cfg' : PdpCfg K D} (hlo : cfg'.axisLo = cfg.axisLo) (hhi : cfg'.axisHi = cfg.axisHi)
    (hp : ∀ d xx vec, pdpPredict cfg'.cast cfg'.kind d xx s vec = pdpPredict cfg.cast cfg.kind d xx s vec) (c : Centering) (points : ℕ) (vec : Bool)
    (st : PdpState K D) : pdpFitLoop cfg' c points vec st [s] = pdpFitLoop cfg c points vec st [s] := by
  have : pdpFitFeature cfg' st.data s c points vec = pdpFitFeature cfg st.data s c points vec := by
    unfold pdpFitFeature
    simp only [hlo, hhi, hp]
  unfold pdpFitLoop
  rw [this]
  simp only [pdpFitLoop]

theorem pdpEval_predict [PySqrt K] {cfg cfg' : PdpCfg K D} (hlo : cfg'.axisLo = cfg.axisLo) (hhi : cfg'.axisHi = cfg.axisHi)
    (hp : ∀ d xx vec, pdpPredict cfg'.cast cfg'.kind d xx s vec = pdpPredict cfg.cast cfg.kind d xx s vec) (st : PdpState K D) (xs : List K) (het : Bool)
    (c : PyVal) (all vec : Bool) : pdpEval cfg' st s xs het c all vec = pdpEval cfg st s xs het c all vec := by
  unfold pdpEval pdpEvalFitted
  simp only [pdpFitLoop_predict hlo hhi hp, hlo, hhi, hp]

theorem pdpFit_predict {cfg cfg' : PdpCfg K D} (hlo : cfg'.axisLo = cfg.axisLo) (hhi : cfg'.axisHi = cfg.axisHi)
    (hp : ∀ d xx vec, pdpPredict cfg'.cast cfg'.kind d xx s vec = pdpPredict cfg.cast cfg.kind d xx s vec) (st : PdpState K D) (c : PyVal) (points : ℕ)
    (vec : Bool) : pdpFit cfg' st (.int (s : ℕ)) c points vec = pdpFit cfg st (.int (s : ℕ)) c points vec := by
  have hr := resolve_int s
  unfold pdpFit
  simp only [prepFeatures, resolve_single, bind, Except.bind, pure, Except.pure]
  cases prepCentering c with
  | error e => rfl
  | ok c => exact pdpFitLoop_predict hlo hhi hp c points vec st

/-- **C98, d-PDP**: after histories that do not interfere with feature `s` (C31), the derivative curves - with or without Jacobian - and everything computed
from them are the same. -/
theorem C98_derpdp [PySqrt K] (M M' : PdpModel K D) (h : DerPlusOther s M M') (lo hi : Fin D → K) (data : List (Row K D)) (calls calls' : List (PdpOp K D))
    (hcalls : ∀ op ∈ calls, PdpCallOk data lo hi s op) (hcalls' : ∀ op ∈ calls', PdpCallOk data lo hi s op) (xs : List K) (het : Bool) (c : PyVal) (all vec : Bool) :
    pdpEvalAfter M' lo hi data calls' s xs het c all vec = pdpEvalAfter M lo hi data calls s xs het c all vec := by
  have hat : ∀ v r, M'.at s v r = M.at s v r := fun v r => by
    have := derAt_other h id v r
    revert this
    cases M <;> cases M' <;> exact id
  have hshift : ∀ m r, M'.shift lo hi s r m = M.shift lo hi s r m := fun m r => by
    cases m <;> simp only [PdpModel.shift, hat]
  unfold pdpEvalAfter
  rw [pdp_eval_spec M' lo hi data s calls' hcalls', pdp_eval_spec M lo hi data s calls hcalls]
  cases prepCentering c with
  | error e => rfl
  | ok m =>
    simp only [PdpModel.value]
    congr 3
    unfold PdpModel.ice
    simp only [hat, hshift]

theorem avg_add_const (l : List K) (hl : l ≠ []) (k : K) : avg (l.map fun x => x + k) = avg l + k := by
  have hn : (l.length : K) ≠ 0 := by
    have : l.length ≠ 0 := by simpa using hl
    exact_mod_cast this
  unfold avg
  have : (l.map fun x => x + k).sum = l.sum + l.length * k := by
    clear hl hn
    induction l with
    | nil => simp
    | cons a t ih => simp only [List.map_cons, List.sum_cons, ih, List.length_cons]; push_cast; ring
  rw [this, List.length_map]
  field_simp

theorem avg_map_add {ι : Type} (l : List ι) (F G : ι → K) : avg (l.map fun x => F x + G x) = avg (l.map F) + avg (l.map G) := by
  unfold avg
  have : (l.map fun x => F x + G x).sum = (l.map F).sum + (l.map G).sum := by
    induction l with
    | nil => simp
    | cons a t ih => simp only [List.map_cons, List.sum_cons, ih]; ring
  rw [this]
  simp only [List.length_map]
  ring

/-- **C98, PDP.**  Centred curves (and their spread) are the same; the uncentred curve of every instance is shifted by the value of the added term at that instance, and the
PDP by the average of the added term. -/
theorem C98_pdp [PySqrt K] (f g : Row K D → K) (hg : FreeOf s g) (lo hi : Fin D → K) (data : List (Row K D)) (calls calls' : List (PdpOp K D))
    (hcalls : ∀ op ∈ calls, PdpCallOk data lo hi s op) (hcalls' : ∀ op ∈ calls', PdpCallOk data lo hi s op) (xs : List K) (vec : Bool) (c : PyVal) (m : Centering)
    (hc : prepCentering c = .ok m) :
    (m ≠ .off → ∀ het all, pdpEvalAfter (.pdp fun r => f r + g r) lo hi data calls' s xs het c all vec = pdpEvalAfter (.pdp f) lo hi data calls s xs het c all vec) ∧
    (m = .off → EvalArgsOk data lo hi s xs vec →
      ∃ ice mu, pdpEvalAfter (.pdp f) lo hi data calls s xs false c true vec = .ok (.all ice) ∧
        pdpEvalAfter (.pdp fun r => f r + g r) lo hi data calls' s xs false c true vec =
          .ok (.all (ice.map fun row => List.zipWith (· + ·) row ((inLimits data lo hi s).map g))) ∧
        pdpEvalAfter (.pdp f) lo hi data calls s xs false c false vec = .ok (.meanOnly mu) ∧
        pdpEvalAfter (.pdp fun r => f r + g r) lo hi data calls' s xs false c false vec =
          .ok (.meanOnly (mu.map fun y => y + avg ((inLimits data lo hi s).map g)))) := by
  have hat : ∀ v r, (PdpModel.pdp fun r => f r + g r).at s v r = (PdpModel.pdp f).at s v r + g r := fun v r => by
    simp only [PdpModel.at, hg r v]
  constructor
  · intro hm het all
    unfold pdpEvalAfter
    rw [pdp_eval_spec _ lo hi data s calls' hcalls', pdp_eval_spec _ lo hi data s calls hcalls, hc]
    have hshift : ∀ r, (PdpModel.pdp fun r => f r + g r).shift lo hi s r m = (PdpModel.pdp f).shift lo hi s r m + g r := fun r => by
      cases m with
      | off => exact absurd rfl hm
      | zeroStart => exact hat _ _
      | zeroIntegral =>
        simp only [PdpModel.shift, hat]
        have hne : ((evenly (lo s) (hi s) 100).map fun v => (PdpModel.pdp f).at s v r) ≠ [] := by
          simp [evenly]
        rw [← avg_add_const _ hne, List.map_map]
        rfl
    have hice : (PdpModel.pdp fun r => f r + g r).ice lo hi (inLimits data lo hi s) s m xs = (PdpModel.pdp f).ice lo hi (inLimits data lo hi s) s m xs := by
      unfold PdpModel.ice
      refine List.map_congr_left fun v _ => List.map_congr_left fun r _ => ?_
      rw [hat, hshift]
      ring
    simp only [PdpModel.value, hice]
  · rintro rfl ha
    have hice : (PdpModel.pdp fun r => f r + g r).ice lo hi (inLimits data lo hi s) s .off xs =
        ((PdpModel.pdp f).ice lo hi (inLimits data lo hi s) s .off xs).map fun row => List.zipWith (· + ·) row ((inLimits data lo hi s).map g) := by
      unfold PdpModel.ice
      rw [List.map_map]
      refine List.map_congr_left fun v _ => ?_
      simp only [Function.comp_def, List.zipWith_map, List.zipWith_self]
      refine List.map_congr_left fun r _ => ?_
      rw [hat]
      simp only [PdpModel.shift]
      ring
    refine ⟨_, _, evalAfter_ok _ lo hi data s calls hcalls xs false hc true vec ha, ?_, evalAfter_ok _ lo hi data s calls hcalls xs false hc false vec ha, ?_⟩
    · rw [evalAfter_ok _ lo hi data s calls' hcalls' xs false hc true vec ha, hice]
      rfl
    · rw [evalAfter_ok _ lo hi data s calls' hcalls' xs false hc false vec ha, hice]
      simp only [report, PdpModel.ice, List.map_map, Bool.false_eq_true, if_false]
      congr 2
      refine List.map_congr_left fun v _ => ?_
      simp only [Function.comp_def, List.zipWith_map, List.zipWith_self]
      exact avg_map_add _ _ _

end

end Effector
