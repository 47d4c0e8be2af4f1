import Verif.Props.Irrelevant

/-!
# C85: the other columns of the table

How the other features are coded, in which order the columns stand, and whether there are further columns, has no influence on the effect of a feature.
-/

namespace Effector

set_option linter.unusedSectionVars false

open Spec

variable {K : Type} [Field K] [LinearOrder K] [IsStrictOrderedRing K] {D D' : ℕ}

namespace Spec

/-- `U` rewrites instances (other codes for the features, another order of the columns, more or fewer columns) without touching feature `s`, which is column `s'` of the result:
changing the value of the feature before or after is the same. -/
def Rewrites (s : Fin D) (s' : Fin D') (U : Row K D → Row K D') : Prop := ∀ r v, U (Function.update r s v) = Function.update (U r) s' v

/-- The axis limits of the feature are the same, or both left to the library. -/
def SameLimits (s : Fin D) (s' : Fin D') : Option ((Fin D → K) × (Fin D → K)) → Option ((Fin D' → K) × (Fin D' → K)) → Prop
  | none, none => True
  | some l, some l' => l.1 s = l'.1 s' ∧ l.2 s = l'.2 s'
  | _, _ => False

/-- The call, made for column `s'`. -/
def callOn (s' : Fin D') : AleOp K D → AleOp K D'
  | .fit _ bm c => .fit (.int s') bm c
  | .eval _ xs het c => .eval s' xs het c
  | .plot _ c => .plot s' c

end Spec

theorem rewrites_keep {s : Fin D} {s' : Fin D'} {U : Row K D → Row K D'} (h : Rewrites s s' U) (r : Row K D) : U r s' = r s := by
  have := h r (r s)
  rw [Function.update_eq_self] at this
  rw [this, Function.update_self]

/-! ### Two objects with different columns -/

structure CfgLike (s : Fin D) (s' : Fin D') (cfg : AleCfg K D) (cfg' : AleCfg K D') : Prop where
  lo : cfg.axisLo s = cfg'.axisLo s'
  hi : cfg.axisHi s = cfg'.axisHi s'
  fit : cfg.fitF s = cfg'.fitF s'
  dflt : cfg.defaultBin = cfg'.defaultBin
  allowed : cfg.allowed = cfg'.allowed

def LikeAt (s : Fin D) (s' : Fin D') (st : AleState K D) (st' : AleState K D') : Prop :=
  st.fe s = st'.fe s' ∧ st.fitted s = st'.fitted s' ∧ st.args s = st'.args s'

theorem CfgLike.norm {s : Fin D} {s' : Fin D'} {cfg : AleCfg K D} {cfg' : AleCfg K D'} (h : CfgLike s s' cfg cfg') (p : AleParams K) (c : Centering) :
    aleNormConst cfg p s c = aleNormConst cfg' p s' c := by
  cases c with
  | off => rfl
  | zeroIntegral => simp only [aleNormConst, h.lo, h.hi]
  | zeroStart => simp only [aleNormConst, h.lo]

theorem fitLoop_like {s : Fin D} {s' : Fin D'} {cfg : AleCfg K D} {cfg' : AleCfg K D'} (h : CfgLike s s' cfg cfg') (bm : BinMethod K) (c : Centering)
    {st : AleState K D} {st' : AleState K D'} (hs : LikeAt s s' st st') :
    LikeAt s s' (fitLoop cfg bm c st [s]).1 (fitLoop cfg' bm c st' [s']).1 ∧ (fitLoop cfg bm c st [s]).2 = (fitLoop cfg' bm c st' [s']).2 := by
  simp only [fitLoop, fitOne]
  rw [h.fit]
  cases cfg'.fitF s' bm with
  | error e => exact ⟨hs, rfl⟩
  | ok p =>
    simp only [h.norm]
    cases aleNormConst cfg' p s' c with
    | error e => exact ⟨⟨by simp, hs.2.1, hs.2.2⟩, rfl⟩
    | ok z => exact ⟨⟨by simp, by simp, by simp⟩, rfl⟩

theorem evalFitted_like [PySqrt K] {s : Fin D} {s' : Fin D'} {cfg : AleCfg K D} {cfg' : AleCfg K D'} (h : CfgLike s s' cfg cfg') {st : AleState K D} {st' : AleState K D'}
    (hs : LikeAt s s' st st') (xs : List K) (het : Bool) (c : Centering) : aleEvalFitted cfg st s xs het c = aleEvalFitted cfg' st' s' xs het c := by
  unfold aleEvalFitted
  rw [h.lo, h.hi, hs.1]

theorem aleEval_like [PySqrt K] {s : Fin D} {s' : Fin D'} {cfg : AleCfg K D} {cfg' : AleCfg K D'} (h : CfgLike s s' cfg cfg') {st : AleState K D} {st' : AleState K D'}
    (hs : LikeAt s s' st st') (xs : List K) (het : Bool) (c : PyVal) :
    LikeAt s s' (aleEval cfg st s xs het c).1 (aleEval cfg' st' s' xs het c).1 ∧ (aleEval cfg st s xs het c).2 = (aleEval cfg' st' s' xs het c).2 := by
  unfold aleEval
  cases prepCentering c with
  | error e => exact ⟨hs, rfl⟩
  | ok c =>
    simp only [hs.2.1, hs.2.2]
    cases needsRefit (st'.fitted s') (st'.args s') c with
    | error e => exact ⟨hs, rfl⟩
    | ok b =>
      cases b with
      | false => exact ⟨hs, evalFitted_like h hs xs het c⟩
      | true =>
        rw [h.dflt]
        have h1 := fitLoop_like h cfg'.defaultBin c hs
        rcases e1 : fitLoop cfg cfg'.defaultBin c st [s] with ⟨q, r⟩
        rcases e2 : fitLoop cfg' cfg'.defaultBin c st' [s'] with ⟨q', r'⟩
        rw [e1, e2] at h1
        obtain ⟨ha, rfl⟩ := h1
        cases r with
        | error e => exact ⟨ha, rfl⟩
        | ok u => exact ⟨ha, evalFitted_like h ha xs het c⟩

theorem alePlot_like [PySqrt K] {s : Fin D} {s' : Fin D'} {cfg : AleCfg K D} {cfg' : AleCfg K D'} (h : CfgLike s s' cfg cfg') {st : AleState K D} {st' : AleState K D'}
    (hs : LikeAt s s' st st') (c : PyVal) : LikeAt s s' (alePlot cfg st s c).1 (alePlot cfg' st' s' c).1 := by
  unfold alePlot
  rw [h.lo]
  have h1 := aleEval_like h hs [cfg'.axisLo s'] false c
  rcases e1 : aleEval cfg st s [cfg'.axisLo s'] false c with ⟨q, r⟩
  rcases e2 : aleEval cfg' st' s' [cfg'.axisLo s'] false c with ⟨q', r'⟩
  rw [e1, e2] at h1
  obtain ⟨ha, rfl⟩ := h1
  cases r with
  | error e => exact ha
  | ok u =>
    have hqq : q.fe s = q'.fe s' := ha.1
    simp only [hqq]
    cases hfe : q'.fe s' with
    | none => exact ha
    | some pn =>
      obtain ⟨p, n⟩ := pn
      simp only []
      cases pyIndex p.limits 0 with
      | error e => exact ha
      | ok u =>
        cases pyIndex p.limits (p.limits.length - 1) with
        | error e => exact ha
        | ok v =>
          simp only []
          have h3 := aleEval_like h ha (linspace u v 1000) true c
          rcases e3 : aleEval cfg q s (linspace u v 1000) true c with ⟨q1, r1⟩
          rcases e4 : aleEval cfg' q' s' (linspace u v 1000) true c with ⟨q2, r2⟩
          rw [e3, e4] at h3
          obtain ⟨h4, rfl⟩ := h3
          cases r1 <;> exact h4

theorem aleRun_like [PySqrt K] {s : Fin D} {s' : Fin D'} {cfg : AleCfg K D} {cfg' : AleCfg K D'} (h : CfgLike s s' cfg cfg') (ops : List (AleOp K D))
    (hops : ∀ op ∈ ops, OnlyOn s op) : LikeAt s s' (aleRun cfg ops) (aleRun cfg' (ops.map (callOn s'))) := by
  unfold aleRun
  suffices ∀ (st : AleState K D) (st' : AleState K D'), LikeAt s s' st st' →
      LikeAt s s' (ops.foldl (aleStep cfg) st) ((ops.map (callOn s')).foldl (aleStep cfg') st') from this _ _ ⟨rfl, rfl, rfl⟩
  induction ops with
  | nil => exact fun _ _ h => h
  | cons op ops ih =>
    intro st st' hs
    rw [List.map_cons, List.foldl_cons, List.foldl_cons]
    refine ih (fun o ho => hops o (List.mem_cons_of_mem _ ho)) _ _ ?_
    have ho := hops op List.mem_cons_self
    cases op with
    | fit f bm c =>
      have hp : prepFeatures f D = .ok (.list [(s : ℤ)]) := by rcases (show f = .int s ∨ f = .list [(s : ℤ)] from ho) with rfl | rfl <;> rfl
      have hp' : prepFeatures (.int s') D' = .ok (.list [(s' : ℤ)]) := rfl
      show LikeAt s s' (aleFit cfg st f bm c).1 (aleFit cfg' st' (.int s') bm c).1
      unfold aleFit
      rw [h.allowed, hp, hp']
      simp only [bind, Except.bind]
      split_ifs
      · cases prepCentering c with
        | error e => exact hs
        | ok c =>
          simp only [resolve_single, pure, Except.pure]
          exact (fitLoop_like h bm c hs).1
      · exact hs
    | eval t xs het c => obtain rfl : t = s := ho; exact (aleEval_like h hs xs het c).1
    | plot t c => obtain rfl : t = s := ho; exact alePlot_like h hs c

/-! ### The fits -/

section

variable {s : Fin D} {s' : Fin D'} {U : Row K D → Row K D'} (hU : Rewrites s s' U)

include hU

theorem col_rewrite (d : List (Row K D)) : col (d.map U) s' = col d s := by
  unfold col
  rw [List.map_map]
  exact List.map_congr_left fun r _ => rewrites_keep hU r

theorem filter_rewrite (d : List (Row K D)) (lo hi : K) : (d.map U).filter (inAxis lo hi s') = (d.filter (inAxis lo hi s)).map U := by
  rw [List.filter_map]
  congr 1
  apply List.filter_congr
  intro r _
  simp only [Function.comp, inAxis, rewrites_keep hU]

theorem setCol_rewrite (cast : K → K) (d : List (Row K D)) (vals : List K) : setCol cast (d.map U) s' vals = (setCol cast d s vals).map U := by
  unfold setCol
  induction d generalizing vals with
  | nil => rfl
  | cons r d ih =>
    cases vals with
    | nil => rfl
    | cons v vals => simp only [List.map_cons, List.zipWith_cons_cons, ih, hU r]

theorem localEffects_rewrite (cast : K → K) {f : Row K D → K} {f' : Row K D' → K} (hf : ∀ r, f' (U r) = f r) (d : List (Row K D)) (L : List K) :
    computeLocalEffects cast (d.map U) (List.map f') L s' = computeLocalEffects cast d (List.map f) L s := by
  have hm : ∀ vals, (setCol cast (d.map U) s' vals).map f' = (setCol cast d s vals).map f := by
    intro vals
    rw [setCol_rewrite hU, List.map_map]
    exact List.map_congr_left fun r _ => hf r
  unfold computeLocalEffects
  rw [col_rewrite hU]
  simp only [hm]

theorem aleFit_rewrite (cast : K → K) {f : Row K D → K} {f' : Row K D' → K} (hf : ∀ r, f' (U r) = f r) (d : List (Row K D)) {lo hi : Fin D → K} {lo' hi' : Fin D' → K}
    (hlo : lo s = lo' s') (hhi : hi s = hi' s') (bm : BinMethod K) :
    aleFitFeature cast (List.map f) d lo hi s bm = aleFitFeature cast (List.map f') (d.map U) lo' hi' s' bm := by
  unfold aleFitFeature
  rw [hlo, hhi]
  simp only [filter_rewrite hU, col_rewrite hU, localEffects_rewrite hU cast hf]

theorem limitsOr_rewrite (d : List (Row K D)) {l : Option ((Fin D → K) × (Fin D → K))} {l' : Option ((Fin D' → K) × (Fin D' → K))} (h : SameLimits s s' l l') :
    (∃ e, limitsOr d l = .error e ∧ limitsOr (d.map U) l' = .error e) ∨
    ∃ m m', limitsOr d l = .ok m ∧ limitsOr (d.map U) l' = .ok m' ∧ m.1 s = m'.1 s' ∧ m.2 s = m'.2 s' := by
  cases l with
  | some l =>
    cases l' with
    | none => exact h.elim
    | some l' => exact Or.inr ⟨l, l', rfl, rfl, h⟩
  | none =>
    cases l' with
    | some l' => exact h.elim
    | none =>
      cases d with
      | nil =>
        refine Or.inl ⟨.valueError, ?_, ?_⟩
        · show axisLimitsAll ([] : List (Row K D)) = _
          unfold axisLimitsAll
          exact if_neg (by have := s.2; omega)
        · show axisLimitsAll ([] : List (Row K D')) = _
          unfold axisLimitsAll
          exact if_neg (by have := s'.2; omega)
      | cons r rs =>
        have hk := rewrites_keep hU
        refine Or.inr ⟨_, _, rfl, rfl, ?_, ?_⟩
        · simp only [List.map_map, hk, Function.comp_def]
        · simp only [List.map_map, hk, Function.comp_def]

/-- **C85 for ALE.**  Rewrite the table - other codes or units for the other features, another order of the columns, more or fewer columns - and the model accordingly.  After the same
calls for the feature, `eval` gives the same values and heterogeneity or raises the same exception. -/
theorem C85_ale_other_columns [PySqrt K] (choice choice' : ℕ → ℕ → List ℕ) (cast : K → K) (f : Row K D → K) (f' : Row K D' → K) (hf : ∀ r, f' (U r) = f r)
    (data : List (Row K D)) (limits : Option ((Fin D → K) × (Fin D → K))) (limits' : Option ((Fin D' → K) × (Fin D' → K))) (hl : SameLimits s s' limits limits')
    (calls : List (AleOp K D)) (hc : ∀ op ∈ calls, OnlyOn s op) (xs : List K) (het : Bool) (c : PyVal) :
    aleSession choice' cast f' (data.map U) limits' (calls.map (callOn s')) s' xs het c = aleSession choice cast f data limits calls s xs het c := by
  unfold aleSession
  rw [base_init_all, base_init_all]
  rcases limitsOr_rewrite hU data hl with ⟨e, h1, h2⟩ | ⟨l, l', h1, h2, hlo, hhi⟩
  · rw [h1, h2]; rfl
  · rw [h1, h2]
    simp only [Except.bind]
    have hcfg : CfgLike s s' (aleCfg cast (List.map f) { data := data, indices := List.range data.length, axisLo := l.1, axisHi := l.2 })
        (aleCfg cast (List.map f') { data := data.map U, indices := List.range (data.map U).length, axisLo := l'.1, axisHi := l'.2 }) :=
      ⟨hlo, hhi, funext fun bm => aleFit_rewrite hU cast hf data hlo hhi bm, rfl, rfl⟩
    exact (aleEval_like hcfg (aleRun_like hcfg calls hc) xs het c).2.symm

theorem rhaleFit_rewrite (d : List (Row K D)) {e : List (Row K D)} {e' : List (Row K D')} (he : e.map (· s) = e'.map (· s')) {lo hi : Fin D → K} {lo' hi' : Fin D' → K}
    (hlo : lo s = lo' s') (hhi : hi s = hi' s') (bm : BinMethod K) : rhaleFitFeature d e lo hi s bm = rhaleFitFeature (d.map U) e' lo' hi' s' bm := by
  have hes := forall2_of_map_eq he
  have h0 : List.Forall₂ (fun (r : Row K D) (r' : Row K D') => r s = r' s') d (d.map U) := by
    apply forall2_of_map_eq
    rw [List.map_map]
    exact List.map_congr_left fun r _ => (rewrites_keep hU r).symm
  unfold rhaleFitFeature
  rw [hlo, hhi, h0.length_eq, hes.length_eq]
  have h2 := forall2_filter (p := fun p : Row K D × Row K D => inAxis (lo' s') (hi' s') s p.1) (q := fun p => inAxis (lo' s') (hi' s') s' p.1)
    (forall2_zip h0 hes) fun a b hab => by unfold inAxis; rw [hab.1]
  have h3 : col (((d.zip e).filter fun p => inAxis (lo' s') (hi' s') s p.1).map (·.2)) s =
      col ((((d.map U).zip e').filter fun p => inAxis (lo' s') (hi' s') s' p.1).map (·.2)) s' := by
    unfold col
    rw [List.map_map, List.map_map]
    exact forall2_map_eq h2 fun a b hab => hab.2
  simp only [filter_rewrite hU, col_rewrite hU, h3]

end

namespace Spec

/-- The derivatives with respect to the feature are the same: given for every instance, as a function, or left to the library. -/
def SameDerivatives (s : Fin D) (s' : Fin D') (U : Row K D → Row K D') (n : ℕ) (given : Option (List (Row K D))) (given' : Option (List (Row K D')))
    (jac : Option (Row K D → Row K D)) (jac' : Option (Row K D' → Row K D')) : Prop :=
  (∃ e e', given = some e ∧ given' = some e' ∧ e.length = n ∧ e.map (· s) = e'.map (· s')) ∨
  (given = none ∧ given' = none ∧ ∃ j j', jac = some j ∧ jac' = some j' ∧ ∀ r, j' (U r) s' = j r s) ∨
  (given = none ∧ given' = none ∧ jac = none ∧ jac' = none)

end Spec

/-- **C85 for RHALE**, with derivatives from any source. -/
theorem C85_rhale_other_columns [PySqrt K] {s : Fin D} {s' : Fin D'} {U : Row K D → Row K D'} (hU : Rewrites s s' U) (choice choice' : ℕ → ℕ → List ℕ)
    (f : Row K D → K) (f' : Row K D' → K) (hf : ∀ r, f' (U r) = f r) (jac : Option (Row K D → Row K D)) (jac' : Option (Row K D' → Row K D'))
    (data : List (Row K D)) (given : Option (List (Row K D))) (given' : Option (List (Row K D'))) (hd : SameDerivatives s s' U data.length given given' jac jac')
    (limits : Option ((Fin D → K) × (Fin D → K))) (limits' : Option ((Fin D' → K) × (Fin D' → K))) (hl : SameLimits s s' limits limits')
    (calls : List (AleOp K D)) (hc : ∀ op ∈ calls, OnlyOn s op) (xs : List K) (het : Bool) (c : PyVal) :
    rhaleSession choice' f' jac' (data.map U) given' limits' (calls.map (callOn s')) s' xs het c = rhaleSession choice f jac data given limits calls s xs het c := by
  have hg1 : ∀ e, given = some e → e.length = data.length := by
    rintro e rfl
    rcases hd with ⟨e1, e2, h1, h2, h3, -⟩ | ⟨h1, -⟩ | ⟨h1, -⟩
    · cases h1; exact h3
    · cases h1
    · cases h1
  have hg2 : ∀ e, given' = some e → e.length = (data.map U).length := by
    rintro e rfl
    rcases hd with ⟨e1, e2, h1, h2, h3, h4⟩ | ⟨-, h1, -⟩ | ⟨-, h1, -⟩
    · cases h2
      have := congrArg List.length h4
      simp only [List.length_map] at this ⊢
      omega
    · cases h1
    · cases h1
  have heff : (rhaleEffects (List.map f) (jac.map List.map) given data).map (· s) =
      (rhaleEffects (List.map f') (jac'.map List.map) given' (data.map U)).map (· s') := by
    rcases hd with ⟨e1, e2, rfl, rfl, -, h4⟩ | ⟨rfl, rfl, j, j', rfl, rfl, h4⟩ | ⟨rfl, rfl, rfl, rfl⟩
    · exact h4
    · show List.map _ (List.map j data) = List.map _ (List.map j' (data.map U))
      rw [List.map_map, List.map_map, List.map_map]
      exact List.map_congr_left fun r _ => (h4 r).symm
    · show List.map _ (computeJacobianNumerically (List.map f) data EPS) = List.map _ (computeJacobianNumerically (List.map f') (data.map U) EPS)
      rw [jacobian_rowwise, jacobian_rowwise, List.map_map, List.map_map, List.map_map]
      refine List.map_congr_left fun r _ => ?_
      simp only [Function.comp]
      have hU' : ∀ r v, U (Function.update r s v) = Function.update (U r) s' v := hU
      rw [rewrites_keep hU, ← hU', hf, hf]
  unfold rhaleSession
  rw [rhaleInit_all _ _ _ _ _ hg1, rhaleInit_all _ _ _ _ _ hg2]
  rcases limitsOr_rewrite hU data hl with ⟨e, h1, h2⟩ | ⟨l, l', h1, h2, hlo, hhi⟩
  · rw [h1, h2]; rfl
  · rw [h1, h2]
    simp only [Except.bind]
    have hcfg : CfgLike s s' (rhaleCfg (rhaleEffects (List.map f) (jac.map List.map) given data)
          { data := data, indices := List.range data.length, axisLo := l.1, axisHi := l.2 })
        (rhaleCfg (rhaleEffects (List.map f') (jac'.map List.map) given' (data.map U))
          { data := data.map U, indices := List.range (data.map U).length, axisLo := l'.1, axisHi := l'.2 }) :=
      ⟨hlo, hhi, funext fun bm => rhaleFit_rewrite hU data heff hlo hhi bm, rfl, rfl⟩
    exact (aleEval_like hcfg (aleRun_like hcfg calls hc) xs het c).2.symm

namespace Spec

/-- The model (or the derivative with respect to the feature) of the rewritten instances. -/
def PdpRewritten (s : Fin D) (s' : Fin D') (U : Row K D → Row K D') : PdpModel K D → PdpModel K D' → Prop
  | .pdp f, .pdp f' => ∀ r, f' (U r) = f r
  | .derJac j, .derJac j' => ∀ r, j' (U r) s' = j r s
  | .derNum f, .derNum f' => ∀ r, f' (U r) = f r
  | _, _ => False

end Spec

/-- **C85 for PDP and DerPDP** (with or without a Jacobian): ICE curves, average, heterogeneity and exceptions are the same, after any calls that respect the axis limits (see C31). -/
theorem C85_pdp_other_columns [PySqrt K] {s : Fin D} {s' : Fin D'} {U : Row K D → Row K D'} (hU : Rewrites s s' U) (M : PdpModel K D) (M' : PdpModel K D')
    (hM : PdpRewritten s s' U M M') (data : List (Row K D)) (lo hi : Fin D → K) (lo' hi' : Fin D' → K) (hlo : lo s = lo' s') (hhi : hi s = hi' s')
    (calls : List (PdpOp K D)) (calls' : List (PdpOp K D')) (hcalls : ∀ op ∈ calls, PdpCallOk data lo hi s op)
    (hcalls' : ∀ op ∈ calls', PdpCallOk (data.map U) lo' hi' s' op) (xs : List K) (het : Bool) (c : PyVal) (all vec : Bool) :
    pdpEvalAfter M' lo' hi' (data.map U) calls' s' xs het c all vec = pdpEvalAfter M lo hi data calls s xs het c all vec := by
  have hU' : ∀ r v, U (Function.update r s v) = Function.update (U r) s' v := hU
  have hat : ∀ v r, M'.at s' v (U r) = M.at s v r := by
    intro v r
    cases M with
    | pdp f =>
      cases M' with
      | pdp f' => simp only [PdpModel.at, ← hU']; exact hM _
      | derJac j => exact hM.elim
      | derNum f => exact hM.elim
    | derJac j =>
      cases M' with
      | derJac j' => simp only [PdpModel.at, ← hU']; exact hM _
      | pdp f => exact hM.elim
      | derNum f => exact hM.elim
    | derNum f =>
      cases M' with
      | derNum f' =>
        simp only [PdpModel.at, ← hU']
        rw [show f' (U _) = f _ from hM _, show f' (U _) = f _ from hM _]
      | pdp f => exact hM.elim
      | derJac j => exact hM.elim
  unfold pdpEvalAfter
  rw [pdp_eval_spec M lo hi data s calls hcalls, pdp_eval_spec M' lo' hi' _ s' calls' hcalls']
  cases prepCentering c with
  | error e => rfl
  | ok m =>
    have hd : inLimits (data.map U) lo' hi' s' = (inLimits data lo hi s).map U := by
      unfold inLimits
      rw [List.filter_map]
      congr 1
      apply List.filter_congr
      intro r _
      simp only [Function.comp, rewrites_keep hU, hlo, hhi]
    have hice : M'.ice lo' hi' ((inLimits data lo hi s).map U) s' m xs = M.ice lo hi (inLimits data lo hi s) s m xs := by
      unfold PdpModel.ice
      apply List.map_congr_left
      intro v _
      rw [List.map_map]
      apply List.map_congr_left
      intro r _
      have h3 : M'.shift lo' hi' s' (U r) m = M.shift lo hi s r m := by
        cases m with
        | off => rfl
        | zeroStart => simp only [PdpModel.shift, hlo]; exact hat _ _
        | zeroIntegral => simp only [PdpModel.shift, hlo, hhi, hat]
      simp only [Function.comp, hat, h3]
    simp only [PdpModel.value, hd, hice, hlo, hhi]

/-! ### Non-vacuity -/

/-- Reordering the columns is such a rewriting; so is recoding the other columns one by one. -/
theorem rewrites_reorder (σ : Equiv.Perm (Fin D)) (s : Fin D) : Rewrites (K := K) s (σ.symm s) fun r t => r (σ t) := by
  intro r v
  funext t
  by_cases h : t = σ.symm s
  · subst h; simp
  · have : σ t ≠ s := fun hc => h (by rw [← hc, Equiv.symm_apply_apply])
    simp [Function.update_of_ne h, Function.update_of_ne this]

theorem rewrites_recode (g : Fin D → K → K) (s : Fin D) (hs : g s = id) : Rewrites s s fun r t => g t (r t) := by
  intro r v
  funext t
  by_cases h : t = s
  · subst h; simp [hs]
  · simp [Function.update_of_ne h]

/-- Two columns swapped, and a third one added; the model is x₀² x₁ in the old table. -/
example :
    Rewrites (K := ℚ) (D := 2) (D' := 3) 0 1 (fun r => ![r 1, r 0, 7]) ∧
    aleSession (K := ℚ) (D := 2) (fun _ _ => []) id (fun r => r 0 ^ 2 * r 1) [![0, 5], ![1, 6], ![3, 7], ![4, 8]] none
        [.fit (.int 0) (.fixed 2 (some 1) 0) (.bool false)] 0 [2] false (.bool false) = .ok ([22], none) ∧
    aleSession (K := ℚ) (D := 3) (fun _ _ => []) id (fun r => r 1 ^ 2 * r 0) [![5, 0, 7], ![6, 1, 7], ![7, 3, 7], ![8, 4, 7]] none
        [.fit (.int 1) (.fixed 2 (some 1) 0) (.bool false)] 1 [2] false (.bool false) = .ok ([22], none) := by
  refine ⟨fun r v => ?_, by decide +kernel, by decide +kernel⟩
  funext t
  match t with
  | 0 => rfl
  | 1 => rfl
  | 2 => rfl

end Effector
