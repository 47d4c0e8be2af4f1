import Verif.Props.ConditioningScale
import Verif.Props.Recode
import Verif.Props.RegionUnitsApi

/-!
# C127 for the classes: the heterogeneities do not notice the conversion

RegionalALE, RegionalRHALE, RegionalPDP and RegionalDerPDP, when the column of the feature of interest is left as it is and the model is handed the converted columns.
-/

namespace Effector

set_option linter.unusedSectionVars false

open Spec

variable {K : Type} [Field K] [LinearOrder K] [IsStrictOrderedRing K] {D : ℕ}

section

variable {φ : Fin D → K → K} {V : Row K D → Row K D} {s : Fin D}

theorem rewrites_converted (hs : φ s = id) : Rewrites s s (converted φ) := rewrites_recode φ s hs

theorem aleFit_like [PySqrt K] {cfg cfg' : AleCfg K D} (h : CfgLike s s cfg cfg') {st st' : AleState K D} (hs : LikeAt s s st st') (bm : BinMethod K) (c : PyVal) :
    LikeAt s s (aleFit cfg st (.int (s : ℕ)) bm c).1 (aleFit cfg' st' (.int (s : ℕ)) bm c).1 ∧ (aleFit cfg st (.int (s : ℕ)) bm c).2 = (aleFit cfg' st' (.int (s : ℕ)) bm c).2 := by
  have hp : prepFeatures (.int (s : ℕ)) D = .ok (.list [(s : ℤ)]) := rfl
  unfold aleFit
  rw [h.allowed, hp]
  simp only [bind, Except.bind]
  split_ifs
  · cases prepCentering c with
    | error e => exact ⟨hs, rfl⟩
    | ok c =>
      simp only [resolve_single, pure, Except.pure]
      exact fitLoop_like h bm c hs
  · exact ⟨hs, rfl⟩

theorem aleHeter_conv [PySqrt K] {mk mk' : List (Row K D) → Option (List (Row K D)) → Py (AleCfg K D)} (hs : φ s = id)
    (hmk : ∀ x e, (∀ l, e = some l → l.length = x.length) → (∃ er, mk x e = .error er ∧ mk' (x.map (converted φ)) (e.map (List.map V)) = .error er) ∨
      ∃ c c', mk x e = .ok c ∧ mk' (x.map (converted φ)) (e.map (List.map V)) = .ok c' ∧ CfgLike s s c c') (bm : BinMethod K) (mp : ℕ) (cen : PyVal) :
    HeterConverted φ V (aleHeter mk s bm mp cen) (aleHeter mk' s bm mp cen) := by
  intro x e he
  unfold aleHeter
  rw [List.length_map]
  by_cases hf : x.length < mp
  · rw [if_pos hf, if_pos hf]
  rw [if_neg hf, if_neg hf]
  simp only [bind, Except.bind, pure, Except.pure]
  rcases hmk x e he with ⟨er, h1, h2⟩ | ⟨c, c', h1, h2, hl⟩
  · rw [h1, h2]
  · rw [h1, h2]
    simp only []
    have h3 := aleFit_like hl (st := AleState.init) (st' := AleState.init) ⟨rfl, rfl, rfl⟩ bm cen
    rcases e1 : aleFit c AleState.init (.int (s : ℕ)) bm cen with ⟨q, r⟩
    rcases e2 : aleFit c' AleState.init (.int (s : ℕ)) bm cen with ⟨q', r'⟩
    rw [e1, e2] at h3
    obtain ⟨ha, rfl⟩ := h3
    cases r with
    | error er => rfl
    | ok u =>
      simp only []
      rw [col_rewrite (rewrites_converted hs)]
      cases listMax (col x s) with
      | error er => rfl
      | ok stop =>
        simp only []
        rw [(aleEval_like hl ha [stop] true (.bool false)).2]

/-- **C127, RegionalALE**: the heterogeneity of converted instances, for the model of the converted columns. -/
theorem C127_ale [PySqrt K] (choice choice' : ℕ → ℕ → List ℕ) (cast : K → K) (hs : φ s = id) {f f' : Row K D → K} (hf : ∀ r, f' (converted φ r) = f r) (bm : BinMethod K) (mp : ℕ) (cen : PyVal) :
    HeterConverted φ V (aleHeter (mkAle choice cast (List.map f)) s bm mp cen) (aleHeter (mkAle choice' cast (List.map f')) s bm mp cen) := by
  have hU := rewrites_converted (K := K) hs
  refine aleHeter_conv hs (fun x e _ => ?_) bm mp cen
  unfold mkAle
  rw [base_init_all, base_init_all]
  rcases limitsOr_rewrite hU x (l := none) (l' := none) trivial with ⟨er, h1, h2⟩ | ⟨l, l', h1, h2, hlo, hhi⟩
  · rw [h1, h2]
    exact Or.inl ⟨er, rfl, rfl⟩
  · rw [h1, h2]
    exact Or.inr ⟨_, _, rfl, rfl, hlo, hhi, funext fun bm => aleFit_rewrite hU cast hf x hlo hhi bm, rfl, rfl⟩

/-- **C127, RegionalRHALE**: the derivatives with respect to the feature of interest, given or computed, do not change. -/
theorem C127_rhale [PySqrt K] (choice choice' : ℕ → ℕ → List ℕ) (hs : φ s = id) {f f' : Row K D → K} (hf : ∀ r, f' (converted φ r) = f r) {jac jac' : Option (Row K D → Row K D)}
    (hj : (∃ j j', jac = some j ∧ jac' = some j' ∧ ∀ r, j' (converted φ r) s = j r s) ∨ (jac = none ∧ jac' = none)) (hV : ∀ r, V r s = r s) (bm : BinMethod K) (mp : ℕ) (cen : PyVal) :
    HeterConverted φ V (aleHeter (mkRhale choice (List.map f) (jac.map List.map)) s bm mp cen) (aleHeter (mkRhale choice' (List.map f') (jac'.map List.map)) s bm mp cen) := by
  have hU := rewrites_converted (K := K) hs
  refine aleHeter_conv hs (fun x e he => ?_) bm mp cen
  have heff : (rhaleEffects (List.map f) (jac.map List.map) e x).map (· s) =
      (rhaleEffects (List.map f') (jac'.map List.map) (e.map (List.map V)) (x.map (converted φ))).map (· s) := by
    cases e with
    | some l =>
      show l.map (· s) = (l.map V).map (· s)
      rw [List.map_map]
      exact List.map_congr_left fun r _ => (hV r).symm
    | none =>
      rcases hj with ⟨j, j', rfl, rfl, h4⟩ | ⟨rfl, rfl⟩
      · show List.map _ (List.map j x) = List.map _ (List.map j' (x.map (converted φ)))
        rw [List.map_map, List.map_map, List.map_map]
        exact List.map_congr_left fun r _ => (h4 r).symm
      · show List.map _ (computeJacobianNumerically (List.map f) x EPS) = List.map _ (computeJacobianNumerically (List.map f') (x.map (converted φ)) EPS)
        rw [jacobian_rowwise, jacobian_rowwise, List.map_map, List.map_map, List.map_map]
        refine List.map_congr_left fun r _ => ?_
        simp only [Function.comp]
        have hU' : ∀ r v, converted φ (Function.update r s v) = Function.update (converted φ r) s v := hU
        rw [rewrites_keep hU, ← hU', hf, hf]
  have hg1 : ∀ l, e = some l → l.length = x.length := he
  have hg2 : ∀ l, e.map (List.map V) = some l → l.length = (x.map (converted φ)).length := by
    intro l hl
    cases e with
    | none => cases hl
    | some l0 =>
      cases hl
      rw [List.length_map, List.length_map, he l0 rfl]
  unfold mkRhale
  rw [rhaleInit_all _ _ _ _ _ hg1, rhaleInit_all _ _ _ _ _ hg2]
  rcases limitsOr_rewrite hU x (l := none) (l' := none) trivial with ⟨er, h1, h2⟩ | ⟨l, l', h1, h2, hlo, hhi⟩
  · rw [h1, h2]
    exact Or.inl ⟨er, rfl, rfl⟩
  · rw [h1, h2]
    exact Or.inr ⟨_, _, rfl, rfl, hlo, hhi, funext fun bm => rhaleFit_rewrite hU x heff hlo hhi bm, rfl, rfl⟩

theorem takeRows_conv {α β : Type} (g : α → β) (l : List α) (idx : List ℕ) : takeRows (l.map g) idx = (takeRows l idx).map (List.map g) := by
  unfold takeRows
  induction idx with
  | nil => rfl
  | cons i t ih =>
    rw [List.mapM_cons, List.mapM_cons, ih]
    have : pyIndex (l.map g) i = (pyIndex l i).map g := by
      unfold pyIndex
      rw [List.getElem?_map]
      cases l[i]? <;> rfl
    rw [this]
    cases pyIndex l i with
    | error e => rfl
    | ok v =>
      cases t.mapM fun i => pyIndex l i with
      | error e => rfl
      | ok w => rfl

/-- **C127, RegionalPDP and RegionalDerPDP**, for any subsampling of the instances (`nof_instances`), the same in both. -/
theorem C127_pdp [PySqrt K] [LawfulSqrt K] (choice : ℕ → ℕ → List ℕ) (hs : φ s = id) {M M' : PdpModel K D} (hM : PdpRewritten s s (converted φ) M M') {lo hi lo' hi' : Fin D → K} (hlo : lo' s = lo s)
    (hhi : hi' s = hi s) (mp : ℕ) (hmp : 1 ≤ mp) (cen nof : PyVal) (points : ℕ) (hp : 1 ≤ points) (vec : Bool) :
    HeterConverted φ V (fun x _ => pdpHeter choice id M.kind lo hi s mp cen nof points vec x) (fun x _ => pdpHeter choice id M'.kind lo' hi' s mp cen nof points vec x) := by
  have hU := rewrites_converted (K := K) hs
  have hU' : ∀ r v, converted φ (Function.update r s v) = Function.update (converted φ r) s v := hU
  have hat : ∀ v r, M'.at s v (converted φ r) = M.at s v r := by
    intro v r
    cases M with
    | pdp f =>
      cases M' with
      | pdp f' => simp only [PdpModel.at, ← hU']; exact hM _
      | derJac j => exact hM.elim
      | derNum f => exact hM.elim
    | derJac j =>
      cases M' with
      | derJac j' => simp only [PdpModel.at, ← hU']; exact hM _
      | pdp f => exact hM.elim
      | derNum f => exact hM.elim
    | derNum f =>
      cases M' with
      | derNum f' =>
        simp only [PdpModel.at, ← hU']
        rw [show f' (converted φ _) = f _ from hM _, show f' (converted φ _) = f _ from hM _]
      | pdp f => exact hM.elim
      | derJac j => exact hM.elim
  intro x e _
  show pdpHeter choice id M'.kind lo' hi' s mp cen nof points vec (x.map (converted φ)) = pdpHeter choice id M.kind lo hi s mp cen nof points vec x
  by_cases hfew : x.length < mp
  · unfold pdpHeter
    rw [List.length_map, if_pos hfew, if_pos hfew]
  have hbase : Base.init choice (x.map (converted φ)) nof (some (lo', hi')) =
      (Base.init choice x nof (some (lo, hi))).map fun B => { data := B.data.map (converted φ), indices := B.indices, axisLo := lo', axisHi := hi' } := by
    unfold Base.init
    rw [List.length_map]
    simp only [bind, Except.bind, pure, Except.pure]
    cases prepNofInstances choice nof x.length with
    | error e => rfl
    | ok p =>
      simp only [takeRows_conv]
      cases takeRows x p.2 with
      | error e => rfl
      | ok d => rfl
  cases hb : Base.init choice x nof (some (lo, hi)) with
  | error e =>
    rw [hb] at hbase
    unfold pdpHeter
    rw [List.length_map, if_neg hfew, if_neg hfew, hb, hbase]
    rfl
  | ok B =>
    rw [hb] at hbase
    have hx : x ≠ [] := by
      rintro rfl
      simp only [List.length_nil] at hfew
      omega
    have hc : col x s ≠ [] := by simpa [col] using hx
    obtain ⟨mn, hmn⟩ := listMin_ne hc
    obtain ⟨mx, hmx⟩ := listMax_ne hc
    obtain ⟨v, h1, h2, h3, h4⟩ := pdp_heter_value choice M lo hi s mp cen nof points hp vec x B hb mn mx hmn hmx
    obtain ⟨v', h1', -, h3', h4'⟩ := pdp_heter_value choice M' lo' hi' s mp cen nof points hp vec (x.map (converted φ)) _ hbase mn mx
      (by rw [col_rewrite hU]; exact hmn) (by rw [col_rewrite hU]; exact hmx)
    rw [h1, h1']
    rw [List.length_map, hlo, hhi] at h3'
    rw [List.length_map, hlo, hhi] at h4'
    by_cases hbad : x.length < mp ∨ (∃ e, prepCentering cen = .error e) ∨ hi s ≤ lo s
    · rw [h3 hbad, h3' hbad]
    · push Not at hbad
      obtain ⟨-, hcen, hlt⟩ := hbad
      cases hm : prepCentering cen with
      | error e => exact absurd hm (hcen e)
      | ok m =>
        rw [h4 m (by omega) hm hlt, h4' m (by omega) hm hlt]
        have hd : inLimits (B.data.map (converted φ)) lo' hi' s = (inLimits B.data lo hi s).map (converted φ) := by
          unfold inLimits
          rw [List.filter_map]
          congr 1
          apply List.filter_congr
          intro r _
          simp only [Function.comp, rewrites_keep hU, hlo, hhi]
        simp only [hd, List.map_map, Function.comp_def, hat]

/-! ### The objects -/

namespace Spec

/-- The model (and its derivatives, given or as a function) of the converted columns; `V` converts the derivatives, and leaves the one with respect to feature `s` as it is. -/
structure ModelConverted (φ : Fin D → K → K) (V : Row K D → Row K D) (s : Fin D) (f f' : Row K D → K) (jac jac' : Option (Row K D → Row K D)) (given given' : Option (List (Row K D))) : Prop where
  model : ∀ r, f' (converted φ r) = f r
  jac : (jac = none ∧ jac' = none) ∨ ∃ j j', jac = some j ∧ jac' = some j' ∧ ∀ r, j' (converted φ r) = V (j r)
  given : given' = given.map (List.map V)
  keeps : ∀ r, V r s = r s

end Spec

/-- Two objects, the second one for the converted columns. -/
structure ObjConv (φ : Fin D → K → K) (V : Row K D → Row K D) (s : Fin D) (o o' : RegionalObj K D) : Prop where
  data : o'.cfg.data = o.cfg.data.map (converted φ)
  effects : o'.cfg.instanceEffects = o.cfg.instanceEffects.map (List.map V)
  types : o'.cfg.types = o.cfg.types
  catLimit : o'.cfg.catLimit = o.cfg.catLimit
  axisLo : o'.axisLo s = o.axisLo s
  axisHi : o'.axisHi s = o.axisHi s

theorem featureTypes_conv (h : ∀ j, StrictMono (φ j)) (data : List (Row K D)) (catLimit : ℕ) : getFeatureTypes (data.map (converted φ)) catLimit = getFeatureTypes data catLimit := by
  funext j
  unfold getFeatureTypes
  rw [col_conv, npUnique_conv (h j), List.length_map]

theorem regionalNew_conv [PySqrt K] (bb bb' : BlackBoxes K D) (hch : bb'.choice = bb.choice) (meth : String) (data : List (Row K D)) {given given' : Option (List (Row K D))} (hs : φ s = id)
    (hmono : ∀ j, StrictMono (φ j)) (hg : meth = "rhale" → rhaleEffects bb'.model bb'.jac given' (data.map (converted φ)) = (rhaleEffects bb.model bb.jac given data).map V)
    (nof : PyVal) {l l' : Option ((Fin D → K) × (Fin D → K))} (hl : SameLimits s s l l') (types : Option (Fin D → FeatType)) (catLimit : ℕ) (names names' : Option (Fin D → String))
    (fmt fmt' : K → String) {o o' : RegionalObj K D} (ho : regionalNew bb meth data given nof l types catLimit names fmt = .ok o)
    (ho' : regionalNew bb' meth (data.map (converted φ)) given' nof l' types catLimit names' fmt' = .ok o') : ObjConv φ V s o o' := by
  have hlim := limitsOr_rewrite (rewrites_converted (K := K) hs) data hl
  unfold regionalNew regionalInit at ho ho'
  simp only [bind, Except.bind, pure, Except.pure, hch, List.length_map, takeRows_conv, featureTypes_conv hmono] at ho ho'
  cases hp : prepNofInstances bb.choice nof data.length with
  | error e => rw [hp] at ho; cases ho
  | ok p =>
    rw [hp] at ho ho'
    dsimp only at ho ho'
    cases hd : takeRows data p.2 with
    | error e => rw [hd] at ho; cases ho
    | ok d =>
      rw [hd] at ho ho'
      simp only [Except.map] at ho ho'
      have fin : ∀ (E : Option (List (Row K D))) (A A' : (Fin D → K) × (Fin D → K)), A.1 s = A'.1 s → A.2 s = A'.2 s →
          ∀ (q q' : RegionalObj K D), q.cfg.data = d → q'.cfg.data = d.map (converted φ) → q.cfg.instanceEffects = E → q'.cfg.instanceEffects = E.map (List.map V) →
          q'.cfg.types = q.cfg.types → q'.cfg.catLimit = q.cfg.catLimit → q.axisLo = A.1 → q.axisHi = A.2 → q'.axisLo = A'.1 → q'.axisHi = A'.2 → ObjConv φ V s q q' := by
        intro E A A' a1 a2 q q' b1 b2 b3 b4 b5 b6 b7 b8 b9 b10
        exact ⟨by rw [b1, b2], by rw [b3, b4], b5, b6, by rw [b7, b9, a1], by rw [b8, b10, a2]⟩
      by_cases hm : meth = "rhale"
      · simp only [if_pos hm, regionalRhaleEffects, hg hm, takeRows_conv] at ho ho'
        cases he : takeRows (rhaleEffects bb.model bb.jac given data) p.2 with
        | error e => rw [he] at ho; cases ho
        | ok A =>
          rw [he] at ho ho'
          simp only [Except.map] at ho ho'
          rcases hlim with ⟨e, h1, h2⟩ | ⟨m, m', h1, h2, hlo, hhi⟩
          · cases l with
            | some l => cases h1
            | none => simp only [show axisLimitsAll data = .error e from h1] at ho; cases ho
          · cases l with
            | some l =>
              cases l' with
              | none => exact hl.elim
              | some l' =>
                cases h1
                cases h2
                cases ho
                cases ho'
                exact fin (some A) _ _ hlo hhi _ _ rfl rfl rfl rfl rfl rfl rfl rfl rfl rfl
            | none =>
              cases l' with
              | some l' => exact hl.elim
              | none =>
                simp only [show axisLimitsAll data = .ok m from h1] at ho
                simp only [show axisLimitsAll (data.map (converted φ)) = .ok m' from h2] at ho'
                cases ho
                cases ho'
                exact fin (some A) _ _ hlo hhi _ _ rfl rfl rfl rfl rfl rfl rfl rfl rfl rfl
      · simp only [if_neg hm] at ho ho'
        rcases hlim with ⟨e, h1, h2⟩ | ⟨m, m', h1, h2, hlo, hhi⟩
        · cases l with
          | some l => cases h1
          | none => simp only [show axisLimitsAll data = .error e from h1] at ho; cases ho
        · cases l with
          | some l =>
            cases l' with
            | none => exact hl.elim
            | some l' =>
              cases h1
              cases h2
              cases ho
              cases ho'
              exact fin none _ _ hlo hhi _ _ rfl rfl rfl rfl rfl rfl rfl rfl rfl rfl
          | none =>
            cases l' with
            | some l' => exact hl.elim
            | none =>
              simp only [show axisLimitsAll data = .ok m from h1] at ho
              simp only [show axisLimitsAll (data.map (converted φ)) = .ok m' from h2] at ho'
              cases ho
              cases ho'
              exact fin none _ _ hlo hhi _ _ rfl rfl rfl rfl rfl rfl rfl rfl rfl rfl

theorem effects_conv {f f' : Row K D → K} {jac jac' : Option (Row K D → Row K D)} {given given' : Option (List (Row K D))} (h : ModelConverted φ V s f f' jac jac' given given')
    (hsrc : jac.isSome ∨ given.isSome) (data : List (Row K D)) :
    rhaleEffects (List.map f') (jac'.map List.map) given' (data.map (converted φ)) = (rhaleEffects (List.map f) (jac.map List.map) given data).map V := by
  rw [h.given]
  cases given with
  | some e => rfl
  | none =>
    rcases h.jac with ⟨rfl, rfl⟩ | ⟨j, j', rfl, rfl, hj⟩
    · simp at hsrc
    · show List.map j' (data.map (converted φ)) = (List.map j data).map V
      rw [List.map_map, List.map_map]
      exact List.map_congr_left fun r _ => hj r

theorem regionalHeter_conv [PySqrt K] [LawfulSqrt K] (choice : ℕ → ℕ → List ℕ) (cast : K → K) (ext ext' : ShapExt K D) (hs : φ s = id) {f f' : Row K D → K} {jac jac' : Option (Row K D → Row K D)}
    {given given' : Option (List (Row K D))} (h : ModelConverted φ V s f f' jac jac' given given') {meth : String} (hmeth : meth ∈ ["rhale", "ale", "pdp", "d-pdp"])
    (hcast : meth = "pdp" ∨ meth = "d-pdp" → cast = id) {o o' : RegionalObj K D} (ho : ObjConv φ V s o o') (hbb : o.cfg.bb = rowBoxes choice cast f jac ext)
    (hbb' : o'.cfg.bb = rowBoxes choice cast f' jac' ext') (hm : o.cfg.methodName = meth) (hm' : o'.cfg.methodName = meth) {kw : FitKw K D} (hmin : 1 ≤ kw.minPoints) (hp : 1 ≤ kw.points) {H : HeterM K D}
    (hH : regionalHeter o kw s = .ok H) : ∃ H', regionalHeter o' kw s = .ok H' ∧ HeterConverted φ V H H' := by
  unfold regionalHeter at hH ⊢
  rw [hbb, hm] at hH
  rw [hbb', hm']
  simp only [bind, Except.bind, pure, Except.pure] at hH ⊢
  by_cases h1 : meth = "rhale"
  · rw [if_pos h1] at hH ⊢
    cases hb : prepBinningMethod kw.bin with
    | error e => rw [hb] at hH; cases hH
    | ok bm =>
      rw [hb] at hH
      cases hH
      refine ⟨_, rfl, C127_rhale choice choice hs h.model ?_ h.keeps bm _ _⟩
      rcases h.jac with ⟨a, b⟩ | ⟨j, j', a, b, hj⟩
      · exact Or.inr ⟨a, b⟩
      · exact Or.inl ⟨j, j', a, b, fun r => by rw [hj, h.keeps]⟩
  rw [if_neg h1] at hH ⊢
  by_cases h2 : meth = "ale"
  · rw [if_pos h2] at hH ⊢
    cases hb : prepBinningMethod kw.bin with
    | error e => rw [hb] at hH; cases hH
    | ok bm =>
      rw [hb] at hH
      cases hH
      exact ⟨_, rfl, C127_ale choice choice cast hs h.model bm _ _⟩
  rw [if_neg h2] at hH ⊢
  by_cases h3 : meth = "shap"
  · subst h3; simp at hmeth
  rw [if_neg h3] at hH ⊢
  have hc : cast = id := by
    apply hcast
    simpa [h1, h2] using hmeth
  subst hc
  by_cases h4 : meth = "pdp"
  · rw [if_pos h4] at hH ⊢
    cases hH
    exact ⟨_, rfl, C127_pdp (M := .pdp f) (M' := .pdp f') choice hs h.model ho.axisLo ho.axisHi _ hmin _ _ _ hp _⟩
  rw [if_neg h4] at hH ⊢
  rcases h.jac with ⟨rfl, rfl⟩ | ⟨j, j', rfl, rfl, hj⟩
  · cases hH
    exact ⟨_, rfl, C127_pdp (M := .derNum f) (M' := .derNum f') choice hs h.model ho.axisLo ho.axisHi _ hmin _ _ _ hp _⟩
  · cases hH
    exact ⟨_, rfl, C127_pdp (M := .derJac j) (M' := .derJac j') choice hs (fun r => by rw [hj, h.keeps]) ho.axisLo ho.axisHi _ hmin _ _ _ hp _⟩

theorem search_conv {o o' : RegionalObj K D} (h : ObjConv φ V s o o') (hal : ∀ l, o.cfg.instanceEffects = some l → l.length = o.cfg.data.length) {A A' : FitArgs K D}
    (h1 : A'.foc = A.foc) (h2 : A'.minPoints = A.minPoints) (h3 : A'.nofCandidates = A.nofCandidates) (h4 : A'.maxDepth = A.maxDepth) (h5 : A'.dropThres = A.dropThres)
    (h6 : A'.smallEnough = A.smallEnough) (h7 : A'.splitCat = A.splitCat) : SearchConverted φ V (regionsOf o.cfg A s) (regionsOf o'.cfg A' s) := by
  refine ⟨rfl, h.data, h.effects, hal, h.types, h.catLimit, ?_, h2, h3, h4, h5, h6, h7⟩
  show A'.foc.getD _ = A.foc.getD _
  rw [h1]

/-- **C127, the regional classes.**  RegionalRHALE (with given derivatives or a Jacobian), RegionalALE, RegionalPDP and RegionalDerPDP objects, built for the same table with the conditioning features in other units (categorical ones in
other codes of the same order) and for the model of that table.  After any two histories whose last fits of the feature have the same arguments: the same full and pruned tree, the positions converted. -/
theorem C127_regional_trees [PySqrt K] [LawfulSqrt K] (choice : ℕ → ℕ → List ℕ) (cast : K → K) (ext ext' : ShapExt K D) (hs : φ s = id) {f f' : Row K D → K} {jac jac' : Option (Row K D → Row K D)}
    {given given' : Option (List (Row K D))} (h : ModelConverted φ V s f f' jac jac' given given') (meth : String) (hmeth : meth ∈ ["rhale", "ale", "pdp", "d-pdp"])
    (hcast : meth = "pdp" ∨ meth = "d-pdp" → cast = id) (hsrc : meth = "rhale" → jac.isSome ∨ given.isSome) (data : List (Row K D)) (hlen : ∀ e, given = some e → e.length = data.length) (nof : PyVal)
    {l l' : Option ((Fin D → K) × (Fin D → K))} (hl : SameLimits s s l l') (types : Option (Fin D → FeatType)) (catLimit : ℕ) (hc : Converts (types.getD (getFeatureTypes data catLimit)) φ)
    (names names' : Option (Fin D → String)) (fmt fmt' : K → String) (o o' : RegionalObj K D)
    (ho : regionalNew (rowBoxes choice cast f jac ext) meth data given nof l types catLimit names fmt = .ok o)
    (ho' : regionalNew (rowBoxes choice cast f' jac' ext') meth (data.map (converted φ)) given' nof l' types catLimit names' fmt' = .ok o') (calls calls' : List (RegCall K D)) (kw : FitKw K D)
    (hkw : lastKw o s calls = some kw) (hkw' : lastKw o' s calls' = some kw) (hp : 1 ≤ kw.points) :
    ∃ t t' u u', (regRunM o calls).treeFull s = some t ∧ (regRunM o' calls').treeFull s = some t' ∧ TreesConverted φ V t t' ∧
      (regRunM o calls).treePruned s = some u ∧ (regRunM o' calls').treePruned s = some u' ∧ TreesConverted φ V u u' := by
  have hn := regionalNew_conv (V := V) (rowBoxes choice cast f jac ext) (rowBoxes choice cast f' jac' ext') rfl meth data hs (fun j => hc.strict j)
    (fun hm => effects_conv h (hsrc hm) data) nof hl types catLimit names names' fmt fmt' ho ho'
  have el : (rhaleEffects (List.map f) (jac.map List.map) given data).length = data.length := by
    cases given with
    | some e => exact hlen e rfl
    | none =>
      cases jac with
      | some j => show (List.map j data).length = _; rw [List.length_map]
      | none => show (computeJacobianNumerically (List.map f) data EPS).length = _; rw [jacobian_rowwise, List.length_map]
  have el' : (rhaleEffects (List.map f') (jac'.map List.map) given' (data.map (converted φ))).length = (data.map (converted φ)).length := by
    rw [h.given]
    cases given with
    | some e => show (e.map V).length = _; rw [List.length_map, List.length_map]; exact hlen e rfl
    | none =>
      cases jac' with
      | some j => show (List.map j _).length = _; rw [List.length_map]
      | none => show (computeJacobianNumerically (List.map f') _ EPS).length = _; rw [jacobian_rowwise, List.length_map]
  have hst : ∀ {bb : BlackBoxes K D} {d : List (Row K D)} {g : Option (List (Row K D))}, (rhaleEffects bb.model bb.jac g d).length = d.length →
      ∀ e, startEffects bb meth d g = some e → e.length = d.length := by
    intro bb d g hl e he
    unfold startEffects at he
    split at he
    · cases he; exact hl
    · cases he
  obtain ⟨c1, c2, c3, -, -, -, -, c8, c9, -⟩ := C81_constructor _ _ _ _ _ _ _ _ _ _ (hst el) o ho
  obtain ⟨d1, d2, d3, -⟩ := C81_constructor _ _ _ _ _ _ _ _ _ _ (hst el') o' ho'
  have htypes : o.cfg.types = types.getD (getFeatureTypes data catLimit) := by
    unfold regionalNew at ho
    simp only [bind, Except.bind, pure, Except.pure] at ho
    cases hri : regionalInit (rowBoxes choice cast f jac ext) meth data (if meth = "rhale" then some (regionalRhaleEffects (rowBoxes choice cast f jac ext) given data) else none) nof l types catLimit names
        FitArgs.blank fmt with
    | error e => rw [hri] at ho; cases ho
    | ok cfg =>
      rw [hri] at ho
      have : cfg.types = types.getD (getFeatureTypes data catLimit) := by
        unfold regionalInit at hri
        simp only [bind, Except.bind, pure, Except.pure] at hri
        repeat' split at hri
        all_goals first
          | (cases hri; done)
          | (injection hri with hri; rw [← hri])
      simp only [] at ho
      rw [← this]
      cases l with
      | some l => cases ho; rfl
      | none =>
        simp only [] at ho
        cases hal : axisLimitsAll data with
        | error e => rw [hal] at ho; cases ho
        | ok m => rw [hal] at ho; cases ho; rfl
  obtain ⟨-, h2, -⟩ := C81_trees_of_own_search o c1 calls s
  obtain ⟨-, h2', -⟩ := C81_trees_of_own_search o' d1 calls' s
  obtain ⟨sp, full, t, e1, e2, e3, e4, e5⟩ := h2 kw hkw
  obtain ⟨sp', full', t', e1', e2', e3', e4', e5'⟩ := h2' _ hkw'
  have hmin := (lastKw_fits o s calls kw hkw).2
  have hH : ∃ H, regionalHeter o kw s = .ok H := by
    unfold searchOf at e1
    cases hh : regionalHeter o kw s with
    | error e => rw [hh] at e1; cases e1
    | ok H => exact ⟨H, rfl⟩
  obtain ⟨H, hH⟩ := hH
  obtain ⟨H', hH', hconv⟩ := regionalHeter_conv choice cast ext ext' hs h hmeth hcast hn c2 d2 c3 d3 (by omega) hp hH
  unfold searchOf at e1 e1'
  rw [hH] at e1
  rw [hH'] at e1'
  have hsc : SearchConverted φ V (regionsOf o.cfg (kw.toArgs o) s) (regionsOf o'.cfg (kw.toArgs o') s) :=
    search_conv hn (fun l hl => (c1.1 l hl).symm) rfl rfl rfl rfl rfl rfl rfl
  have hc' : Converts (regionsOf o.cfg (kw.toArgs o) s).types φ := by
    show Converts o.cfg.types φ
    rw [htypes]
    exact hc
  have main : ∀ imp, ∃ a b, splitsToTree (regionsOf o.cfg (kw.toArgs o) s) (posTextOf o.cfg.fmt none) sp imp = .ok a ∧
      splitsToTree (regionsOf o'.cfg (kw.toArgs o') s) (posTextOf o'.cfg.fmt none) sp' imp = .ok b ∧ TreesConverted φ V a b := by
    intro imp
    obtain ⟨g1, a, b, g2, g3, g4⟩ := C127_trees hc' hconv hsc e1 (posTextOf o.cfg.fmt none) (posTextOf o'.cfg.fmt none) imp
    have : sp' = sp.map (splitsConverted φ) := Except.ok.inj (e1'.symm.trans g1)
    rw [this]
    exact ⟨a, b, g2, g3, g4⟩
  obtain ⟨a, b, g1, g2, g3⟩ := main false
  obtain ⟨a', b', k1, k2, k3⟩ := main true
  rw [e2] at g1
  rw [e2'] at g2
  rw [e3] at k1
  rw [e3'] at k2
  cases g1
  cases g2
  cases k1
  cases k2
  exact ⟨_, _, _, _, e4, e4', g3, e5, e5', k3⟩

end

end Effector
