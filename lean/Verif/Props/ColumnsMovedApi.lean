import Verif.Props.ColumnsMoved

/-!
# C128 for the classes

RegionalALE, RegionalRHALE, RegionalPDP and RegionalDerPDP, handed a table, and a table with only some of its columns, in any order.
-/

namespace Effector

set_option linter.unusedSectionVars false

open Spec

variable {K : Type} [Field K] [LinearOrder K] [IsStrictOrderedRing K] {D D' : ℕ}

namespace Spec

/-- The heterogeneity `H` of some instances is the heterogeneity `H'` of the rewritten instances (`U`; their derivatives by `V`). -/
def HeterRewritten (U V : Row K D → Row K D') (H : HeterM K D) (H' : HeterM K D') : Prop :=
  ∀ x e, (∀ l, e = some l → l.length = x.length) → H' (x.map U) (e.map (List.map V)) = H x e

/-- The explainer gives the columns `ι 0, ι 1, ...` the same values whether or not it sees the others (as Shapley values of a model that does not use the others are); the curve fit is the same. -/
structure ShapMoved (ι : Fin D → Fin D') (ext : ShapExt K D) (ext' : ShapExt K D') : Prop where
  explain : ∀ x, ext.explain (x.map (onlyColumns ι)) = (ext'.explain x).map (List.map (onlyColumns ι))
  spline : ext.spline = ext'.spline

end Spec

section

variable {U V : Row K D → Row K D'} {s : Fin D} {s' : Fin D'}

theorem aleFit_moved [PySqrt K] {cfg : AleCfg K D} {cfg' : AleCfg K D'} (h : CfgLike s s' cfg cfg') {st : AleState K D} {st' : AleState K D'} (hs : LikeAt s s' st st') (bm : BinMethod K) (c : PyVal) :
    LikeAt s s' (aleFit cfg st (.int (s : ℕ)) bm c).1 (aleFit cfg' st' (.int (s' : ℕ)) bm c).1 ∧ (aleFit cfg st (.int (s : ℕ)) bm c).2 = (aleFit cfg' st' (.int (s' : ℕ)) bm c).2 := by
  have hp : prepFeatures (.int (s : ℕ)) D = .ok (.list [(s : ℤ)]) := rfl
  have hp' : prepFeatures (.int (s' : ℕ)) D' = .ok (.list [(s' : ℤ)]) := rfl
  unfold aleFit
  rw [h.allowed, hp, hp']
  simp only [bind, Except.bind]
  split_ifs
  · cases prepCentering c with
    | error e => exact ⟨hs, rfl⟩
    | ok c =>
      simp only [resolve_single, pure, Except.pure]
      exact fitLoop_like h bm c hs
  · exact ⟨hs, rfl⟩

theorem aleHeter_moved [PySqrt K] {mk : List (Row K D) → Option (List (Row K D)) → Py (AleCfg K D)} {mk' : List (Row K D') → Option (List (Row K D')) → Py (AleCfg K D')} (hU : Rewrites s s' U)
    (hmk : ∀ x e, (∀ l, e = some l → l.length = x.length) → (∃ er, mk x e = .error er ∧ mk' (x.map U) (e.map (List.map V)) = .error er) ∨
      ∃ c c', mk x e = .ok c ∧ mk' (x.map U) (e.map (List.map V)) = .ok c' ∧ CfgLike s s' c c') (bm : BinMethod K) (mp : ℕ) (cen : PyVal) :
    HeterRewritten U V (aleHeter mk s bm mp cen) (aleHeter mk' s' bm mp cen) := by
  intro x e he
  unfold aleHeter
  rw [List.length_map]
  by_cases hf : x.length < mp
  · rw [if_pos hf, if_pos hf]
  rw [if_neg hf, if_neg hf]
  simp only [bind, Except.bind, pure, Except.pure]
  rcases hmk x e he with ⟨er, h1, h2⟩ | ⟨c, c', h1, h2, hl⟩
  · rw [h1, h2]
  · rw [h1, h2]
    simp only []
    have h3 := aleFit_moved hl (st := AleState.init) (st' := AleState.init) ⟨rfl, rfl, rfl⟩ bm cen
    rcases e1 : aleFit c AleState.init (.int (s : ℕ)) bm cen with ⟨q, r⟩
    rcases e2 : aleFit c' AleState.init (.int (s' : ℕ)) bm cen with ⟨q', r'⟩
    rw [e1, e2] at h3
    obtain ⟨ha, rfl⟩ := h3
    cases r with
    | error er => rfl
    | ok u =>
      simp only []
      rw [col_rewrite hU]
      cases listMax (col x s) with
      | error er => rfl
      | ok stop =>
        simp only []
        rw [(aleEval_like hl ha [stop] true (.bool false)).2]

/-- **C128, RegionalALE**: the heterogeneity does not notice that the other columns are rewritten (dropped, moved). -/
theorem C128_ale [PySqrt K] (choice choice' : ℕ → ℕ → List ℕ) (cast : K → K) (hU : Rewrites s s' U) {f : Row K D → K} {f' : Row K D' → K} (hf : ∀ r, f' (U r) = f r) (bm : BinMethod K) (mp : ℕ) (cen : PyVal) :
    HeterRewritten U V (aleHeter (mkAle choice cast (List.map f)) s bm mp cen) (aleHeter (mkAle choice' cast (List.map f')) s' bm mp cen) := by
  refine aleHeter_moved hU (fun x e _ => ?_) bm mp cen
  unfold mkAle
  rw [base_init_all, base_init_all]
  rcases limitsOr_rewrite hU x (l := none) (l' := none) trivial with ⟨er, h1, h2⟩ | ⟨l, l', h1, h2, hlo, hhi⟩
  · rw [h1, h2]
    exact Or.inl ⟨er, rfl, rfl⟩
  · rw [h1, h2]
    exact Or.inr ⟨_, _, rfl, rfl, hlo, hhi, funext fun bm => aleFit_rewrite hU cast hf x hlo hhi bm, rfl, rfl⟩

/-- **C128, RegionalRHALE**: nor does this one, if the derivatives with respect to the feature of interest do not change. -/
theorem C128_rhale [PySqrt K] (choice choice' : ℕ → ℕ → List ℕ) (hU : Rewrites s s' U) {f : Row K D → K} {f' : Row K D' → K} (hf : ∀ r, f' (U r) = f r) {jac : Option (Row K D → Row K D)} {jac' : Option (Row K D' → Row K D')}
    (hj : (∃ j j', jac = some j ∧ jac' = some j' ∧ ∀ r, j' (U r) s' = j r s) ∨ (jac = none ∧ jac' = none)) (hV : ∀ r, V r s' = r s) (bm : BinMethod K) (mp : ℕ) (cen : PyVal) :
    HeterRewritten U V (aleHeter (mkRhale choice (List.map f) (jac.map List.map)) s bm mp cen) (aleHeter (mkRhale choice' (List.map f') (jac'.map List.map)) s' bm mp cen) := by
  refine aleHeter_moved hU (fun x e he => ?_) bm mp cen
  have heff : (rhaleEffects (List.map f) (jac.map List.map) e x).map (· s) =
      (rhaleEffects (List.map f') (jac'.map List.map) (e.map (List.map V)) (x.map U)).map (· s') := by
    cases e with
    | some l =>
      show l.map (· s) = (l.map V).map (· s')
      rw [List.map_map]
      exact List.map_congr_left fun r _ => (hV r).symm
    | none =>
      rcases hj with ⟨j, j', rfl, rfl, h4⟩ | ⟨rfl, rfl⟩
      · show List.map _ (List.map j x) = List.map _ (List.map j' (x.map U))
        rw [List.map_map, List.map_map, List.map_map]
        exact List.map_congr_left fun r _ => (h4 r).symm
      · show List.map _ (computeJacobianNumerically (List.map f) x EPS) = List.map _ (computeJacobianNumerically (List.map f') (x.map U) EPS)
        rw [jacobian_rowwise, jacobian_rowwise, List.map_map, List.map_map, List.map_map]
        refine List.map_congr_left fun r _ => ?_
        simp only [Function.comp]
        have hU' : ∀ r v, U (Function.update r s v) = Function.update (U r) s' v := hU
        rw [rewrites_keep hU, ← hU', hf, hf]
  have hg1 : ∀ l, e = some l → l.length = x.length := he
  have hg2 : ∀ l, e.map (List.map V) = some l → l.length = (x.map U).length := by
    intro l hl
    cases e with
    | none => cases hl
    | some l0 =>
      cases hl
      rw [List.length_map, List.length_map, he l0 rfl]
  unfold mkRhale
  rw [rhaleInit_all _ _ _ _ _ hg1, rhaleInit_all _ _ _ _ _ hg2]
  rcases limitsOr_rewrite hU x (l := none) (l' := none) trivial with ⟨er, h1, h2⟩ | ⟨l, l', h1, h2, hlo, hhi⟩
  · rw [h1, h2]
    exact Or.inl ⟨er, rfl, rfl⟩
  · rw [h1, h2]
    exact Or.inr ⟨_, _, rfl, rfl, hlo, hhi, funext fun bm => rhaleFit_rewrite hU x heff hlo hhi bm, rfl, rfl⟩

/-- **C128, RegionalPDP and RegionalDerPDP**, for any subsampling of the instances (`nof_instances`), the same in both. -/
theorem C128_pdp [PySqrt K] [LawfulSqrt K] (choice : ℕ → ℕ → List ℕ) (hU : Rewrites s s' U) {M : PdpModel K D} {M' : PdpModel K D'} (hM : PdpRewritten s s' U M M') {lo hi : Fin D → K} {lo' hi' : Fin D' → K} (hlo : lo' s' = lo s)
    (hhi : hi' s' = hi s) (mp : ℕ) (hmp : 1 ≤ mp) (cen nof : PyVal) (points : ℕ) (hp : 1 ≤ points) (vec : Bool) :
    HeterRewritten U V (fun x _ => pdpHeter choice id M.kind lo hi s mp cen nof points vec x) (fun x _ => pdpHeter choice id M'.kind lo' hi' s' mp cen nof points vec x) := by
  have hU' : ∀ r v, U (Function.update r s v) = Function.update (U r) s' v := hU
  have hat : ∀ v r, M'.at s' v (U r) = M.at s v r := by
    intro v r
    cases M with
    | pdp f =>
      cases M' with
      | pdp f' => simp only [PdpModel.at, ← hU']; exact hM _
      | derJac j => exact hM.elim
      | derNum f => exact hM.elim
    | derJac j =>
      cases M' with
      | derJac j' => simp only [PdpModel.at, ← hU']; exact hM _
      | pdp f => exact hM.elim
      | derNum f => exact hM.elim
    | derNum f =>
      cases M' with
      | derNum f' =>
        simp only [PdpModel.at, ← hU']
        rw [show f' (U _) = f _ from hM _, show f' (U _) = f _ from hM _]
      | pdp f => exact hM.elim
      | derJac j => exact hM.elim
  intro x e _
  show pdpHeter choice id M'.kind lo' hi' s' mp cen nof points vec (x.map U) = pdpHeter choice id M.kind lo hi s mp cen nof points vec x
  by_cases hfew : x.length < mp
  · unfold pdpHeter
    rw [List.length_map, if_pos hfew, if_pos hfew]
  have hbase : Base.init choice (x.map U) nof (some (lo', hi')) =
      (Base.init choice x nof (some (lo, hi))).map fun B => { data := B.data.map U, indices := B.indices, axisLo := lo', axisHi := hi' } := by
    unfold Base.init
    rw [List.length_map]
    simp only [bind, Except.bind, pure, Except.pure]
    cases prepNofInstances choice nof x.length with
    | error e => rfl
    | ok p =>
      simp only [takeRows_conv]
      cases takeRows x p.2 with
      | error e => rfl
      | ok d => rfl
  cases hb : Base.init choice x nof (some (lo, hi)) with
  | error e =>
    rw [hb] at hbase
    unfold pdpHeter
    rw [List.length_map, if_neg hfew, if_neg hfew, hb, hbase]
    rfl
  | ok B =>
    rw [hb] at hbase
    have hx : x ≠ [] := by
      rintro rfl
      simp only [List.length_nil] at hfew
      omega
    have hc : col x s ≠ [] := by simpa [col] using hx
    obtain ⟨mn, hmn⟩ := listMin_ne hc
    obtain ⟨mx, hmx⟩ := listMax_ne hc
    obtain ⟨v, h1, h2, h3, h4⟩ := pdp_heter_value choice M lo hi s mp cen nof points hp vec x B hb mn mx hmn hmx
    obtain ⟨v', h1', -, h3', h4'⟩ := pdp_heter_value choice M' lo' hi' s' mp cen nof points hp vec (x.map U) _ hbase mn mx
      (by rw [col_rewrite hU]; exact hmn) (by rw [col_rewrite hU]; exact hmx)
    rw [h1, h1']
    rw [List.length_map, hlo, hhi] at h3'
    rw [List.length_map, hlo, hhi] at h4'
    by_cases hbad : x.length < mp ∨ (∃ e, prepCentering cen = .error e) ∨ hi s ≤ lo s
    · rw [h3 hbad, h3' hbad]
    · push Not at hbad
      obtain ⟨-, hcen, hlt⟩ := hbad
      cases hm : prepCentering cen with
      | error e => exact absurd hm (hcen e)
      | ok m =>
        rw [h4 m (by omega) hm hlt, h4' m (by omega) hm hlt]
        have hd : inLimits (B.data.map U) lo' hi' s' = (inLimits B.data lo hi s).map U := by
          unfold inLimits
          rw [List.filter_map]
          congr 1
          apply List.filter_congr
          intro r _
          simp only [Function.comp, rewrites_keep hU, hlo, hhi]
        simp only [hd, List.map_map, Function.comp_def, hat]

theorem rewrites_onlyColumns {ι : Fin D → Fin D'} (hι : Function.Injective ι) (s : Fin D) : Rewrites (ι s) s (onlyColumns (K := K) ι) := by
  intro r v
  funext j
  by_cases h : j = s
  · subst h; simp [onlyColumns]
  · simp [onlyColumns, Function.update_of_ne h, Function.update_of_ne (fun hc => h (hι hc))]

end

section

variable {ι : Fin D → Fin D'} {s : Fin D}

theorem base_init_moved (choice : ℕ → ℕ → List ℕ) (hι : Function.Injective ι) (rows : List (Row K D')) (nof : PyVal) :
    (∃ e, Base.init choice rows nof none = .error e ∧ Base.init choice (rows.map (onlyColumns ι)) nof none = .error e) ∨
    ∃ B' B : Base K _, Base.init choice rows nof none = .ok B' ∧ Base.init choice (rows.map (onlyColumns ι)) nof none = .ok B ∧ B.data = B'.data.map (onlyColumns (K := K) ι) ∧
      B'.axisLo (ι s) = B.axisLo s ∧ B'.axisHi (ι s) = B.axisHi s := by
  unfold Base.init
  rw [List.length_map]
  simp only [bind, Except.bind, pure, Except.pure]
  cases prepNofInstances choice nof rows.length with
  | error e => exact .inl ⟨e, rfl, rfl⟩
  | ok p =>
    simp only [takeRows_conv]
    cases takeRows rows p.2 with
    | error e => exact .inl ⟨e, rfl, rfl⟩
    | ok d =>
      simp only [Except.map]
      rcases limitsOr_rewrite (rewrites_onlyColumns (K := K) hι s) d (l := none) (l' := none) trivial with ⟨e, h1, h2⟩ | ⟨l, l', h1, h2, hlo, hhi⟩
      · simp only [show axisLimitsAll d = .error e from h1, show axisLimitsAll (d.map (onlyColumns ι)) = .error e from h2]
        exact .inl ⟨e, rfl, rfl⟩
      · simp only [show axisLimitsAll d = .ok l from h1, show axisLimitsAll (d.map (onlyColumns ι)) = .ok l' from h2]
        exact .inr ⟨_, _, rfl, rfl, rfl, hlo, hhi⟩

theorem shapInit_moved (choice : ℕ → ℕ → List ℕ) (hι : Function.Injective ι) (rows : List (Row K D')) (nof : PyVal) :
    (∃ e, shapInit choice rows nof none = .error e ∧ shapInit choice (rows.map (onlyColumns ι)) nof none = .error e) ∨
    ∃ B' B : Base K _, shapInit choice rows nof none = .ok B' ∧ shapInit choice (rows.map (onlyColumns ι)) nof none = .ok B ∧ B.data = B'.data.map (onlyColumns (K := K) ι) ∧
      B'.axisLo (ι s) = B.axisLo s ∧ B'.axisHi (ι s) = B.axisHi s := by
  unfold shapInit
  rw [List.length_map]
  simp only [bind, Except.bind]
  cases prepNofInstances choice nof rows.length with
  | error e => exact .inl ⟨e, rfl, rfl⟩
  | ok p =>
    simp only [takeRows_conv]
    cases takeRows rows p.2 with
    | error e => exact .inl ⟨e, rfl, rfl⟩
    | ok d => exact base_init_moved choice hι d nof

/-- The states of two ShapDP objects, as far as the feature is concerned. -/
structure ShapLike (ι : Fin D → Fin D') (s : Fin D) (st : ShapState K D) (st' : ShapState K D') : Prop where
  data : st.data = st'.data.map (onlyColumns ι)
  fe : st.fe s = st'.fe (ι s)
  fitted : st.fitted s = st'.fitted (ι s)
  args : st.args s = st'.args (ι s)

theorem shapFitFeature_moved {ext : ShapExt K D} {ext' : ShapExt K D'} (hx : ShapMoved ι ext ext') {lo hi : Fin D → K} {lo' hi' : Fin D' → K} (hlo : lo' (ι s) = lo s) (hhi : hi' (ι s) = hi s)
    (d : List (Row K D')) (c : Centering) (n : ℕ) :
    shapFitFeature ext lo hi (d.map (onlyColumns ι)) s c n = ((shapFitFeature ext' lo' hi' d (ι s) c n).1.map (onlyColumns ι), (shapFitFeature ext' lo' hi' d (ι s) c n).2) := by
  have hd : dropOutside (d.map (onlyColumns ι)) (lo s) (hi s) s = (dropOutside d (lo' (ι s)) (hi' (ι s)) (ι s)).map (onlyColumns ι) := by
    unfold dropOutside
    rw [hlo, hhi, List.filter_map, List.filter_map]
    rfl
  unfold shapFitFeature
  simp only [hd, hx.explain, hx.spline, col_mv, bind, Except.bind]
  cases ext'.explain (dropOutside d (lo' (ι s)) (hi' (ι s)) (ι s)) with
  | error e => rfl
  | ok v => simp only [Except.map, col_mv]

theorem shapFitLoop_moved {cfg : ShapCfg K D} {cfg' : ShapCfg K D'} (hx : ShapMoved ι cfg.ext cfg'.ext) (hlo : cfg'.axisLo (ι s) = cfg.axisLo s) (hhi : cfg'.axisHi (ι s) = cfg.axisHi s)
    {st : ShapState K D} {st' : ShapState K D'} (h : ShapLike ι s st st') (c : Centering) (n : ℕ) :
    ShapLike ι s (shapFitLoop cfg c n st [s]).1 (shapFitLoop cfg' c n st' [ι s]).1 ∧ (shapFitLoop cfg c n st [s]).2 = (shapFitLoop cfg' c n st' [ι s]).2 := by
  unfold shapFitLoop
  rw [h.data, shapFitFeature_moved hx hlo hhi]
  rcases shapFitFeature cfg'.ext cfg'.axisLo cfg'.axisHi st'.data (ι s) c n with ⟨d, r⟩
  cases r with
  | error e => exact ⟨⟨rfl, h.fe, h.fitted, h.args⟩, rfl⟩
  | ok fe => exact ⟨⟨rfl, by simp [shapFitLoop], by simp [shapFitLoop], by simp [shapFitLoop]⟩, rfl⟩

theorem shapFit_moved {cfg : ShapCfg K D} {cfg' : ShapCfg K D'} (hx : ShapMoved ι cfg.ext cfg'.ext) (hlo : cfg'.axisLo (ι s) = cfg.axisLo s) (hhi : cfg'.axisHi (ι s) = cfg.axisHi s)
    {st : ShapState K D} {st' : ShapState K D'} (h : ShapLike ι s st st') (c : PyVal) (n : ℕ) :
    ShapLike ι s (shapFit cfg st (.int (s : ℕ)) c n).1 (shapFit cfg' st' (.int (ι s : ℕ)) c n).1 ∧ (shapFit cfg st (.int (s : ℕ)) c n).2 = (shapFit cfg' st' (.int (ι s : ℕ)) c n).2 := by
  have hp : prepFeatures (.int (s : ℕ)) D = .ok (.list [(s : ℤ)]) := rfl
  have hp' : prepFeatures (.int (ι s : ℕ)) D' = .ok (.list [(ι s : ℤ)]) := rfl
  unfold shapFit
  rw [hp, hp']
  simp only [bind, Except.bind]
  cases prepCentering c with
  | error e => exact ⟨h, rfl⟩
  | ok c =>
    simp only [resolve_single, pure, Except.pure]
    exact shapFitLoop_moved hx hlo hhi h c n

theorem shapEval_moved {cfg : ShapCfg K D} {cfg' : ShapCfg K D'} (hx : ShapMoved ι cfg.ext cfg'.ext) (hlo : cfg'.axisLo (ι s) = cfg.axisLo s) (hhi : cfg'.axisHi (ι s) = cfg.axisHi s)
    {st : ShapState K D} {st' : ShapState K D'} (h : ShapLike ι s st st') (xs : List K) (het : Bool) (c : PyVal) :
    (shapEval cfg st s xs het c).2 = (shapEval cfg' st' (ι s) xs het c).2 := by
  have hfit : ∀ {q : ShapState K D} {q' : ShapState K D'}, ShapLike ι s q q' → ∀ c, shapEvalFitted cfg q s xs het c = shapEvalFitted cfg' q' (ι s) xs het c := by
    intro q q' hq c
    unfold shapEvalFitted
    rw [hlo, hhi, hq.fe]
  unfold shapEval
  cases prepCentering c with
  | error e => rfl
  | ok c =>
    simp only [h.fitted, h.args]
    cases needsRefit (st'.fitted (ι s)) (st'.args (ι s)) c with
    | error e => rfl
    | ok b =>
      cases b with
      | false => exact hfit h c
      | true =>
        have h3 := shapFitLoop_moved hx hlo hhi h c 100
        rcases e1 : shapFitLoop cfg c 100 st [s] with ⟨q, r⟩
        rcases e2 : shapFitLoop cfg' c 100 st' [ι s] with ⟨q', r'⟩
        rw [e1, e2] at h3
        obtain ⟨ha, rfl⟩ := h3
        cases r with
        | error e => rfl
        | ok u => exact hfit ha c

/-- **C128, RegionalShapDP**: nor does this one, if the explainer gives the columns the same values whether or not it sees the others. -/
theorem C128_shap (choice : ℕ → ℕ → List ℕ) (hι : Function.Injective ι) {ext : ShapExt K D} {ext' : ShapExt K D'} (hx : ShapMoved ι ext ext') (mp : ℕ) (cen nof : PyVal) (points : ℕ) :
    HeterMoved ι (fun x _ => shapHeter choice ext s mp cen nof points x) (fun x _ => shapHeter choice ext' (ι s) mp cen nof points x) := by
  intro x e _
  show shapHeter choice ext s mp cen nof points (x.map (onlyColumns ι)) = shapHeter choice ext' (ι s) mp cen nof points x
  unfold shapHeter
  rw [List.length_map, col_mv]
  by_cases hf : x.length < mp
  · rw [if_pos hf, if_pos hf]
  rw [if_neg hf, if_neg hf]
  simp only [bind, Except.bind]
  cases listMin (col x (ι s)) with
  | error e => rfl
  | ok mn =>
    cases listMax (col x (ι s)) with
    | error e => rfl
    | ok mx =>
      simp only []
      rcases shapInit_moved (s := s) choice hι x nof with ⟨er, h1, h2⟩ | ⟨B', B, h1, h2, h3, h4, h5⟩
      · rw [h1, h2]
      · rw [h1, h2]
        simp only []
        have h6 := shapFit_moved (cfg := { ext := ext, axisLo := B.axisLo, axisHi := B.axisHi }) (cfg' := { ext := ext', axisLo := B'.axisLo, axisHi := B'.axisHi }) hx h4 h5
          (st := ShapState.init B.data) (st' := ShapState.init B'.data) ⟨h3, rfl, rfl, rfl⟩ cen points
        rcases e1 : shapFit { ext := ext, axisLo := B.axisLo, axisHi := B.axisHi } (ShapState.init B.data) (.int (s : ℕ)) cen points with ⟨q, r⟩
        rcases e2 : shapFit { ext := ext', axisLo := B'.axisLo, axisHi := B'.axisHi } (ShapState.init B'.data) (.int (ι s : ℕ)) cen points with ⟨q', r'⟩
        rw [e1, e2] at h6
        obtain ⟨ha, rfl⟩ := h6
        cases r with
        | error e => rfl
        | ok u =>
          simp only []
          rw [shapEval_moved (cfg := { ext := ext, axisLo := B.axisLo, axisHi := B.axisHi }) (cfg' := { ext := ext', axisLo := B'.axisLo, axisHi := B'.axisHi }) hx h4 h5 ha]

end

/-! ### The objects -/

namespace Spec

/-- A model of the larger table that uses only the columns `ι 0, ι 1, ...` (primed), and that model of these columns; its derivatives, given or as a function, if any. -/
structure ModelMoved (ι : Fin D → Fin D') (f : Row K D → K) (f' : Row K D' → K) (jac : Option (Row K D → Row K D)) (jac' : Option (Row K D' → Row K D'))
    (given : Option (List (Row K D))) (given' : Option (List (Row K D'))) : Prop where
  model : ∀ r, f (onlyColumns ι r) = f' r
  jac : (jac = none ∧ jac' = none) ∨ ∃ j j', jac = some j ∧ jac' = some j' ∧ ∀ r, j (onlyColumns ι r) = onlyColumns ι (j' r)
  given : given = given'.map (List.map (onlyColumns ι))

/-- Something said of every column (the types), or left to the library in both cases. -/
def SameColumns {α : Type} (ι : Fin D → Fin D') : Option (Fin D → α) → Option (Fin D' → α) → Prop
  | none, none => True
  | some t, some t' => ∀ j, t' (ι j) = t j
  | _, _ => False

/-- The names of the columns: the given ones, or x_0, x_1, ... -/
def namesOr (names : Option (Fin D → String)) : Fin D → String := names.getD fun j => "x_" ++ toString (j : ℕ)

/-- The same arguments of `fit`, the conditioning features by the numbers they have in the larger table. -/
def fitMoved (ι : Fin D → Fin D') (kw : FitKw K D) : FitKw K D' :=
  { dropThres := kw.dropThres, smallEnough := kw.smallEnough, maxDepth := kw.maxDepth, nofCandidates := kw.nofCandidates, minPoints := kw.minPoints, foc := kw.foc.map (List.map ι),
    splitCat := kw.splitCat, bin := kw.bin, centering := kw.centering, nof := kw.nof, points := kw.points, vec := kw.vec }

end Spec

section

variable {ι : Fin D → Fin D'} {s : Fin D}

/-- Two objects, the second one for the larger table. -/
structure ObjMoved (ι : Fin D → Fin D') (s : Fin D) (o : RegionalObj K D) (o' : RegionalObj K D') : Prop where
  data : o.cfg.data = o'.cfg.data.map (onlyColumns ι)
  effects : o.cfg.instanceEffects = o'.cfg.instanceEffects.map (List.map (onlyColumns ι))
  types : ∀ j, o'.cfg.types (ι j) = o.cfg.types j
  names : ∀ j, o'.cfg.names (ι j) = o.cfg.names j
  fmt : o'.cfg.fmt = o.cfg.fmt
  catLimit : o'.cfg.catLimit = o.cfg.catLimit
  axisLo : o'.axisLo (ι s) = o.axisLo s
  axisHi : o'.axisHi (ι s) = o.axisHi s

theorem featureTypes_moved (data : List (Row K D')) (catLimit : ℕ) (j : Fin D) : getFeatureTypes data catLimit (ι j) = getFeatureTypes (data.map (onlyColumns ι)) catLimit j := by
  unfold getFeatureTypes
  rw [col_mv]

theorem regionalNew_moved [PySqrt K] (bb : BlackBoxes K D) (bb' : BlackBoxes K D') (hch : bb.choice = bb'.choice) (meth : String) (data : List (Row K D')) {given : Option (List (Row K D))} {given' : Option (List (Row K D'))} (hι : Function.Injective ι)
    (hg : meth = "rhale" → rhaleEffects bb.model bb.jac given (data.map (onlyColumns ι)) = (rhaleEffects bb'.model bb'.jac given' data).map (onlyColumns ι))
    (nof : PyVal) {l : Option ((Fin D → K) × (Fin D → K))} {l' : Option ((Fin D' → K) × (Fin D' → K))} (hl : SameLimits (ι s) s l' l) {types : Option (Fin D → FeatType)} {types' : Option (Fin D' → FeatType)} (ht : SameColumns ι types types') (catLimit : ℕ)
    {names : Option (Fin D → String)} {names' : Option (Fin D' → String)} (hn : ∀ j, namesOr names' (ι j) = namesOr names j) (fmt : K → String) {o : RegionalObj K D} {o' : RegionalObj K D'} (ho : regionalNew bb meth (data.map (onlyColumns ι)) given nof l types catLimit names fmt = .ok o)
    (ho' : regionalNew bb' meth data given' nof l' types' catLimit names' fmt = .ok o') : ObjMoved ι s o o' := by
  have hlim := limitsOr_rewrite (rewrites_onlyColumns hι s) data hl
  unfold regionalNew regionalInit at ho ho'
  simp only [bind, Except.bind, pure, Except.pure, hch, List.length_map, takeRows_conv] at ho ho'
  cases hp : prepNofInstances bb'.choice nof data.length with
  | error e => rw [hp] at ho; cases ho
  | ok p =>
    rw [hp] at ho ho'
    dsimp only at ho ho'
    cases hd : takeRows data p.2 with
    | error e => rw [hd] at ho; cases ho
    | ok d =>
      rw [hd] at ho ho'
      simp only [Except.map] at ho ho'
      have hty : ∀ j, (types'.getD (getFeatureTypes data catLimit)) (ι j) = (types.getD (getFeatureTypes (data.map (onlyColumns ι)) catLimit)) j := by
        intro j
        cases types with
        | none =>
          cases types' with
          | none => exact featureTypes_moved data catLimit j
          | some _ => exact ht.elim
        | some t =>
          cases types' with
          | none => exact ht.elim
          | some t' => exact ht j
      have fin : ∀ (E : Option (List (Row K D'))) (A : (Fin D → K) × (Fin D → K)) (A' : (Fin D' → K) × (Fin D' → K)), A.1 s = A'.1 (ι s) → A.2 s = A'.2 (ι s) →
          ∀ (q : RegionalObj K D) (q' : RegionalObj K D'), q'.cfg.data = d → q.cfg.data = d.map (onlyColumns ι) → q'.cfg.instanceEffects = E → q.cfg.instanceEffects = E.map (List.map (onlyColumns ι)) →
          (∀ j, q'.cfg.types (ι j) = q.cfg.types j) → (∀ j, q'.cfg.names (ι j) = q.cfg.names j) → q'.cfg.fmt = q.cfg.fmt → q'.cfg.catLimit = q.cfg.catLimit → q.axisLo = A.1 → q.axisHi = A.2 → q'.axisLo = A'.1 → q'.axisHi = A'.2 → ObjMoved ι s q q' := by
        intro E A A' a1 a2 q q' b1 b2 b3 b4 b5 bn bf b6 b7 b8 b9 b10
        exact ⟨by rw [b1, b2], by rw [b3, b4], b5, bn, bf, b6, by rw [b7, b9, a1], by rw [b8, b10, a2]⟩
      by_cases hm : meth = "rhale"
      · simp only [if_pos hm, regionalRhaleEffects, hg hm, takeRows_conv] at ho ho'
        cases he : takeRows (rhaleEffects bb'.model bb'.jac given' data) p.2 with
        | error e => rw [he] at ho; cases ho
        | ok A =>
          rw [he] at ho ho'
          simp only [Except.map] at ho ho'
          rcases hlim with ⟨e, h2, h1⟩ | ⟨m', m, h2, h1, hlo, hhi⟩
          · cases l with
            | some l => cases h1
            | none => simp only [show axisLimitsAll (data.map (onlyColumns ι)) = .error e from h1] at ho; cases ho
          · cases l with
            | some l =>
              cases l' with
              | none => exact hl.elim
              | some l' =>
                cases h1
                cases h2
                cases ho
                cases ho'
                exact fin (some A) _ _ hlo.symm hhi.symm _ _ rfl rfl rfl rfl hty hn rfl rfl rfl rfl rfl rfl
            | none =>
              cases l' with
              | some l' => exact hl.elim
              | none =>
                simp only [show axisLimitsAll (data.map (onlyColumns ι)) = .ok m from h1] at ho
                simp only [show axisLimitsAll data = .ok m' from h2] at ho'
                cases ho
                cases ho'
                exact fin (some A) _ _ hlo.symm hhi.symm _ _ rfl rfl rfl rfl hty hn rfl rfl rfl rfl rfl rfl
      · simp only [if_neg hm] at ho ho'
        rcases hlim with ⟨e, h2, h1⟩ | ⟨m', m, h2, h1, hlo, hhi⟩
        · cases l with
          | some l => cases h1
          | none => simp only [show axisLimitsAll (data.map (onlyColumns ι)) = .error e from h1] at ho; cases ho
        · cases l with
          | some l =>
            cases l' with
            | none => exact hl.elim
            | some l' =>
              cases h1
              cases h2
              cases ho
              cases ho'
              exact fin none _ _ hlo.symm hhi.symm _ _ rfl rfl rfl rfl hty hn rfl rfl rfl rfl rfl rfl
          | none =>
            cases l' with
            | some l' => exact hl.elim
            | none =>
              simp only [show axisLimitsAll (data.map (onlyColumns ι)) = .ok m from h1] at ho
              simp only [show axisLimitsAll data = .ok m' from h2] at ho'
              cases ho
              cases ho'
              exact fin none _ _ hlo.symm hhi.symm _ _ rfl rfl rfl rfl hty hn rfl rfl rfl rfl rfl rfl

theorem effects_moved {f : Row K D → K} {f' : Row K D' → K} {jac : Option (Row K D → Row K D)} {jac' : Option (Row K D' → Row K D')} {given : Option (List (Row K D))}
    {given' : Option (List (Row K D'))} (h : ModelMoved ι f f' jac jac' given given') (hsrc : jac'.isSome ∨ given'.isSome) (data : List (Row K D')) :
    rhaleEffects (List.map f) (jac.map List.map) given (data.map (onlyColumns ι)) = (rhaleEffects (List.map f') (jac'.map List.map) given' data).map (onlyColumns ι) := by
  rw [h.given]
  cases given' with
  | some e => rfl
  | none =>
    rcases h.jac with ⟨rfl, rfl⟩ | ⟨j, j', rfl, rfl, hj⟩
    · simp at hsrc
    · show List.map j (data.map (onlyColumns ι)) = (List.map j' data).map (onlyColumns ι)
      rw [List.map_map, List.map_map]
      exact List.map_congr_left fun r _ => hj r

theorem regionalHeter_moved [PySqrt K] [LawfulSqrt K] (choice : ℕ → ℕ → List ℕ) (cast : K → K) (ext : ShapExt K D) (ext' : ShapExt K D') (hι : Function.Injective ι) {f : Row K D → K} {f' : Row K D' → K} {jac : Option (Row K D → Row K D)} {jac' : Option (Row K D' → Row K D')}
    {given : Option (List (Row K D))} {given' : Option (List (Row K D'))} (h : ModelMoved ι f f' jac jac' given given') {meth : String} (hmeth : meth ∈ ["rhale", "ale", "shap", "pdp", "d-pdp"])
    (hcast : meth = "pdp" ∨ meth = "d-pdp" → cast = id) (hshap : meth = "shap" → ShapMoved ι ext ext') {o : RegionalObj K D} {o' : RegionalObj K D'} (ho : ObjMoved ι s o o') (hbb : o.cfg.bb = rowBoxes choice cast f jac ext)
    (hbb' : o'.cfg.bb = rowBoxes choice cast f' jac' ext') (hm : o.cfg.methodName = meth) (hm' : o'.cfg.methodName = meth) {kw : FitKw K D} (hmin : 1 ≤ kw.minPoints) (hp : 1 ≤ kw.points) {H : HeterM K D}
    (hH : regionalHeter o kw s = .ok H) : ∃ H', regionalHeter o' (fitMoved ι kw) (ι s) = .ok H' ∧ HeterMoved ι H H' := by
  unfold regionalHeter at hH ⊢
  rw [hbb, hm] at hH
  rw [hbb', hm']
  simp only [bind, Except.bind, pure, Except.pure] at hH ⊢
  by_cases h1 : meth = "rhale"
  · rw [if_pos h1] at hH ⊢
    cases hb : prepBinningMethod kw.bin with
    | error e => rw [hb] at hH; cases hH
    | ok bm =>
      rw [hb] at hH
      cases hH
      rw [show prepBinningMethod (fitMoved ι kw).bin = .ok bm from hb]
      refine ⟨_, rfl, C128_rhale choice choice (rewrites_onlyColumns hι s) h.model ?_ (fun r => rfl) bm _ _⟩
      rcases h.jac with ⟨a, b⟩ | ⟨j, j', a, b, hj⟩
      · exact Or.inr ⟨b, a⟩
      · exact Or.inl ⟨j', j, b, a, fun r => by rw [hj]; rfl⟩
  rw [if_neg h1] at hH ⊢
  by_cases h2 : meth = "ale"
  · rw [if_pos h2] at hH ⊢
    cases hb : prepBinningMethod kw.bin with
    | error e => rw [hb] at hH; cases hH
    | ok bm =>
      rw [hb] at hH
      cases hH
      rw [show prepBinningMethod (fitMoved ι kw).bin = .ok bm from hb]
      exact ⟨_, rfl, C128_ale choice choice cast (rewrites_onlyColumns hι s) h.model bm _ _⟩
  rw [if_neg h2] at hH ⊢
  by_cases h3 : meth = "shap"
  · rw [if_pos h3] at hH ⊢
    cases hH
    rw [show o'.cfg.data.length = o.cfg.data.length by rw [ho.data, List.length_map]]
    exact ⟨_, rfl, C128_shap choice hι (hshap h3) _ _ _ _⟩
  rw [if_neg h3] at hH ⊢
  have hc : cast = id := by
    apply hcast
    simpa [h1, h2, h3] using hmeth
  subst hc
  by_cases h4 : meth = "pdp"
  · rw [if_pos h4] at hH ⊢
    cases hH
    exact ⟨_, rfl, C128_pdp (V := onlyColumns ι) (M := .pdp f') (M' := .pdp f) choice (rewrites_onlyColumns hι s) h.model ho.axisLo.symm ho.axisHi.symm _ hmin _ _ _ hp _⟩
  rw [if_neg h4] at hH ⊢
  rcases h.jac with ⟨rfl, rfl⟩ | ⟨j, j', rfl, rfl, hj⟩
  · cases hH
    exact ⟨_, rfl, C128_pdp (V := onlyColumns ι) (M := .derNum f') (M' := .derNum f) choice (rewrites_onlyColumns hι s) h.model ho.axisLo.symm ho.axisHi.symm _ hmin _ _ _ hp _⟩
  · cases hH
    exact ⟨_, rfl, C128_pdp (V := onlyColumns ι) (M := .derJac j') (M' := .derJac j) choice (rewrites_onlyColumns hι s) (fun r => by rw [hj]; rfl) ho.axisLo.symm ho.axisHi.symm _ hmin _ _ _ hp _⟩

theorem search_moved {o : RegionalObj K D} {o' : RegionalObj K D'} (h : ObjMoved ι s o o') (hal : ∀ l, o'.cfg.instanceEffects = some l → l.length = o'.cfg.data.length) {A : FitArgs K D} {A' : FitArgs K D'}
    {q : List (Fin D)} (h0 : A.foc = some q) (h1 : A'.foc = some (q.map ι)) (h2 : A'.minPoints = A.minPoints) (h3 : A'.nofCandidates = A.nofCandidates) (h4 : A'.maxDepth = A.maxDepth) (h5 : A'.dropThres = A.dropThres)
    (h6 : A'.smallEnough = A.smallEnough) (h7 : A'.splitCat = A.splitCat) : SearchMoved ι (regionsOf o.cfg A s) (regionsOf o'.cfg A' (ι s)) := by
  refine ⟨rfl, h.data, h.effects, hal, h.types, h.names, h.catLimit, ?_, h2, h3, h4, h5, h6, h7⟩
  show A'.foc.getD _ = (A.foc.getD _).map ι
  rw [h1, h0]
  rfl

/-- **C128, the regional classes.**  RegionalRHALE (with given derivatives or a Jacobian), RegionalALE, RegionalShapDP (with an explainer that gives the columns the same values
whether or not it sees the others), RegionalPDP and RegionalDerPDP objects, built for a
table with only the columns `ι 0, ι 1, ...` (in any order) of a larger table, and for the larger table and a model that uses only these columns.  After any two histories whose last fits of the feature have the same arguments, the conditioning features listed explicitly: the same full and pruned
tree, names included. -/
theorem C128_regional_trees [PySqrt K] [LawfulSqrt K] (choice : ℕ → ℕ → List ℕ) (cast : K → K) (ext : ShapExt K D) (ext' : ShapExt K D') (hι : Function.Injective ι) {f : Row K D → K} {f' : Row K D' → K} {jac : Option (Row K D → Row K D)} {jac' : Option (Row K D' → Row K D')}
    {given : Option (List (Row K D))} {given' : Option (List (Row K D'))} (h : ModelMoved ι f f' jac jac' given given') (meth : String) (hmeth : meth ∈ ["rhale", "ale", "shap", "pdp", "d-pdp"])
    (hcast : meth = "pdp" ∨ meth = "d-pdp" → cast = id) (hshap : meth = "shap" → ShapMoved ι ext ext') (hsrc : meth = "rhale" → jac'.isSome ∨ given'.isSome) (data : List (Row K D')) (hlen : ∀ e, given' = some e → e.length = data.length) (nof : PyVal)
    {l : Option ((Fin D → K) × (Fin D → K))} {l' : Option ((Fin D' → K) × (Fin D' → K))} (hl : SameLimits (ι s) s l' l) {types : Option (Fin D → FeatType)} {types' : Option (Fin D' → FeatType)} (ht : SameColumns ι types types') (catLimit : ℕ)
    {names : Option (Fin D → String)} {names' : Option (Fin D' → String)} (hnm : ∀ j, namesOr names' (ι j) = namesOr names j) (fmt : K → String) (o : RegionalObj K D) (o' : RegionalObj K D')
    (ho : regionalNew (rowBoxes choice cast f jac ext) meth (data.map (onlyColumns ι)) given nof l types catLimit names fmt = .ok o)
    (ho' : regionalNew (rowBoxes choice cast f' jac' ext') meth data given' nof l' types' catLimit names' fmt = .ok o') (calls : List (RegCall K D)) (calls' : List (RegCall K D'))
    (kw : FitKw K D) (q : List (Fin D)) (hq : kw.foc = some q)
    (hkw : lastKw o s calls = some kw) (hkw' : lastKw o' (ι s) calls' = some (fitMoved ι kw)) (hp : 1 ≤ kw.points) :
    ∃ t t' u u', (regRunM o calls).treeFull s = some t ∧ (regRunM o' calls').treeFull (ι s) = some t' ∧ TreesMoved ι t t' ∧
      (regRunM o calls).treePruned s = some u ∧ (regRunM o' calls').treePruned (ι s) = some u' ∧ TreesMoved ι u u' := by
  have hn := regionalNew_moved (rowBoxes choice cast f jac ext) (rowBoxes choice cast f' jac' ext') rfl meth data hι
    (fun hm => effects_moved h (hsrc hm) data) nof hl ht catLimit hnm fmt ho ho'
  have el' : (rhaleEffects (List.map f') (jac'.map List.map) given' data).length = data.length := by
    cases given' with
    | some e => exact hlen e rfl
    | none =>
      cases jac' with
      | some j => show (List.map j data).length = _; rw [List.length_map]
      | none => show (computeJacobianNumerically (List.map f') data EPS).length = _; rw [jacobian_rowwise, List.length_map]
  have el : (rhaleEffects (List.map f) (jac.map List.map) given (data.map (onlyColumns ι))).length = (data.map (onlyColumns ι)).length := by
    rw [h.given]
    cases given' with
    | some e => show (e.map (onlyColumns ι)).length = _; rw [List.length_map, List.length_map]; exact hlen e rfl
    | none =>
      cases jac with
      | some j => show (List.map j _).length = _; rw [List.length_map]
      | none => show (computeJacobianNumerically (List.map f) _ EPS).length = _; rw [jacobian_rowwise, List.length_map]
  have hst : ∀ {d' : ℕ} {bb : BlackBoxes K d'} {d : List (Row K d')} {g : Option (List (Row K d'))}, (rhaleEffects bb.model bb.jac g d).length = d.length →
      ∀ e, startEffects bb meth d g = some e → e.length = d.length := by
    intro d' bb d g hl e he
    unfold startEffects at he
    split at he
    · cases he; exact hl
    · cases he
  obtain ⟨c1, c2, c3, -, -, -, -, c8, c9, -⟩ := C81_constructor _ _ _ _ _ _ _ _ _ _ (hst el) o ho
  obtain ⟨d1, d2, d3, -⟩ := C81_constructor _ _ _ _ _ _ _ _ _ _ (hst el') o' ho'
  obtain ⟨-, h2, -⟩ := C81_trees_of_own_search o c1 calls s
  obtain ⟨-, h2', -⟩ := C81_trees_of_own_search o' d1 calls' (ι s)
  obtain ⟨sp, full, t, e1, e2, e3, e4, e5⟩ := h2 kw hkw
  obtain ⟨sp', full', t', e1', e2', e3', e4', e5'⟩ := h2' _ hkw'
  have hmin := (lastKw_fits o s calls kw hkw).2
  have hH : ∃ H, regionalHeter o kw s = .ok H := by
    unfold searchOf at e1
    cases hh : regionalHeter o kw s with
    | error e => rw [hh] at e1; cases e1
    | ok H => exact ⟨H, rfl⟩
  obtain ⟨H, hH⟩ := hH
  obtain ⟨H', hH', hconv⟩ := regionalHeter_moved choice cast ext ext' hι h hmeth hcast hshap hn c2 d2 c3 d3 (by omega) hp hH
  unfold searchOf at e1 e1'
  rw [hH] at e1
  rw [hH'] at e1'
  have hsc : SearchMoved ι (regionsOf o.cfg (kw.toArgs o) s) (regionsOf o'.cfg ((fitMoved ι kw).toArgs o') (ι s)) :=
    search_moved hn (fun l hl => (d1.1 l hl).symm) hq (by show kw.foc.map _ = _; rw [hq]; rfl) rfl rfl rfl rfl rfl rfl
  have hfmt : o'.cfg.fmt = o.cfg.fmt := hn.fmt
  have main : ∀ imp, ∃ a b, splitsToTree (regionsOf o.cfg (kw.toArgs o) s) (posTextOf o.cfg.fmt none) sp imp = .ok a ∧
      splitsToTree (regionsOf o'.cfg ((fitMoved ι kw).toArgs o') (ι s)) (posTextOf o'.cfg.fmt none) sp' imp = .ok b ∧ TreesMoved ι a b := by
    intro imp
    obtain ⟨g1, a, b, g2, g3, g4⟩ := C128_trees hconv hsc e1 (posText := posTextOf o.cfg.fmt none) (posText' := posTextOf o'.cfg.fmt none) (fun j => by rw [hfmt]; rfl) imp
    have : sp' = sp.map (splitsMoved ι) := Except.ok.inj (e1'.symm.trans g1)
    rw [this]
    exact ⟨a, b, g2, g3, g4⟩
  obtain ⟨a, b, g1, g2, g3⟩ := main false
  obtain ⟨a', b', k1, k2, k3⟩ := main true
  rw [e2] at g1
  rw [e2'] at g2
  rw [e3] at k1
  rw [e3'] at k2
  cases g1
  cases g2
  cases k1
  cases k2
  exact ⟨_, _, _, _, e4, e4', g3, e5, e5', k3⟩

end

end Effector
