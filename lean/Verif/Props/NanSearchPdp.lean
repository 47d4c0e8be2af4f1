import Verif.Props.NanSearch
import Verif.Props.PerfectRegional
import Verif.Props.RegionalApiExamples

/-!
# C115: RegionalPDP and RegionalDerPDP with predictions that are NaN
-/

set_option linter.unusedSectionVars false

namespace Effector

variable {K : Type} [Field K] [LinearOrder K] [IsStrictOrderedRing K] {D : ℕ}

open Spec

/-- The ICE values of the NaN-free model of a regional object. -/
def regionalKind (bb : BlackBoxes K D) (methodName : String) : PdpKind K D :=
  if methodName = "pdp" then .pdp bb.model
  else match bb.jac with
    | some j => .derJac j
    | none => .derNum bb.model

/-- The heterogeneity of a region is NaN, or what it is for the model without NaN. -/
theorem nPdpHeter_rel [PySqrt K] (choice : ℕ → ℕ → List ℕ) (cast : K → K) {N : NPdpKind K D} {M : PdpKind K D} (h : KindNanOr N M) (lo hi : Fin D → K) (foi : Fin D) (minPoints : ℕ)
    (centering nof : PyVal) (points : ℕ) (vec : Bool) (x : List (Row K D)) :
    NanPyRel NanOr (nPdpHeter choice cast N lo hi foi minPoints centering nof points vec x) (pdpHeter choice cast M lo hi foi minPoints centering nof points vec x) := by
  unfold nPdpHeter pdpHeter
  by_cases hl : x.length < minPoints
  · rw [if_pos hl, if_pos hl]
    exact Or.inr ⟨_, _, rfl, rfl, Or.inr rfl⟩
  rw [if_neg hl, if_neg hl]
  simp only [bind, Except.bind, pure, Except.pure]
  cases Base.init choice x nof (some (lo, hi)) with
  | error e => exact Or.inl ⟨_, rfl, rfl⟩
  | ok b =>
    dsimp only
    have hfit : StateNanOr (nPdpFit { cast := cast, kind := N, axisLo := b.axisLo, axisHi := b.axisHi } (NPdpState.init b.data) (.int (foi : ℕ)) centering points vec).1
          (pdpFit { cast := cast, kind := M, axisLo := b.axisLo, axisHi := b.axisHi } (PdpState.init b.data) (.int (foi : ℕ)) centering points vec).1 ∧
        (nPdpFit { cast := cast, kind := N, axisLo := b.axisLo, axisHi := b.axisHi } (NPdpState.init b.data) (.int (foi : ℕ)) centering points vec).2 =
          (pdpFit { cast := cast, kind := M, axisLo := b.axisLo, axisHi := b.axisHi } (PdpState.init b.data) (.int (foi : ℕ)) centering points vec).2 := by
      have h0 : StateNanOr (NPdpState.init b.data) (PdpState.init b.data) := ⟨rfl, rfl, rfl, fun _ => Or.inl ⟨rfl, rfl⟩⟩
      unfold nPdpFit pdpFit
      cases (do let c ← prepCentering centering
                let f ← prepFeatures (.int (foi : ℕ)) D
                let l ← resolveFeatures D f
                return (l, c) : Py (List (Fin D) × Centering)) with
      | error e => exact ⟨h0, rfl⟩
      | ok q =>
        exact nFitLoop_rel (cfg := { cast := cast, kind := N, axisLo := b.axisLo, axisHi := b.axisHi }) (cfg0 := { cast := cast, kind := M, axisLo := b.axisLo, axisHi := b.axisHi })
          rfl h rfl rfl q.2 points vec q.1 h0
    obtain ⟨hst, hres⟩ := hfit
    generalize nPdpFit { cast := cast, kind := N, axisLo := b.axisLo, axisHi := b.axisHi } (NPdpState.init b.data) (.int (foi : ℕ)) centering points vec = q at hst hres
    generalize pdpFit { cast := cast, kind := M, axisLo := b.axisLo, axisHi := b.axisHi } (PdpState.init b.data) (.int (foi : ℕ)) centering points vec = q0 at hst hres
    obtain ⟨st, r⟩ := q
    obtain ⟨st0, r0⟩ := q0
    dsimp only at hst hres
    subst hres
    cases r with
    | error e => exact Or.inr ⟨_, _, rfl, rfl, Or.inr rfl⟩
    | ok u =>
      dsimp only
      cases listMin (col x foi) with
      | error e => exact Or.inl ⟨_, rfl, rfl⟩
      | ok mn =>
        dsimp only
        cases listMax (col x foi) with
        | error e => exact Or.inl ⟨_, rfl, rfl⟩
        | ok mx =>
          dsimp only
          generalize linspace mn mx 10 = grid
          have := (nEval_rel (cfg := { cast := cast, kind := N, axisLo := b.axisLo, axisHi := b.axisHi }) (cfg0 := { cast := cast, kind := M, axisLo := b.axisLo, axisHi := b.axisHi })
            rfl h rfl rfl hst foi grid true (.bool false) false vec).2
          generalize (nPdpEval { cast := cast, kind := N, axisLo := b.axisLo, axisHi := b.axisHi } st foi grid true (.bool false) false vec).2 = o at this
          generalize (pdpEval { cast := cast, kind := M, axisLo := b.axisLo, axisHi := b.axisHi } st0 foi grid true (.bool false) false vec).2 = o0 at this
          cases o with
          | error e =>
            cases o0 with
            | error e => exact Or.inr ⟨_, _, rfl, rfl, Or.inr rfl⟩
            | ok v => exact this.elim
          | ok v =>
            cases o0 with
            | error e => exact this.elim
            | ok v0 =>
              replace this : OutNanOr v v0 := this
              cases v <;> cases v0 <;> first
                | exact this.elim
                | exact Or.inr ⟨_, _, rfl, rfl, Or.inr rfl⟩
                | exact Or.inr ⟨_, _, rfl, rfl, this.2.mean⟩

/-- **C115 for RegionalPDP and RegionalDerPDP.**  Suppose the model (or the Jacobian) answers like the model of the object `o`, except that some of its outputs are NaN.  If both fits of the feature
return, the important splits with the NaN outputs are the first `k` important splits without them, for some `k`. -/
theorem C115_pdp [PySqrt K] (o : RegionalObj K D) (hm : o.cfg.methodName = "pdp" ∨ o.cfg.methodName = "d-pdp") {N : NPdpKind K D} (hN : KindNanOr N (regionalKind o.cfg.bb o.cfg.methodName))
    (kw : FitKw K D) (f : Fin D) (imp : List (NSplit K D)) (trees : Option (List (Node K D)) × Option (List (Node K D))) (h1 : nRegionalPdpFitOne o N kw f = .ok (imp, trees))
    (st : RegionalState K D) (h2 : (regionalFitOne o kw st f).2 = .ok ()) :
    ∃ r sp k, (regionalFitOne o kw st f).1.splits f = some (r, sp) ∧ imp = ((chooseImportantSplits r sp).take k).map asNSplit := by
  unfold nRegionalPdpFitOne at h1
  simp only [bind, Except.bind, pure, Except.pure] at h1
  rcases e1 : nSearchAllSplits (regionsOf o.cfg (kw.toArgs o) f) (fun x _ => nPdpHeter o.cfg.bb.choice o.cfg.bb.cast N o.axisLo o.axisHi f kw.minPoints kw.centering kw.nof kw.points kw.vec x) with e | sN
  · rw [e1] at h1; cases h1
  rw [e1] at h1
  dsimp only at h1
  rcases e2 : nSplitsToTree (regionsOf o.cfg (kw.toArgs o) f) (posTextOf o.cfg.fmt none) sN false with e | full
  · rw [e2] at h1; cases h1
  rw [e2] at h1
  dsimp only at h1
  rcases e3 : nSplitsToTree (regionsOf o.cfg (kw.toArgs o) f) (posTextOf o.cfg.fmt none) sN true with e | pruned
  · rw [e3] at h1; cases h1
  rw [e3] at h1
  obtain ⟨hi1, -⟩ := Prod.mk.inj (Except.ok.inj h1)
  have hheter : regionalHeter o kw f = .ok fun x _ =>
      pdpHeter o.cfg.bb.choice o.cfg.bb.cast (regionalKind o.cfg.bb o.cfg.methodName) o.axisLo o.axisHi f kw.minPoints kw.centering kw.nof kw.points kw.vec x := by
    unfold regionalHeter regionalKind
    rcases hm with hm | hm
    · rw [hm]; simp only [reduceIte, String.reduceEq]; rfl
    · rw [hm]; simp only [reduceIte, String.reduceEq]; rfl
  unfold regionalFitOne at h2 ⊢
  rw [hheter] at h2 ⊢
  simp only [bind, Except.bind, pure, Except.pure] at h2 ⊢
  rcases e4 : searchAllSplitsM (regionsOf o.cfg (kw.toArgs o) f) (fun x _ =>
      pdpHeter o.cfg.bb.choice o.cfg.bb.cast (regionalKind o.cfg.bb o.cfg.methodName) o.axisLo o.axisHi f kw.minPoints kw.centering kw.nof kw.points kw.vec x) with e | s
  · rw [e4] at h2; cases h2
  rw [e4] at h2
  dsimp only at h2 ⊢
  rcases e5 : splitsToTree (regionsOf o.cfg (kw.toArgs o) f) (posTextOf o.cfg.fmt none) s false with e | full0
  · rw [e5] at h2; cases h2
  rw [e5] at h2
  dsimp only at h2 ⊢
  rcases e6 : splitsToTree (regionsOf o.cfg (kw.toArgs o) f) (posTextOf o.cfg.fmt none) s true with e | pruned0
  · rw [e6] at h2; cases h2
  dsimp only
  obtain ⟨k, hk⟩ := C115_prefix (regionsOf o.cfg (kw.toArgs o) f) (fun x _ => nPdpHeter_rel o.cfg.bb.choice o.cfg.bb.cast hN o.axisLo o.axisHi f kw.minPoints kw.centering kw.nof kw.points kw.vec x) e1 e4
  exact ⟨_, _, k, Function.update_self .., by rw [← hi1, hk]⟩

/-- On a region with an instance whose ICE curve is NaN at one of the ten points, the heterogeneity is NaN, or `BIG_M` if the region is too small or `fit` or `eval` raises. -/
theorem nPdpHeter_nan [PySqrt K] (choice : ℕ → ℕ → List ℕ) (N : NPdpModel K D) (lo hi : Fin D → K) (foi : Fin D) (minPoints : ℕ) (centering : PyVal) (points : ℕ) (vec : Bool)
    (x : List (Row K D)) (r : Row K D) (hr : r ∈ x) (hlo : lo foi ≤ r foi) (hhi : r foi ≤ hi foi) (mn mx : K) (hmn : IsLeast {u | u ∈ x.map (· foi)} mn) (hmx : IsGreatest {u | u ∈ x.map (· foi)} mx)
    (v : K) (hv : v ∈ evenly mn mx 10) (hn : N.nanAt foi v r) :
    ∃ a, nPdpHeter choice id N.kind lo hi foi minPoints centering (.str "all") points vec x = .ok a ∧ (a = none ∨ a = some BIG_M) := by
  unfold nPdpHeter
  by_cases hl : x.length < minPoints
  · rw [if_pos hl]; exact ⟨_, rfl, Or.inr rfl⟩
  rw [if_neg hl]
  have hb := base_init_all choice x (some (lo, hi))
  simp only [limitsOr, Except.bind] at hb
  simp only [bind, Except.bind, pure, Except.pure, hb]
  have hxe : col x foi ≠ [] := by
    intro h
    have : x = [] := by simpa [col] using h
    rw [this] at hr
    cases hr
  obtain ⟨mn', hmn'⟩ := listMin_ne hxe
  obtain ⟨mx', hmx'⟩ := listMax_ne hxe
  have e1 : mn = mn' := le_antisymm (hmn.2 (listMin_least hmn').1) ((listMin_least hmn').2 _ hmn.1)
  have e2 : mx = mx' := le_antisymm ((listMax_greatest hmx').2 _ hmx.1) (hmx.2 (listMax_greatest hmx').1)
  rw [← e1] at hmn'
  rw [← e2] at hmx'
  rw [hmn', hmx']
  dsimp only
  rw [linspace_evenly]
  -- the state after fit
  have hfit : ∀ st, nPdpFit { cast := id, kind := N.kind, axisLo := lo, axisHi := hi } (NPdpState.init x) (.int (foi : ℕ)) centering points vec = (st, .ok ()) →
      st.data = inLimits x lo hi foi ∧ st.fitted foi = true := by
    intro st hst
    unfold nPdpFit at hst
    rcases hp : (do let c ← prepCentering centering
                    let f ← prepFeatures (.int (foi : ℕ)) D
                    let l ← resolveFeatures D f
                    return (l, c) : Py (List (Fin D) × Centering)) with e | q
    · rw [hp] at hst; simp at hst
    · rw [hp] at hst
      dsimp only at hst
      have hq : q.1 = [foi] := by
        cases hc : prepCentering centering with
        | error e => rw [hc] at hp; simp [bind, Except.bind] at hp
        | ok c =>
          rw [hc] at hp
          simp only [bind, Except.bind, prepFeatures, resolveFeatures, pure, Except.pure] at hp
          simp at hp
          rw [← hp]
      rw [hq] at hst
      unfold nPdpFitLoop at hst
      generalize hff : nPdpFitFeature { cast := id, kind := N.kind, axisLo := lo, axisHi := hi } (NPdpState.init x).data foi q.2 points vec = w at hst
      have hd : w.1 = inLimits x lo hi foi := by
        rw [← hff]
        unfold nPdpFitFeature
        exact dropOutside_eq x lo hi foi
      obtain ⟨d, res⟩ := w
      cases res with
      | error e => simp at hst
      | ok nc =>
        dsimp only at hst
        unfold nPdpFitLoop at hst
        obtain ⟨h1, -⟩ := Prod.mk.inj hst
        rw [← h1]
        exact ⟨hd, Function.update_self ..⟩
  generalize nPdpFit { cast := id, kind := N.kind, axisLo := lo, axisHi := hi } (NPdpState.init x) (.int (foi : ℕ)) centering points vec = q at hfit
  obtain ⟨st, res⟩ := q
  cases res with
  | error e => exact ⟨_, rfl, Or.inr rfl⟩
  | ok u =>
    obtain ⟨hd, hf⟩ := hfit st rfl
    dsimp only
    have hne : evenly mn mx 10 ≠ [] := List.ne_nil_of_mem hv
    by_cases hlt : lo foi < hi foi
    · refine ⟨none, ?_, Or.inl rfl⟩
      have hev : (nPdpEval { cast := id, kind := N.kind, axisLo := lo, axisHi := hi } st foi (evenly mn mx 10) true (.bool false) false vec).2 =
          .ok (.meanStd (((evenly mn mx 10).map fun v => (inLimits x lo hi foi).map fun r => nAt N foi v r).map nMean)
            (((evenly mn mx 10).map fun v => (inLimits x lo hi foi).map fun r => nAt N foi v r).map nStd)) := by
        unfold nPdpEval
        have hc : prepCentering (.bool false) = .ok .off := rfl
        rw [hc]
        dsimp only
        rw [hf]
        have hr : needsRefit true (st.args foi) .off = .ok false := rfl
        rw [hr]
        dsimp only
        unfold nPdpEvalFitted
        simp only [hlt, decide_true, pyAssert, if_true, bind, Except.bind, nPredict_rowwise, hd, hne, and_false, if_false, pure, Except.pure, Bool.false_eq_true]
      rw [hev]
      dsimp only
      congr 1
      unfold nMean
      rw [if_neg (by simpa using hne), nanSum_known, if_pos]
      · rfl
      · refine List.mem_map.mpr ⟨_, List.mem_map.mpr ⟨v, hv, rfl⟩, ?_⟩
        unfold nStd
        rw [if_pos]
        refine List.mem_map.mpr ⟨r, List.mem_filter.mpr ⟨hr, by simpa using ⟨hlo, hhi⟩⟩, ?_⟩
        cases N with
        | pdp g => exact hn
        | derJac j => exact hn
        | derNum g =>
          have e : (FD_STEP : K) = 1 / 10 ^ 6 := rfl
          unfold nAt
          dsimp only
          rw [e]
          rcases hn with h1 | h1
          · rw [h1]; rfl
          · rw [h1]
            cases g (Function.update r foi (v + 1 / 10 ^ 6)) <;> rfl
    · refine ⟨some BIG_M, ?_, Or.inr rfl⟩
      have hev : ∃ e, (nPdpEval { cast := id, kind := N.kind, axisLo := lo, axisHi := hi } st foi (evenly mn mx 10) true (.bool false) false vec).2 = .error e := by
        unfold nPdpEval
        have hc : prepCentering (.bool false) = .ok .off := rfl
        rw [hc]
        dsimp only
        rw [hf]
        have hr : needsRefit true (st.args foi) .off = .ok false := rfl
        rw [hr]
        dsimp only
        unfold nPdpEvalFitted
        simp only [hlt, decide_false, pyAssert, bind, Except.bind, Bool.false_eq_true, if_false]
        exact ⟨_, rfl⟩
      obtain ⟨e, he⟩ := hev
      rw [he]

/-- **C115, one instance is enough.**  RegionalPDP or RegionalDerPDP on all the instances (`nof_instances="all"`, row-wise model).  If the ICE curve of a single instance is NaN at one of the ten
points at which the heterogeneity is measured, then `fit`, if it returns, reports no subregion: the pruned tree is the root alone, whatever interactions the model has. -/
theorem C115_one_instance [PySqrt K] (o : RegionalObj K D) (hcast : o.cfg.bb.cast = id) (N : NPdpModel K D) (kw : FitKw K D) (hnof : kw.nof = .str "all") (f : Fin D)
    (r : Row K D) (hr : r ∈ o.cfg.data) (hlo : o.axisLo f ≤ r f) (hhi : r f ≤ o.axisHi f) (mn mx : K) (hmn : IsLeast {u | u ∈ o.cfg.data.map (· f)} mn)
    (hmx : IsGreatest {u | u ∈ o.cfg.data.map (· f)} mx) (v : K) (hv : v ∈ evenly mn mx 10) (hn : N.nanAt f v r) (imp : List (NSplit K D)) (full pruned : Option (List (Node K D)))
    (h : nRegionalPdpFitOne o N.kind kw f = .ok (imp, full, pruned)) :
    imp = [] ∧ ∀ t, pruned = some t → t.map (fun n => (n.idx, n.level, n.rows)) = [(0, 0, o.cfg.data)] := by
  unfold nRegionalPdpFitOne at h
  simp only [bind, Except.bind, pure, Except.pure] at h
  rcases e1 : nSearchAllSplits (regionsOf o.cfg (kw.toArgs o) f) (fun x _ => nPdpHeter o.cfg.bb.choice o.cfg.bb.cast N.kind o.axisLo o.axisHi f kw.minPoints kw.centering kw.nof kw.points kw.vec x) with e | sN
  · rw [e1] at h; cases h
  rw [e1] at h
  dsimp only at h
  rcases e2 : nSplitsToTree (regionsOf o.cfg (kw.toArgs o) f) (posTextOf o.cfg.fmt none) sN false with e | full'
  · rw [e2] at h; cases h
  rw [e2] at h
  dsimp only at h
  rcases e3 : nSplitsToTree (regionsOf o.cfg (kw.toArgs o) f) (posTextOf o.cfg.fmt none) sN true with e | pruned'
  · rw [e3] at h; cases h
  rw [e3] at h
  obtain ⟨hi1, hi2⟩ := Prod.mk.inj (Except.ok.inj h)
  obtain ⟨-, hi3⟩ := Prod.mk.inj hi2
  rw [hcast, hnof] at e1
  obtain ⟨a, ha1, ha2⟩ := nPdpHeter_nan o.cfg.bb.choice N o.axisLo o.axisHi f kw.minPoints kw.centering kw.points kw.vec o.cfg.data r hr hlo hhi mn mx hmn hmx v hv hn
  have himp : nChooseImportantSplits (regionsOf o.cfg (kw.toArgs o) f) sN = [] := nRoot_bad _ _ a ha2 ha1 sN e1
  refine ⟨by rw [← hi1, himp], ?_⟩
  intro t ht
  rw [← hi3] at ht
  subst ht
  unfold nSplitsToTree at e3
  cases sN with
  | none => simp at e3
  | some s =>
    simp only [if_true, himp, List.map_nil, addLevels, bind, Except.bind, pure, Except.pure, Except.ok.injEq, Option.some.injEq] at e3
    rw [← e3]
    rfl

/-! ### Examples -/

/-- The slope of feature 0 is 1 or 3, as feature 1 says. -/
def slopes (r : Row ℚ 3) : ℚ := r 0 + 2 * r 0 * r 1

/-- ... but the model is NaN where feature 2 is not 0. -/
def slopesNan (r : Row ℚ 3) : Option ℚ := if r 2 = 0 then some (slopes r) else none

/-- Six instances, feature 2 is not 0 in the last one. -/
def slopesData : List (Row ℚ 3) := [![0, 0, 0], ![1, 0, 0], ![2, 0, 0], ![0, 1, 0], ![1, 1, 0], ![2, 1, 1]]

/-- The model without NaN. -/
def slopesBB : BlackBoxes ℚ 3 :=
  { cast := id, model := List.map slopes, jac := none, ext := { explain := fun _ => .error .valueError, spline := fun _ => .error .valueError }, choice := fun _ n => List.range n }

/-- The arguments of `fit`; feature 1 is the candidate for conditioning. -/
def slopesKw : FitKw ℚ 3 :=
  { dropThres := 1 / 10, smallEnough := 1 / 10, maxDepth := 1, nofCandidates := 2, minPoints := 2, foc := some [1], splitCat := false, bin := .str "greedy",
    centering := .bool false, nof := .str "all", points := 4, vec := true }

/-- The fit of feature 0 of `RegionalPDP(slopesData, N)`: feature and position of the important splits, and the number of instances of each node of the pruned tree. -/
def slopesFit (N : NPdpModel ℚ 3) : Option (List (Fin 3 × ℚ) × Option (List ℕ)) :=
  match regionalNew slopesBB "pdp" slopesData none (.str "all") none none 3 none (fun q => toString q) with
  | .ok o => match nRegionalPdpFitOne o N.kind slopesKw 0 with
    | .ok (imp, _, pruned) => some (imp.map fun s => (s.feature, s.position), pruned.map (·.map fun n => n.rows.length))
    | .error _ => none
  | .error _ => none

/-- **C115, how much is hidden.**  The model has an interaction that splits perfectly.  With one NaN prediction per grid point (the last of six instances) RegionalPDP reports a single region; without
it the two regions are found. -/
theorem C115_false_pdp :
    slopesFit (.pdp fun r => some (slopes r)) = some ([(1, 0)], some [6, 3, 3]) ∧ slopesFit (.pdp slopesNan) = some ([], some [6]) := by
  refine ⟨?_, ?_⟩ <;> decide +kernel

/-- The hypotheses of `C115_pdp` and `C115_one_instance`: the NaN model answers like the other one or NaN; its ICE curve of the last instance is NaN at the first of the ten points. -/
example : KindNanOr (NPdpModel.pdp slopesNan).kind (regionalKind slopesBB "pdp") ∧ (NPdpModel.pdp slopesNan).nanAt 0 0 (![2, 1, 1] : Row ℚ 3) ∧
    (0 : ℚ) ∈ evenly 0 2 10 ∧ IsLeast {u | u ∈ slopesData.map (· 0)} 0 ∧ IsGreatest {u | u ∈ slopesData.map (· 0)} 2 ∧ (slopesFit (.pdp slopesNan)).isSome = true ∧
    (match regionalNew slopesBB "pdp" slopesData none (.str "all") none none 3 none (fun q => toString q) with
      | .ok o => decide (o.axisLo 0 = 0 ∧ o.axisHi 0 = 2) && (match (regionalFitOne o slopesKw RegionalState.init 0).2 with | .ok _ => true | .error _ => false)
      | .error _ => false) = true := by
  refine ⟨?_, ?_, ?_, ?_, ?_, ?_, ?_⟩
  · intro X
    show List.Forall₂ NanOr (X.map slopesNan) (X.map slopes)
    induction X with
    | nil => exact .nil
    | cons r t ih =>
      refine .cons ?_ ih
      unfold slopesNan
      by_cases h : r 2 = 0
      · rw [if_pos h]; exact Or.inr rfl
      · rw [if_neg h]; exact Or.inl rfl
  · show slopesNan _ = none
    decide +kernel
  · decide +kernel
  · refine ⟨by simp [slopesData], ?_⟩
    intro u hu
    simp [slopesData] at hu
    rcases hu with rfl | rfl | rfl | rfl | rfl | rfl <;> norm_num
  · refine ⟨by simp [slopesData], ?_⟩
    intro u hu
    simp [slopesData] at hu
    rcases hu with rfl | rfl | rfl | rfl | rfl | rfl <;> norm_num
  · decide +kernel
  · decide +kernel

/-- A search whose root is a number: the split on feature 1 is perfect, but a candidate of feature 2 cuts off one instance, for which the heterogeneity is NaN. -/
def cutOffCfg : RegCfg ℚ 3 :=
  { feature := 0, heter := fun _ _ => 0, data := slopesData, dataEffect := none, types := ![.cont, .cat, .cat], names := fun _ => "", catLimit := 3, foc := [1, 2], minPoints := 2, nofSplits := 2,
    maxLevels := 1, dropThres := 1 / 10, smallEnough := 1 / 10, splitCat := false }

/-- 0 on a side of the perfect split, 1 on a mixed region; `one` on a single instance. -/
def cutOffHeter (one : Option ℚ) : HeterN ℚ 3 := fun x _ => .ok (if x.length = 1 then one else if x.all (fun r => decide (r 1 = 0)) || x.all (fun r => decide (r 1 = 1)) then some 0 else some 1)

/-- `C115_hidden` with `l = 0`: its hypotheses and what happens; `C115_prefix`: the NaN-free search finds the perfect split. -/
example : Candidate cutOffCfg.data cutOffCfg.types cutOffCfg.nofSplits 2 0 ∧
    cutOffHeter none (splitRows slopesData 2 0 .cat).2 none = .ok none ∧
    cutOffHeter none slopesData none = .ok (some 1) ∧
    (match nSearchAllSplits cutOffCfg (cutOffHeter none) with
      | .ok (some s) => decide (s.levels.map (fun sp => (sp.feature, sp.position)) = [(2, 0)] ∧ (nChooseImportantSplits cutOffCfg (some s)).length = 0)
      | _ => false) = true ∧
    (match nSearchAllSplits cutOffCfg (cutOffHeter (some 1)) with
      | .ok (some s) => decide ((nChooseImportantSplits cutOffCfg (some s)).map (fun sp => (sp.feature, sp.position, sp.heterogeneity)) = [(1, 0, [some 0, some 0])])
      | _ => false) = true := by
  refine ⟨by show (0 : ℚ) ∈ slopesData.map (· 2); decide +kernel, rfl, rfl, ?_, ?_⟩
  · decide +kernel
  · decide +kernel

end Effector
