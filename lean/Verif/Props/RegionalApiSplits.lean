import Verif.Props.RegionalApiTotal

/-!
# C77, C79 through the public API: what is stored and evaluated after `fit`
-/

set_option linter.unusedSectionVars false

namespace Effector

open Spec

variable {K : Type} [Field K] [LinearOrder K] [IsStrictOrderedRing K] {D : ℕ}

namespace Spec

/-- The feature is not split: there is no tree, or the pruned tree is its root, which holds all instances. -/
def NotSplit (o : RegionalObj K D) (st : RegionalState K D) (f : Fin D) : Prop :=
  st.treePruned f = some none ∨
    ∃ root, st.treePruned f = some (some [root]) ∧ root.idx = 0 ∧ root.rows = o.cfg.data ∧ root.effects = o.cfg.instanceEffects

/-- The feature is split once, by one of the conditioning features `foc`, and both subregions have heterogeneity 0: as the tree says, and as the heterogeneity
function says of their instances. -/
def SplitPerfectly (o : RegionalObj K D) (h : HeterM K D) (foc : List (Fin D)) (st : RegionalState K D) (f : Fin D) : Prop :=
  ∃ root left right g pos, st.treePruned f = some (some [root, left, right]) ∧ g ∈ foc ∧
    root.idx = 0 ∧ left.idx = 1 ∧ right.idx = 2 ∧ root.rows = o.cfg.data ∧
    left.foc = some g ∧ right.foc = some g ∧ left.position = some pos ∧ right.position = some pos ∧
    (left.rows, left.effects) = part g pos (o.cfg.types g) false (o.cfg.data, o.cfg.instanceEffects) ∧
    (right.rows, right.effects) = part g pos (o.cfg.types g) true (o.cfg.data, o.cfg.instanceEffects) ∧
    left.heterogeneity = 0 ∧ right.heterogeneity = 0 ∧ h left.rows left.effects = .ok 0 ∧ h right.rows right.effects = .ok 0

end Spec

/-- No important split: the pruned tree is the root. -/
theorem tree_root (cfg : RegCfg K D) (posText : Fin D → K → String) (s : Splits K D) (hc : chooseImportantSplits cfg (some s) = []) :
    splitsToTree cfg posText (some s) true = .ok (some [rootNode cfg s]) := by
  unfold splitsToTree
  simp only [hc, if_true, addLevels, bind, Except.bind, pure, Except.pure]

theorem tree_three (cfg : RegCfg K D) (heff : EffAligned cfg) (posText : Fin D → K → String) (s : Splits K D) (hs : searchAllSplits cfg = .ok (some s))
    (sp : Split K D) (hc : chooseImportantSplits cfg (some s) = [sp]) (tree : List (Node K D)) (ht : splitsToTree cfg posText (some s) true = .ok (some tree)) :
    tree = [rootNode cfg s,
      heapNode { names := cfg.names, posText := posText } cfg.dataEffect.isSome s.nofInit (rootNode cfg s) sp 0 0,
      heapNode { names := cfg.names, posText := posText } cfg.dataEffect.isSome s.nofInit (rootNode cfg s) sp 0 1] := by
  obtain ⟨-, H⟩ := TreeOf.heap ⟨hs, ht⟩ heff
  have hu : usedSplits cfg true s = [sp] := hc
  rw [hu] at H
  have hl : tree.length = 3 := H.len
  match tree, hl with
  | [a, b, c], _ =>
    have h0 := H.root
    simp only [List.getElem?_cons_zero, Option.some.injEq] at h0
    subst h0
    have n1 : ∀ (nd : Node K D) (i : ℕ), i < 2 → [rootNode cfg s, b, c][i + 1]? = some nd →
        nd = heapNode { names := cfg.names, posText := posText } cfg.dataEffect.isSome s.nofInit (rootNode cfg s) sp 0 i := by
      intro nd i hi hnd
      obtain ⟨par, sp', l, e1, e2, e3, e4, e5, e6⟩ := H.node i nd hnd
      have hl0 : l = 0 := by
        by_contra hne
        rw [List.getElem?_eq_none (by simp; omega)] at e2
        cases e2
      subst hl0
      simp only [List.getElem?_cons_zero, Option.some.injEq] at e2
      subst e2
      have : i / 2 = 0 := by omega
      rw [this] at e1
      simp only [List.getElem?_cons_zero, Option.some.injEq] at e1
      subst e1
      exact e6
    rw [n1 b 0 (by norm_num) rfl, n1 c 1 (by norm_num) rfl]

/-- **C81 with C79, any class.**  If the heterogeneity of all instances is 0 (or could not be computed), the feature is not split. -/
theorem C79_api [PySqrt K] (o : RegionalObj K D) (hc : Constructed o) (calls : List (RegCall K D)) (f : Fin D) (kw : FitKw K D)
    (hkw : lastKw o f calls = some kw)
    (hch : ∀ sp, searchOf o kw f = .ok sp → chooseImportantSplits (regionsOf o.cfg (kw.toArgs o) f) sp = []) :
    NotSplit o (regRunM o calls) f := by
  obtain ⟨sp, full, pruned, h1, -, h2, -, h3⟩ := (C81_trees_of_own_search o hc calls f).2.1 kw hkw
  cases sp with
  | none =>
    cases h2
    exact Or.inl h3
  | some s =>
    have := hch _ h1
    rw [tree_root _ _ _ this] at h2
    cases h2
    exact Or.inr ⟨_, h3, rfl, rfl, rfl⟩

/-- **C81 with C77, any class.**  If the search keeps exactly one split, with heterogeneity 0 on both sides. -/
theorem C77_api [PySqrt K] (o : RegionalObj K D) (hc : Constructed o) (calls : List (RegCall K D)) (f : Fin D) (kw : FitKw K D)
    (hkw : lastKw o f calls = some kw) (h : HeterM K D) (s : Splits K D) (hs : searchOf o kw f = .ok (some s))
    (hsp : ∃ sp, s.levels[0]? = some sp ∧ chooseImportantSplits (regionsOf o.cfg (kw.toArgs o) f) (some s) = [sp] ∧ sp.heterogeneity = [0, 0] ∧
      sp.feature ∈ kw.foc.getD (focAll f) ∧
      ∀ right, h (part sp.feature sp.position (o.cfg.types sp.feature) right (o.cfg.data, o.cfg.instanceEffects)).1
        (part sp.feature sp.position (o.cfg.types sp.feature) right (o.cfg.data, o.cfg.instanceEffects)).2 = .ok 0) :
    SplitPerfectly o h (kw.foc.getD (focAll f)) (regRunM o calls) f := by
  obtain ⟨sp', full, pruned, h1, -, h2, -, h3⟩ := (C81_trees_of_own_search o hc calls f).2.1 kw hkw
  rw [hs] at h1
  cases h1
  obtain ⟨sp, a, b, c, d, e⟩ := hsp
  have hs' := searchOf_ok hs
  obtain ⟨-, -, -, htyp, -⟩ := C41_best_split_at_every_level (regionsOf o.cfg (kw.toArgs o) f) hc.1 s hs' 0 sp a
  cases pruned with
  | none =>
    unfold splitsToTree at h2
    simp only [bind, Except.bind, pure, Except.pure] at h2
    split at h2 <;> cases h2
  | some tree =>
    have ht := tree_three (regionsOf o.cfg (kw.toArgs o) f) hc.1 _ s hs' sp b tree h2
    have htyp' : sp.typ = o.cfg.types sp.feature := htyp
    have hL : ((splitRows o.cfg.data sp.feature sp.position sp.typ).1, o.cfg.instanceEffects.map fun e => (splitEff o.cfg.data e sp.feature sp.position sp.typ).1) =
        part sp.feature sp.position (o.cfg.types sp.feature) false (o.cfg.data, o.cfg.instanceEffects) := by
      unfold part splitRows splitEff
      simp only [goesFirst_iff, htyp']
    have hR : ((splitRows o.cfg.data sp.feature sp.position sp.typ).2, o.cfg.instanceEffects.map fun e => (splitEff o.cfg.data e sp.feature sp.position sp.typ).2) =
        part sp.feature sp.position (o.cfg.types sp.feature) true (o.cfg.data, o.cfg.instanceEffects) := by
      unfold part splitRows splitEff
      simp only [goesSecond_iff, htyp']
    have n0 : ∀ i < 2, ((heapNode { names := (regionsOf o.cfg (kw.toArgs o) f).names, posText := posTextOf o.cfg.fmt none }
        (regionsOf o.cfg (kw.toArgs o) f).dataEffect.isSome s.nofInit (rootNode (regionsOf o.cfg (kw.toArgs o) f) s) sp 0 i).rows,
        (heapNode { names := (regionsOf o.cfg (kw.toArgs o) f).names, posText := posTextOf o.cfg.fmt none }
        (regionsOf o.cfg (kw.toArgs o) f).dataEffect.isSome s.nofInit (rootNode (regionsOf o.cfg (kw.toArgs o) f) s) sp 0 i).effects) =
        part sp.feature sp.position (o.cfg.types sp.feature) (i % 2 == 1) (o.cfg.data, o.cfg.instanceEffects) := by
      intro i hi
      have hi' : i = 0 ∨ i = 1 := by omega
      have eff : (effOf (rootNode (regionsOf o.cfg (kw.toArgs o) f) s)) = o.cfg.instanceEffects := rfl
      have hde : (regionsOf o.cfg (kw.toArgs o) f).dataEffect = o.cfg.instanceEffects := rfl
      have hrr : (rootNode (regionsOf o.cfg (kw.toArgs o) f) s).rows = o.cfg.data := rfl
      rcases hi' with rfl | rfl
      · rw [show ((0 : ℕ) % 2 == 1) = false from rfl, ← hL]
        unfold heapNode
        simp only [eff, hde, hrr]
        cases o.cfg.instanceEffects <;> rfl
      · rw [show ((1 : ℕ) % 2 == 1) = true from rfl, ← hR]
        unfold heapNode
        simp only [eff, hde, hrr]
        cases o.cfg.instanceEffects <;> rfl
    refine ⟨_, _, _, sp.feature, sp.position, by rw [h3, ht], d, rfl, rfl, rfl, rfl, rfl, rfl, rfl, rfl, n0 0 (by norm_num), n0 1 (by norm_num), ?_, ?_, ?_, ?_⟩
    · show sp.heterogeneity.getD 0 0 = 0
      rw [c]; rfl
    · show sp.heterogeneity.getD 1 0 = 0
      rw [c]; rfl
    · have := e false
      rw [show false = ((0 : ℕ) % 2 == 1) from rfl, ← n0 0 (by norm_num)] at this
      exact this
    · have := e true
      rw [show true = ((1 : ℕ) % 2 == 1) from rfl, ← n0 1 (by norm_num)] at this
      exact this

/-! ### C79 for each class -/

/-- **C79 through the API, RegionalRHALE**: all effects of the feature are equal. -/
theorem C79_rhale_api [PySqrt K] [LawfulSqrt K] (o : RegionalObj K D) (hc : Constructed o) (hm : o.cfg.methodName = "rhale") (hne : o.cfg.data ≠ [])
    (e : List (Row K D)) (he : o.cfg.instanceEffects = some e) (calls : List (RegCall K D)) (f : Fin D) (kw : FitKw K D) (hkw : lastKw o f calls = some kw)
    (bm : BinMethod K) (hbin : prepBinningMethod kw.bin = .ok bm) (hbm : PlainMethod bm) (c : K) (hcst : ∀ g ∈ e, g f = c) :
    NotSplit o (regRunM o calls) f := by
  have hmin := (lastKw_fits o f calls kw hkw).2
  refine C79_api o hc calls f kw hkw fun sp hsp => ?_
  refine C79_rhale (regionsOf o.cfg (kw.toArgs o) f) hne e he (hc.1 e he).symm o.cfg.bb.choice o.cfg.bb.model o.cfg.bb.jac bm hbm kw.centering
    (le_trans (by norm_num) hmin) sp ?_ c hcst
  unfold searchOf regionalHeter at hsp
  rw [hm] at hsp
  simp only [if_true, hbin, bind, Except.bind, pure, Except.pure] at hsp
  exact hsp

/-- **C79 through the API, RegionalALE**: the model is additive in the feature on the data. -/
theorem C79_ale_api [PySqrt K] [LawfulSqrt K] (o : RegionalObj K D) (hc : Constructed o) (hm : o.cfg.methodName = "ale") (hne : o.cfg.data ≠ [])
    (he : o.cfg.instanceEffects = none) (F : Row K D → K) (hF : o.cfg.bb.model = List.map F) (calls : List (RegCall K D)) (f : Fin D) (kw : FitKw K D)
    (hkw : lastKw o f calls = some kw) (bm : BinMethod K) (hbin : prepBinningMethod kw.bin = .ok bm) (hbm : PlainMethod bm)
    (g : K → K) (k : Row K D → K) (hadd : ∀ r ∈ o.cfg.data, ∀ v, F (Function.update r f v) = g v + k r) :
    NotSplit o (regRunM o calls) f := by
  have hmin := (lastKw_fits o f calls kw hkw).2
  refine C79_api o hc calls f kw hkw fun sp hsp => ?_
  refine C79_ale (regionsOf o.cfg (kw.toArgs o) f) hne he o.cfg.bb.choice o.cfg.bb.cast F bm hbm kw.centering
    (le_trans (by norm_num) hmin) sp ?_ g k hadd
  unfold searchOf regionalHeter at hsp
  rw [hm] at hsp
  simp only [hbin, hF, bind, Except.bind, pure, Except.pure] at hsp
  exact hsp

/-- **C79 through the API, RegionalPDP**: all ICE curves of the feature coincide (as for a model that does not use the other features). -/
theorem C79_pdp_api [PySqrt K] [LawfulSqrt K] (o : RegionalObj K D) (hc : Constructed o) (hm : o.cfg.methodName = "pdp")
    (hw : AllWithin o.cfg.data o.axisLo o.axisHi) (F : Row K D → K) (hF : o.cfg.bb.model = List.map F) (hcast : o.cfg.bb.cast = id)
    (calls : List (RegCall K D)) (f : Fin D) (kw : FitKw K D) (hkw : lastKw o f calls = some kw) (hnof : kw.nof = .str "all") (hp : 1 ≤ kw.points)
    (G : K → K) (hG : ∀ r ∈ o.cfg.data, ∀ v, F (Function.update r f v) = G v) :
    NotSplit o (regRunM o calls) f := by
  have hmin := (lastKw_fits o f calls kw hkw).2
  refine C79_api o hc calls f kw hkw fun sp hsp => ?_
  refine C79_pdp (regionsOf o.cfg (kw.toArgs o) f) hc.1 o.cfg.bb.choice (.pdp F) o.axisLo o.axisHi hw kw.centering kw.points hp kw.vec
    (le_trans (by norm_num) hmin) sp ?_ G hG
  unfold searchOf regionalHeter at hsp
  rw [hm] at hsp
  simp only [hF, hcast, hnof] at hsp
  exact hsp

/-- **C79 through the API, RegionalDerPDP without Jacobian**: the model is additive in the feature. -/
theorem C79_derpdp_api [PySqrt K] [LawfulSqrt K] (o : RegionalObj K D) (hc : Constructed o) (hm : o.cfg.methodName = "d-pdp")
    (hw : AllWithin o.cfg.data o.axisLo o.axisHi) (F : Row K D → K) (hF : o.cfg.bb.model = List.map F) (hj : o.cfg.bb.jac = none) (hcast : o.cfg.bb.cast = id)
    (calls : List (RegCall K D)) (f : Fin D) (kw : FitKw K D) (hkw : lastKw o f calls = some kw) (hnof : kw.nof = .str "all") (hp : 1 ≤ kw.points)
    (g : K → K) (k : Row K D → K) (hadd : ∀ r ∈ o.cfg.data, ∀ v, F (Function.update r f v) = g v + k r) :
    NotSplit o (regRunM o calls) f := by
  have hmin := (lastKw_fits o f calls kw hkw).2
  refine C79_api o hc calls f kw hkw fun sp hsp => ?_
  refine C79_derpdp_additive (regionsOf o.cfg (kw.toArgs o) f) hc.1 o.cfg.bb.choice F o.axisLo o.axisHi hw kw.centering kw.points hp kw.vec
    (le_trans (by norm_num) hmin) sp ?_ g k hadd
  unfold searchOf regionalHeter at hsp
  rw [hm] at hsp
  simp only [hF, hj, hcast, hnof] at hsp
  exact hsp

/-! ### C77 for each class -/

/-- **C77 through the API, RegionalRHALE** with Greedy bins: some candidate split has constant effects on each side. -/
theorem C77_rhale_api [PySqrt K] [LawfulSqrt K] (o : RegionalObj K D) (hc : Constructed o) (hm : o.cfg.methodName = "rhale")
    (e : List (Row K D)) (he : o.cfg.instanceEffects = some e) (calls : List (RegCall K D)) (f : Fin D) (kw : FitKw K D) (hkw : lastKw o f calls = some kw)
    (n m cl : ℕ) (d : K) (hbin : prepBinningMethod kw.bin = .ok (.greedy n (some m) d cl)) (hn : 1 ≤ n) (hm2 : 2 ≤ m)
    (hcent : ∃ mode, prepCentering kw.centering = .ok mode)
    (s : Splits K D) (hs : searchOf o kw f = .ok (some s))
    (g : Fin D) (hg : g ∈ kw.foc.getD (focAll f)) (pos : K) (hpos : Candidate o.cfg.data o.cfg.types kw.nofCandidates g pos)
    (c : Bool → K) (hcst : ∀ right, ∀ p ∈ o.cfg.data.zip e, OnSide (o.cfg.types g) pos right (p.1 g) → p.2 f = c right)
    (hfit : ∀ right, GreedyPossible (sideValues o.cfg.data g pos (o.cfg.types g) right f) m cl ∧
      kw.minPoints ≤ (sideValues o.cfg.data g pos (o.cfg.types g) right f).length)
    (H : HeterM K D) (hH : regionalHeter o kw f = .ok H)
    (v0 : K) (hv0 : H o.cfg.data o.cfg.instanceEffects = .ok v0) (h0 : 0 < v0) (hbig : v0 ≠ 100000000) (hsmall : kw.smallEnough ≤ v0) (hthres : kw.dropThres < 1) :
    SplitPerfectly o H (kw.foc.getD (focAll f)) (regRunM o calls) f := by
  have hmin := (lastKw_fits o f calls kw hkw).2
  refine C77_api o hc calls f kw hkw H s hs ?_
  have hs' := hs
  unfold searchOf at hs'
  rw [hH] at hs'
  unfold regionalHeter at hH
  rw [hm] at hH
  simp only [if_true, hbin, bind, Except.bind, pure, Except.pure, Except.ok.injEq] at hH
  subst hH
  exact C77_rhale (regionsOf o.cfg (kw.toArgs o) f) e he (hc.1 e he).symm o.cfg.bb.choice o.cfg.bb.model o.cfg.bb.jac n m cl d hn hm2 kw.centering hcent
    (le_trans (by norm_num) hmin) s hs' g hg pos hpos c hcst hfit v0 hv0 h0 hbig hsmall hthres

/-- **C77 through the API, RegionalALE** with Fixed bins: some candidate split makes the model additive in the feature on each side. -/
theorem C77_ale_api [PySqrt K] [LawfulSqrt K] (o : RegionalObj K D) (hc : Constructed o) (hm : o.cfg.methodName = "ale")
    (he : o.cfg.instanceEffects = none) (F : Row K D → K) (hF : o.cfg.bb.model = List.map F) (calls : List (RegCall K D)) (f : Fin D) (kw : FitKw K D)
    (hkw : lastKw o f calls = some kw) (n m cl : ℕ) (hbin : prepBinningMethod kw.bin = .ok (.fixed n (some m) cl)) (hn : 1 ≤ n) (hm2 : 2 ≤ m) (hcl : 1 ≤ cl)
    (hcent : ∃ mode, prepCentering kw.centering = .ok mode)
    (s : Splits K D) (hs : searchOf o kw f = .ok (some s))
    (q : Fin D) (hq : q ∈ kw.foc.getD (focAll f)) (pos : K) (hpos : Candidate o.cfg.data o.cfg.types kw.nofCandidates q pos)
    (g : Bool → K → K) (k : Row K D → K)
    (hadd : ∀ right, ∀ r ∈ o.cfg.data, OnSide (o.cfg.types q) pos right (r q) → ∀ v, F (Function.update r f v) = g right v + k r)
    (lo hi : Bool → K)
    (hlo : ∀ right, IsLeast {v | v ∈ sideValues o.cfg.data q pos (o.cfg.types q) right f} (lo right))
    (hhi : ∀ right, IsGreatest {v | v ∈ sideValues o.cfg.data q pos (o.cfg.types q) right f} (hi right))
    (hfit : ∀ right, FixedPossible (sideValues o.cfg.data q pos (o.cfg.types q) right f) (lo right) (hi right) n m cl ∧
      kw.minPoints ≤ (sideValues o.cfg.data q pos (o.cfg.types q) right f).length)
    (H : HeterM K D) (hH : regionalHeter o kw f = .ok H)
    (v0 : K) (hv0 : H o.cfg.data o.cfg.instanceEffects = .ok v0) (h0 : 0 < v0) (hbig : v0 ≠ 100000000) (hsmall : kw.smallEnough ≤ v0) (hthres : kw.dropThres < 1) :
    SplitPerfectly o H (kw.foc.getD (focAll f)) (regRunM o calls) f := by
  have hmin := (lastKw_fits o f calls kw hkw).2
  refine C77_api o hc calls f kw hkw H s hs ?_
  have hs' := hs
  unfold searchOf at hs'
  rw [hH] at hs'
  unfold regionalHeter at hH
  rw [hm] at hH
  simp only [hbin, hF, bind, Except.bind, pure, Except.pure] at hH
  have hH' : aleHeter (mkAle o.cfg.bb.choice o.cfg.bb.cast (List.map F)) f (.fixed n (some m) cl) kw.minPoints kw.centering = H := by
    have := hH
    simpa using this
  subst hH'
  exact C77_ale (regionsOf o.cfg (kw.toArgs o) f) he o.cfg.bb.choice o.cfg.bb.cast F n m cl hn hm2 hcl kw.centering hcent
    (le_trans (by norm_num) hmin) s hs' q hq pos hpos g k hadd lo hi hlo hhi hfit v0 hv0 h0 hbig hsmall hthres

/-- **C77 through the API, RegionalPDP**: some candidate split makes all ICE curves on each side coincide. -/
theorem C77_pdp_api [PySqrt K] [LawfulSqrt K] (o : RegionalObj K D) (hc : Constructed o) (hm : o.cfg.methodName = "pdp")
    (hw : AllWithin o.cfg.data o.axisLo o.axisHi) (F : Row K D → K) (hF : o.cfg.bb.model = List.map F) (hcast : o.cfg.bb.cast = id)
    (calls : List (RegCall K D)) (f : Fin D) (kw : FitKw K D) (hkw : lastKw o f calls = some kw) (hnof : kw.nof = .str "all") (hp : 1 ≤ kw.points)
    (hlt : o.axisLo f < o.axisHi f) (hcent : ∃ mode, prepCentering kw.centering = .ok mode)
    (s : Splits K D) (hs : searchOf o kw f = .ok (some s))
    (q : Fin D) (hq : q ∈ kw.foc.getD (focAll f)) (pos : K) (hpos : Candidate o.cfg.data o.cfg.types kw.nofCandidates q pos)
    (G : Bool → K → K) (hG : ∀ right, ∀ r ∈ o.cfg.data, OnSide (o.cfg.types q) pos right (r q) → ∀ u, F (Function.update r f u) = G right u)
    (hsize : ∀ right, kw.minPoints ≤ (sideValues o.cfg.data q pos (o.cfg.types q) right f).length)
    (H : HeterM K D) (hH : regionalHeter o kw f = .ok H)
    (v0 : K) (hv0 : H o.cfg.data o.cfg.instanceEffects = .ok v0) (h0 : 0 < v0) (hbig : v0 ≠ 100000000) (hsmall : kw.smallEnough ≤ v0) (hthres : kw.dropThres < 1) :
    SplitPerfectly o H (kw.foc.getD (focAll f)) (regRunM o calls) f := by
  have hmin := (lastKw_fits o f calls kw hkw).2
  refine C77_api o hc calls f kw hkw H s hs ?_
  have hs' := hs
  unfold searchOf at hs'
  rw [hH] at hs'
  unfold regionalHeter at hH
  rw [hm] at hH
  simp only [hF, hcast, hnof] at hH
  have hH' : (fun x _ => pdpHeter o.cfg.bb.choice id (PdpModel.pdp F).kind o.axisLo o.axisHi f kw.minPoints kw.centering (.str "all") kw.points kw.vec x) = H := by
    have := hH
    simpa [pure, Except.pure, PdpModel.kind] using this
  subst hH'
  exact C77_pdp (regionsOf o.cfg (kw.toArgs o) f) hc.1 o.cfg.bb.choice (.pdp F) o.axisLo o.axisHi hw hlt kw.centering hcent kw.points hp kw.vec
    (le_trans (by norm_num) hmin) s hs' q hq pos hpos G hG hsize v0 hv0 h0 hbig hsmall hthres

end Effector
