import Verif.Props.RegionUnits
import Verif.Props.OtherTermsRegional

/-!
# C104: the pruned tree, and the regional classes
-/

set_option linter.unusedSectionVars false

namespace Effector

variable {K : Type} [Field K] [LinearOrder K] [IsStrictOrderedRing K] {D : ℕ}

open Spec

namespace Spec

/-- The same node, with the heterogeneity converted. -/
structure NodeIn (q : K) (nd nd' : Node K D) : Prop where
  idx : nd'.idx = nd.idx
  name : nd'.name = nd.name
  parent : nd'.parent = nd.parent
  level : nd'.level = nd.level
  heterogeneity : nd'.heterogeneity = q * nd.heterogeneity
  weight : nd'.weight = nd.weight
  nofInstances : nd'.nofInstances = nd.nofInstances
  foc : nd'.foc = nd.foc
  typ : nd'.typ = nd.typ
  position : nd'.position = nd.position
  comparison : nd'.comparison = nd.comparison
  rows : nd'.rows = nd.rows

/-- A tree in both units, or none. -/
def TreeIn (q : K) : Option (List (Node K D)) → Option (List (Node K D)) → Prop
  | none, none => True
  | some t, some t' => List.Forall₂ (NodeIn q) t t'
  | _, _ => False

end Spec

/-- The same parent, as far as names and rows are concerned. -/
def ParIn (p p' : ParentInfo K D) : Prop := p'.name = p.name ∧ p'.rows = p.rows

/-- Trees and parents on both sides. -/
def GrowIn (q : K) (st st' : List (Node K D) × List (ParentInfo K D)) : Prop :=
  List.Forall₂ (NodeIn q) st.1 st'.1 ∧ List.Forall₂ ParIn st.2 st'.2

variable {q : K}

theorem addChild_in (tc : TreeCfg K D) (he he' : Bool) (nInit : ℕ) {ps ps' : List (ParentInfo K D)} (hps : List.Forall₂ ParIn ps ps') {sp sp' : Split K D}
    (hsp : SplitIn q sp sp') (level : ℕ) {st st' : List (Node K D) × List (ParentInfo K D)} (hst : GrowIn q st st') (j : ℕ) :
    PyRel (GrowIn q) (addChild tc he nInit ps sp level st j) (addChild tc he' nInit ps' sp' level st' j) := by
  unfold addChild
  simp only [bind, Except.bind, pure, Except.pure]
  have hi := forall2_pyIndex hps (j / 2)
  revert hi
  generalize pyIndex ps (j / 2) = A
  generalize pyIndex ps' (j / 2) = B
  intro hi
  cases A with
  | error e =>
    cases B with
    | error e' => exact hi
    | ok p' => exact hi.elim
  | ok p =>
    cases B with
    | error e' => exact hi.elim
    | ok p' =>
      have hp : ParIn p p' := hi
      simp only [hsp.nofInstances, hsp.feature, hsp.position, hsp.typ, hp.1, hp.2]
      have hh : pyIndex sp'.heterogeneity j = (pyIndex sp.heterogeneity j).map (q * ·) := by
        rw [hsp.heterogeneity]
        unfold pyIndex
        rw [List.getElem?_map]
        cases sp.heterogeneity[j]? <;> rfl
      rw [hh]
      cases pyIndex sp.heterogeneity j with
      | error e => exact rfl
      | ok het =>
        simp only [Except.map]
        cases pyIndex sp.nofInstances j with
        | error e => exact rfl
        | ok nof =>
          simp only []
          unfold addNode getNode
          rcases forall2_find hst.1 (p := fun nd => nd.name == p.name) (q := fun nd => nd.name == p.name)
            (fun a b hab => by rw [hab.name]) with ⟨h1, h2⟩ | ⟨a, b, h1, h2, h3⟩
          · rw [h1, h2]; exact rfl
          · rw [h1, h2]
            refine ⟨?_, ?_⟩
            · refine List.rel_append hst.1 (.cons ⟨?_, rfl, ?_, rfl, rfl, rfl, rfl, rfl, rfl, rfl, rfl, rfl⟩ .nil)
              · exact hst.1.length_eq.symm
              · simp only [h3.idx]
            · exact List.rel_append hst.2 (.cons ⟨rfl, rfl⟩ .nil)

theorem foldlM_in (tc : TreeCfg K D) (he he' : Bool) (nInit : ℕ) {ps ps' : List (ParentInfo K D)} (hps : List.Forall₂ ParIn ps ps') {sp sp' : Split K D}
    (hsp : SplitIn q sp sp') (level : ℕ) (l : List ℕ) {st st' : List (Node K D) × List (ParentInfo K D)} (hst : GrowIn q st st') :
    PyRel (GrowIn q) (l.foldlM (addChild tc he nInit ps sp level) st) (l.foldlM (addChild tc he' nInit ps' sp' level) st') := by
  induction l generalizing st st' with
  | nil => exact hst
  | cons j t ih =>
    have h := addChild_in tc he he' nInit hps hsp level hst j
    simp only [List.foldlM_cons, bind, Except.bind]
    revert h
    generalize addChild tc he nInit ps sp level st j = A
    generalize addChild tc he' nInit ps' sp' level st' j = B
    intro h
    cases A <;> cases B
    · exact h
    · exact h.elim
    · exact h.elim
    · exact ih h

theorem addLevels_in (tc : TreeCfg K D) (he he' : Bool) (nInit : ℕ) {sps sps' : List (Split K D)} (hsps : List.Forall₂ (SplitIn q) sps sps') (level : ℕ)
    {tree tree' : List (Node K D)} (ht : List.Forall₂ (NodeIn q) tree tree') {ps ps' : List (ParentInfo K D)} (hps : List.Forall₂ ParIn ps ps') :
    PyRel (List.Forall₂ (NodeIn q)) (addLevels tc he nInit level tree ps sps) (addLevels tc he' nInit level tree' ps' sps') := by
  induction hsps generalizing level tree tree' ps ps' with
  | nil => exact ht
  | @cons sp sp' t t' hsp _ ih =>
    have h := foldlM_in tc he he' nInit hps hsp level (List.range sp.nofInstances.length) (st := (tree, [])) (st' := (tree', [])) ⟨ht, .nil⟩
    unfold addLevels
    simp only [bind, Except.bind, hsp.nofInstances]
    revert h
    generalize (List.range sp.nofInstances.length).foldlM (addChild tc he nInit ps sp level) (tree, []) = A
    generalize (List.range sp.nofInstances.length).foldlM (addChild tc he' nInit ps' sp' level) (tree', []) = B
    intro h
    cases A <;> cases B
    · exact h
    · exact h.elim
    · exact h.elim
    · exact ih (level + 1) h.1 (forall2_map h.2 fun a b hab => hab)

/-- A search that finds nothing, finds nothing in the other unit. -/
theorem search_none {cfg cfg' : RegCfg K D} (h : OtherUnit q cfg cfg') {s' : Splits K D} (hs : searchAllSplits cfg = .ok none) :
    searchAllSplits cfg' ≠ .ok (some s') := by
  intro hs'
  have hS' := searchAllSplits_ok cfg' h.aligned' s' hs'
  unfold searchAllSplits at hs hs'
  rw [h.types, h.feature, h.splitCat] at hs'
  by_cases hcat : cfg.types cfg.feature = .cat ∧ cfg.splitCat = false
  · rw [if_pos hcat] at hs'; cases hs'
  rw [if_neg hcat] at hs
  by_cases hfoc : cfg.foc.length < cfg.maxLevels
  · rw [if_pos hfoc] at hs; cases hs
  rw [if_neg hfoc] at hs
  simp only [bind, Except.bind, pure, Except.pure] at hs
  -- at least one level is searched
  have hpos : 0 < cfg.maxLevels := by
    have := hS'.depth
    have := List.length_pos_of_ne_nil hS'.nonempty
    rw [h.maxLevels] at *
    omega
  have hbig : cfg.minPoints ≤ cfg.data.length := by
    have := (hS'.level 0 _ (List.getElem?_eq_getElem (List.length_pos_of_ne_nil hS'.nonempty))).2 cfg'.data (by rw [List.take_zero, regions_nil]; simp)
    rwa [h.minPoints, h.data] at this
  obtain ⟨m, hm⟩ : ∃ m, cfg.maxLevels = m + 1 := ⟨cfg.maxLevels - 1, by omega⟩
  rw [hm] at hs
  unfold searchLoop at hs
  rw [if_neg (by simpa using hbig)] at hs
  simp only [bind, Except.bind, pure, Except.pure] at hs
  cases e1 : singleLevelSplits cfg [cfg.data] (cfg.dataEffect.map fun e => [e]) [cfg.heter cfg.data cfg.dataEffect] with
  | error e => rw [e1] at hs; cases hs
  | ok sp =>
    rw [e1] at hs
    simp only [] at hs
    split at hs
    · cases hs
    · rename_i heq
      split at heq
      · cases heq
      · simp only [Except.ok.injEq] at heq
        subst heq
        simp at hs

/-- **C104, the pruned tree.**  Two searches with the same arguments in different units give the same pruned tree (names, rows, conditions, sizes, order), the heterogeneities
converted. -/
theorem C104_pruned_tree {cfg cfg' : RegCfg K D} (hq : 0 < q) (h : OtherUnit q cfg cfg') {sp sp' : Option (Splits K D)} (hs : searchAllSplits cfg = .ok sp)
    (hs' : searchAllSplits cfg' = .ok sp') (hthr : 0 ≤ cfg.dropThres)
    (hb : cfg.heter cfg.data cfg.dataEffect * ((cfg.data.length : K) + 2 ^ cfg.maxLevels) ≤ 100000000)
    (hb' : cfg'.heter cfg'.data cfg'.dataEffect * ((cfg.data.length : K) + 2 ^ cfg.maxLevels) ≤ 100000000) (posText : Fin D → K → String) {t t' : Option (List (Node K D))}
    (ht : splitsToTree cfg posText sp true = .ok t) (ht' : splitsToTree cfg' posText sp' true = .ok t') : TreeIn q t t' := by
  cases sp with
  | none =>
    cases sp' with
    | some s' => exact absurd hs' (search_none h hs)
    | none =>
      cases ht
      cases ht'
      exact trivial
  | some s =>
    cases sp' with
    | none => exact absurd hs (search_none (h.symm hq) hs')
    | some s' =>
      have hS := searchAllSplits_ok cfg h.aligned s hs
      have hS' := searchAllSplits_ok cfg' h.aligned' s' hs'
      have himp := C104_important_splits hq h hs hs' hthr hb hb'
      have hn : s'.nofInit = s.nofInit := by rw [hS.nofInit, hS'.nofInit, h.data]
      by_cases hr : s'.heterInit = q * s.heterInit
      · have hroot : NodeIn q (rootNode cfg s) (rootNode cfg' s') :=
          ⟨rfl, by unfold rootNode; simp only [h.names, h.feature], rfl, rfl, hr, rfl, hn, rfl, rfl, rfl, rfl, h.data⟩
        have := addLevels_in { names := cfg.names, posText := posText } cfg.dataEffect.isSome cfg'.dataEffect.isSome s.nofInit himp 1
          (.cons hroot .nil) (ps := [{ name := cfg.names cfg.feature, rows := cfg.data, effects := cfg.dataEffect }])
          (ps' := [{ name := cfg'.names cfg'.feature, rows := cfg'.data, effects := cfg'.dataEffect }])
          (.cons ⟨by simp only [h.names, h.feature], h.data⟩ .nil)
        unfold splitsToTree at ht ht'
        simp only [bind, Except.bind, pure, Except.pure, if_true] at ht ht'
        rw [hn, show ({ names := cfg'.names, posText := posText } : TreeCfg K D) = { names := cfg.names, posText := posText } by rw [h.names]] at ht'
        revert this ht ht'
        generalize addLevels _ cfg.dataEffect.isSome s.nofInit 1 [rootNode cfg s] _ _ = A
        generalize addLevels _ cfg'.dataEffect.isSome s.nofInit 1 [rootNode cfg' s'] _ _ = B
        intro this ht ht'
        cases A with
        | error e => cases ht
        | ok a =>
          cases B with
          | error e => cases ht'
          | ok b =>
            cases ht
            cases ht'
            exact this
      · -- the whole data set is not admitted
        exfalso
        have hroot := h.heter fun _ => true
        have hr' : subRegion cfg.data cfg'.dataEffect (fun _ => true) = (cfg'.data, cfg'.dataEffect) := by rw [← h.data]; exact subRegion_all h.aligned'
        simp only [subRegion_all h.aligned, hr'] at hroot
        rcases hroot with ⟨r1, r2⟩ | ⟨-, r2, -⟩
        · rw [r1] at hb
          have h1 : 1 ≤ cfg.maxLevels := by
            have := hS.depth
            have := List.length_pos_of_ne_nil hS.nonempty
            omega
          have h2 := pow_le_pow_right₀ (one_le_two (α := K)) h1
          have h3 : (0 : K) ≤ (cfg.data.length : K) := Nat.cast_nonneg _
          norm_num at h2
          have : (100000000 : K) * 2 ≤ 100000000 * ((cfg.data.length : K) + 2 ^ cfg.maxLevels) := mul_le_mul_of_nonneg_left (by linarith) (by norm_num)
          linarith
        · exact hr (by rw [hS.heterInit, hS'.heterInit]; exact r2)

end Effector
