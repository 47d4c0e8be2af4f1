import Verif.Props.RegionalApiExamples
import Verif.Props.ShapHistory
import Verif.Props.PdpModels
import Verif.Props.Levels
import Verif.Props.AleInvariance
import Verif.Props.Irrelevant
import Verif.Props.Heterogeneity

/-!
# C89: the order of the instances does not matter for regional effects
-/

set_option linter.unusedSectionVars false

namespace Effector

open Spec

variable {K : Type} [Field K] [LinearOrder K] [IsStrictOrderedRing K] {D : ℕ}

/-! ### Regions -/

theorem sameRows_perm {x x' : List (Row K D)} {e e' : Option (List (Row K D))} (h : SameRows x x' e e') : x.Perm x' := by
  cases e with
  | none =>
    cases e' with
    | none => exact h
    | some e' => exact h.elim
  | some e =>
    cases e' with
    | none => exact h.elim
    | some e' =>
      have := h.2.2.map Prod.fst
      rwa [List.map_fst_zip h.1.ge, List.map_fst_zip h.2.1.ge] at this

/-- The rows under a mask, with their effects. -/
theorem masked_rows {x e : List (Row K D)} (hlen : e.length = x.length) (P : Row K D → Bool) :
    ((x.zip e).filter fun p => P p.1).map (·.1) = x.filter P := by
  conv_rhs => rw [← List.map_fst_zip hlen.ge]
  rw [List.filter_map]
  rfl

theorem zip_fst_snd {α β : Type} (l : List (α × β)) : (l.map (·.1)).zip (l.map (·.2)) = l := by
  induction l with
  | nil => rfl
  | cons a t ih => simp [ih]

/-- Masking keeps two sets of instances the same. -/
theorem sameRows_mask {x x' e e' : List (Row K D)} (h : SameRows x x' (some e) (some e')) (P : Row K D → Bool) :
    SameRows (x.filter P) (x'.filter P) (some (((x.zip e).filter fun p => P p.1).map (·.2))) (some (((x'.zip e').filter fun p => P p.1).map (·.2))) := by
  obtain ⟨h1, h2, h3⟩ := h
  rw [← masked_rows h1 P, ← masked_rows h2 P]
  refine ⟨by simp, by simp, ?_⟩
  rw [zip_fst_snd, zip_fst_snd]
  exact h3.filter _

theorem sameRows_self {x x' : List (Row K D)} (h : x.Perm x') : SameRows x x' (some x) (some x') := by
  refine ⟨rfl, rfl, ?_⟩
  have hz : ∀ l : List (Row K D), l.zip l = l.map fun r => (r, r) := fun l => by
    have := zip_map_both l id id
    simpa using this
  rw [hz, hz]
  exact h.map _

/-- One region on both sides. -/
structure Quad (K : Type) (D : ℕ) where
  x : List (Row K D)
  e : List (Row K D)
  x' : List (Row K D)
  e' : List (Row K D)

/-- The regions of a level on both sides: the same instances, at most `n` in each. -/
def Regs (n : ℕ) (xs : List (List (Row K D))) (js : Option (List (List (Row K D)))) (xs' : List (List (Row K D))) (js' : Option (List (List (Row K D)))) : Prop :=
  ∃ L : List (Quad K D), xs = L.map (·.x) ∧ xs' = L.map (·.x') ∧ (∀ q ∈ L, q.x.length ≤ n) ∧
    ((js = none ∧ js' = none ∧ ∀ q ∈ L, SameRows q.x q.x' none none) ∨
      (js = some (L.map (·.e)) ∧ js' = some (L.map (·.e')) ∧ ∀ q ∈ L, SameRows q.x q.x' (some q.e) (some q.e')))

/-- The two parts of a region. -/
def Quad.parts (q : Quad K D) (f : Fin D) (pos : K) (typ : FeatType) : List (Quad K D) :=
  [{ x := (splitRows q.x f pos typ).1, e := (splitEff q.x q.e f pos typ).1, x' := (splitRows q.x' f pos typ).1, e' := (splitEff q.x' q.e' f pos typ).1 },
   { x := (splitRows q.x f pos typ).2, e := (splitEff q.x q.e f pos typ).2, x' := (splitRows q.x' f pos typ).2, e' := (splitEff q.x' q.e' f pos typ).2 }]

theorem Regs.split {n : ℕ} {xs xs' : List (List (Row K D))} {js js' : Option (List (List (Row K D)))} (h : Regs n xs js xs' js') (f : Fin D) (pos : K)
    (typ : FeatType) :
    Regs n (splitAll xs f pos typ) (js.map fun js => splitAllEff xs js f pos typ) (splitAll xs' f pos typ) (js'.map fun js => splitAllEff xs' js f pos typ) := by
  obtain ⟨L, rfl, rfl, hn, h⟩ := h
  refine ⟨L.flatMap fun q => q.parts f pos typ, ?_, ?_, ?_, ?_⟩
  · unfold splitAll; rw [List.flatMap_map, List.map_flatMap]; rfl
  · unfold splitAll; rw [List.flatMap_map, List.map_flatMap]; rfl
  · intro q hq
    obtain ⟨p, hp, hq⟩ := List.mem_flatMap.mp hq
    have := hn p hp
    unfold Quad.parts at hq
    simp only [List.mem_cons, List.not_mem_nil, or_false] at hq
    rcases hq with rfl | rfl
    · exact (List.length_filter_le _ _).trans this
    · exact (List.length_filter_le _ _).trans this
  · rcases h with ⟨rfl, rfl, h⟩ | ⟨rfl, rfl, h⟩
    · refine Or.inl ⟨rfl, rfl, ?_⟩
      intro q hq
      obtain ⟨p, hp, hq⟩ := List.mem_flatMap.mp hq
      have hh : p.x.Perm p.x' := h p hp
      unfold Quad.parts at hq
      simp only [List.mem_cons, List.not_mem_nil, or_false] at hq
      rcases hq with rfl | rfl
      · exact hh.filter _
      · exact hh.filter _
    · refine Or.inr ⟨?_, ?_, ?_⟩
      · simp only [Option.map_some]
        unfold splitAllEff
        rw [zip_map_both, List.flatMap_map, List.map_flatMap]; rfl
      · simp only [Option.map_some]
        unfold splitAllEff
        rw [zip_map_both, List.flatMap_map, List.map_flatMap]; rfl
      · intro q hq
        obtain ⟨p, hp, hq⟩ := List.mem_flatMap.mp hq
        unfold Quad.parts at hq
        simp only [List.mem_cons, List.not_mem_nil, or_false] at hq
        rcases hq with rfl | rfl
        · exact sameRows_mask (h p hp) _
        · exact sameRows_mask (h p hp) _

/-- Two heterogeneity functions that give the same on the same instances. -/
def HeterSame (n : ℕ) (h h' : HeterM K D) : Prop := ∀ x x' e e', SameRows x x' e e' → x.length ≤ n → h x e = h' x' e'

theorem mapM_map_py {α β γ : Type} (l : List α) (g : α → β) (f : β → Py γ) : (l.map g).mapM f = l.mapM fun a => f (g a) := by
  induction l with
  | nil => rfl
  | cons a t ih => simp only [List.map_cons, List.mapM_cons, ih]

theorem Regs.heters {n : ℕ} {h h' : HeterM K D} (hh : HeterSame n h h') {xs xs' : List (List (Row K D))} {js js' : Option (List (List (Row K D)))}
    (hr : Regs n xs js xs' js') : hetersM h xs js = hetersM h' xs' js' := by
  obtain ⟨L, rfl, rfl, hn, hr⟩ := hr
  rcases hr with ⟨rfl, rfl, hr⟩ | ⟨rfl, rfl, hr⟩
  · simp only [hetersM, mapM_map_py]
    exact mapM_congr' fun q hq => hh _ _ _ _ (hr q hq) (hn q hq)
  · simp only [hetersM]
    rw [zip_map_both, zip_map_both, mapM_map_py, mapM_map_py]
    exact mapM_congr' fun q hq => hh _ _ _ _ (hr q hq) (hn q hq)

theorem Regs.lengths {n : ℕ} {xs xs' : List (List (Row K D))} {js js' : Option (List (List (Row K D)))} (hr : Regs n xs js xs' js') :
    xs.map List.length = xs'.map List.length := by
  obtain ⟨L, rfl, rfl, -, hr⟩ := hr
  rw [List.map_map, List.map_map]
  apply List.map_congr_left
  intro q hq
  rcases hr with ⟨-, -, hr⟩ | ⟨-, -, hr⟩
  · exact (sameRows_perm (hr q hq)).length_eq
  · exact (sameRows_perm (hr q hq)).length_eq

theorem splitWeights_lengths {xs xs' : List (List (Row K D))} (h : xs.map List.length = xs'.map List.length) : splitWeights xs = splitWeights xs' := by
  have e : ∀ xs : List (List (Row K D)), splitWeights xs =
      (xs.map List.length).map fun (k : ℕ) => ((k : K) + 1) / ((xs.map List.length).map fun (k : ℕ) => (k : K) + 1).sum := by
    intro xs
    unfold splitWeights
    simp only [List.map_map, Function.comp_def]
  rw [e, e, h]

theorem Regs.candidate {n : ℕ} {h h' : HeterM K D} (hh : HeterSame n h h') {xs xs' : List (List (Row K D))} {js js' : Option (List (List (Row K D)))}
    (hr : Regs n xs js xs' js') (before : List K) (f : Fin D) (pos : K) (typ : FeatType) :
    evalCandidateM h xs js before f pos typ = evalCandidateM h' xs' js' before f pos typ := by
  have h2 := hr.split f pos typ
  unfold evalCandidateM
  simp only [h2.heters hh, splitWeights_lengths h2.lengths]

/-! ### The search -/

/-- Two searches with the same arguments on the same instances (the total heterogeneity function is not used). -/
structure RegSame (r r' : RegCfg K D) : Prop where
  feature : r.feature = r'.feature
  rows : SameRows r.data r'.data r.dataEffect r'.dataEffect
  types : r.types = r'.types
  names : r.names = r'.names
  catLimit : r.catLimit = r'.catLimit
  foc : r.foc = r'.foc
  minPoints : r.minPoints = r'.minPoints
  nofSplits : r.nofSplits = r'.nofSplits
  maxLevels : r.maxLevels = r'.maxLevels
  dropThres : r.dropThres = r'.dropThres
  smallEnough : r.smallEnough = r'.smallEnough
  splitCat : r.splitCat = r'.splitCat

theorem col_perm {x x' : List (Row K D)} (h : x.Perm x') (f : Fin D) : (col x f).Perm (col x' f) := h.map _

theorem listMin_perm {l l' : List K} (h : l.Perm l') : listMin l = listMin l' := listMin_same fun _ => h.mem_iff

theorem listMax_perm {l l' : List K} (h : l.Perm l') : listMax l = listMax l' := listMax_same fun _ => h.mem_iff

theorem RegSame.positions {r r' : RegCfg K D} (h : RegSame r r') : candidatePositions r = candidatePositions r' := by
  have hp := sameRows_perm h.rows
  unfold candidatePositions
  rw [h.foc, h.types, h.nofSplits]
  apply mapM_congr'
  intro f _
  have hc : findPositionsCat r.data f = findPositionsCat r'.data f := npUnique_perm (col_perm hp f)
  have hd : findPositionsCont r.data f r'.nofSplits = findPositionsCont r'.data f r'.nofSplits := by
    unfold findPositionsCont
    rw [listMin_perm (col_perm hp f), listMax_perm (col_perm hp f)]
  rw [hc, hd]

theorem RegSame.level {r r' : RegCfg K D} (h : RegSame r r') {n : ℕ} {H H' : HeterM K D} (hh : HeterSame n H H') {xs xs' : List (List (Row K D))}
    {js js' : Option (List (List (Row K D)))} (hr : Regs n xs js xs' js') (before : List K) :
    singleLevelSplitsM r H xs js before = singleLevelSplitsM r' H' xs' js' before := by
  have hp := sameRows_perm h.rows
  have hrow : ∀ w f typ ps, matrixRowM H w xs js before f typ ps = matrixRowM H' w xs' js' before f typ ps := by
    intro w f typ ps
    unfold matrixRowM
    simp only [hr.candidate hh]
  have hsub : ∀ f pos typ, hetersM H (splitAll xs f pos typ) (js.map fun js => splitAllEff xs js f pos typ) =
      hetersM H' (splitAll xs' f pos typ) (js'.map fun js => splitAllEff xs' js f pos typ) := fun f pos typ => (hr.split f pos typ).heters hh
  have hlen : ∀ f pos typ, (splitAll xs f pos typ).map List.length = (splitAll xs' f pos typ).map List.length := fun f pos typ => (hr.split f pos typ).lengths
  have hmn : ∀ f, listMin (col r.data f) = listMin (col r'.data f) := fun f => listMin_perm (col_perm hp f)
  have hmx : ∀ f, listMax (col r.data f) = listMax (col r'.data f) := fun f => listMax_perm (col_perm hp f)
  unfold singleLevelSplitsM
  simp only [h.positions, h.foc, h.nofSplits, h.catLimit, h.types, hrow, hsub, hlen, hmn, hmx, hr.candidate hh]

theorem RegSame.loop {r r' : RegCfg K D} (h : RegSame r r') {n : ℕ} {H H' : HeterM K D} (hh : HeterSame n H H') (k : ℕ) {xs xs' : List (List (Row K D))}
    {js js' : Option (List (List (Row K D)))} (hr : Regs n xs js xs' js') (before : List K) :
    searchLoopM r H k xs js before = searchLoopM r' H' k xs' js' before := by
  induction k generalizing xs xs' js js' before with
  | zero => rfl
  | succ k ih =>
    have hany : xs.any (fun x => decide (x.length < r.minPoints)) = xs'.any (fun x => decide (x.length < r'.minPoints)) := by
      have e : ∀ (m : ℕ) (xs : List (List (Row K D))), xs.any (fun x => decide (x.length < m)) = (xs.map List.length).any fun k => decide (k < m) := by
        intro m xs
        rw [List.any_map]; rfl
      rw [e, e, hr.lengths, h.minPoints]
    unfold searchLoopM
    rw [hany, h.level hh hr]
    congr 1
    simp only [bind, Except.bind]
    cases singleLevelSplitsM r' H' xs' js' before with
    | error e => rfl
    | ok sp => simp only [ih (hr.split sp.feature sp.position sp.typ)]

theorem RegSame.search {r r' : RegCfg K D} (h : RegSame r r') {n : ℕ} (hn : r.data.length ≤ n) {H H' : HeterM K D} (hh : HeterSame n H H') :
    searchAllSplitsM r H = searchAllSplitsM r' H' := by
  have hr : Regs n [r.data] (r.dataEffect.map fun e => [e]) [r'.data] (r'.dataEffect.map fun e => [e]) := by
    have hs := h.rows
    cases he : r.dataEffect with
    | none =>
      cases he' : r'.dataEffect with
      | some e => rw [he, he'] at hs; exact hs.elim
      | none =>
        rw [he, he'] at hs
        exact ⟨[⟨r.data, [], r'.data, []⟩], rfl, rfl, by simpa using hn, Or.inl ⟨rfl, rfl, by simpa using hs⟩⟩
    | some e =>
      cases he' : r'.dataEffect with
      | none => rw [he, he'] at hs; exact hs.elim
      | some e' =>
        rw [he, he'] at hs
        exact ⟨[⟨r.data, e, r'.data, e'⟩], rfl, rfl, by simpa using hn, Or.inr ⟨rfl, rfl, by simpa using hs⟩⟩
  unfold searchAllSplitsM
  rw [hh _ _ _ _ h.rows hn, h.feature, h.types, h.splitCat, h.foc, h.maxLevels, (sameRows_perm h.rows).length_eq]
  simp only [h.loop hh _ hr]

/-! ### The trees -/

namespace Spec

/-- Two nodes that differ only in the order of their instances. -/
structure SameNode (nd nd' : Node K D) : Prop where
  idx : nd.idx = nd'.idx
  name : nd.name = nd'.name
  parent : nd.parent = nd'.parent
  level : nd.level = nd'.level
  heterogeneity : nd.heterogeneity = nd'.heterogeneity
  weight : nd.weight = nd'.weight
  nofInstances : nd.nofInstances = nd'.nofInstances
  foc : nd.foc = nd'.foc
  typ : nd.typ = nd'.typ
  position : nd.position = nd'.position
  comparison : nd.comparison = nd'.comparison
  rows : SameRows nd.rows nd'.rows nd.effects nd'.effects

end Spec

/-- `SameNode`, with at most `n` instances. -/
def NodeOk (n : ℕ) (nd nd' : Node K D) : Prop := SameNode nd nd' ∧ nd.rows.length ≤ n

/-- Same parent information; the effects matter only if there are some. -/
structure ParSame (n : ℕ) (hasEff : Bool) (p p' : ParentInfo K D) : Prop where
  name : p.name = p'.name
  rows : p.rows.Perm p'.rows
  few : p.rows.length ≤ n
  effects : hasEff = true → SameRows p.rows p'.rows p.effects p'.effects

/-- Related results, or the same exception. -/
def PyRel {α β : Type} (R : α → β → Prop) : Py α → Py β → Prop
  | .error e, .error e' => e = e'
  | .ok a, .ok b => R a b
  | _, _ => False

theorem forall2_getElem? {α β : Type} {R : α → β → Prop} {l : List α} {l' : List β} (h : List.Forall₂ R l l') (i : ℕ) :
    (l[i]? = none ∧ l'[i]? = none) ∨ ∃ a b, l[i]? = some a ∧ l'[i]? = some b ∧ R a b := by
  induction h generalizing i with
  | nil => exact Or.inl ⟨by simp, by simp⟩
  | cons hab _ ih =>
    cases i with
    | zero => exact Or.inr ⟨_, _, rfl, rfl, hab⟩
    | succ i => simpa using ih i

theorem forall2_pyIndex {α β : Type} {R : α → β → Prop} {l : List α} {l' : List β} (h : List.Forall₂ R l l') (i : ℕ) :
    PyRel R (pyIndex l i) (pyIndex l' i) := by
  unfold pyIndex
  rcases forall2_getElem? h i with ⟨h1, h2⟩ | ⟨a, b, h1, h2, h3⟩
  · rw [h1, h2]; exact rfl
  · rw [h1, h2]; exact h3

theorem forall2_find {α β : Type} {R : α → β → Prop} {l : List α} {l' : List β} (h : List.Forall₂ R l l') {p : α → Bool} {q : β → Bool}
    (hp : ∀ a b, R a b → p a = q b) : (l.find? p = none ∧ l'.find? q = none) ∨ ∃ a b, l.find? p = some a ∧ l'.find? q = some b ∧ R a b := by
  induction h with
  | nil => exact Or.inl ⟨rfl, rfl⟩
  | @cons a b l l' hab _ ih =>
    have e := hp a b hab
    cases hq : q b with
    | true => exact Or.inr ⟨a, b, by simp [List.find?, e, hq], by simp [List.find?, hq], hab⟩
    | false => simpa [List.find?, e, hq] using ih

/-- Trees and parents on both sides. -/
def GrowSame (n : ℕ) (hasEff : Bool) (st st' : List (Node K D) × List (ParentInfo K D)) : Prop :=
  List.Forall₂ (NodeOk n) st.1 st'.1 ∧ List.Forall₂ (ParSame n hasEff) st.2 st'.2

/-- The rows of a child. -/
def childRows (x : List (Row K D)) (sp : Split K D) (j : ℕ) : List (Row K D) :=
  if j % 2 = 0 then (splitRows x sp.feature sp.position sp.typ).1 else (splitRows x sp.feature sp.position sp.typ).2

/-- The effects of a child. -/
def childEff (hasEff : Bool) (x : List (Row K D)) (e : Option (List (Row K D))) (sp : Split K D) (j : ℕ) : Option (List (Row K D)) :=
  (if hasEff then e.map fun e => splitEff x e sp.feature sp.position sp.typ else none).map fun p => if j % 2 = 0 then p.1 else p.2

theorem child_same {n : ℕ} {hasEff : Bool} {p p' : ParentInfo K D} (h : ParSame n hasEff p p') (sp : Split K D) (j : ℕ) :
    SameRows (childRows p.rows sp j) (childRows p'.rows sp j) (childEff hasEff p.rows p.effects sp j) (childEff hasEff p'.rows p'.effects sp j) ∧
      (childRows p.rows sp j).length ≤ n := by
  have hperm : (childRows p.rows sp j).Perm (childRows p'.rows sp j) := by
    unfold childRows splitRows
    split_ifs
    · exact h.rows.filter _
    · exact h.rows.filter _
  have hlen : (childRows p.rows sp j).length ≤ n := by
    unfold childRows splitRows
    split_ifs
    · exact (List.length_filter_le _ _).trans h.few
    · exact (List.length_filter_le _ _).trans h.few
  refine ⟨?_, hlen⟩
  cases hasEff with
  | false => exact hperm
  | true =>
    have he := h.effects rfl
    cases h1 : p.effects with
    | none =>
      cases h2 : p'.effects with
      | none => exact hperm
      | some e' => rw [h1, h2] at he; exact he.elim
    | some e =>
      cases h2 : p'.effects with
      | none => rw [h1, h2] at he; exact he.elim
      | some e' =>
        rw [h1, h2] at he
        unfold childRows childEff splitRows splitEff
        simp only [if_true, Option.map_some]
        split_ifs
        · exact sameRows_mask he _
        · exact sameRows_mask he _

theorem addChild_same {n : ℕ} {hasEff : Bool} (tc : TreeCfg K D) (nInit : ℕ) {ps ps' : List (ParentInfo K D)} (hps : List.Forall₂ (ParSame n hasEff) ps ps')
    (sp : Split K D) (level : ℕ) {st st' : List (Node K D) × List (ParentInfo K D)} (hst : GrowSame n hasEff st st') (j : ℕ) :
    PyRel (GrowSame n hasEff) (addChild tc hasEff nInit ps sp level st j) (addChild tc hasEff nInit ps' sp level st' j) := by
  unfold addChild
  simp only [bind, Except.bind, pure, Except.pure]
  have hi := forall2_pyIndex hps (j / 2)
  cases e1 : pyIndex ps (j / 2) with
  | error e =>
    cases e2 : pyIndex ps' (j / 2) with
    | error e' => rw [e1, e2] at hi; exact hi
    | ok p' => rw [e1, e2] at hi; exact hi.elim
  | ok p =>
    cases e2 : pyIndex ps' (j / 2) with
    | error e' => rw [e1, e2] at hi; exact hi.elim
    | ok p' =>
      rw [e1, e2] at hi
      have hp : ParSame n hasEff p p' := hi
      simp only []
      cases pyIndex sp.heterogeneity j with
      | error e => exact rfl
      | ok het =>
        simp only []
        cases pyIndex sp.nofInstances j with
        | error e => exact rfl
        | ok nof =>
          simp only []
          obtain ⟨hc, hcn⟩ := child_same hp sp j
          have hc1 := (sameRows_perm hc).length_eq
          unfold addNode getNode
          rcases forall2_find hst.1 (p := fun nd => nd.name == p.name) (q := fun nd => nd.name == p'.name)
            (fun a b hab => by rw [hab.1.name, hp.name]) with ⟨h1, h2⟩ | ⟨a, b, h1, h2, h3⟩
          · rw [h1, h2]; exact rfl
          · rw [h1, h2]
            refine ⟨?_, ?_⟩
            · refine List.rel_append hst.1 (.cons ⟨⟨?_, ?_, ?_, rfl, rfl, ?_, rfl, rfl, rfl, rfl, rfl, hc⟩, hcn⟩ .nil)
              · exact hst.1.length_eq
              · simp only [hp.name]
              · simp only [h3.1.idx]
              · show ((childRows p.rows sp j).length : K) / _ = ((childRows p'.rows sp j).length : K) / _
                rw [hc1]
            · refine List.rel_append hst.2 (.cons ⟨?_, sameRows_perm hc, hcn, fun _ => hc⟩ .nil)
              simp only [hp.name]

theorem foldlM_same {n : ℕ} {hasEff : Bool} (tc : TreeCfg K D) (nInit : ℕ) {ps ps' : List (ParentInfo K D)} (hps : List.Forall₂ (ParSame n hasEff) ps ps')
    (sp : Split K D) (level : ℕ) (l : List ℕ) {st st' : List (Node K D) × List (ParentInfo K D)} (hst : GrowSame n hasEff st st') :
    PyRel (GrowSame n hasEff) (l.foldlM (addChild tc hasEff nInit ps sp level) st) (l.foldlM (addChild tc hasEff nInit ps' sp level) st') := by
  induction l generalizing st st' with
  | nil => exact hst
  | cons j t ih =>
    have h := addChild_same tc nInit hps sp level hst j
    simp only [List.foldlM_cons, bind, Except.bind]
    cases e1 : addChild tc hasEff nInit ps sp level st j with
    | error e =>
      cases e2 : addChild tc hasEff nInit ps' sp level st' j with
      | error e' => rw [e1, e2] at h; exact h
      | ok q => rw [e1, e2] at h; exact h.elim
    | ok q =>
      cases e2 : addChild tc hasEff nInit ps' sp level st' j with
      | error e' => rw [e1, e2] at h; exact h.elim
      | ok q' =>
        rw [e1, e2] at h
        exact ih h

theorem addLevels_same {n : ℕ} {hasEff : Bool} (tc : TreeCfg K D) (nInit : ℕ) (sps : List (Split K D)) (level : ℕ) {tree tree' : List (Node K D)}
    (ht : List.Forall₂ (NodeOk n) tree tree') {ps ps' : List (ParentInfo K D)} (hps : List.Forall₂ (ParSame n hasEff) ps ps') :
    PyRel (List.Forall₂ (NodeOk n)) (addLevels tc hasEff nInit level tree ps sps) (addLevels tc hasEff nInit level tree' ps' sps) := by
  induction sps generalizing level tree tree' ps ps' with
  | nil => exact ht
  | cons sp t ih =>
    have h := foldlM_same tc nInit hps sp level (List.range sp.nofInstances.length) (st := (tree, [])) (st' := (tree', [])) ⟨ht, .nil⟩
    unfold addLevels
    simp only [bind, Except.bind]
    cases e1 : (List.range sp.nofInstances.length).foldlM (addChild tc hasEff nInit ps sp level) (tree, []) with
    | error e =>
      cases e2 : (List.range sp.nofInstances.length).foldlM (addChild tc hasEff nInit ps' sp level) (tree', []) with
      | error e' => rw [e1, e2] at h; exact h
      | ok q => rw [e1, e2] at h; exact h.elim
    | ok q =>
      cases e2 : (List.range sp.nofInstances.length).foldlM (addChild tc hasEff nInit ps' sp level) (tree', []) with
      | error e' => rw [e1, e2] at h; exact h.elim
      | ok q' =>
        rw [e1, e2] at h
        refine ih (level + 1) h.1 ?_
        exact forall2_map h.2 fun a b hab => ⟨hab.name, hab.rows, hab.few, fun _ => sameRows_self hab.rows⟩

theorem important_same {r r' : RegCfg K D} (h : RegSame r r') (sp : Option (Splits K D)) : chooseImportantSplits r sp = chooseImportantSplits r' sp := by
  unfold chooseImportantSplits
  rw [h.smallEnough, h.dropThres]

/-- A tree on each side, or none on both. -/
def TreeSame (n : ℕ) : Option (List (Node K D)) → Option (List (Node K D)) → Prop
  | none, none => True
  | some t, some t' => List.Forall₂ (NodeOk n) t t'
  | _, _ => False

theorem tree_same {r r' : RegCfg K D} (h : RegSame r r') {n : ℕ} (hn : r.data.length ≤ n) (txt : Fin D → K → String) (sp : Option (Splits K D)) (b : Bool) :
    PyRel (TreeSame n) (splitsToTree r txt sp b) (splitsToTree r' txt sp b) := by
  cases sp with
  | none => exact trivial
  | some s =>
    have hsome : r.dataEffect.isSome = r'.dataEffect.isSome := by
      have hs := h.rows
      cases he : r.dataEffect <;> cases he' : r'.dataEffect <;> rw [he, he'] at hs <;> first | rfl | exact hs.elim
    have hroot : NodeOk n (rootNode r s) (rootNode r' s) :=
      ⟨⟨rfl, by unfold rootNode; simp only [h.names, h.feature], rfl, rfl, rfl, rfl, rfl, rfl, rfl, rfl, rfl, h.rows⟩, hn⟩
    have hpar : ParSame n r'.dataEffect.isSome { name := r.names r.feature, rows := r.data, effects := r.dataEffect }
        { name := r'.names r'.feature, rows := r'.data, effects := r'.dataEffect } :=
      ⟨by simp only [h.names, h.feature], sameRows_perm h.rows, hn, fun _ => h.rows⟩
    have := addLevels_same { names := r'.names, posText := txt } s.nofInit (if b then chooseImportantSplits r' (some s) else s.levels) 1
      (.cons hroot .nil) (.cons hpar .nil)
    unfold splitsToTree
    simp only [bind, Except.bind, pure, Except.pure]
    rw [important_same h, hsome, show ({ names := r.names, posText := txt } : TreeCfg K D) = { names := r'.names, posText := txt } by rw [h.names]]
    revert this
    generalize addLevels _ r'.dataEffect.isSome s.nofInit 1 [rootNode r s] _ _ = A
    generalize addLevels _ r'.dataEffect.isSome s.nofInit 1 [rootNode r' s] _ _ = B
    intro this
    cases A <;> cases B
    · exact this
    · exact this.elim
    · exact this.elim
    · exact this

/-! ### The heterogeneity functions -/

/-- ALE objects on the same rows fit alike. -/
theorem mkAle_same (choice : ℕ → ℕ → List ℕ) (cast : K → K) (g : Row K D → K) {x x' : List (Row K D)} (h : x.Perm x') (e e' : Option (List (Row K D))) :
    mkAle choice cast (List.map g) x e = mkAle choice cast (List.map g) x' e' := by
  unfold mkAle
  rw [base_init_all, base_init_all, limitsOr_perm h]
  cases limitsOr x' none with
  | error e => rfl
  | ok l =>
    simp only [Except.bind, bind, pure, Except.pure]
    congr 1
    unfold aleCfg
    congr 1
    funext t bm
    exact aleFitFeature_congr bm (h.filter _)

theorem effects_same (g : Row K D → K) (jac : Option (Row K D → Row K D)) {x x' : List (Row K D)} {e e' : Option (List (Row K D))}
    (h : SameRows x x' e e') :
    SameRows x x' (some (rhaleEffects (List.map g) (jac.map List.map) e x)) (some (rhaleEffects (List.map g) (jac.map List.map) e' x')) := by
  cases e with
  | none =>
    cases e' with
    | none =>
      obtain ⟨φ, hφ⟩ := rhaleEffects_rowwise g jac
      refine ⟨by rw [hφ]; simp, by rw [hφ]; simp, ?_⟩
      rw [hφ, hφ, zip_self_map, zip_self_map]
      exact (sameRows_perm h).map _
    | some e' => exact h.elim
  | some e =>
    cases e' with
    | none => exact h.elim
    | some e' => cases jac <;> exact h

/-- RHALE objects on the same rows fit alike. -/
theorem mkRhale_same (choice : ℕ → ℕ → List ℕ) (g : Row K D → K) (jac : Option (Row K D → Row K D)) {x x' : List (Row K D)} {e e' : Option (List (Row K D))}
    (h : SameRows x x' e e') :
    mkRhale choice (List.map g) (jac.map List.map) x e = mkRhale choice (List.map g) (jac.map List.map) x' e' := by
  have hg : ∀ w, e = some w → w.length = x.length := by
    rintro w rfl
    cases e' with
    | none => exact h.elim
    | some e' => exact h.1
  have hg' : ∀ w, e' = some w → w.length = x'.length := by
    rintro w rfl
    cases e with
    | none => exact h.elim
    | some e' => exact h.2.1
  have hz := effects_same g jac h
  unfold mkRhale
  rw [rhaleInit_all _ _ _ _ _ hg, rhaleInit_all _ _ _ _ _ hg', limitsOr_perm (sameRows_perm h)]
  cases limitsOr x' none with
  | error e => rfl
  | ok l =>
    simp only [Except.bind, bind, pure, Except.pure]
    congr 1
    unfold rhaleCfg
    congr 1
    funext t bm
    exact rhaleFitFeature_congr bm hz.1 hz.2.1 (hz.2.2.filter _)

theorem aleHeter_same [PySqrt K] {mk : List (Row K D) → Option (List (Row K D)) → Py (AleCfg K D)} (foi : Fin D) (bm : BinMethod K) (minPoints : ℕ)
    (centering : PyVal) {x x' : List (Row K D)} {e e' : Option (List (Row K D))} (h : SameRows x x' e e') (hmk : mk x e = mk x' e') :
    aleHeter mk foi bm minPoints centering x e = aleHeter mk foi bm minPoints centering x' e' := by
  unfold aleHeter
  rw [hmk, (sameRows_perm h).length_eq, listMax_perm (col_perm (sameRows_perm h) foi)]

/-- The value a (d-)PDP takes at one instance, for data of any dtype. -/
def atCast (cast : K → K) (M : PdpModel K D) (s : Fin D) (v : K) (r : Row K D) : K :=
  match M with
  | .pdp f => f (Function.update r s (cast v))
  | .derJac j => j (Function.update r s (cast v)) s
  | .derNum f => (f (Function.update r s (cast (v + FD_STEP))) - f (Function.update r s (cast (v - FD_STEP)))) / (2 * FD_STEP)

theorem nonVec_values (cast : K → K) (M : PdpModel K D) (d : List (Row K D)) (xx : List K) (s : Fin D) (hx : xx ≠ []) :
    pdpPredict cast M.kind d xx s false = .ok (xx.map fun v => d.map (atCast cast M s v)) := by
  have e : ∀ v (f : Row K D → K), centralDiff ((setAll cast d s (v + FD_STEP)).map f) ((setAll cast d s (v - FD_STEP)).map f) =
      d.map (atCast cast (.derNum f) s v) := by
    intro v f
    unfold centralDiff setAll atCast
    simp only [List.map_map, List.zipWith_map, List.zipWith_self, Function.comp_def]
  cases M with
  | pdp f => simp [pdpPredict, PdpModel.kind, hx, pdpNonVecY, BlackBox.out, setAll, atCast, Function.comp_def]
  | derJac j => simp [pdpPredict, PdpModel.kind, hx, pdpNonVecY, BlackBox.out, setAll, atCast, col, Function.comp_def]
  | derNum f =>
    simp only [pdpPredict, PdpModel.kind, hx, pdpNonVecY, if_false, Bool.false_eq_true]
    simp only [e]

theorem predict_values (cast : K → K) (M : PdpModel K D) (d : List (Row K D)) (xx : List K) (s : Fin D) (vec : Bool) :
    pdpPredict cast M.kind d xx s vec = if xx = [] ∧ vec = false then .error .valueError else .ok (xx.map fun v => d.map (atCast cast M s v)) := by
  by_cases hx : xx = []
  · subst hx
    cases vec with
    | false => cases M <;> simp [pdpPredict, PdpModel.kind]
    | true =>
      cases M with
      | pdp f =>
        show pdpVecY cast (RowBox.pred f).toBox d [] s false = _
        rw [vecY_eq]; simp [RowBox.toBox, pdpNonVecY]
      | derJac j =>
        show pdpVecY cast (RowBox.jac j).toBox d [] s false = _
        rw [vecY_eq]; simp [RowBox.toBox, pdpNonVecY]
      | derNum f =>
        show pdpVecY cast (RowBox.pred f).toBox d [] s true = _
        rw [vecY_eq]; simp [RowBox.toBox, pdpNonVecY]
  · rw [predict_vec_irrelevant cast M d xx hx s vec false, nonVec_values cast M d xx s hx, if_neg (by simp [hx])]

theorem colMeans_values {ι : Type} (d : List ι) (xx : List K) (G : K → ι → K) :
    colMeans d.length (xx.map fun v => d.map (G v)) = d.map fun r => mean (xx.map fun v => G v r) := by
  unfold colMeans
  apply List.ext_getElem
  · simp
  · intro i h1 h2
    have hi : i < d.length := by simpa using h2
    simp only [List.getElem_map, List.getElem_range, List.map_map, Function.comp_def, List.getD_eq_getElem?_getD, List.getElem?_map,
      List.getElem?_eq_getElem hi, Option.map_some, Option.getD_some]

/-- The stored constants belong to the rows. -/
def FeSame (d d' : List (Row K D)) (a b : Option (NormConst K)) : Prop :=
  (a = none ∧ b = none) ∨ (∃ c, a = some (.scalar c) ∧ b = some (.scalar c)) ∨ ∃ φ : Row K D → K, a = some (.vec (d.map φ)) ∧ b = some (.vec (d'.map φ))

/-- Two PDP objects that differ in the order of their rows. -/
structure PdpLike (s : Fin D) (st st' : PdpState K D) : Prop where
  data : st.data.Perm st'.data
  fitted : st.fitted = st'.fitted
  args : st.args = st'.args
  fe : FeSame st.data st'.data (st.fe s) (st'.fe s)

theorem pdpFit_like (cast : K → K) (M : PdpModel K D) (lo hi : Fin D → K) (s : Fin D) (c : Centering) (points : ℕ) (vec : Bool) {st st' : PdpState K D}
    (h : PdpLike s st st') (h0 : st.fe s = none) :
    PdpLike s (pdpFitLoop { cast := cast, kind := M.kind, axisLo := lo, axisHi := hi } c points vec st [s]).1
        (pdpFitLoop { cast := cast, kind := M.kind, axisLo := lo, axisHi := hi } c points vec st' [s]).1 ∧
      (pdpFitLoop { cast := cast, kind := M.kind, axisLo := lo, axisHi := hi } c points vec st [s]).2 =
        (pdpFitLoop { cast := cast, kind := M.kind, axisLo := lo, axisHi := hi } c points vec st' [s]).2 ∧
      ((pdpFitLoop { cast := cast, kind := M.kind, axisLo := lo, axisHi := hi } c points vec st [s]).2 = .ok () →
        (pdpFitLoop { cast := cast, kind := M.kind, axisLo := lo, axisHi := hi } c points vec st [s]).1.fitted s = true) := by
  have h0' : st'.fe s = none := by
    rcases h.fe with ⟨-, h⟩ | ⟨c, h, -⟩ | ⟨φ, h, -⟩
    · exact h
    · rw [h0] at h; cases h
    · rw [h0] at h; cases h
  have hd : (dropOutside st.data (lo s) (hi s) s).Perm (dropOutside st'.data (lo s) (hi s) s) := (h.data.filter _).filter _
  generalize e1 : dropOutside st.data (lo s) (hi s) s = d at hd
  generalize e2 : dropOutside st'.data (lo s) (hi s) s = d' at hd
  have key : ∀ {nc nc' : NormConst K}, FeSame d d' (some nc) (some nc') →
      PdpLike s { data := d, fe := Function.update st.fe s (some nc), fitted := Function.update st.fitted s true, args := Function.update st.args s (some c) }
        { data := d', fe := Function.update st'.fe s (some nc'), fitted := Function.update st'.fitted s true, args := Function.update st'.args s (some c) } := by
    intro nc nc' hf
    exact ⟨hd, by simp only [h.fitted], by simp only [h.args], by simpa using hf⟩
  have herr : PdpLike s { st with data := d } { st' with data := d' } := ⟨hd, h.fitted, h.args, Or.inl ⟨h0, h0'⟩⟩
  unfold pdpFitLoop pdpFitFeature
  simp only [e1, e2, predict_values]
  cases c with
  | off => exact ⟨key (Or.inr (Or.inl ⟨_, rfl, rfl⟩)), rfl, fun _ => by simp [pdpFitLoop]⟩
  | zeroStart => exact ⟨key (Or.inr (Or.inr ⟨atCast cast M s (lo s), rfl, rfl⟩)), rfl, fun _ => by simp [pdpFitLoop, bind, Except.bind, pyIndex, pure, Except.pure]⟩
  | zeroIntegral =>
    by_cases hb : linspace (lo s) (hi s) points = [] ∧ vec = false
    · simp only [if_pos hb]
      exact ⟨herr, rfl, fun hc => by cases hc⟩
    · simp only [if_neg hb, bind, Except.bind, pure, Except.pure, colMeans_values]
      exact ⟨key (Or.inr (Or.inr ⟨_, rfl, rfl⟩)), rfl, fun _ => by simp [pdpFitLoop]⟩

theorem npStd_perm [PySqrt K] {l l' : List K} (h : l.Perm l') : npStd l = npStd l' := by
  unfold npStd
  have hm : mean l = mean l' := mean_perm h
  unfold variance
  rw [hm, mean_perm (h.map _)]

theorem pdpEvalFitted_like [PySqrt K] (cast : K → K) (M : PdpModel K D) (lo hi : Fin D → K) (s : Fin D) {st st' : PdpState K D} (h : PdpLike s st st')
    (xs : List K) (het : Bool) (c : Centering) (vec : Bool) :
    pdpEvalFitted { cast := cast, kind := M.kind, axisLo := lo, axisHi := hi } st s xs het c false vec =
      pdpEvalFitted { cast := cast, kind := M.kind, axisLo := lo, axisHi := hi } st' s xs het c false vec := by
  have hfin : ∀ G : K → Row K D → K,
      (if het then PdpOut.meanStd ((xs.map fun v => st.data.map (G v)).map mean) ((xs.map fun v => st.data.map (G v)).map npStd)
        else .meanOnly ((xs.map fun v => st.data.map (G v)).map mean)) =
      (if het then PdpOut.meanStd ((xs.map fun v => st'.data.map (G v)).map mean) ((xs.map fun v => st'.data.map (G v)).map npStd)
        else .meanOnly ((xs.map fun v => st'.data.map (G v)).map mean)) := by
    intro G
    have h1 : ∀ v, mean (st.data.map (G v)) = mean (st'.data.map (G v)) := fun v => mean_perm (h.data.map _)
    have h2 : ∀ v, npStd (st.data.map (G v)) = npStd (st'.data.map (G v)) := fun v => npStd_perm (h.data.map _)
    simp only [List.map_map, Function.comp_def, h1, h2]
  have hsub : ∀ (d : List (Row K D)) (φ : Row K D → K), ((xs.map fun v => d.map (atCast cast M s v)).mapM (subNorm (.vec (d.map φ)))) =
      .ok (xs.map fun v => d.map fun r => atCast cast M s v r - φ r) := by
    intro d φ
    rw [mapM_map_py]
    have : ∀ v, subNorm (.vec (d.map φ)) (d.map (atCast cast M s v)) = .ok (d.map fun r => atCast cast M s v r - φ r) := by
      intro v
      unfold subNorm
      simp only [List.length_map, if_true]
      simp only [List.zipWith_map, List.zipWith_self]
    simp only [this]
    clear hfin
    induction xs with
    | nil => rfl
    | cons a t ih => rw [List.mapM_cons, ih]; rfl
  have hsubc : ∀ (d : List (Row K D)) (k : K), ((xs.map fun v => d.map (atCast cast M s v)).mapM (subNorm (.scalar k))) =
      .ok (xs.map fun v => d.map fun r => atCast cast M s v r - k) := by
    intro d k
    rw [mapM_map_py]
    have : ∀ v, subNorm (.scalar k) (d.map (atCast cast M s v)) = .ok (d.map fun r => atCast cast M s v r - k) := by
      intro v
      unfold subNorm
      simp only [List.map_map, Function.comp_def]
    simp only [this]
    clear hfin hsub
    induction xs with
    | nil => rfl
    | cons a t ih => rw [List.mapM_cons, ih]; rfl
  unfold pdpEvalFitted
  simp only [predict_values, bind, Except.bind, pure, Except.pure, Bool.false_eq_true, if_false]
  cases pyAssert (decide (lo s < hi s)) with
  | error e => rfl
  | ok u =>
    simp only []
    by_cases hb : xs = [] ∧ vec = false
    · simp only [if_pos hb]
    · simp only [if_neg hb]
      by_cases hc : c = .off
      · simp only [if_pos hc]
        exact congrArg _ (hfin (atCast cast M s))
      · simp only [if_neg hc]
        rcases h.fe with ⟨h1, h2⟩ | ⟨k, h1, h2⟩ | ⟨φ, h1, h2⟩
        · simp only [h1, h2]
        · simp only [h1, h2, hsubc]
          exact congrArg _ (hfin _)
        · simp only [h1, h2, hsub]
          exact congrArg _ (hfin _)

theorem pdpEval_like [PySqrt K] (cast : K → K) (M : PdpModel K D) (lo hi : Fin D → K) (s : Fin D) {st st' : PdpState K D} (h : PdpLike s st st')
    (h0 : st.fe s = none ∨ st.fitted s = true) (xs : List K) (het : Bool) (c : PyVal) (vec : Bool) (hc : st.fitted s = true → prepCentering c = .ok .off) :
    (pdpEval { cast := cast, kind := M.kind, axisLo := lo, axisHi := hi } st s xs het c false vec).2 =
      (pdpEval { cast := cast, kind := M.kind, axisLo := lo, axisHi := hi } st' s xs het c false vec).2 := by
  unfold pdpEval
  rw [← h.fitted, ← h.args]
  cases hf : st.fitted s with
  | true =>
    rw [hc hf]
    exact pdpEvalFitted_like cast M lo hi s h xs het .off vec
  | false =>
    have h0 : st.fe s = none := by
      rcases h0 with h0 | h0
      · exact h0
      · rw [hf] at h0; cases h0
    cases prepCentering c with
    | error e => rfl
    | ok m =>
      simp only [needsRefit, Bool.not_false, if_true]
      obtain ⟨i1, i2, -⟩ := pdpFit_like cast M lo hi s m 100 vec h h0
      revert i1 i2
      generalize pdpFitLoop _ m 100 vec st [s] = A
      generalize pdpFitLoop _ m 100 vec st' [s] = B
      rcases A with ⟨q, r⟩
      rcases B with ⟨q', r'⟩
      intro i1 i2
      obtain rfl : r = r' := i2
      cases r with
      | error e => rfl
      | ok u => exact pdpEvalFitted_like cast M lo hi s i1 xs het m vec

theorem pdpOnce_same [PySqrt K] (choice : ℕ → ℕ → List ℕ) (cast : K → K) (M : PdpModel K D) {x x' : List (Row K D)} (h : x.Perm x') (hn : x.length ≤ 300)
    (e e' : Option (List (Row K D))) (s : Fin D) (xs : List K) (het : Bool) (c : PyVal) :
    pdpOnce choice cast M.kind x e s xs het c = pdpOnce choice cast M.kind x' e' s xs het c := by
  unfold pdpOnce
  rw [base_init_few choice x hn, base_init_few choice x' (h.length_eq ▸ hn), axisLimitsAll_perm h]
  cases axisLimitsAll x' with
  | error e => rfl
  | ok l =>
    simp only [bind, Except.bind]
    rw [pdpEval_like cast M l.1 l.2 s (st := PdpState.init x) (st' := PdpState.init x') ⟨h, rfl, rfl, Or.inl ⟨rfl, rfl⟩⟩ (Or.inl rfl) xs het c true
      (fun hf => by cases hf)]

theorem pdpHeter_same [PySqrt K] (choice : ℕ → ℕ → List ℕ) (cast : K → K) (M : PdpModel K D) (lo hi : Fin D → K) (foi : Fin D) (minPoints : ℕ)
    (centering : PyVal) (points : ℕ) (vec : Bool) {x x' : List (Row K D)} (h : x.Perm x') :
    pdpHeter choice cast M.kind lo hi foi minPoints centering (.str "all") points vec x =
      pdpHeter choice cast M.kind lo hi foi minPoints centering (.str "all") points vec x' := by
  unfold pdpHeter
  rw [base_init_all, base_init_all, h.length_eq, listMin_perm (col_perm h foi), listMax_perm (col_perm h foi)]
  split_ifs with hlt
  · rfl
  · simp only [limitsOr, bind, Except.bind]
    have hs : PdpLike foi (PdpState.init x) (PdpState.init x') := ⟨h, rfl, rfl, Or.inl ⟨rfl, rfl⟩⟩
    unfold pdpFit
    have hres := resolve_int foi
    simp only [bind, Except.bind] at hres ⊢
    cases prepCentering centering with
    | error e => rfl
    | ok m =>
      simp only []
      cases hp : prepFeatures (.int (foi : ℕ)) D with
      | error e => simp [hp] at hres
      | ok fl =>
        rw [hp] at hres
        simp only [] at hres ⊢
        rw [hres]
        simp only [pure, Except.pure]
        obtain ⟨i1, i2, i3⟩ := pdpFit_like cast M lo hi foi m points vec hs rfl
        revert i1 i2 i3
        generalize pdpFitLoop _ m points vec (PdpState.init x) [foi] = A
        generalize pdpFitLoop _ m points vec (PdpState.init x') [foi] = B
        rcases A with ⟨q, r⟩
        rcases B with ⟨q', r'⟩
        intro i1 i2 i3
        obtain rfl : r = r' := i2
        cases r with
        | error e => rfl
        | ok u =>
          simp only []
          cases listMin (col x' foi) with
          | error e => rfl
          | ok mn =>
            simp only []
            cases listMax (col x' foi) with
            | error e => rfl
            | ok mx =>
              simp only []
              rw [pdpEval_like cast M lo hi foi i1 (Or.inr (i3 rfl)) (linspace mn mx 10) true (.bool false) vec (fun _ => rfl)]

namespace Spec

/-- A `nof_instances` argument that keeps all of `n` instances. -/
def KeepsAll (n : ℕ) (nof : PyVal) : Prop := nof = .str "all" ∨ ∃ k : ℤ, nof = .int k ∧ (n : ℤ) ≤ k

end Spec

theorem prepNof_keeps (choice : ℕ → ℕ → List ℕ) {n : ℕ} {nof : PyVal} (h : KeepsAll n nof) {m : ℕ} (hm : m ≤ n) :
    ∃ k, prepNofInstances choice nof m = .ok (k, List.range m) := by
  rcases h with rfl | ⟨k, rfl, hk⟩
  · exact ⟨m, rfl⟩
  · refine ⟨k, ?_⟩
    unfold prepNofInstances
    simp only []
    rw [if_neg (not_lt.mpr (le_trans (by exact_mod_cast hm) hk))]

theorem base_init_keeps (choice : ℕ → ℕ → List ℕ) {n : ℕ} {nof : PyVal} (h : KeepsAll n nof) {data : List (Row K D)} (hm : data.length ≤ n)
    (axisLimits : Option ((Fin D → K) × (Fin D → K))) : Base.init choice data nof axisLimits = Base.init choice data (.str "all") axisLimits := by
  obtain ⟨k, hk⟩ := prepNof_keeps choice h hm
  rw [base_init_all]
  unfold Base.init
  rw [hk]
  simp only [bind, Except.bind, pure, Except.pure, takeRows_range]
  cases axisLimits with
  | some l => rfl
  | none => rfl

theorem pdpHeter_keeps [PySqrt K] (choice : ℕ → ℕ → List ℕ) (cast : K → K) (kind : PdpKind K D) (lo hi : Fin D → K) (foi : Fin D) (minPoints : ℕ)
    (centering : PyVal) {n : ℕ} {nof : PyVal} (hk : KeepsAll n nof) (points : ℕ) (vec : Bool) {x : List (Row K D)} (hm : x.length ≤ n) :
    pdpHeter choice cast kind lo hi foi minPoints centering nof points vec x = pdpHeter choice cast kind lo hi foi minPoints centering (.str "all") points vec x := by
  unfold pdpHeter
  rw [base_init_keeps choice hk hm]

theorem pdpHeter_keeps_same [PySqrt K] (choice : ℕ → ℕ → List ℕ) (cast : K → K) (M : PdpModel K D) (lo hi : Fin D → K) (foi : Fin D) (minPoints : ℕ)
    (centering : PyVal) {n : ℕ} {nof : PyVal} (hk : KeepsAll n nof) (points : ℕ) (vec : Bool) {x x' : List (Row K D)} (h : x.Perm x') (hn : x.length ≤ n) :
    pdpHeter choice cast M.kind lo hi foi minPoints centering nof points vec x = pdpHeter choice cast M.kind lo hi foi minPoints centering nof points vec x' := by
  rw [pdpHeter_keeps choice cast _ _ _ foi _ _ hk _ _ hn, pdpHeter_keeps choice cast _ _ _ foi _ _ hk _ _ (h.length_eq ▸ hn)]
  exact pdpHeter_same choice cast _ _ _ foi _ _ _ _ h

theorem shapInit_keeps (choice : ℕ → ℕ → List ℕ) {n : ℕ} {nof : PyVal} (h : KeepsAll n nof) {data : List (Row K D)} (hm : data.length ≤ n) :
    shapInit choice data nof none =
      (axisLimitsAll data).bind fun l => .ok { data := data, indices := List.range data.length, axisLo := l.1, axisHi := l.2 } := by
  obtain ⟨k, hk⟩ := prepNof_keeps choice h hm
  unfold shapInit
  rw [hk]
  simp only [bind, Except.bind, takeRows_range]
  rw [base_init_keeps choice h hm, base_init_all]
  rfl

theorem shapOnce_same (choice : ℕ → ℕ → List ℕ) (ext : ShapExt K D) (hext : OrderFree ext.explain) (hspl : TieFree ext.spline) {x x' : List (Row K D)}
    (h : x.Perm x') (hn : x.length ≤ 100) (e e' : Option (List (Row K D))) (s : Fin D) (xs : List K) (het : Bool) (c : PyVal) :
    shapOnce choice ext x e s xs het c = shapOnce choice ext x' e' s xs het c := by
  have hk : KeepsAll 100 (.int 100) := Or.inr ⟨100, rfl, le_refl _⟩
  unfold shapOnce
  rw [shapInit_keeps choice hk hn, shapInit_keeps choice hk (h.length_eq ▸ hn), axisLimitsAll_perm h]
  cases axisLimitsAll x' with
  | error e => rfl
  | ok l =>
    simp only [bind, Except.bind]
    have hs : ShapSim (ShapState.init x) (ShapState.init x') := ⟨h, fun _ => trivial, rfl, rfl⟩
    exact (shapEval_sim { ext := ext, axisLo := l.1, axisHi := l.2 } hext hspl hs s xs het c).2

theorem shapHeter_same (choice : ℕ → ℕ → List ℕ) (ext : ShapExt K D) (hext : OrderFree ext.explain) (hspl : TieFree ext.spline) (foi : Fin D) (minPoints : ℕ)
    (centering : PyVal) {n : ℕ} {nof : PyVal} (hk : KeepsAll n nof) (points : ℕ) {x x' : List (Row K D)} (h : x.Perm x') (hn : x.length ≤ n) :
    shapHeter choice ext foi minPoints centering nof points x = shapHeter choice ext foi minPoints centering nof points x' := by
  unfold shapHeter
  rw [shapInit_keeps choice hk hn, shapInit_keeps choice hk (h.length_eq ▸ hn), axisLimitsAll_perm h, h.length_eq, listMin_perm (col_perm h foi),
    listMax_perm (col_perm h foi)]
  split_ifs with hlt
  · rfl
  · simp only [bind, Except.bind]
    cases listMin (col x' foi) with
    | error e => rfl
    | ok mn =>
      cases listMax (col x' foi) with
      | error e => rfl
      | ok mx =>
        simp only []
        cases axisLimitsAll x' with
        | error e => rfl
        | ok l =>
          simp only []
          have hs : ShapSim (ShapState.init x) (ShapState.init x') := ⟨h, fun _ => trivial, rfl, rfl⟩
          have hfit : ShapSim (shapFit { ext := ext, axisLo := l.1, axisHi := l.2 } (ShapState.init x) (.int (foi : ℕ)) centering points).1
              (shapFit { ext := ext, axisLo := l.1, axisHi := l.2 } (ShapState.init x') (.int (foi : ℕ)) centering points).1 ∧
              (shapFit { ext := ext, axisLo := l.1, axisHi := l.2 } (ShapState.init x) (.int (foi : ℕ)) centering points).2 =
              (shapFit { ext := ext, axisLo := l.1, axisHi := l.2 } (ShapState.init x') (.int (foi : ℕ)) centering points).2 := by
            rcases shapFit_cases { ext := ext, axisLo := l.1, axisHi := l.2 } (.int (foi : ℕ)) centering points with ⟨e, hh⟩ | ⟨m, -, hh⟩
            · rw [hh, hh]; exact ⟨hs, rfl⟩
            · rw [hh, hh]; exact shapFitLoop_sim _ hext hspl m points _ hs
          obtain ⟨i1, i2⟩ := hfit
          rw [i2, (shapEval_sim { ext := ext, axisLo := l.1, axisHi := l.2 } hext hspl i1 foi (linspace mn mx 10) true (.bool false)).2]

/-! ### Regional objects -/

namespace Spec

/-- A row-wise model, a row-wise gradient function if there is one, and the other black boxes. -/
def rowBoxes (choice : ℕ → ℕ → List ℕ) (cast : K → K) (g : Row K D → K) (jac : Option (Row K D → Row K D)) (ext : ShapExt K D) : BlackBoxes K D :=
  { cast := cast, model := List.map g, jac := jac.map List.map, ext := ext, choice := choice }

/-- When the order of `n` instances is expected not to matter for a regional method: the sub-sampling inside the node's global effect (300 instances for PDP,
100 for ShapDP) does not set in, and for ShapDP the explainer and the curve fit treat their input as a set. -/
structure NoSampling (meth : String) (n : ℕ) (ext : ShapExt K D) : Prop where
  known : meth ∈ ["rhale", "ale", "shap", "pdp", "d-pdp"]
  pdp : meth = "pdp" ∨ meth = "d-pdp" → n ≤ 300
  shap : meth = "shap" → n ≤ 100 ∧ OrderFree ext.explain ∧ TieFree ext.spline

/-- A call whose own sub-sampling (`nof_instances` of the PDP fits) does not set in. -/
def CallKeeps (meth : String) (n : ℕ) : RegCall K D → Prop
  | .fit _ kw => meth = "pdp" ∨ meth = "d-pdp" → KeepsAll n kw.nof
  | _ => True

end Spec

/-- The two objects. -/
structure ObjSame (choice : ℕ → ℕ → List ℕ) (cast : K → K) (g : Row K D → K) (jac : Option (Row K D → Row K D)) (ext : ShapExt K D)
    (o o' : RegionalObj K D) : Prop where
  bb : o.cfg.bb = rowBoxes choice cast g jac ext
  bb' : o'.cfg.bb = rowBoxes choice cast g jac ext
  meth : o.cfg.methodName = o'.cfg.methodName
  rows : SameRows o.cfg.data o'.cfg.data o.cfg.instanceEffects o'.cfg.instanceEffects
  types : o.cfg.types = o'.cfg.types
  names : o.cfg.names = o'.cfg.names
  catLimit : o.cfg.catLimit = o'.cfg.catLimit
  fmt : o.cfg.fmt = o'.cfg.fmt
  lo : o.axisLo = o'.axisLo
  hi : o.axisHi = o'.axisHi
  ok : NoSampling o'.cfg.methodName o'.cfg.data.length ext

section

variable [PySqrt K] {choice : ℕ → ℕ → List ℕ} {cast : K → K} {g : Row K D → K} {jac : Option (Row K D → Row K D)} {ext : ShapExt K D}

theorem ObjSame.heter {o o' : RegionalObj K D} (h : ObjSame choice cast g jac ext o o') (kw : FitKw K D)
    (hkw : o'.cfg.methodName = "pdp" ∨ o'.cfg.methodName = "d-pdp" → KeepsAll o'.cfg.data.length kw.nof) (f : Fin D) :
    PyRel (HeterSame o'.cfg.data.length) (regionalHeter o kw f) (regionalHeter o' kw f) := by
  have hlen := (sameRows_perm h.rows).length_eq
  have hk := h.ok.known
  unfold regionalHeter
  simp only [h.bb, h.bb', h.meth, h.lo, h.hi, rowBoxes, hlen]
  simp only [List.mem_cons, List.not_mem_nil, or_false] at hk
  rcases hk with hm | hm | hm | hm | hm
  · rw [hm]
    simp only [if_true, bind, Except.bind, pure, Except.pure]
    cases prepBinningMethod kw.bin with
    | error e => exact rfl
    | ok bm => exact fun x x' e e' hx _ => aleHeter_same f bm _ _ hx (mkRhale_same choice g jac hx)
  · rw [hm]
    simp only [bind, Except.bind, pure, Except.pure]
    cases prepBinningMethod kw.bin with
    | error e => exact rfl
    | ok bm => exact fun x x' e e' hx _ => aleHeter_same f bm _ _ hx (mkAle_same choice cast g (sameRows_perm hx) e e')
  · obtain ⟨-, h1, h2⟩ := h.ok.shap hm
    rw [hm]
    simp only [reduceIte, String.reduceEq]
    exact fun x x' e e' hx hn => shapHeter_same choice ext h1 h2 f _ _ (Or.inr ⟨_, rfl, le_refl _⟩) _ (sameRows_perm hx) hn
  · have hkw := hkw (Or.inl hm)
    rw [hm]
    simp only [reduceIte, String.reduceEq]
    exact fun x x' e e' hx hn => pdpHeter_keeps_same choice cast (.pdp g) _ _ f _ _ hkw _ _ (sameRows_perm hx) hn
  · have hkw := hkw (Or.inr hm)
    rw [hm]
    simp only [reduceIte, String.reduceEq]
    cases jac with
    | some j => exact fun x x' e e' hx hn => pdpHeter_keeps_same choice cast (.derJac j) _ _ f _ _ hkw _ _ (sameRows_perm hx) hn
    | none => exact fun x x' e e' hx hn => pdpHeter_keeps_same choice cast (.derNum g) _ _ f _ _ hkw _ _ (sameRows_perm hx) hn

theorem rhaleOnce_mk (model : List (Row K D) → List K) (j : Option (List (Row K D) → List (Row K D))) (x : List (Row K D)) (e : Option (List (Row K D)))
    (s : Fin D) (xs : List K) (het : Bool) (c : PyVal) :
    rhaleOnce choice model j x e s xs het c = (mkRhale choice model j x e).bind fun cfg => (aleEval cfg AleState.init s xs het c).2 := by
  unfold rhaleOnce mkRhale
  cases rhaleInit choice model j x e (.str "all") none <;> rfl

theorem aleOnce_mk (model : List (Row K D) → List K) (x : List (Row K D)) (e : Option (List (Row K D))) (s : Fin D) (xs : List K) (het : Bool) (c : PyVal) :
    aleOnce choice cast model x e s xs het c = (mkAle choice cast model x e).bind fun cfg => (aleEval cfg AleState.init s xs het c).2 := by
  unfold aleOnce mkAle
  cases Base.init choice x (.str "all") none <;> rfl

/-- The global effect of a node. -/
theorem createAndEval_same {meth : String} {n : ℕ} (hok : NoSampling meth n ext) {x x' : List (Row K D)} {e e' : Option (List (Row K D))}
    (h : SameRows x x' e e') (hn : x.length ≤ n) (s : Fin D) (xs : List K) (het : Bool) (c : PyVal) :
    createAndEval (rowBoxes choice cast g jac ext) meth x e s xs het c = createAndEval (rowBoxes choice cast g jac ext) meth x' e' s xs het c := by
  have hk := hok.known
  simp only [List.mem_cons, List.not_mem_nil, or_false] at hk
  unfold createAndEval rowBoxes
  simp only []
  rcases hk with hm | hm | hm | hm | hm
  · rw [hm]
    simp only [if_true]
    rw [rhaleOnce_mk, rhaleOnce_mk, mkRhale_same choice g jac h]
  · rw [hm]
    show aleOnce choice cast (List.map g) x e s xs het c = aleOnce choice cast (List.map g) x' e' s xs het c
    rw [aleOnce_mk, aleOnce_mk, mkAle_same choice cast g (sameRows_perm h)]
  · obtain ⟨h0, h1, h2⟩ := hok.shap hm
    rw [hm]
    simp only [reduceIte, String.reduceEq]
    exact shapOnce_same choice ext h1 h2 (sameRows_perm h) (hn.trans h0) e e' s xs het c
  · have := hok.pdp (Or.inl hm)
    rw [hm]
    simp only [reduceIte, String.reduceEq]
    exact pdpOnce_same choice cast (.pdp g) (sameRows_perm h) (hn.trans this) e e' s xs het c
  · have := hok.pdp (Or.inr hm)
    rw [hm]
    simp only [reduceIte, String.reduceEq]
    cases jac with
    | some j => exact pdpOnce_same choice cast (.derJac j) (sameRows_perm h) (hn.trans this) e e' s xs het c
    | none => exact pdpOnce_same choice cast (.derNum g) (sameRows_perm h) (hn.trans this) e e' s xs het c

theorem ObjSame.regions {o o' : RegionalObj K D} (h : ObjSame choice cast g jac ext o o') (kw : FitKw K D) (f : Fin D) :
    RegSame (regionsOf o.cfg (kw.toArgs o) f) (regionsOf o'.cfg (kw.toArgs o') f) :=
  ⟨by simp only [regionsOf], h.rows, h.types, h.names, h.catLimit, by simp only [regionsOf, FitKw.toArgs], by simp only [regionsOf, FitKw.toArgs],
    by simp only [regionsOf, FitKw.toArgs], by simp only [regionsOf, FitKw.toArgs], by simp only [regionsOf, FitKw.toArgs],
    by simp only [regionsOf, FitKw.toArgs], by simp only [regionsOf, FitKw.toArgs]⟩

/-- Optional trees on both sides. -/
def OptTree (n : ℕ) : Option (Option (List (Node K D))) → Option (Option (List (Node K D))) → Prop
  | none, none => True
  | some t, some t' => TreeSame n t t'
  | _, _ => False

/-- Stored searches on both sides. -/
def OptSplits (n : ℕ) : Option (RegCfg K D × Option (Splits K D)) → Option (RegCfg K D × Option (Splits K D)) → Prop
  | none, none => True
  | some a, some b => RegSame a.1 b.1 ∧ a.1.data.length ≤ n ∧ a.2 = b.2
  | _, _ => False

/-- Two regional objects' states. -/
structure RegStSame (n : ℕ) (st st' : RegionalState K D) : Prop where
  fitted : st.fitted = st'.fitted
  bin : st.methodBin = st'.methodBin
  splits : ∀ f, OptSplits n (st.splits f) (st'.splits f)
  full : ∀ f, OptTree n (st.treeFull f) (st'.treeFull f)
  pruned : ∀ f, OptTree n (st.treePruned f) (st'.treePruned f)
  fullS : ∀ f, OptTree n (st.treeFullScaled f) (st'.treeFullScaled f)
  prunedS : ∀ f, OptTree n (st.treePrunedScaled f) (st'.treePrunedScaled f)

theorem update_rel {α β : Type} {R : α → β → Prop} {a : Fin D → α} {b : Fin D → β} (h : ∀ f, R (a f) (b f)) (s : Fin D) {x : α} {y : β} (hxy : R x y) :
    ∀ f, R (Function.update a s x f) (Function.update b s y f) := by
  intro f
  by_cases hf : f = s
  · subst hf; simpa using hxy
  · simpa [Function.update_of_ne hf] using h f

theorem ObjSame.fitOne {o o' : RegionalObj K D} (h : ObjSame choice cast g jac ext o o') (kw : FitKw K D)
    (hkw : o'.cfg.methodName = "pdp" ∨ o'.cfg.methodName = "d-pdp" → KeepsAll o'.cfg.data.length kw.nof) {st st' : RegionalState K D}
    (hst : RegStSame o'.cfg.data.length st st') (f : Fin D) :
    RegStSame o'.cfg.data.length (regionalFitOne o kw st f).1 (regionalFitOne o' kw st' f).1 ∧
      (regionalFitOne o kw st f).2 = (regionalFitOne o' kw st' f).2 ∧
      ((regionalFitOne o kw st f).2 = .ok () → (regionalFitOne o kw st f).1.fitted f = true) := by
  have hlen := (sameRows_perm h.rows).length_eq
  have hreg := h.regions kw f
  have hh := h.heter kw hkw f
  have hle : (regionsOf o.cfg (kw.toArgs o) f).data.length ≤ o'.cfg.data.length := hlen.le
  unfold regionalFitOne
  simp only [bind, Except.bind, pure, Except.pure]
  cases e1 : regionalHeter o kw f with
  | error e =>
    cases e2 : regionalHeter o' kw f with
    | error e' => rw [e1, e2] at hh; obtain rfl : e = e' := hh; exact ⟨hst, rfl, fun hc => by cases hc⟩
    | ok q => rw [e1, e2] at hh; exact hh.elim
  | ok H =>
    cases e2 : regionalHeter o' kw f with
    | error e' => rw [e1, e2] at hh; exact hh.elim
    | ok H' =>
      rw [e1, e2] at hh
      have hs := hreg.search hle hh
      simp only [hs, h.fmt]
      cases searchAllSplitsM (regionsOf o'.cfg (kw.toArgs o') f) H' with
      | error e => exact ⟨hst, rfl, fun hc => by cases hc⟩
      | ok sp =>
        simp only []
        have t1 := tree_same hreg hle (posTextOf o'.cfg.fmt none) sp false
        have t2 := tree_same hreg hle (posTextOf o'.cfg.fmt none) sp true
        revert t1 t2
        generalize splitsToTree (regionsOf o.cfg (kw.toArgs o) f) (posTextOf o'.cfg.fmt none) sp false = A
        generalize splitsToTree (regionsOf o'.cfg (kw.toArgs o') f) (posTextOf o'.cfg.fmt none) sp false = A'
        generalize splitsToTree (regionsOf o.cfg (kw.toArgs o) f) (posTextOf o'.cfg.fmt none) sp true = B
        generalize splitsToTree (regionsOf o'.cfg (kw.toArgs o') f) (posTextOf o'.cfg.fmt none) sp true = B'
        intro t1 t2
        cases A with
        | error e =>
          cases A' with
          | ok _ => exact t1.elim
          | error e' => obtain rfl : e = e' := t1; exact ⟨hst, rfl, fun hc => by cases hc⟩
        | ok t =>
          cases A' with
          | error e' => exact t1.elim
          | ok t' =>
            cases B with
            | error e =>
              cases B' with
              | ok _ => exact t2.elim
              | error e' => obtain rfl : e = e' := t2; exact ⟨hst, rfl, fun hc => by cases hc⟩
            | ok u =>
              cases B' with
              | error e' => exact t2.elim
              | ok u' =>
                refine ⟨⟨?_, ?_, update_rel hst.splits f ⟨hreg, hle, rfl⟩, update_rel hst.full f t1, update_rel hst.pruned f t2, hst.fullS, hst.prunedS⟩, rfl,
                  fun _ => by simp⟩
                · simp only [hst.fitted]
                · simp only [hst.bin]

theorem ObjSame.fitLoop {o o' : RegionalObj K D} (h : ObjSame choice cast g jac ext o o') (kw : FitKw K D)
    (hkw : o'.cfg.methodName = "pdp" ∨ o'.cfg.methodName = "d-pdp" → KeepsAll o'.cfg.data.length kw.nof) (l : List (Fin D)) {st st' : RegionalState K D}
    (hst : RegStSame o'.cfg.data.length st st') :
    RegStSame o'.cfg.data.length (regionalFitLoop o kw st l).1 (regionalFitLoop o' kw st' l).1 ∧
      (regionalFitLoop o kw st l).2 = (regionalFitLoop o' kw st' l).2 := by
  induction l generalizing st st' with
  | nil => exact ⟨hst, rfl⟩
  | cons f t ih =>
    obtain ⟨i1, i2, -⟩ := h.fitOne kw hkw hst f
    unfold regionalFitLoop
    revert i1 i2
    generalize regionalFitOne o kw st f = A
    generalize regionalFitOne o' kw st' f = B
    rcases A with ⟨q, r⟩
    rcases B with ⟨q', r'⟩
    intro i1 i2
    obtain rfl : r = r' := i2
    cases r with
    | error e => exact ⟨i1, rfl⟩
    | ok u => exact ih i1

theorem ObjSame.fit {o o' : RegionalObj K D} (h : ObjSame choice cast g jac ext o o') (features : PyVal) (kw : FitKw K D)
    (hkw : o'.cfg.methodName = "pdp" ∨ o'.cfg.methodName = "d-pdp" → KeepsAll o'.cfg.data.length kw.nof) {st st' : RegionalState K D}
    (hst : RegStSame o'.cfg.data.length st st') :
    RegStSame o'.cfg.data.length (regionalFit o st features kw).1 (regionalFit o' st' features kw).1 ∧
      (regionalFit o st features kw).2 = (regionalFit o' st' features kw).2 := by
  unfold regionalFit
  split_ifs
  · exact ⟨hst, rfl⟩
  · cases (do let l ← prepFeatures features D
              resolveFeatures D l : Py (List (Fin D))) with
    | error e => exact ⟨hst, rfl⟩
    | ok l => exact h.fitLoop kw hkw l hst

theorem ObjSame.refit {o o' : RegionalObj K D} (h : ObjSame choice cast g jac ext o o') {st st' : RegionalState K D}
    (hst : RegStSame o'.cfg.data.length st st') (f : Fin D) :
    RegStSame o'.cfg.data.length (regionalRefitM o st f).1 (regionalRefitM o' st' f).1 ∧ (regionalRefitM o st f).2 = (regionalRefitM o' st' f).2 ∧
      ((regionalRefitM o st f).2 = .ok () → (regionalRefitM o st f).1.fitted f = true) := by
  unfold regionalRefitM
  rw [← hst.fitted]
  cases hf : st.fitted f with
  | true => exact ⟨hst, rfl, fun _ => hf⟩
  | false =>
    simp only [Bool.false_eq_true, if_false]
    rw [h.meth, regionalFit_int _ _ _ _ (by unfold FitKw.default; norm_num), regionalFit_int _ _ _ _ (by unfold FitKw.default; norm_num)]
    exact h.fitOne _ (fun _ => Or.inl rfl) hst f

theorem refit_idle (cfg : RegionalCfg K D) (st : RegionalState K D) (f : Fin D) (h : st.fitted f = true) : regionalRefit cfg st f = (st, .ok ()) := by
  unfold regionalRefit
  rw [if_pos h]

theorem getNodeInfo_same {n : ℕ} {st st' : RegionalState K D} (hst : RegStSame n st st') (f : Fin D) (i : ℕ) :
    PyRel (NodeOk n) (getNodeInfo st f i) (getNodeInfo st' f i) := by
  unfold getNodeInfo
  rw [← hst.fitted]
  have hp := hst.pruned f
  have hps := hst.prunedS f
  simp only [bind, Except.bind]
  cases pyAssert (st.fitted f) with
  | error e => exact rfl
  | ok u =>
    simp only []
    have hfind : ∀ {t t' : List (Node K D)}, List.Forall₂ (NodeOk n) t t' →
        PyRel (NodeOk n) (match t.find? (fun n => n.idx == i) with
          | some n => .ok n
          | none => .error .assertionError : Py (Node K D)) (match t'.find? (fun n => n.idx == i) with
          | some n => .ok n
          | none => .error .assertionError : Py (Node K D)) := by
      intro t t' ht
      rcases forall2_find ht (p := fun nd => nd.idx == i) (q := fun nd => nd.idx == i) (fun a b hab => by rw [hab.1.idx]) with
        ⟨h1, h2⟩ | ⟨a, b, h1, h2, h3⟩
      · rw [h1, h2]; exact rfl
      · rw [h1, h2]; exact h3
    generalize st.treePruned f = a at hp ⊢
    generalize st'.treePruned f = a' at hp ⊢
    generalize st.treePrunedScaled f = b at hps ⊢
    generalize st'.treePrunedScaled f = b' at hps ⊢
    rcases a with _ | _ | t <;> rcases a' with _ | _ | t'
    all_goals first | exact hp.elim | exact rfl | skip
    rcases b with _ | _ | u <;> rcases b' with _ | _ | u'
    all_goals first | exact hps.elim | exact rfl | skip
    · exact hfind hp
    · exact hfind hps

theorem ObjSame.eval {o o' : RegionalObj K D} (h : ObjSame choice cast g jac ext o o') {st st' : RegionalState K D}
    (hst : RegStSame o'.cfg.data.length st st') (f : Fin D) (i : ℕ) (xs : List K) (het : Bool) (c : PyVal) :
    RegStSame o'.cfg.data.length (regionalEvalM o st f i xs het c).1 (regionalEvalM o' st' f i xs het c).1 ∧
      (regionalEvalM o st f i xs het c).2 = (regionalEvalM o' st' f i xs het c).2 := by
  obtain ⟨i1, i2, i3⟩ := h.refit hst f
  unfold regionalEvalM
  revert i1 i2 i3
  generalize regionalRefitM o st f = A
  generalize regionalRefitM o' st' f = B
  rcases A with ⟨q, r⟩
  rcases B with ⟨q', r'⟩
  intro i1 i2 i3
  obtain rfl : r = r' := i2
  cases r with
  | error e => exact ⟨i1, rfl⟩
  | ok u =>
    have hf : q.fitted f = true := i3 rfl
    have hf' : q'.fitted f = true := by rw [← i1.fitted]; exact hf
    simp only []
    unfold regionalEval
    rw [refit_idle _ _ _ hf, refit_idle _ _ _ hf']
    refine ⟨i1, ?_⟩
    simp only [bind, Except.bind]
    cases prepCentering c with
    | error e => rfl
    | ok m =>
      simp only []
      have hn := getNodeInfo_same i1 f i
      revert hn
      generalize getNodeInfo q f i = A
      generalize getNodeInfo q' f i = B
      intro hn
      cases A with
      | error e =>
        cases B with
        | error e' => obtain rfl : e = e' := hn; rfl
        | ok _ => exact hn.elim
      | ok nd =>
        cases B with
        | error e' => exact hn.elim
        | ok nd' =>
          simp only [h.bb, h.bb', h.meth]
          exact createAndEval_same h.ok hn.1.rows hn.2 f xs het m.toVal

theorem ObjSame.plot {o o' : RegionalObj K D} (h : ObjSame choice cast g jac ext o o') {st st' : RegionalState K D}
    (hst : RegStSame o'.cfg.data.length st st') (f : Fin D) (sc : Option (Fin D → Scale K)) :
    RegStSame o'.cfg.data.length (regionalPlotM o st f sc).1 (regionalPlotM o' st' f sc).1 ∧
      (regionalPlotM o st f sc).2 = (regionalPlotM o' st' f sc).2 := by
  obtain ⟨i1, i2, i3⟩ := h.refit hst f
  unfold regionalPlotM
  revert i1 i2 i3
  generalize regionalRefitM o st f = A
  generalize regionalRefitM o' st' f = B
  rcases A with ⟨q, r⟩
  rcases B with ⟨q', r'⟩
  intro i1 i2 i3
  obtain rfl : r = r' := i2
  cases r with
  | error e => exact ⟨i1, rfl⟩
  | ok u =>
    have hf : q.fitted f = true := i3 rfl
    have hf' : q'.fitted f = true := by rw [← i1.fitted]; exact hf
    simp only []
    unfold regionalPlotPrep
    rw [refit_idle _ _ _ hf, refit_idle _ _ _ hf']
    cases sc with
    | none => exact ⟨i1, rfl⟩
    | some sc =>
      simp only []
      have hs := i1.splits f
      cases e1 : q.splits f with
      | none =>
        cases e2 : q'.splits f with
        | none => exact ⟨i1, rfl⟩
        | some b => rw [e1, e2] at hs; exact hs.elim
      | some a =>
        cases e2 : q'.splits f with
        | none => rw [e1, e2] at hs; exact hs.elim
        | some b =>
          rw [e1, e2] at hs
          obtain ⟨r1, sp⟩ := a
          obtain ⟨r2, sp'⟩ := b
          obtain ⟨hreg, hle, hsp⟩ := hs
          obtain rfl : sp = sp' := hsp
          simp only [h.fmt]
          have t1 := tree_same hreg hle (posTextOf o'.cfg.fmt (some sc)) sp false
          have t2 := tree_same hreg hle (posTextOf o'.cfg.fmt (some sc)) sp true
          simp only [] at t1 t2
          revert t1 t2
          generalize splitsToTree r1 (posTextOf o'.cfg.fmt (some sc)) sp false = A
          generalize splitsToTree r2 (posTextOf o'.cfg.fmt (some sc)) sp false = A'
          generalize splitsToTree r1 (posTextOf o'.cfg.fmt (some sc)) sp true = B
          generalize splitsToTree r2 (posTextOf o'.cfg.fmt (some sc)) sp true = B'
          intro t1 t2
          cases A with
          | error e =>
            cases A' with
            | ok _ => exact t1.elim
            | error e' => obtain rfl : e = e' := t1; exact ⟨i1, rfl⟩
          | ok t =>
            cases A' with
            | error e' => exact t1.elim
            | ok t' =>
              cases B with
              | error e =>
                cases B' with
                | ok _ => exact t2.elim
                | error e' => obtain rfl : e = e' := t2; exact ⟨i1, rfl⟩
              | ok u =>
                cases B' with
                | error e' => exact t2.elim
                | ok u' =>
                  exact ⟨⟨i1.fitted, i1.bin, i1.splits, i1.full, i1.pruned, update_rel i1.fullS f t1, update_rel i1.prunedS f t2⟩, rfl⟩

theorem ObjSame.run {o o' : RegionalObj K D} (h : ObjSame choice cast g jac ext o o') (calls : List (RegCall K D))
    (hcalls : ∀ q ∈ calls, CallKeeps o'.cfg.methodName o'.cfg.data.length q) :
    RegStSame o'.cfg.data.length (regRunM o calls) (regRunM o' calls) := by
  unfold regRunM
  suffices ∀ st st' : RegionalState K D, RegStSame o'.cfg.data.length st st' →
      RegStSame o'.cfg.data.length (calls.foldl (regStepM o) st) (calls.foldl (regStepM o') st') from
    this _ _ ⟨rfl, rfl, fun _ => trivial, fun _ => trivial, fun _ => trivial, fun _ => trivial, fun _ => trivial⟩
  induction calls with
  | nil => exact fun _ _ h => h
  | cons q t ih =>
    intro st st' hst
    refine ih (fun q hq => hcalls q (by simp [hq])) _ _ ?_
    have hq := hcalls q (by simp)
    cases q with
    | fit features kw => exact (h.fit features kw hq hst).1
    | eval f i xs het c => exact (h.eval hst f i xs het c).1
    | plot f sc => exact (h.plot hst f sc).1

end

/-! ### Constructors and the claim -/

theorem getFeatureTypes_perm {data data' : List (Row K D)} (h : data.Perm data') (catLimit : ℕ) : getFeatureTypes data catLimit = getFeatureTypes data' catLimit := by
  funext f
  unfold getFeatureTypes
  rw [npUnique_perm (col_perm h f)]

/-- What `regionalNew` builds when it keeps all instances. -/
def keptObj [PySqrt K] (bb : BlackBoxes K D) (meth : String) (data : List (Row K D)) (eff : Option (List (Row K D))) (l : (Fin D → K) × (Fin D → K))
    (types : Option (Fin D → FeatType)) (catLimit : ℕ) (names : Option (Fin D → String)) (fmt : K → String) : RegionalObj K D :=
  let cfg : RegionalCfg K D :=
    { bb := bb, methodName := meth, data := data, instanceEffects := eff, types := types.getD (getFeatureTypes data catLimit),
      names := names.getD (fun f => "x_" ++ toString (f : ℕ)), catLimit := catLimit, defaultArgs := FitArgs.blank, fmt := fmt }
  { cfg := { cfg with defaultArgs := (FitKw.default meth).toArgs { cfg := cfg, axisLo := l.1, axisHi := l.2 } }, axisLo := l.1, axisHi := l.2 }

theorem regionalNew_keeps [PySqrt K] (bb : BlackBoxes K D) (meth : String) (data : List (Row K D)) (given : Option (List (Row K D))) {nof : PyVal}
    (hk : KeepsAll data.length nof) (hlen : meth = "rhale" → (regionalRhaleEffects bb given data).length = data.length)
    (axisLimits : Option ((Fin D → K) × (Fin D → K))) (types : Option (Fin D → FeatType)) (catLimit : ℕ) (names : Option (Fin D → String)) (fmt : K → String) :
    regionalNew bb meth data given nof axisLimits types catLimit names fmt =
      (limitsOr data axisLimits).map fun l =>
        keptObj bb meth data (if meth = "rhale" then some (regionalRhaleEffects bb given data) else none) l types catLimit names fmt := by
  obtain ⟨k, hk⟩ := prepNof_keeps bb.choice hk (le_refl data.length)
  have htake : ∀ e : List (Row K D), e.length = data.length → takeRows e (List.range data.length) = .ok e := by
    intro e he
    rw [← he]; exact takeRows_range e
  unfold regionalNew regionalInit
  rw [hk]
  simp only [bind, Except.bind, pure, Except.pure, takeRows_range]
  by_cases hm : meth = "rhale"
  · simp only [if_pos hm, htake _ (hlen hm), Except.map]
    cases axisLimits with
    | some l => rfl
    | none =>
      simp only [limitsOr]
      cases axisLimitsAll data <;> rfl
  · simp only [if_neg hm]
    cases axisLimits with
    | some l => rfl
    | none =>
      simp only [limitsOr]
      cases axisLimitsAll data <;> rfl

theorem regionalNew_same [PySqrt K] (choice : ℕ → ℕ → List ℕ) (cast : K → K) (g : Row K D → K) (jac : Option (Row K D → Row K D)) (ext : ShapExt K D)
    (meth : String) (data data' : List (Row K D)) (given given' : Option (List (Row K D))) (h : SameRows data data' given given')
    (hok : NoSampling meth data.length ext) {nof : PyVal} (hnof : KeepsAll data.length nof) (axisLimits : Option ((Fin D → K) × (Fin D → K)))
    (types : Option (Fin D → FeatType)) (catLimit : ℕ) (names : Option (Fin D → String)) (fmt : K → String) :
    PyRel (fun o o' => ObjSame choice cast g jac ext o o' ∧ o'.cfg.methodName = meth ∧ o'.cfg.data = data')
      (regionalNew (rowBoxes choice cast g jac ext) meth data given nof axisLimits types catLimit names fmt)
      (regionalNew (rowBoxes choice cast g jac ext) meth data' given' nof axisLimits types catLimit names fmt) := by
  have hp := sameRows_perm h
  have he := effects_same g jac h
  rw [regionalNew_keeps (rowBoxes choice cast g jac ext) meth data given hnof (fun _ => he.1),
    regionalNew_keeps (rowBoxes choice cast g jac ext) meth data' given' (hp.length_eq ▸ hnof) (fun _ => he.2.1), limitsOr_perm hp]
  cases limitsOr data' axisLimits with
  | error e => exact rfl
  | ok l =>
    refine ⟨⟨rfl, rfl, rfl, ?_, ?_, rfl, rfl, rfl, rfl, rfl, ?_⟩, rfl, rfl⟩
    · by_cases hm : meth = "rhale"
      · simp only [keptObj, if_pos hm]
        exact he
      · simp only [keptObj, if_neg hm]
        exact hp
    · simp only [keptObj, getFeatureTypes_perm hp]
    · show NoSampling meth data'.length ext
      rw [← hp.length_eq]
      exact hok

namespace Spec

/-- A whole session with a regional object: construct it, make any calls, then evaluate a node. -/
def regionalSession [PySqrt K] (bb : BlackBoxes K D) (meth : String) (data : List (Row K D)) (given : Option (List (Row K D))) (nof : PyVal)
    (axisLimits : Option ((Fin D → K) × (Fin D → K))) (types : Option (Fin D → FeatType)) (catLimit : ℕ) (names : Option (Fin D → String)) (fmt : K → String)
    (calls : List (RegCall K D)) (f : Fin D) (node : ℕ) (xs : List K) (het : Bool) (c : PyVal) : Py (EvalOut K) :=
  (regionalNew bb meth data given nof axisLimits types catLimit names fmt).bind fun o => (regionalEvalM o (regRunM o calls) f node xs het c).2

/-- Two (absent, empty or present) trees whose nodes differ only in the order of their instances. -/
def SameTree : Option (Option (List (Node K D))) → Option (Option (List (Node K D))) → Prop
  | none, none => True
  | some none, some none => True
  | some (some t), some (some t') => List.Forall₂ SameNode t t'
  | _, _ => False

end Spec

/-- **C89, `eval`.**  For each of the five regional classes, every row-wise model (and gradient), every data set with its effects and every re-ordering of its
rows, every history of `fit`, `eval` and `plot` calls with any arguments: `eval` at any node returns the same values, or raises the same exception.  (No random
sub-sampling may set in: all instances kept by the constructor and the PDP fits, at most 300 instances for PDP, 100 for ShapDP.) -/
theorem C89_eval_row_order [PySqrt K] (choice : ℕ → ℕ → List ℕ) (cast : K → K) (g : Row K D → K) (jac : Option (Row K D → Row K D)) (ext : ShapExt K D)
    (meth : String) (data data' : List (Row K D)) (given given' : Option (List (Row K D))) (h : SameRows data data' given given')
    (hok : NoSampling meth data.length ext) (nof : PyVal) (hnof : KeepsAll data.length nof) (axisLimits : Option ((Fin D → K) × (Fin D → K)))
    (types : Option (Fin D → FeatType)) (catLimit : ℕ) (names : Option (Fin D → String)) (fmt : K → String) (calls : List (RegCall K D))
    (hcalls : ∀ q ∈ calls, CallKeeps meth data.length q) (f : Fin D) (node : ℕ) (xs : List K) (het : Bool) (c : PyVal) :
    regionalSession (rowBoxes choice cast g jac ext) meth data given nof axisLimits types catLimit names fmt calls f node xs het c =
      regionalSession (rowBoxes choice cast g jac ext) meth data' given' nof axisLimits types catLimit names fmt calls f node xs het c := by
  have hs := regionalNew_same choice cast g jac ext meth data data' given given' h hok hnof axisLimits types catLimit names fmt
  unfold regionalSession
  revert hs
  generalize regionalNew (rowBoxes choice cast g jac ext) meth data given nof axisLimits types catLimit names fmt = A
  generalize regionalNew (rowBoxes choice cast g jac ext) meth data' given' nof axisLimits types catLimit names fmt = B
  intro hs
  cases A with
  | error e =>
    cases B with
    | error e' => obtain rfl : e = e' := hs; rfl
    | ok _ => exact hs.elim
  | ok o =>
    cases B with
    | error e' => exact hs.elim
    | ok o' =>
      obtain ⟨ho, hm, hd⟩ := hs
      simp only [Except.bind]
      refine (ho.eval (ho.run calls ?_) f node xs het c).2
      rw [hm, hd, ← (sameRows_perm h).length_eq]
      exact hcalls

theorem sameTree_of {n : ℕ} {a b : Option (Option (List (Node K D)))} (h : OptTree n a b) : SameTree a b := by
  rcases a with _ | _ | t <;> rcases b with _ | _ | t'
  all_goals first | exact h.elim | exact trivial | skip
  have h' : List.Forall₂ (NodeOk n) t t' := h
  exact h'.imp fun a b hab => hab.1

/-- **C89, the partition.**  In the same generality: the constructors both succeed or raise the same exception, and after every history the full and pruned trees of every feature (also
the re-scaled ones) agree node by node - name, condition, split position, heterogeneity, weight, number of instances - and the instances of corresponding nodes
are the same; a further `fit` succeeds on both or raises the same exception. -/
theorem C89_trees_row_order [PySqrt K] (choice : ℕ → ℕ → List ℕ) (cast : K → K) (g : Row K D → K) (jac : Option (Row K D → Row K D)) (ext : ShapExt K D)
    (meth : String) (data data' : List (Row K D)) (given given' : Option (List (Row K D))) (h : SameRows data data' given given')
    (hok : NoSampling meth data.length ext) (nof : PyVal) (hnof : KeepsAll data.length nof) (axisLimits : Option ((Fin D → K) × (Fin D → K)))
    (types : Option (Fin D → FeatType)) (catLimit : ℕ) (names : Option (Fin D → String)) (fmt : K → String) :
    (∃ e, regionalNew (rowBoxes choice cast g jac ext) meth data given nof axisLimits types catLimit names fmt = .error e ∧
      regionalNew (rowBoxes choice cast g jac ext) meth data' given' nof axisLimits types catLimit names fmt = .error e) ∨
    ∃ o o', regionalNew (rowBoxes choice cast g jac ext) meth data given nof axisLimits types catLimit names fmt = .ok o ∧
      regionalNew (rowBoxes choice cast g jac ext) meth data' given' nof axisLimits types catLimit names fmt = .ok o' ∧
      ∀ calls : List (RegCall K D), (∀ q ∈ calls, CallKeeps meth data.length q) →
        (∀ f, SameTree ((regRunM o calls).treeFull f) ((regRunM o' calls).treeFull f)) ∧
        (∀ f, SameTree ((regRunM o calls).treePruned f) ((regRunM o' calls).treePruned f)) ∧
        (∀ f, SameTree ((regRunM o calls).treeFullScaled f) ((regRunM o' calls).treeFullScaled f)) ∧
        (∀ f, SameTree ((regRunM o calls).treePrunedScaled f) ((regRunM o' calls).treePrunedScaled f)) ∧
        ∀ features kw, CallKeeps meth data.length (.fit features kw) →
          (regionalFit o (regRunM o calls) features kw).2 = (regionalFit o' (regRunM o' calls) features kw).2 := by
  have hs := regionalNew_same choice cast g jac ext meth data data' given given' h hok hnof axisLimits types catLimit names fmt
  revert hs
  generalize regionalNew (rowBoxes choice cast g jac ext) meth data given nof axisLimits types catLimit names fmt = A
  generalize regionalNew (rowBoxes choice cast g jac ext) meth data' given' nof axisLimits types catLimit names fmt = B
  intro hs
  cases A with
  | error e =>
    cases B with
    | error e' => obtain rfl : e = e' := hs; exact Or.inl ⟨e, rfl, rfl⟩
    | ok _ => exact hs.elim
  | ok o =>
    cases B with
    | error e' => exact hs.elim
    | ok o' =>
      obtain ⟨ho, hm, hd⟩ := hs
      refine Or.inr ⟨o, o', rfl, rfl, fun calls hcalls => ?_⟩
      have hlen : o'.cfg.data.length = data.length := by rw [hd, ← (sameRows_perm h).length_eq]
      have hr := ho.run calls (by rw [hm, hlen]; exact hcalls)
      refine ⟨fun f => sameTree_of (hr.full f), fun f => sameTree_of (hr.pruned f), fun f => sameTree_of (hr.fullS f), fun f => sameTree_of (hr.prunedS f), ?_⟩
      intro features kw hkw
      exact (ho.fit features kw (by rw [hm, hlen]; exact hkw) hr).2

/-! ### A concrete case -/

/-- The black boxes of the examples are row-wise. -/
theorem interactionBB_rows : interactionBB = rowBoxes (fun _ n => List.range n) id (fun r : Row ℚ 2 => r 0 + 2 * r 0 * r 1) (some fun r => ![1 + 2 * r 1, 2 * r 0])
    { explain := fun _ => .error .valueError, spline := fun _ => .error .valueError } := rfl

/-- The hypotheses are met by six instances and their reversal, for RegionalPDP and RegionalRHALE; the feature is split, and the first subregion evaluates to the
line of slope 1 from either order. -/
example : SameRows interactionData interactionData.reverse none none ∧ NoSampling "pdp" interactionData.length interactionBB.ext ∧
    NoSampling "rhale" interactionData.length interactionBB.ext ∧
    CallKeeps "pdp" interactionData.length (RegCall.fit (.int 0) (interactionKw (.str "greedy"))) ∧
    (regionalSession interactionBB "pdp" interactionData none (.str "all") none none 3 none (fun q => toString q)
      [RegCall.fit (.int 0) (interactionKw (.str "greedy"))] 0 1 [0, 1, 2] false (.bool false) = .ok ([0, 1, 2], none)) ∧
    (regionalSession interactionBB "pdp" interactionData.reverse none (.str "all") none none 3 none (fun q => toString q)
      [RegCall.fit (.int 0) (interactionKw (.str "greedy"))] 0 1 [0, 1, 2] false (.bool false) = .ok ([0, 1, 2], none)) := by
  refine ⟨(List.reverse_perm _).symm, ⟨by simp, fun _ => by decide, fun h => ?_⟩, ⟨by simp, fun h => ?_, fun h => ?_⟩, fun _ => Or.inl rfl, by decide +kernel, by decide +kernel⟩
  · simp at h
  · simp at h
  · simp at h

/-- The restriction matters: with three of the six instances drawn (here: the first three), the order decides the result. -/
theorem C89_false_with_sampling :
    regionalSession interactionBB "pdp" interactionData none (.int 3) none none 3 none (fun q => toString q)
        [RegCall.fit (.int 0) (interactionKw (.str "greedy"))] 0 0 [0, 1, 2] false (.bool false) = .ok ([0, 1, 2], none) ∧
      regionalSession interactionBB "pdp" interactionData.reverse none (.int 3) none none 3 none (fun q => toString q)
        [RegCall.fit (.int 0) (interactionKw (.str "greedy"))] 0 0 [0, 1, 2] false (.bool false) = .ok ([0, 3, 6], none) := by
  decide +kernel

end Effector
