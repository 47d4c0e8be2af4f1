import Verif.Props.TreeData

/-!
# C48, C49: DataTransformer
-/

set_option linter.unusedSectionVars false

namespace Effector

variable {K : Type} [Field K] [LinearOrder K] [IsStrictOrderedRing K] {D : ℕ}

theorem bitStrings_length (n : ℕ) : (bitStrings n).length = 2 ^ n := by
  induction n with
  | zero => rfl
  | succ n ih => simp [bitStrings, ih, pow_succ]; ring

theorem mem_bitStrings_length {n : ℕ} {b : List Bool} (h : b ∈ bitStrings n) : b.length = n := by
  induction n generalizing b with
  | zero => simp [bitStrings] at h; subst h; rfl
  | succ n ih =>
    simp only [bitStrings, List.mem_append, List.mem_map] at h
    rcases h with ⟨c, hc, rfl⟩ | ⟨c, hc, rfl⟩ <;> simp [ih hc]

theorem bitStrings_eq_paths (n : ℕ) : bitStrings n = Spec.paths n := by
  have key : ∀ m, Spec.paths (m + 1) = (Spec.paths m).map (false :: ·) ++ (Spec.paths m).map (true :: ·) := by
    intro m
    induction m with
    | zero => rfl
    | succ m ih =>
      conv_lhs => rw [Spec.paths, ih]
      rw [List.flatMap_append, List.flatMap_map, List.flatMap_map]
      conv_rhs => rw [Spec.paths, List.map_flatMap, List.map_flatMap]
      simp
  induction n with
  | zero => rfl
  | succ n ih => rw [key, bitStrings, ih]

/-- Exactly one side of a condition holds. -/
theorem condHolds_not (c : Cond K D) (r : Row K D) : condHolds c true r = !condHolds c false r := by
  unfold condHolds
  cases c.typ with
  | cat => simp
  | cont => simp only; rw [← decide_not, decide_eq_decide]; exact not_le.symm

theorem map_replicate_zero (n : ℕ) {α : Type} (l : List α) (g : α → K) (h : ∀ a ∈ l, g a = 0) (hl : l.length = n) : l.map g = List.replicate n 0 := by
  rw [List.eq_replicate_iff]
  refine ⟨by simpa using hl, ?_⟩
  intro b hb
  obtain ⟨a, ha, rfl⟩ := List.mem_map.1 hb
  exact h a ha

/-- The masked columns: zero except at one position. -/
theorem masked_columns (cs : List (Cond K D)) (r : Row K D) (v : K) :
    ∃ j < 2 ^ cs.length, ((bitStrings cs.length).map fun bits => if columnMask cs bits r then v * 1 else v * 0) = (List.replicate (2 ^ cs.length) 0).set j v ∧
      (∀ (k : ℕ) bits, (bitStrings cs.length)[k]? = some bits → (columnMask cs bits r = true ↔ k = j)) := by
  induction cs with
  | nil =>
    refine ⟨0, by simp, by simp [bitStrings, columnMask], ?_⟩
    intro k bits hk
    cases k with
    | zero => simp [columnMask]
    | succ k => simp [bitStrings] at hk
  | cons c t ih =>
    obtain ⟨j, hj, h1, h2⟩ := ih
    have hlen : (bitStrings t.length).length = 2 ^ t.length := bitStrings_length _
    have hps : 2 ^ (c :: t).length = 2 ^ t.length + 2 ^ t.length := by rw [List.length_cons, pow_succ]; ring
    have hm : ∀ b bits, columnMask (c :: t) (b :: bits) r = (condHolds c b r && columnMask t bits r) := by
      intro b bits; rfl
    have hsplit : bitStrings (c :: t).length = (bitStrings t.length).map (false :: ·) ++ (bitStrings t.length).map (true :: ·) := rfl
    have hget : ∀ (k : ℕ) bits, (bitStrings (c :: t).length)[k]? = some bits →
        (k < 2 ^ t.length ∧ ∃ bs, (bitStrings t.length)[k]? = some bs ∧ bits = false :: bs) ∨
        (2 ^ t.length ≤ k ∧ ∃ bs, (bitStrings t.length)[k - 2 ^ t.length]? = some bs ∧ bits = true :: bs) := by
      intro k bits hk
      rw [hsplit] at hk
      by_cases hlt : k < 2 ^ t.length
      · left
        rw [List.getElem?_append_left (by simpa [hlen] using hlt), List.getElem?_map] at hk
        obtain ⟨bs, e1, e2⟩ := Option.map_eq_some_iff.mp hk
        exact ⟨hlt, bs, e1, e2.symm⟩
      · right
        rw [List.getElem?_append_right (by simpa [hlen] using hlt), List.getElem?_map, List.length_map, hlen] at hk
        obtain ⟨bs, e1, e2⟩ := Option.map_eq_some_iff.mp hk
        exact ⟨not_lt.mp hlt, bs, e1, e2.symm⟩
    have hkl : ∀ (k : ℕ) bs, (bitStrings t.length)[k]? = some bs → k < 2 ^ t.length := by
      intro k bs hk
      rw [← hlen]; exact (List.getElem?_eq_some_iff.mp hk).1
    rw [hsplit, List.map_append, List.map_map, List.map_map]
    cases hc : condHolds c false r with
    | true =>
      have hc' : condHolds c true r = false := by rw [condHolds_not, hc]; rfl
      refine ⟨j, by omega, ?_, ?_⟩
      · have e1 : (List.map ((fun bits => if columnMask (c :: t) bits r = true then v * 1 else v * 0) ∘ fun x => false :: x) (bitStrings t.length)) =
            (List.replicate (2 ^ t.length) 0).set j v := by
          rw [← h1]
          apply List.map_congr_left
          intro bs _
          simp only [Function.comp, hm, hc, Bool.true_and]
        rw [e1, map_replicate_zero (2 ^ t.length) _ _ _ hlen, hps, List.replicate_add, List.set_append_left _ _ (by simpa using hj)]
        intro bs _
        simp [hm, hc']
      · intro k bits hk
        rw [← hsplit] at hk
        rcases hget k bits hk with ⟨hlt, bs, e1, rfl⟩ | ⟨hge, bs, e1, rfl⟩
        · rw [hm, hc, Bool.true_and]; exact h2 k bs e1
        · rw [hm, hc', Bool.false_and]
          constructor
          · intro e; cases e
          · intro e; omega
    | false =>
      have hc' : condHolds c true r = true := by rw [condHolds_not, hc]; rfl
      refine ⟨2 ^ t.length + j, by omega, ?_, ?_⟩
      · have e1 : (List.map ((fun bits => if columnMask (c :: t) bits r = true then v * 1 else v * 0) ∘ fun x => true :: x) (bitStrings t.length)) =
            (List.replicate (2 ^ t.length) 0).set j v := by
          rw [← h1]
          apply List.map_congr_left
          intro bs _
          simp only [Function.comp, hm, hc', Bool.true_and]
        rw [e1, map_replicate_zero (2 ^ t.length) _ _ _ hlen, hps, List.replicate_add, List.set_append_right _ _ (by simp)]
        · simp
        · intro bs _
          simp [hm, hc]
      · intro k bits hk
        rw [← hsplit] at hk
        rcases hget k bits hk with ⟨hlt, bs, e1, rfl⟩ | ⟨hge, bs, e1, rfl⟩
        · rw [hm, hc, Bool.false_and]
          constructor
          · intro e; cases e
          · intro e; omega
        · rw [hm, hc', Bool.true_and, h2 _ bs e1]
          omega

theorem sum_set_replicate (n j : ℕ) (hj : j < n) (v : K) : ((List.replicate n (0 : K)).set j v).sum = v := by
  induction n generalizing j with
  | zero => omega
  | succ n ih =>
    cases j with
    | zero => simp [List.replicate_succ]
    | succ j =>
      rw [List.replicate_succ, List.set_cons_succ, List.sum_cons, ih j (by omega), zero_add]

theorem flatMap_block {α β : Type} (l : List α) (g : α → List β) (i : ℕ) (a : α) (h : l[i]? = some a) :
    ((l.flatMap g).drop (((l.take i).map fun x => (g x).length).sum)).take (g a).length = g a := by
  induction l generalizing i with
  | nil => simp at h
  | cons x t ih =>
    cases i with
    | zero => simp at h; subst h; simp
    | succ i =>
      simp only [List.getElem?_cons_succ] at h
      rw [List.take_succ_cons, List.map_cons, List.sum_cons, List.flatMap_cons, ← List.drop_drop, List.drop_left]
      exact ih i h

/-- **C48.** `transform` returns one row per row of `X`.  In every row the columns of feature `i` are the `2 ^ k_i` columns (`k_i` the number of its splits)
after those of the features before it; all of them are 0 but one, which carries the original value; hence they sum to the original value.  A feature
without splits is copied. -/
theorem C48_one_active_column (splits : Fin D → List (Cond K D)) (X : List (Row K D)) :
    (transform splits X).length = X.length ∧
    ∀ (n : ℕ) r out, X[n]? = some r → (transform splits X)[n]? = some out →
      out.length = ((List.finRange D).map fun f => 2 ^ (splits f).length).sum ∧
      ∀ f : Fin D, ∃ block j, (out.drop (((List.finRange D).take f).map fun g => 2 ^ (splits g).length).sum).take (2 ^ (splits f).length) = block ∧
        j < 2 ^ (splits f).length ∧ block = (List.replicate (2 ^ (splits f).length) 0).set j (r f) ∧ block.sum = r f ∧ (splits f = [] → block = [r f]) := by
  have hblock : ∀ (r : Row K D) (f : Fin D), ∃ j < 2 ^ (splits f).length, transformFeature (splits f) f r = (List.replicate (2 ^ (splits f).length) 0).set j (r f) := by
    intro r f
    unfold transformFeature
    by_cases he : splits f = []
    · rw [if_pos he, he]
      exact ⟨0, by simp, by simp⟩
    · rw [if_neg he]
      obtain ⟨j, h1, h2, -⟩ := masked_columns (splits f) r (r f)
      exact ⟨j, h1, h2⟩
  have hlen : ∀ (r : Row K D) (f : Fin D), (transformFeature (splits f) f r).length = 2 ^ (splits f).length := by
    intro r f
    obtain ⟨j, -, h⟩ := hblock r f
    rw [h]; simp
  refine ⟨by simp [transform], ?_⟩
  intro n r out hr ho
  unfold transform at ho
  rw [List.getElem?_map, hr] at ho
  simp only [Option.map_some, Option.some.injEq] at ho
  subst ho
  refine ⟨by rw [List.length_flatMap]; simp only [hlen], ?_⟩
  intro f
  obtain ⟨j, hj, hb⟩ := hblock r f
  have := flatMap_block (List.finRange D) (fun f => transformFeature (splits f) f r) f f (by simp)
  simp only [hlen] at this
  refine ⟨_, j, this, hj, hb, by rw [hb]; exact sum_set_replicate _ _ hj _, ?_⟩
  intro he
  unfold transformFeature
  rw [if_pos he]

/-- Feature 0 with two splits: the value 7 ends up in the third of its four columns, feature 1 is copied. -/
example : transform (fun f : Fin 2 => if f = 0 then [⟨1, 3, .cont⟩, ⟨1, 5, .cat⟩] else []) [(![7, 5] : Row ℚ 2)] = [[0, 0, 7, 0, 5]] := by decide +kernel

/-! ## C49 -/

/-- The part of the important splits that DataTransformer reads. -/
def condsOf (sps : List (Split K D)) : List (Cond K D) := sps.map fun sp => { feature := sp.feature, position := sp.position, typ := sp.typ }

theorem columnMask_follows (sps : List (Split K D)) (path : List Bool) (r : Row K D) (hno : ∀ sp ∈ sps, sp.typ = .cont → r sp.feature ≠ sp.position) :
    columnMask (condsOf sps) path r = true ↔ Spec.Follows sps path r := by
  unfold columnMask Spec.Follows condsOf
  rw [List.all_eq_true]
  have key : ∀ sp ∈ sps, ∀ b, condHolds { feature := sp.feature, position := sp.position, typ := sp.typ } b r = true ↔
      Spec.OnSide sp.typ sp.position b (r sp.feature) := by
    intro sp hsp b
    have := hno sp hsp
    unfold condHolds Spec.OnSide
    cases ht : sp.typ with
    | cat => cases b <;> simp
    | cont =>
      have hne := this ht
      cases b with
      | false => simp only [decide_eq_true_eq]; exact ⟨fun h => lt_of_le_of_ne h hne, le_of_lt⟩
      | true => simp only [decide_eq_true_eq]; exact ⟨le_of_lt, fun h => lt_of_le_of_ne h (Ne.symm hne)⟩
  constructor
  · intro h p hp
    have hm : (({ feature := p.1.feature, position := p.1.position, typ := p.1.typ } : Cond K D), p.2) ∈
        (sps.map fun sp => ({ feature := sp.feature, position := sp.position, typ := sp.typ } : Cond K D)).zip path := by
      rw [List.zip_map_left]
      exact List.mem_map.mpr ⟨p, hp, rfl⟩
    exact (key p.1 (List.of_mem_zip hp).1 p.2).mp (h _ hm)
  · intro h q hq
    rw [List.zip_map_left] at hq
    obtain ⟨p, hp, rfl⟩ := List.mem_map.1 hq
    exact (key p.1 (List.of_mem_zip hp).1 p.2).mpr (h p hp)

/-- **C49 (partial).** The column in which an instance of the data is active is the number of the leaf of the pruned tree that contains it, if the instance
does not lie exactly on a numerical split position.  Missing: instances on a split position (`C49_false_on_ties`). -/
theorem C49_active_column_is_the_leaf_partial (cfg : RegCfg K D) (heff : EffAligned cfg) (posText : Fin D → K → String) (s : Splits K D)
    (tree : List (Node K D)) (h : TreeOf cfg posText true s tree) (r : Row K D) (hr : r ∈ cfg.data)
    (hno : ∀ sp ∈ s.levels, sp.typ = .cont → r sp.feature ≠ sp.position) (himp : chooseImportantSplits cfg (some s) ≠ []) :
    let p := (chooseImportantSplits cfg (some s)).length
    ∃ j < 2 ^ p, transformFeature (condsOf (chooseImportantSplits cfg (some s))) cfg.feature r = (List.replicate (2 ^ p) 0).set j (r cfg.feature) ∧
      (∃ leaf, (getLevelNodes tree p)[j]? = some leaf ∧ r ∈ leaf.rows) ∧
      ∀ (k : ℕ) leaf, (getLevelNodes tree p)[k]? = some leaf → (r ∈ leaf.rows ↔ k = j) := by
  intro p
  obtain ⟨n, hn1, hn⟩ := choose_prefix cfg s
  obtain ⟨-, hH⟩ := h.heap heff
  have hroot : (rootNode cfg s).level = 0 := rfl
  have hu : usedSplits cfg true s = chooseImportantSplits cfg (some s) := rfl
  rw [hu] at hH
  have hlc : (condsOf (chooseImportantSplits cfg (some s))).length = p := by simp [condsOf, p]
  obtain ⟨j, hj, h1, h2⟩ := masked_columns (condsOf (chooseImportantSplits cfg (some s))) r (r cfg.feature)
  rw [hlc] at hj h1 h2
  have hne : condsOf (chooseImportantSplits cfg (some s)) ≠ [] := by simpa [condsOf] using himp
  have hno' : ∀ sp ∈ chooseImportantSplits cfg (some s), sp.typ = .cont → r sp.feature ≠ sp.position := by
    intro sp hsp
    rw [hn] at hsp
    exact hno sp (List.mem_of_mem_take hsp)
  have hrows := hH.levelRows hroot p le_rfl
  rw [show (chooseImportantSplits cfg (some s)).take p = chooseImportantSplits cfg (some s) from List.take_length] at hrows
  have e0 : (rootNode cfg s).rows = cfg.data := rfl
  rw [e0] at hrows
  have hlenL := hH.levelNodes_length hroot p le_rfl
  have hleaf : ∀ (k : ℕ) leaf, (getLevelNodes tree p)[k]? = some leaf → (r ∈ leaf.rows ↔ k = j) := by
    intro k leaf hk
    have hk1 : ((getLevelNodes tree p).map (·.rows))[k]? = some leaf.rows := by rw [List.getElem?_map, hk]; rfl
    rw [hrows] at hk1
    unfold Spec.regions at hk1
    rw [List.getElem?_map] at hk1
    obtain ⟨path, e1, e2⟩ := Option.map_eq_some_iff.mp hk1
    rw [← e2, List.mem_filter, decide_eq_true_eq, ← columnMask_follows _ _ _ hno']
    rw [← bitStrings_eq_paths] at e1
    rw [h2 k path e1]
    exact and_iff_right hr
  refine ⟨j, hj, ?_, ?_, hleaf⟩
  · unfold transformFeature
    rw [if_neg hne, hlc, h1]
  · obtain ⟨leaf, hl⟩ : ∃ leaf, (getLevelNodes tree p)[j]? = some leaf := ⟨_, List.getElem?_eq_getElem (by rw [hlenL]; exact hj)⟩
    exact ⟨leaf, hl, (hleaf j leaf hl).mpr rfl⟩

/-- **C49 is false for instances on a split position**: in the tree of `tieCfg` the instance (5, 1) belongs to the second leaf, but `DataTransformer` puts
its value in the first column. -/
theorem C49_false_on_ties :
    (match searchAllSplits tieCfg with
      | .ok (some s) => (match splitsToTree tieCfg (fun _ p => toString p) (some s) true with
        | .ok (some tree) => ((getLevelNodes tree 1).map fun nd => nd.rows.map (· 1), transformFeature (condsOf (chooseImportantSplits tieCfg (some s))) 0 ![5, 1])
        | _ => ([], []))
      | _ => ([], [])) = ([[0], [1, 2]], [5, 0]) := by
  decide +kernel

end Effector
