import Verif.Props.NanSearchPdp
import Verif.Props.RegionUnitsTree

/-!
# C115: the tree that is shown when heterogeneities are NaN
-/

set_option linter.unusedSectionVars false

namespace Effector

variable {K : Type} [Field K] [LinearOrder K] [IsStrictOrderedRing K] {D : ℕ}

open Spec

namespace Spec

/-- A node without its heterogeneity and without the instance effects it carries. -/
def shape (n : Node K D) : Node K D := { n with heterogeneity := 0, effects := none }

end Spec

theorem addChild_grows (tc : TreeCfg K D) (hasEff : Bool) (nInit : ℕ) (ps : List (ParentInfo K D)) (sp : Split K D) (level : ℕ) {st st' : List (Node K D) × List (ParentInfo K D)} (j : ℕ)
    (h : addChild tc hasEff nInit ps sp level st j = .ok st') : ∃ n : Node K D, st'.1 = st.1 ++ [n] ∧ n.level = level := by
  unfold addChild at h
  simp only [bind, Except.bind, pure, Except.pure] at h
  cases e1 : pyIndex ps (j / 2) with
  | error e => rw [e1] at h; cases h
  | ok par =>
    rw [e1] at h
    dsimp only at h
    cases e2 : pyIndex sp.heterogeneity j with
    | error e => rw [e2] at h; cases h
    | ok het =>
      rw [e2] at h
      dsimp only at h
      cases e3 : pyIndex sp.nofInstances j with
      | error e => rw [e3] at h; cases h
      | ok nof =>
        rw [e3] at h
        dsimp only at h
        unfold addNode at h
        cases e4 : getNode st.1 par.name with
        | none => rw [e4] at h; cases h
        | some p =>
          rw [e4] at h
          dsimp only at h
          have := Except.ok.inj h
          rw [← this]
          exact ⟨_, rfl, rfl⟩

theorem foldlM_grows (tc : TreeCfg K D) (hasEff : Bool) (nInit : ℕ) (ps : List (ParentInfo K D)) (sp : Split K D) (level : ℕ) (l : List ℕ) {st st' : List (Node K D) × List (ParentInfo K D)}
    (h : l.foldlM (addChild tc hasEff nInit ps sp level) st = .ok st') : ∃ t : List (Node K D), st'.1 = st.1 ++ t ∧ ∀ n ∈ t, n.level = level := by
  induction l generalizing st with
  | nil =>
    obtain rfl := Except.ok.inj h
    exact ⟨[], by simp, by simp⟩
  | cons j l ih =>
    simp only [List.foldlM_cons, bind, Except.bind] at h
    cases e : addChild tc hasEff nInit ps sp level st j with
    | error e' => rw [e] at h; cases h
    | ok st1 =>
      rw [e] at h
      obtain ⟨n, h1, h2⟩ := addChild_grows tc hasEff nInit ps sp level j e
      obtain ⟨t, h3, h4⟩ := ih h
      refine ⟨n :: t, by rw [h3, h1]; simp, ?_⟩
      intro m hm
      rcases List.mem_cons.mp hm with rfl | hm
      · exact h2
      · exact h4 m hm

theorem addLevels_grows (tc : TreeCfg K D) (hasEff : Bool) (nInit : ℕ) (sps : List (Split K D)) (level : ℕ) (tree : List (Node K D)) (ps : List (ParentInfo K D)) {t : List (Node K D)}
    (h : addLevels tc hasEff nInit level tree ps sps = .ok t) : ∃ u : List (Node K D), t = tree ++ u ∧ ∀ n ∈ u, level ≤ n.level := by
  induction sps generalizing level tree ps with
  | nil =>
    obtain rfl := Except.ok.inj h
    exact ⟨[], by simp, by simp⟩
  | cons sp sps ih =>
    unfold addLevels at h
    simp only [bind, Except.bind] at h
    cases e : (List.range sp.nofInstances.length).foldlM (addChild tc hasEff nInit ps sp level) (tree, []) with
    | error e' => rw [e] at h; cases h
    | ok st1 =>
      rw [e] at h
      obtain ⟨t1, h1, h2⟩ := foldlM_grows tc hasEff nInit ps sp level _ e
      obtain ⟨u, h3, h4⟩ := ih _ _ _ h
      refine ⟨t1 ++ u, by rw [h3, h1]; simp, ?_⟩
      intro m hm
      rcases List.mem_append.mp hm with hm | hm
      · exact (h2 m hm).ge
      · have := h4 m hm
        omega

/-- The tree of the first `k` splits is the top of the tree of all of them. -/
theorem addLevels_take (tc : TreeCfg K D) (hasEff : Bool) (nInit : ℕ) (sps : List (Split K D)) (k level : ℕ) (tree : List (Node K D)) (ps : List (ParentInfo K D)) {t : List (Node K D)}
    (h : addLevels tc hasEff nInit (level + 1) tree ps sps = .ok t) (ht : ∀ n ∈ tree, n.level ≤ level) :
    addLevels tc hasEff nInit (level + 1) tree ps (sps.take k) = .ok (t.filter fun n => n.level ≤ level + k) := by
  induction k generalizing sps level tree ps with
  | zero =>
    obtain ⟨u, h1, h2⟩ := addLevels_grows tc hasEff nInit sps _ _ _ h
    rw [List.take_zero, addLevels, h1, List.filter_append, List.filter_eq_self.mpr (by simpa using ht), List.filter_eq_nil_iff.mpr, List.append_nil]
    intro n hn
    have := h2 n hn
    simp
    omega
  | succ k ih =>
    cases sps with
    | nil =>
      rw [List.take_nil]
      obtain rfl := Except.ok.inj h
      rw [addLevels, List.filter_eq_self.mpr]
      intro n hn
      have := ht n hn
      simp
      omega
    | cons sp sps =>
      rw [List.take_succ_cons]
      unfold addLevels at h ⊢
      simp only [bind, Except.bind] at h ⊢
      cases e : (List.range sp.nofInstances.length).foldlM (addChild tc hasEff nInit ps sp (level + 1)) (tree, []) with
      | error e' => rw [e] at h; cases h
      | ok st1 =>
        rw [e] at h
        obtain ⟨t1, h1, h2⟩ := foldlM_grows tc hasEff nInit ps sp (level + 1) _ e
        have := ih sps (level + 1) st1.1 (nextParents st1.2) h (by
          intro n hn
          rw [h1] at hn
          rcases List.mem_append.mp hn with hn | hn
          · have := ht n hn
            omega
          · exact (h2 n hn).le)
        dsimp only
        rw [this, show level + 1 + k = level + (k + 1) by omega]

theorem nLoop_nil {cfg : RegCfg K D} {hN : HeterN K D} {n : ℕ} {xs : List (List (Row K D))} {js : Option (List (List (Row K D)))} {before : List (Option K)} {l : List (NSplit K D)}
    (h : nSearchLoop cfg hN n xs js before = .ok l) : l = [] ↔ n = 0 ∨ xs.any (fun x => decide (x.length < cfg.minPoints)) = true := by
  cases n with
  | zero =>
    obtain rfl := Except.ok.inj h
    simp
  | succ n =>
    unfold nSearchLoop at h
    by_cases hs : xs.any (fun x => decide (x.length < cfg.minPoints)) = true
    · rw [if_pos hs] at h
      obtain rfl := Except.ok.inj h
      simp only [true_iff]
      exact Or.inr hs
    rw [if_neg hs] at h
    simp only [bind, Except.bind, pure, Except.pure] at h
    rcases e1 : nSingleLevelSplits cfg hN xs js before with e | sp
    · rw [e1] at h; cases h
    rw [e1] at h
    simp only at h
    rcases e3 : nSearchLoop cfg hN n (splitAll xs sp.feature sp.position sp.typ) (js.map fun js => splitAllEff xs js sp.feature sp.position sp.typ) sp.heterogeneity with e | rest
    · rw [e3] at h; cases h
    rw [e3] at h
    obtain rfl := Except.ok.inj h
    simp only [reduceCtorEq, false_iff, not_or, Nat.add_eq_zero_iff, one_ne_zero, and_false, not_false_iff, true_and]
    exact hs

theorem loopM_nil {cfg : RegCfg K D} {H : HeterM K D} {n : ℕ} {xs : List (List (Row K D))} {js : Option (List (List (Row K D)))} {before : List K} {l : List (Split K D)}
    (h : searchLoopM cfg H n xs js before = .ok l) : l = [] ↔ n = 0 ∨ xs.any (fun x => decide (x.length < cfg.minPoints)) = true := by
  cases n with
  | zero =>
    obtain rfl := Except.ok.inj h
    simp
  | succ n =>
    unfold searchLoopM at h
    by_cases hs : xs.any (fun x => decide (x.length < cfg.minPoints)) = true
    · rw [if_pos hs] at h
      obtain rfl := Except.ok.inj h
      simp only [true_iff]
      exact Or.inr hs
    rw [if_neg hs] at h
    simp only [bind, Except.bind, pure, Except.pure] at h
    rcases e1 : singleLevelSplitsM cfg H xs js before with e | sp
    · rw [e1] at h; cases h
    rw [e1] at h
    simp only at h
    rcases e3 : searchLoopM cfg H n (splitAll xs sp.feature sp.position sp.typ) (js.map fun js => splitAllEff xs js sp.feature sp.position sp.typ) sp.heterogeneity with e | rest
    · rw [e3] at h; cases h
    rw [e3] at h
    obtain rfl := Except.ok.inj h
    simp only [reduceCtorEq, false_iff, not_or, Nat.add_eq_zero_iff, one_ne_zero, and_false, not_false_iff, true_and]
    exact hs

/-- Both searches return a result or both return nothing, of the same data. -/
theorem nSearch_both (cfg : RegCfg K D) (hN : HeterN K D) (H : HeterM K D) {sN : Option (NSplits K D)} {s : Option (Splits K D)} (h1 : nSearchAllSplits cfg hN = .ok sN)
    (h2 : searchAllSplitsM cfg H = .ok s) : sN.map (·.nofInit) = s.map (·.nofInit) := by
  unfold nSearchAllSplits at h1
  unfold searchAllSplitsM at h2
  by_cases c1 : cfg.types cfg.feature = .cat ∧ cfg.splitCat = false
  · rw [if_pos c1] at h1 h2
    obtain rfl := Except.ok.inj h1
    obtain rfl := Except.ok.inj h2
    rfl
  rw [if_neg c1] at h1 h2
  by_cases c2 : cfg.foc.length < cfg.maxLevels
  · rw [if_pos c2] at h1; cases h1
  rw [if_neg c2] at h1 h2
  simp only [bind, Except.bind, pure, Except.pure] at h1 h2
  rcases k1 : hN cfg.data cfg.dataEffect with e | a
  · rw [k1] at h1; cases h1
  rcases k2 : H cfg.data cfg.dataEffect with e | b
  · rw [k2] at h2; cases h2
  rw [k1] at h1
  rw [k2] at h2
  simp only at h1 h2
  rcases e1 : nSearchLoop cfg hN cfg.maxLevels [cfg.data] (cfg.dataEffect.map fun e => [e]) [a] with e | lN
  · rw [e1] at h1; cases h1
  rcases e2 : searchLoopM cfg H cfg.maxLevels [cfg.data] (cfg.dataEffect.map fun e => [e]) [b] with e | l
  · rw [e2] at h2; cases h2
  rw [e1] at h1
  rw [e2] at h2
  obtain rfl := Except.ok.inj h1
  obtain rfl := Except.ok.inj h2
  have i1 := nLoop_nil e1
  have i2 := loopM_nil e2
  by_cases hl : lN = []
  · rw [if_pos hl, if_pos (i2.mpr (i1.mp hl))]; rfl
  · rw [if_neg hl, if_neg (fun h => hl (i1.mpr (i2.mp h)))]; rfl

theorem nodeIn_shape {q : K} {l l' : List (Node K D)} (h : List.Forall₂ (NodeIn q) l l') : l.map shape = l'.map shape := by
  induction h with
  | nil => rfl
  | @cons a b l l' hab _ ih =>
    rw [List.map_cons, List.map_cons, ih]
    congr 1
    cases a
    cases b
    obtain ⟨g1, g2, g3, g4, -, g6, g7, g8, g9, g10, g11, g12⟩ := hab
    simp only at g1 g2 g3 g4 g6 g7 g8 g9 g10 g11 g12
    subst g1 g2 g3 g4 g6 g7 g8 g9 g10 g11 g12
    rfl

/-- **C115, the tree.**  The pruned tree with NaN heterogeneities is the pruned tree without them, cut below some depth `k`: the same nodes, names, conditions, instances and sizes. -/
theorem C115_tree (cfg : RegCfg K D) {hN : HeterN K D} {h : HeterM K D} (hh : HeterNanOr hN h) {sN : Option (NSplits K D)} {s : Option (Splits K D)}
    (h1 : nSearchAllSplits cfg hN = .ok sN) (h2 : searchAllSplitsM cfg h = .ok s) (posText : Fin D → K → String) {tN t : Option (List (Node K D))}
    (hN' : nSplitsToTree cfg posText sN true = .ok tN) (ht : splitsToTree cfg posText s true = .ok t) :
    ∃ k, tN.map (·.map shape) = t.map fun t => (t.filter fun n => n.level ≤ k).map shape := by
  obtain ⟨k, hk⟩ := C115_prefix cfg hh h1 h2
  have hb := nSearch_both cfg hN h h1 h2
  refine ⟨k, ?_⟩
  cases sN with
  | none =>
    cases s with
    | some s => simp at hb
    | none =>
      obtain rfl := Except.ok.inj hN'
      obtain rfl := Except.ok.inj ht
      rfl
  | some sN =>
    cases s with
    | none => simp at hb
    | some s =>
      have hb : sN.nofInit = s.nofInit := by simpa using hb
      unfold nSplitsToTree at hN'
      unfold splitsToTree at ht
      simp only [if_true, bind, Except.bind, pure, Except.pure] at hN' ht
      rw [hk] at hN'
      rcases e2 : addLevels { names := cfg.names, posText := posText } cfg.dataEffect.isSome s.nofInit 1 [rootNode cfg s]
        [{ name := cfg.names cfg.feature, rows := cfg.data, effects := cfg.dataEffect }] (chooseImportantSplits cfg (some s)) with e | t0
      · rw [e2] at ht; cases ht
      rw [e2] at ht
      obtain rfl := Except.ok.inj ht
      have hcut := addLevels_take _ _ _ _ k 0 _ _ e2 (by simp [rootNode])
      have hrel := addLevels_in (q := (0 : K)) { names := cfg.names, posText := posText } cfg.dataEffect.isSome cfg.dataEffect.isSome s.nofInit
        (sps := (chooseImportantSplits cfg (some s)).take k) (sps' := (((chooseImportantSplits cfg (some s)).take k).map asNSplit).map NSplit.plain)
        (by
          rw [List.map_map]
          generalize (chooseImportantSplits cfg (some s)).take k = l
          induction l with
          | nil => exact .nil
          | cons a l ih => exact .cons ⟨rfl, rfl, rfl, rfl, by
            show (a.heterogeneity.map some).map (fun _ => (0 : K)) = a.heterogeneity.map ((0 : K) * ·)
            rw [List.map_map]
            exact List.map_congr_left fun x _ => (zero_mul x).symm, (zero_mul _).symm⟩ ih)
        1 (tree := [rootNode cfg s]) (tree' := [rootNode cfg { heterInit := 0, nofInit := s.nofInit, levels := [] }])
        (.cons ⟨rfl, rfl, rfl, rfl, by simp [rootNode], rfl, rfl, rfl, rfl, rfl, rfl, rfl⟩ .nil)
        (ps := [{ name := cfg.names cfg.feature, rows := cfg.data, effects := cfg.dataEffect }]) (ps' := [{ name := cfg.names cfg.feature, rows := cfg.data, effects := cfg.dataEffect }])
        (.cons ⟨rfl, rfl⟩ .nil)
      rw [hb] at hN'
      simp only [Nat.zero_add] at hcut
      rw [hcut] at hrel
      rcases e1 : addLevels { names := cfg.names, posText := posText } cfg.dataEffect.isSome s.nofInit 1 [rootNode cfg { heterInit := 0, nofInit := s.nofInit, levels := [] }]
        [{ name := cfg.names cfg.feature, rows := cfg.data, effects := cfg.dataEffect }] ((((chooseImportantSplits cfg (some s)).take k).map asNSplit).map NSplit.plain) with e | t1
      · rw [e1] at hN'; cases hN'
      rw [e1] at hN' hrel
      obtain rfl := Except.ok.inj hN'
      replace hrel : List.Forall₂ (NodeIn 0) (t0.filter fun n => n.level ≤ k) t1 := hrel
      simp only [Option.map_some, Option.some.injEq]
      clear hcut e1 e2
      exact (nodeIn_shape hrel).symm

/-- **C115, the regions that RegionalPDP and RegionalDerPDP report.**  A model that is NaN for some inputs: the pruned tree stored by `fit` is that of the model without NaN, cut below some depth. -/
theorem C115_pdp_tree [PySqrt K] (o : RegionalObj K D) (hm : o.cfg.methodName = "pdp" ∨ o.cfg.methodName = "d-pdp") {N : NPdpKind K D} (hN : KindNanOr N (regionalKind o.cfg.bb o.cfg.methodName))
    (kw : FitKw K D) (f : Fin D) (imp : List (NSplit K D)) (full pruned : Option (List (Node K D))) (h1 : nRegionalPdpFitOne o N kw f = .ok (imp, full, pruned))
    (st : RegionalState K D) (h2 : (regionalFitOne o kw st f).2 = .ok ()) :
    ∃ t k, (regionalFitOne o kw st f).1.treePruned f = some t ∧ pruned.map (·.map shape) = t.map fun t => (t.filter fun n => n.level ≤ k).map shape := by
  unfold nRegionalPdpFitOne at h1
  simp only [bind, Except.bind, pure, Except.pure] at h1
  rcases e1 : nSearchAllSplits (regionsOf o.cfg (kw.toArgs o) f) (fun x _ => nPdpHeter o.cfg.bb.choice o.cfg.bb.cast N o.axisLo o.axisHi f kw.minPoints kw.centering kw.nof kw.points kw.vec x) with e | sN
  · rw [e1] at h1; cases h1
  rw [e1] at h1
  dsimp only at h1
  rcases e2 : nSplitsToTree (regionsOf o.cfg (kw.toArgs o) f) (posTextOf o.cfg.fmt none) sN false with e | full'
  · rw [e2] at h1; cases h1
  rw [e2] at h1
  dsimp only at h1
  rcases e3 : nSplitsToTree (regionsOf o.cfg (kw.toArgs o) f) (posTextOf o.cfg.fmt none) sN true with e | pruned'
  · rw [e3] at h1; cases h1
  rw [e3] at h1
  obtain ⟨-, hi2⟩ := Prod.mk.inj (Except.ok.inj h1)
  obtain ⟨-, hi3⟩ := Prod.mk.inj hi2
  have hheter : regionalHeter o kw f = .ok fun x _ =>
      pdpHeter o.cfg.bb.choice o.cfg.bb.cast (regionalKind o.cfg.bb o.cfg.methodName) o.axisLo o.axisHi f kw.minPoints kw.centering kw.nof kw.points kw.vec x := by
    unfold regionalHeter regionalKind
    rcases hm with hm | hm
    · rw [hm]; simp only [reduceIte, String.reduceEq]; rfl
    · rw [hm]; simp only [reduceIte, String.reduceEq]; rfl
  unfold regionalFitOne at h2 ⊢
  rw [hheter] at h2 ⊢
  simp only [bind, Except.bind, pure, Except.pure] at h2 ⊢
  rcases e4 : searchAllSplitsM (regionsOf o.cfg (kw.toArgs o) f) (fun x _ =>
      pdpHeter o.cfg.bb.choice o.cfg.bb.cast (regionalKind o.cfg.bb o.cfg.methodName) o.axisLo o.axisHi f kw.minPoints kw.centering kw.nof kw.points kw.vec x) with e | s
  · rw [e4] at h2; cases h2
  rw [e4] at h2
  dsimp only at h2 ⊢
  rcases e5 : splitsToTree (regionsOf o.cfg (kw.toArgs o) f) (posTextOf o.cfg.fmt none) s false with e | full0
  · rw [e5] at h2; cases h2
  rw [e5] at h2
  dsimp only at h2 ⊢
  rcases e6 : splitsToTree (regionsOf o.cfg (kw.toArgs o) f) (posTextOf o.cfg.fmt none) s true with e | pruned0
  · rw [e6] at h2; cases h2
  dsimp only
  obtain ⟨k, hk⟩ := C115_tree (regionsOf o.cfg (kw.toArgs o) f) (fun x _ => nPdpHeter_rel o.cfg.bb.choice o.cfg.bb.cast hN o.axisLo o.axisHi f kw.minPoints kw.centering kw.nof kw.points kw.vec x)
    e1 e4 _ e3 e6
  exact ⟨_, k, Function.update_self .., by rw [← hi3, hk]⟩

/-- On the example of `C115_false_pdp`: the trees of both fits, and the cut at depth 0. -/
example : (match regionalNew slopesBB "pdp" slopesData none (.str "all") none none 3 none (fun q => toString q) with
    | .ok o => match nRegionalPdpFitOne o (NPdpModel.pdp slopesNan).kind slopesKw 0, (regionalFitOne o slopesKw RegionalState.init 0).1.treePruned 0 with
      | .ok (_, _, some t), some (some t0) => decide (t.map (·.name) = ["x_0"]) && decide (t0.map (fun n => (n.name, n.level)) = [("x_0", 0), ("x_0 | x_1 == 0", 1), ("x_0 | x_1 != 0", 1)])
      | _, _ => false
    | .error _ => false) = true := by decide +kernel

end Effector
