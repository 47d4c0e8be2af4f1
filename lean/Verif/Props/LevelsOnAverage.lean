import Verif.Props.UnbiasedExamples

/-!
# C86 with any number of instances: the levels of a regional tree average to the global effect, on average over the draws
-/

set_option linter.unusedSectionVars false

namespace Effector

variable {K : Type} [Field K] [LinearOrder K] [IsStrictOrderedRing K] {D : ℕ}

open Spec

/-- Without a scaled plot of the feature, a node of the pruned tree is the one `eval` finds. -/
theorem nodeInfo_run [PySqrt K] (o : RegionalObj K D) (hc : Constructed o) (calls : List (RegCall K D)) (f : Fin D) (hns : ∀ sc, RegCall.plot f (some sc) ∉ calls)
    (tree : List (Node K D)) (htree : (regRunM o calls).treePruned f = some (some tree)) : (regRunM o calls).fitted f = true ∧ ∀ nd ∈ tree, getNodeInfo (regRunM o calls) f nd.idx = .ok nd := by
  obtain ⟨h1, h2, h3⟩ := C81_trees_of_own_search o hc calls f
  cases hkw : lastKw o f calls with
  | none => rw [(h3 hkw).2] at htree; cases htree
  | some kw =>
    obtain ⟨sp, full, pruned, hsp, -, ht, -, hp⟩ := h2 kw hkw
    have hfit : (regRunM o calls).fitted f = true := by rw [h1, hkw]; rfl
    rw [hp] at htree
    cases htree
    cases sp with
    | none => cases ht
    | some sp =>
      have hT : TreeOf (regionsOf o.cfg (kw.toArgs o) f) (posTextOf o.cfg.fmt none) true sp tree := ⟨searchOf_ok hsp, ht⟩
      refine ⟨hfit, fun nd hm => ?_⟩
      obtain ⟨ops, g1, g2, g3⟩ := regRunM_run hc calls
      have hst := regionalRun_stored hc.1 f ops
      rw [scaledFold_noplot o.cfg f ops (fun sc hmem => hns sc (g3 f sc hmem)), ← g1] at hst
      have hsc := (hst.notScaled rfl).2
      unfold getNodeInfo
      simp only [hfit, pyAssert, if_true, bind, Except.bind, hp, hsc, find_idx (cfg := regionsOf o.cfg (kw.toArgs o) f) hc.1 hT hm]

/-- A node, on average over the draws of at most 300 of its instances. -/
theorem node_on_average [PySqrt K] (o : RegionalObj K D) (M : PdpModel K D) (hM : RegionalPdpOf o M) (hcast : o.cfg.bb.cast = id) (st : RegionalState K D) (f : Fin D)
    (hf : st.fitted f = true) (nd : Node K D) (hn : getNodeInfo st f nd.idx = .ok nd) (xs : List K) (het : Bool) {n : ℕ} (hmin : n = min 300 nd.rows.length)
    (res : (Fin n ↪ Fin nd.rows.length) → EvalOut K)
    (hres : ∀ e, (regionalEvalM (reseed o (outcome e)) st f nd.idx xs het (.bool false)).2 = .ok (res e)) (i : ℕ) (hi : i < xs.length) :
    nd.rows ≠ [] ∧ ∃ v : (Fin n ↪ Fin nd.rows.length) → K, (∀ e, (res e).1[i]? = some (v e)) ∧ expected nd.rows.length n v = avg (nd.rows.map fun r => M.at f xs[i] r) := by
  have hev : ∀ e : Fin n ↪ Fin nd.rows.length, pdpSampled M (outcome e) nd.rows (.int 300) none [] f xs het (.bool false) true = .ok (res e) := by
    intro e
    have h2 := hres e
    unfold regionalEvalM regionalRefitM at h2
    rw [if_pos hf] at h2
    simp only [] at h2
    unfold regionalEval at h2
    rw [refit_idle _ _ _ hf] at h2
    simp only [bind, Except.bind, show prepCentering (.bool false) = .ok Centering.off from rfl, hn] at h2
    rw [createAndEval_pdp (regionalPdpOf_reseed hM (outcome e)) hcast, pdpOnce_sampled] at h2
    rw [reseed_choice, show Centering.off.toVal = .bool false from rfl] at h2
    exact h2
  have hz : (300 : ℤ) = ((300 : ℕ) : ℤ) := by norm_num
  by_cases hbig : 300 < nd.rows.length
  · have h300 : n = 300 := by omega
    subst h300
    refine ⟨by intro h0; rw [h0] at hbig; simp at hbig, fun e => avg ((drawnRows nd.rows e).map fun r => M.at f xs[i] r), fun e => ?_, ?_⟩
    · rw [sampled_default M hbig (calls := []) (by intro _ _ _ _ h; cases h) e hz (hev e)]
      cases het <;> simp [outOf, hi]
    · exact (drawn_average (by norm_num) hbig fun r => M.at f xs[i] r).1
  · have hN : n = nd.rows.length := by omega
    have hval : ∀ e, nd.rows ≠ [] ∧ res e = outOf het xs fun v => nd.rows.map fun r => M.at f v r := by
      intro e
      have hr := hev e
      unfold pdpSampled at hr
      have hb := base_init_few (outcome e) nd.rows (not_lt.mp hbig)
      cases hl : axisLimitsAll nd.rows with
      | error x => rw [hb, hl] at hr; cases hr
      | ok l =>
        rw [hl] at hb
        rw [hb] at hr
        have hw := (C53_default_limits _ _ _ _ hb).1
        have := evalAfter_all M hw (calls := []) (s := f) (by intro _ _ _ _ h; cases h) xs het (.bool false) true
        simp only [show prepCentering (.bool false) = .ok Centering.off from rfl, PdpModel.shift, sub_zero] at this
        have h2 := this.symm.trans hr
        split_ifs at h2
        refine ⟨?_, (Except.ok.inj h2).symm⟩
        intro h0
        rw [h0] at hl
        unfold axisLimitsAll at hl
        rw [if_neg (by have := f.2; omega)] at hl
        cases hl
    refine ⟨?_, fun _ => avg (nd.rows.map fun r => M.at f xs[i] r), fun e => ?_, expected_const (hN.le) _⟩
    · exact (hval (Fin.castLEEmb (by omega))).1
    · rw [(hval e).2]
      cases het <;> simp [outOf, hi]

/-- **C86, any number of instances.**  A `RegionalPDP` or `RegionalDerPDP` object after any calls (without a scaled plot of the feature); evaluate, uncentred, the feature at the root and
at all nodes of some level.  Each of these evaluations draws 300 of the instances of the node, if it has more.  If all possible draws get an answer, then at every position the global
effect is, on average over the draws, the weighted mean of the averages of the regional effects. -/
theorem C86_on_average [PySqrt K] (o : RegionalObj K D) (hc : Constructed o) (M : PdpModel K D) (hM : RegionalPdpOf o M) (hcast : o.cfg.bb.cast = id)
    (calls : List (RegCall K D)) (f : Fin D) (hns : ∀ sc, RegCall.plot f (some sc) ∉ calls)
    (tree : List (Node K D)) (htree : (regRunM o calls).treePruned f = some (some tree)) (l : ℕ) (hl : getLevelNodes tree l ≠ []) (xs : List K) (het : Bool)
    (res : (nd : Node K D) → (Fin (min 300 nd.rows.length) ↪ Fin nd.rows.length) → EvalOut K)
    (hev : ∀ nd ∈ tree, nd.idx = 0 ∨ nd.level = l → ∀ e, (regionalEvalM (reseed o (outcome e)) (regRunM o calls) f nd.idx xs het (.bool false)).2 = .ok (res nd e))
    (i : ℕ) (hi : i < xs.length) :
    ∃ (root : Node K D) (v : (nd : Node K D) → (Fin (min 300 nd.rows.length) ↪ Fin nd.rows.length) → K), root ∈ tree ∧ root.idx = 0 ∧ root.rows = o.cfg.data ∧
      (∀ nd ∈ tree, nd.idx = 0 ∨ nd.level = l → ∀ e, (res nd e).1[i]? = some (v nd e)) ∧
      expected _ _ (v root) = avg (o.cfg.data.map fun r => M.at f xs[i] r) ∧
      expected _ _ (v root) = ((getLevelNodes tree l).map fun nd => nd.weight * expected _ _ (v nd)).sum := by
  classical
  obtain ⟨hfit, hinfo⟩ := nodeInfo_run o hc calls f hns tree htree
  obtain ⟨h1, h2, h3⟩ := C81_trees_of_own_search o hc calls f
  cases hkw : lastKw o f calls with
  | none => rw [(h3 hkw).2] at htree; cases htree
  | some kw =>
    obtain ⟨sp, full, pruned, hsp, -, ht, -, hp⟩ := h2 kw hkw
    rw [hp] at htree
    cases htree
    cases sp with
    | none => cases ht
    | some sp =>
    have hT : TreeOf (regionsOf o.cfg (kw.toArgs o) f) (posTextOf o.cfg.fmt none) true sp tree := ⟨searchOf_ok hsp, ht⟩
    have heff : EffAligned (regionsOf o.cfg (kw.toArgs o) f) := hc.1
    obtain ⟨hnd, hH⟩ := hT.heap heff
    have hmem : ∀ nd ∈ getLevelNodes tree l, nd ∈ tree ∧ nd.level = l := fun nd hn => ⟨List.mem_of_mem_filter hn, by simpa [getLevelNodes] using (List.mem_filter.mp hn).2⟩
    have hlev : l ≤ (usedSplits (regionsOf o.cfg (kw.toArgs o) f) true sp).length := by
      obtain ⟨nd, hn⟩ := List.exists_mem_of_ne_nil _ hl
      obtain ⟨j, hj⟩ := List.getElem?_of_mem (hmem nd hn).1
      have := hH.level_le rfl hj
      have he := (hmem nd hn).2
      omega
    have hnode : ∀ nd ∈ tree, nd.idx = 0 ∨ nd.level = l → nd.rows ≠ [] ∧ ∃ v : (Fin (min 300 nd.rows.length) ↪ Fin nd.rows.length) → K, (∀ e, (res nd e).1[i]? = some (v e)) ∧
        expected nd.rows.length _ v = avg (nd.rows.map fun r => M.at f xs[i] r) := fun nd hn hor =>
      node_on_average o M hM hcast _ f hfit nd (hinfo nd hn) xs het rfl (res nd) (hev nd hn hor) i hi
    have hall : ∀ nd : Node K D, ∃ v : (Fin (min 300 nd.rows.length) ↪ Fin nd.rows.length) → K, nd ∈ tree → nd.idx = 0 ∨ nd.level = l → (∀ e, (res nd e).1[i]? = some (v e)) ∧
        expected nd.rows.length _ v = avg (nd.rows.map fun r => M.at f xs[i] r) := by
      intro nd
      by_cases h : nd ∈ tree ∧ (nd.idx = 0 ∨ nd.level = l)
      · obtain ⟨v, hv⟩ := (hnode nd h.1 h.2).2
        exact ⟨v, fun _ _ => hv⟩
      · exact ⟨fun _ => 0, fun a b => absurd ⟨a, b⟩ h⟩
    choose v hv using hall
    have hrootmem : rootNode (regionsOf o.cfg (kw.toArgs o) f) sp ∈ tree := List.mem_of_getElem? hH.root
    have hrows : (rootNode (regionsOf o.cfg (kw.toArgs o) f) sp).rows = o.cfg.data := rfl
    have hne : (regionsOf o.cfg (kw.toArgs o) f).data ≠ [] := (hnode _ hrootmem (.inl rfl)).1
    obtain ⟨c1, -, -, -⟩ := C40_levels_partition_the_data _ heff _ true sp tree hT hne l hlev
    have c1' : (((getLevelNodes tree l).map (·.rows)).flatten).Perm o.cfg.data := c1
    have hcnt := fun nd hn => node_counts _ heff _ true sp tree hT hne nd (hmem nd hn).1
    have hr := (hv _ hrootmem (.inl rfl)).2
    replace hr : expected _ _ (v (rootNode (regionsOf o.cfg (kw.toArgs o) f) sp)) = avg (o.cfg.data.map fun r => M.at f xs[i] r) := hr
    refine ⟨_, v, hrootmem, rfl, rfl, fun nd hn hor => (hv nd hn hor).1, hr, ?_⟩
    have h4 : ((getLevelNodes tree l).map fun nd => nd.weight * expected _ _ (v nd)).sum =
        ((getLevelNodes tree l).map fun nd => (nd.rows.length : K) / (o.cfg.data.length : K) * avg (nd.rows.map fun r => M.at f xs[i] r)).sum := by
      congr 1
      apply List.map_congr_left
      intro nd hn
      rw [(hcnt nd hn).2, (hv nd (hmem nd hn).1 (.inr (hmem nd hn).2)).2]
      rfl
    rw [h4, hr, avg_parts _ _ c1', List.map_map]
    rfl

/-! ### When every draw gets an answer -/

/-- At a node in which no `min(300, N)` instances share the value of the feature, `eval` answers for every draw. -/
theorem C86_answers [PySqrt K] (o : RegionalObj K D) (M : PdpModel K D) (hM : RegionalPdpOf o M) (hcast : o.cfg.bb.cast = id) (st : RegionalState K D) (f : Fin D)
    (hf : st.fitted f = true) (nd : Node K D) (hn : getNodeInfo st f nd.idx = .ok nd) (hv : ∀ v, nd.rows.countP (fun r => r f = v) < min 300 nd.rows.length) (xs : List K) (hxs : xs ≠ [])
    (het : Bool) {n : ℕ} (hmin : n = min 300 nd.rows.length) (e : Fin n ↪ Fin nd.rows.length) :
    ∃ r, (regionalEvalM (reseed o (outcome e)) st f nd.idx xs het (.bool false)).2 = .ok r := by
  by_cases hbig : 300 < nd.rows.length
  · have h300 : n = 300 := by omega
    subst h300
    exact C118_regional_answers o M hM hcast st f hf nd.idx nd hn hbig (fun v => (hv v).trans_le (by omega)) xs hxs het e
  · have h2 : ∃ a ∈ nd.rows, ∃ b ∈ nd.rows, a f ≠ b f := by
      by_contra hc
      push Not at hc
      have hne : nd.rows ≠ [] := by
        intro h0
        have := hv 0
        rw [h0] at this
        simp at this
      obtain ⟨a, ha⟩ := List.exists_mem_of_ne_nil _ hne
      have h1 := hv (a f)
      rw [List.countP_eq_length.mpr fun b hb => by simpa using hc b hb a ha] at h1
      omega
    obtain ⟨l, hl, hlt⟩ := limits_two_values h2
    have hb := base_init_few (outcome e) nd.rows (not_lt.mp hbig)
    rw [hl] at hb
    have hw := (C53_default_limits _ _ _ _ hb).1
    have := evalAfter_all M hw (calls := []) (s := f) (by intro _ _ _ _ h; cases h) xs het (.bool false) true
    simp only [show prepCentering (.bool false) = .ok Centering.off from rfl, hlt, hxs, not_true_eq_false, if_false, and_false] at this
    refine ⟨outOf het xs fun v => nd.rows.map fun r => M.at f v r - M.shift l.1 l.2 f r .off, ?_⟩
    unfold regionalEvalM regionalRefitM
    rw [if_pos hf]
    simp only []
    unfold regionalEval
    rw [refit_idle _ _ _ hf]
    simp only [bind, Except.bind, show prepCentering (.bool false) = .ok Centering.off from rfl, hn]
    rw [createAndEval_pdp (regionalPdpOf_reseed hM (outcome e)) hcast, pdpOnce_sampled, reseed_choice, show Centering.off.toVal = .bool false from rfl]
    unfold pdpSampled
    rw [hb]
    exact this

/-! ### A concrete case -/

/-- `fit(0, min_points_per_subregion=50)`. -/
def crowdKw2 : FitKw ℚ 2 := { crowdKw with minPoints := 50 }

/-- The RegionalPDP object of `C96_false_large`, with 302 instances, split once into two regions of 151: every draw gets an answer, and the root's curve is on average the mean of the
averages of the two regional curves. -/
example : ∃ (o : RegionalObj ℚ 2) (tree : List (Node ℚ 2)), regionalNew crowdBB "pdp" crowd none (.str "all") none none 3 none (fun q => toString q) = .ok o ∧
    (regRunM o [.fit (.int 0) crowdKw2]).treePruned 0 = some (some tree) ∧ (getLevelNodes tree 1).length = 2 ∧
    ∃ (root : Node ℚ 2) (v : (nd : Node ℚ 2) → (Fin (min 300 nd.rows.length) ↪ Fin nd.rows.length) → ℚ), root ∈ tree ∧ root.idx = 0 ∧ root.rows.length = 302 ∧
      (∀ nd ∈ tree, nd.idx = 0 ∨ nd.level = 1 → ∀ e, ∃ w, (regionalEvalM (reseed o (outcome e)) (regRunM o [.fit (.int 0) crowdKw2]) 0 nd.idx [1] false (.bool false)).2 = .ok w ∧
        w.1[0]? = some (v nd e)) ∧
      expected _ _ (v root) = ((getLevelNodes tree 1).map fun nd => nd.weight * expected _ _ (v nd)).sum := by
  have h : (match regionalNew crowdBB "pdp" crowd none (.str "all") none none 3 none (fun q => toString q) with
    | .ok o => o.cfg.methodName == "pdp" && decide (o.cfg.data.length = 302) &&
      match (regRunM o [.fit (.int 0) crowdKw2]).treePruned 0 with
      | some (some t) => decide ((getLevelNodes t 1).length = 2) && t.all fun nd => nd.rows.all (fun r => decide (r 0 ∈ ([0, 1, 2] : List ℚ))) &&
        ([0, 1, 2] : List ℚ).all fun v => decide (nd.rows.countP (fun r => r 0 = v) < min 300 nd.rows.length)
      | _ => false
    | .error _ => false) = true := by decide +kernel
  have hC : ∀ o, regionalNew crowdBB "pdp" crowd none (.str "all") none none 3 none (fun q => toString q) = .ok o → Constructed o ∧ o.cfg.bb = crowdBB := by
    intro o ho
    have hc := C81_constructor crowdBB "pdp" crowd none (.str "all") none none 3 none _ (by intro e he; cases he) o ho
    exact ⟨hc.1, hc.2.1⟩
  cases ho : regionalNew crowdBB "pdp" crowd none (.str "all") none none 3 none (fun q => toString q) with
  | error e => rw [ho] at h; cases h
  | ok o =>
    rw [ho] at h
    simp only at h
    obtain ⟨hc, hbb⟩ := hC o ho
    cases ht : (regRunM o [.fit (.int 0) crowdKw2]).treePruned 0 with
    | none => rw [ht] at h; simp at h
    | some t =>
      cases t with
      | none => rw [ht] at h; simp at h
      | some tree =>
        rw [ht] at h
        simp only [Bool.and_eq_true, beq_iff_eq, decide_eq_true_eq, List.all_eq_true] at h
        obtain ⟨⟨hm, hlen⟩, hl2, hrows⟩ := h
        have hM : RegionalPdpOf o (.pdp fun r => r 1) := ⟨hm, by rw [hbb]; rfl⟩
        have hcast : o.cfg.bb.cast = id := by rw [hbb]; rfl
        have hns : ∀ sc, RegCall.plot 0 (some sc) ∉ [RegCall.fit (.int 0) crowdKw2] := by
          intro sc hmem
          simp at hmem
        obtain ⟨hfit, hinfo⟩ := nodeInfo_run o hc _ 0 hns tree ht
        have hv : ∀ nd ∈ tree, ∀ v, nd.rows.countP (fun r => r 0 = v) < min 300 nd.rows.length := by
          intro nd hn v
          obtain ⟨h4, h5⟩ := hrows nd hn
          by_cases hv : v ∈ ([0, 1, 2] : List ℚ)
          · exact h5 v hv
          · have h6 := h5 0 (by simp)
            rw [List.countP_eq_zero.mpr]
            · omega
            · intro r hr
              simp only [decide_eq_true_eq]
              rintro rfl
              exact hv (h4 r hr)
        have hans : ∀ nd, ∃ res : (Fin (min 300 nd.rows.length) ↪ Fin nd.rows.length) → EvalOut ℚ, nd ∈ tree → ∀ e,
            (regionalEvalM (reseed o (outcome e)) (regRunM o [.fit (.int 0) crowdKw2]) 0 nd.idx [1] false (.bool false)).2 = .ok (res e) := by
          intro nd
          by_cases hn : nd ∈ tree
          · have := fun e => C86_answers o _ hM hcast _ 0 hfit nd (hinfo nd hn) (hv nd hn) [1] (by simp) false rfl e
            choose res hres using this
            exact ⟨res, fun _ => hres⟩
          · exact ⟨fun _ => ([], none), fun h => absurd h hn⟩
        choose res hres using hans
        obtain ⟨root, v, r1, r2, r3, r4, -, r5⟩ := C86_on_average o hc _ hM hcast _ 0 hns tree ht 1 (by intro h0; rw [h0] at hl2; cases hl2) [1] false res (fun nd hn _ => hres nd hn) 0 (by simp)
        exact ⟨o, tree, rfl, ht, hl2, root, v, r1, r2, by rw [r3, hlen], fun nd hn hor e => ⟨_, hres nd hn e, r4 nd hn hor e⟩, r5⟩

end Effector
