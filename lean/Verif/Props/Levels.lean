import Verif.Props.RegionalApi
import Verif.Props.RegionalApiExamples
import Verif.Props.Tree
import Verif.Props.PdpProps
import Mathlib.Tactic.FieldSimp

/-!
# C86: the regional effects of a level of the tree average to the global effect
-/

namespace Effector

set_option linter.unusedSectionVars false

open Spec

variable {K : Type} [Field K] [LinearOrder K] [IsStrictOrderedRing K] {D : ℕ}

/-! ### Means and variances of a partition -/

theorem sum_flatten_map {α : Type} (parts : List (List α)) (g : α → K) : (parts.flatten.map g).sum = (parts.map fun p => (p.map g).sum).sum := by
  induction parts with
  | nil => rfl
  | cons p t ih => rw [List.flatten_cons, List.map_append, List.sum_append, ih, List.map_cons, List.sum_cons]

theorem sum_of_avg (l : List K) : l.sum = (l.length : K) * avg l := by
  unfold avg
  cases l with
  | nil => simp
  | cons a t =>
    have : ((a :: t).length : K) ≠ 0 := by exact_mod_cast (List.length_pos_of_ne_nil (List.cons_ne_nil a t)).ne'
    field_simp

/-- The mean of the whole is the weighted mean of the means of the parts. -/
theorem avg_parts {α : Type} (parts : List (List α)) (data : List α) (h : parts.flatten.Perm data) (g : α → K) :
    avg (data.map g) = (parts.map fun p => (p.length : K) / (data.length : K) * avg (p.map g)).sum := by
  rw [← avg_perm (h.map g)]
  unfold avg
  rw [sum_flatten_map, List.length_map, h.length_eq]
  have : ∀ l : List (List α), (l.map fun p => (p.map g).sum).sum / (data.length : K) =
      (l.map fun p => (p.length : K) / (data.length : K) * ((p.map g).sum / ((p.map g).length : K))).sum := by
    intro l
    induction l with
    | nil => simp
    | cons p t ih =>
      rw [List.map_cons, List.map_cons, List.sum_cons, List.sum_cons, add_div, ih]
      congr 1
      have := sum_of_avg (p.map g)
      unfold avg at this
      rw [List.length_map] at this ⊢
      rw [div_mul_eq_mul_div, ← this]
  exact this parts

theorem sum_sq_dev (l : List K) (m : K) : (l.map fun y => (y - m) ^ 2).sum = (l.length : K) * (popVar l + (avg l - m) ^ 2) := by
  have h1 : ∀ (l : List K) (a : K), (l.map fun y => (y - m) ^ 2).sum = (l.map fun y => (y - a) ^ 2).sum + 2 * (a - m) * (l.sum - l.length * a) + l.length * (a - m) ^ 2 := by
    intro l a
    induction l with
    | nil => simp
    | cons y t ih =>
      simp only [List.map_cons, List.sum_cons, List.length_cons, ih]
      push_cast
      ring
  rw [h1 l (avg l), ← sum_of_avg]
  have h2 : (l.map fun y => (y - avg l) ^ 2).sum = (l.length : K) * popVar l := by
    unfold popVar
    cases l with
    | nil => simp
    | cons a t =>
      have : ((a :: t).length : K) ≠ 0 := by exact_mod_cast (List.length_pos_of_ne_nil (List.cons_ne_nil a t)).ne'
      generalize avg (a :: t) = m'
      field_simp
  rw [h2]
  ring

/-- The law of total variance. -/
theorem popVar_parts {α : Type} (parts : List (List α)) (data : List α) (h : parts.flatten.Perm data) (g : α → K) :
    popVar (data.map g) =
      (parts.map fun p => (p.length : K) / (data.length : K) * (popVar (p.map g) + (avg (p.map g) - avg (data.map g)) ^ 2)).sum := by
  conv_lhs => unfold popVar
  generalize avg (data.map g) = m
  rw [← ((h.map g).map fun y => (y - m) ^ 2).sum_eq, List.map_map, sum_flatten_map, List.length_map]
  induction parts generalizing data with
  | nil => simp
  | cons p t ih =>
    clear ih
    have : ∀ l : List (List α), (l.map fun p => (p.map ((fun y => (y - m) ^ 2) ∘ g)).sum).sum / (data.length : K) =
        (l.map fun p => (p.length : K) / (data.length : K) * (popVar (p.map g) + (avg (p.map g) - m) ^ 2)).sum := by
      intro l
      induction l with
      | nil => simp
      | cons p t ih =>
        rw [List.map_cons, List.map_cons, List.sum_cons, List.sum_cons, add_div, ih]
        congr 1
        rw [← List.map_map, sum_sq_dev, List.length_map]
        ring
    exact this _

/-- Weighted mean of standard deviations and root of the weighted mean square. -/
theorem jensen_list {ι : Type} (l : List ι) (w s : ι → K) (hw : ∀ i ∈ l, 0 ≤ w i) (h1 : (l.map w).sum = 1) :
    (l.map fun i => w i * s i).sum ^ 2 ≤ (l.map fun i => w i * s i ^ 2).sum := by
  have key : ∀ (S : K) (l : List ι), (l.map fun i => w i * (s i - S) ^ 2).sum =
      (l.map fun i => w i * s i ^ 2).sum - 2 * S * (l.map fun i => w i * s i).sum + S ^ 2 * (l.map w).sum := by
    intro S l
    induction l with
    | nil => simp
    | cons i t ih => simp only [List.map_cons, List.sum_cons, ih]; ring
  have h0 : 0 ≤ (l.map fun i => w i * (s i - (l.map fun i => w i * s i).sum) ^ 2).sum := by
    apply List.sum_nonneg
    intro x hx
    obtain ⟨i, hi, rfl⟩ := List.mem_map.mp hx
    exact mul_nonneg (hw i hi) (sq_nonneg _)
  rw [key, h1] at h0
  nlinarith

/-! ### A PDP on at most 300 rows -/

theorem base_init_few (choice : ℕ → ℕ → List ℕ) (data : List (Row K D)) (h : data.length ≤ 300) :
    Base.init choice data (.int 300) none =
      (axisLimitsAll data).bind fun l => .ok { data := data, indices := List.range data.length, axisLo := l.1, axisHi := l.2 } := by
  unfold Base.init prepNofInstances
  have : ¬ (300 : ℤ) < (data.length : ℤ) := by exact_mod_cast not_lt.mpr h
  simp only [if_neg this, bind, Except.bind, pure, Except.pure, takeRows_range]

/-- A single `eval` of a new PDP / d-PDP object on at most 300 rows, uncentred. -/
theorem pdpOnce_few [PySqrt K] (choice : ℕ → ℕ → List ℕ) (M : PdpModel K D) (data : List (Row K D)) (h : data.length ≤ 300) (e : Option (List (Row K D)))
    (s : Fin D) (xs : List K) (mu sd : List K) (hok : pdpOnce choice id M.kind data e s xs true (.bool false) = .ok (mu, some sd)) :
    mu = xs.map (fun v => avg (data.map fun r => M.at s v r)) ∧ sd = xs.map (fun v => PySqrt.sqrt (popVar (data.map fun r => M.at s v r))) := by
  unfold pdpOnce at hok
  rw [base_init_few choice data h] at hok
  cases hl : axisLimitsAll data with
  | error er => rw [hl] at hok; cases hok
  | ok l =>
    rw [hl] at hok
    simp only [bind, Except.bind] at hok
    have hspec := pdp_eval_spec M l.1 l.2 data s [] (by simp) xs true (.bool false) false true
    simp only [prepCentering] at hspec
    have hall : inLimits data l.1 l.2 s = data := by
      unfold inLimits
      rw [List.filter_eq_self]
      intro r hr
      simpa using axisLimits_within hl r hr s
    have hrun : pdpRun (pdpCfgOf M l.1 l.2) data [] = PdpState.init data := rfl
    rw [hrun] at hspec
    unfold pdpCfgOf at hspec
    rw [hspec] at hok
    unfold PdpModel.value at hok
    rw [hall] at hok
    by_cases hlt : l.1 s < l.2 s
    · simp only [hlt, not_true_eq_false, if_false, Bool.true_eq_false, false_and, report, Bool.false_eq_true, if_true, PdpOut.toPair] at hok
      cases hok
      constructor <;>
      · unfold PdpModel.ice
        rw [List.map_map]
        apply List.map_congr_left
        intro v _
        simp [PdpModel.shift, Function.comp]
    · simp only [hlt, not_false_eq_true, if_true] at hok
      cases hok

namespace Spec

/-- A `RegionalPDP` of the model `f`, a `RegionalDerPDP` with the Jacobian `j`, or one that differentiates `f` numerically. -/
def RegionalPdpOf (o : RegionalObj K D) : PdpModel K D → Prop
  | .pdp f => o.cfg.methodName = "pdp" ∧ o.cfg.bb.model = List.map f
  | .derJac j => o.cfg.methodName = "d-pdp" ∧ o.cfg.bb.jac = some (List.map j)
  | .derNum f => o.cfg.methodName = "d-pdp" ∧ o.cfg.bb.jac = none ∧ o.cfg.bb.model = List.map f

end Spec

theorem createAndEval_pdp [PySqrt K] {o : RegionalObj K D} {M : PdpModel K D} (hM : RegionalPdpOf o M) (hcast : o.cfg.bb.cast = id) :
    createAndEval o.cfg.bb o.cfg.methodName = pdpOnce o.cfg.bb.choice id M.kind := by
  unfold createAndEval
  cases M with
  | pdp f =>
    obtain ⟨h1, h2⟩ := hM
    simp [h1, h2, hcast, PdpModel.kind]
  | derJac j =>
    obtain ⟨h1, h2⟩ := hM
    simp [h1, h2, hcast, PdpModel.kind]
  | derNum f =>
    obtain ⟨h1, h2, h3⟩ := hM
    simp [h1, h2, h3, hcast, PdpModel.kind]

/-- **C86.**  A `RegionalPDP` or `RegionalDerPDP` object with at most 300 instances, after any calls (without a scaled plot of the feature).  Evaluate, uncentred, the feature at the
root and at all nodes of some level of its tree.  At every position the global effect is the mean of the regional effects, weighted by the nodes' weights; the global variance
is the weighted mean of the regional variances plus the weighted mean squared distance between regional and global effect; hence the weighted mean of the regional heterogeneities
is at most the global heterogeneity. -/
theorem C86_level_averages_partial [PySqrt K] [LawfulSqrt K] (o : RegionalObj K D) (hc : Constructed o) (M : PdpModel K D) (hM : RegionalPdpOf o M) (hcast : o.cfg.bb.cast = id)
    (hfew : o.cfg.data.length ≤ 300) (calls : List (RegCall K D)) (f : Fin D) (hns : ∀ sc, RegCall.plot f (some sc) ∉ calls)
    (tree : List (Node K D)) (htree : (regRunM o calls).treePruned f = some (some tree)) (l : ℕ) (hl : getLevelNodes tree l ≠ [])
    (xs : List K) (mu0 sd0 : List K) (hroot : (regionalEvalM o (regRunM o calls) f 0 xs true (.bool false)).2 = .ok (mu0, some sd0))
    (mu sd : Node K D → List K)
    (hev : ∀ nd ∈ getLevelNodes tree l, (regionalEvalM o (regRunM o calls) f nd.idx xs true (.bool false)).2 = .ok (mu nd, some (sd nd)))
    (i : ℕ) (hi : i < xs.length) :
    ∃ (m0 s0 : K) (m s : Node K D → K), mu0[i]? = some m0 ∧ sd0[i]? = some s0 ∧
      (∀ nd ∈ getLevelNodes tree l, (mu nd)[i]? = some (m nd) ∧ (sd nd)[i]? = some (s nd)) ∧
      m0 = ((getLevelNodes tree l).map fun nd => nd.weight * m nd).sum ∧
      s0 ^ 2 = ((getLevelNodes tree l).map fun nd => nd.weight * (s nd ^ 2 + (m nd - m0) ^ 2)).sum ∧
      ((getLevelNodes tree l).map fun nd => nd.weight * s nd).sum ≤ s0 := by
  obtain ⟨h1, h2, h3⟩ := C81_trees_of_own_search o hc calls f
  cases hkw : lastKw o f calls with
  | none => rw [(h3 hkw).2] at htree; cases htree
  | some kw =>
    obtain ⟨sp, full, pruned, hsp, -, ht, -, hp⟩ := h2 kw hkw
    rw [hp] at htree
    cases htree
    cases sp with
    | none => cases ht
    | some sp =>
    have hT : TreeOf (regionsOf o.cfg (kw.toArgs o) f) (posTextOf o.cfg.fmt none) true sp tree := ⟨searchOf_ok hsp, ht⟩
    have heff : EffAligned (regionsOf o.cfg (kw.toArgs o) f) := hc.1
    obtain ⟨hnd, hH⟩ := hT.heap heff
    have hmem : ∀ nd ∈ getLevelNodes tree l, nd ∈ tree := fun nd hn => List.mem_of_mem_filter hn
    have hlev : l ≤ (usedSplits (regionsOf o.cfg (kw.toArgs o) f) true sp).length := by
      obtain ⟨nd, hn⟩ := List.exists_mem_of_ne_nil _ hl
      obtain ⟨j, hj⟩ := List.getElem?_of_mem (hmem nd hn)
      have := hH.level_le rfl hj
      have he : nd.level = l := by simpa [getLevelNodes] using (List.mem_filter.mp hn).2
      omega
    -- the rows of a node
    have heval : ∀ nd ∈ tree, ∀ a b, (regionalEvalM o (regRunM o calls) f nd.idx xs true (.bool false)).2 = .ok (a, some b) → nd.rows.length ≤ 300 →
        a = xs.map (fun v => avg (nd.rows.map fun r => M.at f v r)) ∧ b = xs.map (fun v => PySqrt.sqrt (popVar (nd.rows.map fun r => M.at f v r))) := by
      intro nd hn a b hab hle
      rw [C81_eval o hc calls f hns kw hkw (some sp) hsp tree ht nd hn xs true (.bool false) .off rfl, createAndEval_pdp hM hcast] at hab
      exact pdpOnce_few _ M nd.rows hle nd.effects f xs a b hab
    have hrootmem : rootNode (regionsOf o.cfg (kw.toArgs o) f) sp ∈ tree := List.mem_of_getElem? hH.root
    obtain ⟨r1, r2⟩ := heval _ hrootmem mu0 sd0 hroot hfew
    have hrows : (rootNode (regionsOf o.cfg (kw.toArgs o) f) sp).rows = o.cfg.data := rfl
    rw [hrows] at r1 r2
    have hne : (regionsOf o.cfg (kw.toArgs o) f).data ≠ [] := by
      intro h0
      have h0' : o.cfg.data = [] := h0
      have hroot' : (regionalEvalM o (regRunM o calls) f (rootNode (regionsOf o.cfg (kw.toArgs o) f) sp).idx xs true (.bool false)).2 = .ok (mu0, some sd0) := hroot
      rw [C81_eval o hc calls f hns kw hkw (some sp) hsp tree ht _ hrootmem xs true (.bool false) .off rfl, createAndEval_pdp hM hcast, hrows, h0'] at hroot'
      unfold pdpOnce at hroot'
      rw [base_init_few _ _ (by simp)] at hroot'
      unfold axisLimitsAll at hroot'
      rw [if_neg (by have := f.2; omega)] at hroot'
      cases hroot'
    obtain ⟨c1, c2, -, c4⟩ := C40_levels_partition_the_data _ heff _ true sp tree hT hne l hlev
    have c1' : (((getLevelNodes tree l).map (·.rows)).flatten).Perm o.cfg.data := c1
    have hcnt := fun nd hn => node_counts _ heff _ true sp tree hT hne nd (hmem nd hn)
    have hnode : ∀ nd ∈ getLevelNodes tree l, mu nd = xs.map (fun v => avg (nd.rows.map fun r => M.at f v r)) ∧
        sd nd = xs.map (fun v => PySqrt.sqrt (popVar (nd.rows.map fun r => M.at f v r))) := by
      intro nd hn
      exact heval nd (hmem nd hn) _ _ (hev nd hn) (le_trans (c2 nd hn).2.length_le hfew)
    have hxi : xs[i]? = some xs[i] := List.getElem?_eq_getElem hi
    set v := xs[i]
    have hw : ∀ (φ : Node K D → K), ((getLevelNodes tree l).map fun nd => nd.weight * φ nd).sum =
        ((getLevelNodes tree l).map fun nd => (nd.rows.length : K) / (o.cfg.data.length : K) * φ nd).sum := by
      intro φ
      congr 1
      apply List.map_congr_left
      intro nd hn
      rw [(hcnt nd hn).2]
      rfl
    have hvar : ∀ l : List K, PySqrt.sqrt (popVar l) ^ 2 = popVar l := fun l => by rw [sq, LawfulSqrt.sqrt_mul_self _ (popVar_nonneg l)]
    refine ⟨avg (o.cfg.data.map fun r => M.at f v r), PySqrt.sqrt (popVar (o.cfg.data.map fun r => M.at f v r)),
      fun nd => avg (nd.rows.map fun r => M.at f v r), fun nd => PySqrt.sqrt (popVar (nd.rows.map fun r => M.at f v r)), ?_, ?_, ?_, ?_, ?_, ?_⟩
    · rw [r1, List.getElem?_map, hxi]; rfl
    · rw [r2, List.getElem?_map, hxi]; rfl
    · intro nd hn
      obtain ⟨n1, n2⟩ := hnode nd hn
      constructor
      · rw [n1, List.getElem?_map, hxi]; rfl
      · rw [n2, List.getElem?_map, hxi]; rfl
    · rw [hw, avg_parts _ _ c1', List.map_map]
      rfl
    · simp only [hvar]
      rw [hw, popVar_parts _ _ c1', List.map_map]
      rfl
    · have hnn : ∀ nd ∈ getLevelNodes tree l, 0 ≤ nd.weight := by
        intro nd hn
        rw [(hcnt nd hn).2]
        positivity
      refine le_of_sq_le_sq ?_ (LawfulSqrt.sqrt_nonneg _)
      refine (jensen_list _ _ _ hnn c4).trans ?_
      simp only [hvar]
      have : popVar (o.cfg.data.map fun r => M.at f v r) = ((getLevelNodes tree l).map fun nd => nd.weight *
          (popVar (nd.rows.map fun r => M.at f v r) + (avg (nd.rows.map fun r => M.at f v r) - avg (o.cfg.data.map fun r => M.at f v r)) ^ 2)).sum := by
        rw [hw, popVar_parts _ _ c1', List.map_map]
        rfl
      rw [this]
      apply List.sum_le_sum
      intro nd hn
      exact mul_le_mul_of_nonneg_left (le_add_of_nonneg_right (sq_nonneg _)) (hnn nd hn)

/-! ### Where it fails -/

/-- 302 instances: 300 with x₁ = 0 and two with x₁ = 1. -/
def manyRows : List (Row ℚ 2) := (List.range 150).flatMap (fun _ => [![0, 0], ![1, 0]]) ++ [![0, 1], ![1, 1]]

/-- **C86 is false with more than 300 instances**: every node (and the root) is evaluated on a sample of at most 300 of its rows, the default of `PDP`.  The model is x₁; the
mean effect is 0 where x₁ = 0 and 1 where x₁ = 1, but 0 at the root, if the sample misses the two instances with x₁ = 1. -/
theorem C86_false_many_rows :
    manyRows = manyRows.filter (fun r => decide (r 1 = 0)) ++ manyRows.filter (fun r => decide (r 1 = 1)) ∧
    (manyRows.filter fun r => decide (r 1 = 0)).length = 300 ∧ (manyRows.filter fun r => decide (r 1 = 1)).length = 2 ∧
    pdpOnce (fun _ n => List.range n) id (.pdp (List.map fun r => r 1)) (manyRows.filter fun r => decide (r 1 = 0)) none 0 [1] false (.bool false) = .ok ([0], none) ∧
    pdpOnce (fun _ n => List.range n) id (.pdp (List.map fun r => r 1)) (manyRows.filter fun r => decide (r 1 = 1)) none 0 [1] false (.bool false) = .ok ([1], none) ∧
    pdpOnce (fun _ n => List.range n) id (.pdp (List.map fun r => r 1)) manyRows none 0 [1] false (.bool false) = .ok ([0], none) := by
  decide +kernel

/-- **C86 is false for centred effects**: every region is centred on its own range.  Model x₀ with `centering="zero_start"`: of the instances 0, 1, 2, 3 the two halves have
effects x - 0 and x - 2, with mean x - 1, but the effect at the root is x. -/
theorem C86_false_centred :
    pdpOnce (K := ℚ) (D := 1) (fun _ n => List.range n) id (.pdp (List.map fun r => r 0)) [![0], ![1]] none 0 [1] false (.str "zero_start") = .ok ([1], none) ∧
    pdpOnce (K := ℚ) (D := 1) (fun _ n => List.range n) id (.pdp (List.map fun r => r 0)) [![2], ![3]] none 0 [1] false (.str "zero_start") = .ok ([-1], none) ∧
    pdpOnce (K := ℚ) (D := 1) (fun _ n => List.range n) id (.pdp (List.map fun r => r 0)) [![0], ![1], ![2], ![3]] none 0 [1] false (.str "zero_start") = .ok ([1], none) := by
  decide +kernel

/-! ### Non-vacuity -/

/-- The RegionalPDP object of `RegionalApiExamples`, split once: effects 1 and 3, weights 1/2 each, global effect 2, global standard deviation 1. -/
example : (match regionalNew interactionBB "pdp" interactionData none (.str "all") none none 3 none (fun q => toString q) with
    | .ok o =>
      let st := regRunM o [RegCall.fit (.int 0) (interactionKw (.str "greedy"))]
      decide ((st.treePruned 0).join.map (fun t => (getLevelNodes t 1).map fun nd => (nd.idx, nd.weight)) = some [(1, 1 / 2), (2, 1 / 2)]) &&
      decide ((regionalEvalM o st 0 0 [1] true (.bool false)).2 = .ok ([2], some [1])) &&
      decide ((regionalEvalM o st 0 1 [1] true (.bool false)).2 = .ok ([1], some [0])) &&
      decide ((regionalEvalM o st 0 2 [1] true (.bool false)).2 = .ok ([3], some [0]))
    | .error _ => false) = true := by
  decide +kernel

end Effector
