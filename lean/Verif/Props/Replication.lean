import Verif.Props.AleInvariance
import Verif.Props.PdpModels
import Verif.Props.Heterogeneity
import Mathlib.Tactic.FieldSimp

/-!
# C83: repeating every instance the same number of times
-/

namespace Effector

set_option linter.unusedSectionVars false

open Spec

variable {K : Type} [Field K] [LinearOrder K] {D : ℕ}

namespace Spec

/-- `l'` contains every entry of `l` exactly `k` times as often as `l`, in any order. -/
def Repeated {α : Type} (k : ℕ) (l l' : List α) : Prop := l'.Perm (List.replicate k l).flatten

/-- The same binning method with `k` times the minimal number of instances per bin (the methods given by name have none). -/
def timesMinPoints (k : ℕ) : BinMethod K → BinMethod K
  | .str s => .str s
  | .dp n m d cl => .dp n (m.map (k * ·)) d cl
  | .greedy n m d cl => .greedy n (m.map (k * ·)) d cl
  | .fixed n m cl => .fixed n (m.map (k * ·)) cl

end Spec

namespace Spec.Repeated

variable {α β : Type} {k : ℕ} {l l' : List α}

theorem map (h : Repeated k l l') (g : α → β) : Repeated k (l.map g) (l'.map g) := by
  have := List.Perm.map g h
  rwa [List.map_flatten, List.map_replicate] at this

theorem filter (h : Repeated k l l') (p : α → Bool) : Repeated k (l.filter p) (l'.filter p) := by
  have := List.Perm.filter p h
  rwa [List.filter_flatten, List.map_replicate] at this

theorem length (h : Repeated k l l') : l'.length = k * l.length := by
  rw [List.Perm.length_eq h, List.length_flatten, List.map_replicate, List.sum_replicate, smul_eq_mul]

theorem mem (h : Repeated k l l') (hk : 1 ≤ k) (x : α) : x ∈ l ↔ x ∈ l' := by
  rw [List.Perm.mem_iff h, List.mem_flatten]
  constructor
  · intro hx
    exact ⟨l, List.mem_replicate.mpr ⟨by omega, rfl⟩, hx⟩
  · rintro ⟨m, hm, hx⟩
    rw [(List.mem_replicate.mp hm).2] at hx
    exact hx

theorem sum {l l' : List K} (h : Repeated k l l') : l'.sum = k * l.sum := by
  rw [List.Perm.sum_eq h, List.sum_flatten, List.map_replicate, List.sum_replicate, nsmul_eq_mul]

theorem countP (h : Repeated k l l') (p : α → Bool) : l'.countP p = k * l.countP p := by
  rw [List.countP_eq_length_filter, List.countP_eq_length_filter, (h.filter p).length]

theorem nil_iff (h : Repeated k l l') (hk : 1 ≤ k) : l = [] ↔ l' = [] := by
  rw [← List.length_eq_zero_iff, ← List.length_eq_zero_iff, h.length, Nat.mul_eq_zero]
  constructor
  · exact Or.inr
  · rintro (h | h)
    · omega
    · exact h

end Spec.Repeated

section

variable [IsStrictOrderedRing K] {k : ℕ}

theorem repeated_div (hk : 1 ≤ k) (a b : K) : (k : K) * a / ((k : K) * b) = a / b := by
  have : (k : K) ≠ 0 := by exact_mod_cast (by omega : k ≠ 0)
  exact mul_div_mul_left a b this

theorem mean_repeated (hk : 1 ≤ k) {l l' : List K} (h : Repeated k l l') : mean l' = mean l := by
  unfold mean
  rw [h.sum, h.length, Nat.cast_mul, repeated_div hk]

theorem avg_repeated (hk : 1 ≤ k) {l l' : List K} (h : Repeated k l l') : avg l' = avg l := mean_repeated hk h

theorem popVar_repeated (hk : 1 ≤ k) {l l' : List K} (h : Repeated k l l') : popVar l' = popVar l := by
  unfold popVar
  rw [avg_repeated hk h, (h.map _).sum, h.length, Nat.cast_mul, repeated_div hk]

theorem npVar_repeated (hk : 1 ≤ k) {l l' : List K} (h : Repeated k l l') : npVar l' = npVar l := by
  unfold npVar variance
  rw [mean_repeated hk h, mean_repeated hk (h.map _)]
  by_cases hc : l = []
  · rw [if_pos hc, if_pos ((h.nil_iff hk).mp hc)]
  · rw [if_neg hc, if_neg fun h' => hc ((h.nil_iff hk).mpr h')]

theorem npUnique_repeated (hk : 1 ≤ k) {xs xs' : List K} (h : Repeated k xs xs') : npUnique xs' = npUnique xs :=
  increasing_ext (npUnique_sorted xs') (npUnique_sorted xs) fun x => by rw [mem_npUnique, mem_npUnique, h.mem hk]

/-- Lists of (feature value, effect) pairs, the second one with every pair repeated `k` times. -/
structure PairRep (k : ℕ) (xs eff xs' eff' : List K) : Prop where
  len : eff.length = xs.length
  len' : eff'.length = xs'.length
  rep : Repeated k (xs.zip eff) (xs'.zip eff')

theorem PairRep.xs {xs eff xs' eff' : List K} (h : PairRep k xs eff xs' eff') : Repeated k xs xs' := by
  have := h.rep.map Prod.fst
  rwa [List.map_fst_zip h.len.ge, List.map_fst_zip h.len'.ge] at this

theorem PairRep.eff {xs eff xs' eff' : List K} (h : PairRep k xs eff xs' eff') : Repeated k eff eff' := by
  have := h.rep.map Prod.snd
  rwa [List.map_snd_zip h.len.le, List.map_snd_zip h.len'.le] at this

theorem binValid_repeated (hk : 1 ≤ k) {xs xs' : List K} (h : Repeated k xs xs') (m : ℕ) (a b : K) :
    binValid xs' (k * m) a b = binValid xs m a b := by
  unfold binValid filterXs
  rw [(h.filter _).length]
  have : k * m ≤ k * (xs.filter (inBin a b)).length ↔ m ≤ (xs.filter (inBin a b)).length := Nat.mul_le_mul_left_iff (by omega)
  simp only [this]

theorem binCost_repeated (hk : 1 ≤ k) {xs eff xs' eff' : List K} (h : PairRep k xs eff xs' eff') (m : ℕ) (d a b : K) :
    binCost xs' eff' (k * m) d a b = binCost xs eff m d a b := by
  have hp : Repeated k (filterEff xs eff a b) (filterEff xs' eff' a b) := (h.rep.filter _).map _
  unfold binCost
  simp only [hp.length, npVar_repeated hk hp, h.xs.length, Nat.cast_mul, repeated_div hk]
  have : k * (filterEff xs eff a b).length < k * m ↔ (filterEff xs eff a b).length < m := Nat.mul_lt_mul_left (by omega)
  simp only [this]

theorem noneValidBinning_repeated (hk : 1 ≤ k) {xs xs' : List K} (h : Repeated k xs xs') (mo : Option ℕ) :
    noneValidBinning xs' (mo.map (k * ·)) = noneValidBinning xs mo := by
  unfold noneValidBinning
  cases mo with
  | none => rfl
  | some m =>
    have : k * xs.length < k * m ↔ xs.length < m := Nat.mul_lt_mul_left (by omega)
    simp only [Option.map_some, npUnique_repeated hk h, h.length, this]

theorem isCategorical_repeated (hk : 1 ≤ k) {xs xs' : List K} (h : Repeated k xs xs') (mo : Option ℕ) (cl : ℕ) :
    isCategorical xs' (mo.map (k * ·)) cl = isCategorical xs mo cl := by
  have : binValidOpt xs' (mo.map (k * ·)) = binValidOpt xs mo := by
    funext a b
    unfold binValidOpt
    cases mo with
    | none => rfl
    | some m => exact binValid_repeated hk h m a b
  unfold isCategorical
  simp only [npUnique_repeated hk h, this]

theorem closeDecision_repeated (hk : 1 ≤ k) {xs eff xs' eff' : List K} (h : PairRep k xs eff xs' eff') (m : ℕ) (d l a b : K) :
    closeDecision xs' eff' (k * m) d l a b = closeDecision xs eff m d l a b := by
  unfold closeDecision
  simp only [binCost_repeated hk h, binValid_repeated hk h.xs]

theorem greedyLoop_repeated (hk : 1 ≤ k) {xs eff xs' eff' : List K} (h : PairRep k xs eff xs' eff') (m : ℕ) (d left : K) (rest : List K) :
    greedyLoop xs' eff' (k * m) d left rest = greedyLoop xs eff m d left rest := by
  induction rest generalizing left with
  | nil => rfl
  | cons l1 t ih =>
    cases t with
    | nil => rfl
    | cons l2 t =>
      unfold greedyLoop
      rw [closeDecision_repeated hk h, ih, ih]

theorem repairLast_repeated (hk : 1 ≤ k) {xs xs' : List K} (h : Repeated k xs xs') (m : ℕ) (l : List K) :
    repairLast xs' (k * m) l = repairLast xs m l := by
  unfold repairLast
  simp only [binValid_repeated hk h]

/-- Binning problems, the second one with every instance repeated `k` times. -/
structure CtxRep (k : ℕ) (c c' : BinCtx K) : Prop where
  xmin : c'.xmin = c.xmin
  xmax : c'.xmax = c.xmax
  xs : Repeated k c.xs c'.xs
  eff : (c.eff = none ∧ c'.eff = none) ∨ ∃ e e', c.eff = some e ∧ c'.eff = some e' ∧ PairRep k c.xs e c'.xs e'

theorem onlyOneBin_repeated (hk : 1 ≤ k) {c c' : BinCtx K} (h : CtxRep k c c') (m : ℕ) : onlyOneBinPossible c' (k * m) = onlyOneBinPossible c m := by
  unfold onlyOneBinPossible BinCtx.getEff
  rcases h.eff with ⟨h1, h2⟩ | ⟨e, e', h1, h2, hp⟩
  · rw [h1, h2]; rfl
  · rw [h1, h2, h.xmin, h.xmax]
    have e1 : k * m ≤ k * e.length ↔ m ≤ e.length := Nat.mul_le_mul_left_iff (by omega)
    have e2 : k * e.length < 2 * (k * m) ↔ e.length < 2 * m := by
      rw [show 2 * (k * m) = k * (2 * m) by ring]
      exact Nat.mul_lt_mul_left (by omega)
    simp only [bind, Except.bind, hp.eff.length, e1, e2]

theorem fixedFind_repeated (hk : 1 ≤ k) {c c' : BinCtx K} (h : CtxRep k c c') (n : ℕ) (mo : Option ℕ) (cl : ℕ) :
    fixedFind c' n (mo.map (k * ·)) cl = fixedFind c n mo cl := by
  unfold fixedFind
  rw [noneValidBinning_repeated hk h.xs, isCategorical_repeated hk h.xs, h.xmin, h.xmax]
  cases mo with
  | none => rfl
  | some m => simp only [Option.map_some, binValid_repeated hk h.xs]

theorem greedyFind_repeated (hk : 1 ≤ k) {c c' : BinCtx K} (h : CtxRep k c c') (n : ℕ) (d : K) (mo : Option ℕ) (cl : ℕ) :
    greedyFind c' n d (mo.map (k * ·)) cl = greedyFind c n d mo cl := by
  unfold greedyFind
  rw [noneValidBinning_repeated hk h.xs, isCategorical_repeated hk h.xs, h.xmin, h.xmax]
  cases mo with
  | none => rfl
  | some m =>
    simp only [Option.map_some, onlyOneBin_repeated hk h]
    rcases h.eff with ⟨h1, h2⟩ | ⟨e, e', h1, h2, hp⟩
    · unfold BinCtx.getEff
      rw [h1, h2]
      rfl
    · unfold BinCtx.getEff
      rw [h1, h2]
      simp only [bind, Except.bind, greedyLoop_repeated hk hp, repairLast_repeated hk h.xs]

theorem dpFind_repeated (hk : 1 ≤ k) {c c' : BinCtx K} (h : CtxRep k c c') (n : ℕ) (mo : Option ℕ) (d : K) (cl : ℕ) :
    dpFind c' n (mo.map (k * ·)) d cl = dpFind c n mo d cl := by
  unfold dpFind
  rw [noneValidBinning_repeated hk h.xs, isCategorical_repeated hk h.xs, h.xmin, h.xmax]
  cases mo with
  | none => rfl
  | some m =>
    simp only [Option.map_some, onlyOneBin_repeated hk h]
    rcases h.eff with ⟨h1, h2⟩ | ⟨e, e', h1, h2, hp⟩
    · unfold BinCtx.getEff
      rw [h1, h2]
      rfl
    · have : costOfMove c' e' (k * m) d n = costOfMove c e m d n := by
        funext i j
        unfold costOfMove
        rw [binCost_repeated hk hp, h.xmin, h.xmax]
      unfold BinCtx.getEff
      rw [h1, h2]
      simp only [bind, Except.bind, this]

theorem findLimits_repeated (hk : 1 ≤ k) {c c' : BinCtx K} (h : CtxRep k c c') (bm : BinMethod K) :
    findLimits c' (timesMinPoints k bm) = findLimits c bm := by
  cases bm with
  | fixed n m cl => exact fixedFind_repeated hk h n m cl
  | greedy n m d cl => exact greedyFind_repeated hk h n d m cl
  | dp n m d cl => exact dpFind_repeated hk h n m d cl
  | str s =>
    have h1 := fixedFind_repeated hk h 20 (some 0) 15
    have h2 := greedyFind_repeated hk h 100 (3 / 10) (some 0) 15
    have h3 := dpFind_repeated hk h 20 (some 0) (3 / 10) 15
    simp only [Option.map_some, Nat.mul_zero] at h1 h2 h3
    simp only [timesMinPoints, findLimits, h1, h2, h3]

/-! ### compute_ale_params -/

theorem nanSum_append (l m : List (Option K)) : nanSum (l ++ m) = nanAdd (nanSum l) (nanSum m) := by
  induction l with
  | nil =>
    rw [List.nil_append]
    cases nanSum m <;> simp [nanSum, nanAdd]
  | cons x t ih =>
    rw [List.cons_append]
    simp only [nanSum, ih]
    cases x <;> cases nanSum t <;> cases nanSum m <;> simp [nanAdd, add_assoc]

theorem nanSum_repeated (hk : 1 ≤ k) {l l' : List (Option K)} (h : Repeated k l l') : nanSum l' = (nanSum l).map fun v => (k : K) * v := by
  rw [nanSum_perm h]
  clear h
  induction k, hk using Nat.le_induction with
  | base => cases h : nanSum l <;> simp [h]
  | succ n hn ih =>
    rw [List.replicate_succ, List.flatten_cons, nanSum_append, ih]
    cases nanSum l with
    | none => rfl
    | some v =>
      simp only [Option.map_some, nanAdd, Option.some.injEq]
      push_cast
      ring

theorem foldr_max_le (l : List ℕ) (b : ℕ) (h : ∀ x ∈ l, x ≤ b) : l.foldr max 0 ≤ b := by
  induction l with
  | nil => exact Nat.zero_le _
  | cons a t ih => exact max_le (h a List.mem_cons_self) (ih fun x hx => h x (List.mem_cons_of_mem _ hx))

theorem le_foldr_max (l : List ℕ) : ∀ x ∈ l, x ≤ l.foldr max 0 := by
  induction l with
  | nil => intro x hx; cases hx
  | cons a t ih =>
    intro x hx
    rcases List.mem_cons.mp hx with rfl | hx
    · exact le_max_left _ _
    · exact (ih x hx).trans (le_max_right _ _)

theorem bincountLen_same {l l' : List ℕ} (h : ∀ x, x ∈ l ↔ x ∈ l') (m : ℕ) : bincountLen l m = bincountLen l' m := by
  have key : ∀ l l' : List ℕ, (∀ x, x ∈ l ↔ x ∈ l') → (l.map (· + 1)).foldr max 0 ≤ (l'.map (· + 1)).foldr max 0 := by
    intro l l' h
    apply foldr_max_le
    intro x hx
    obtain ⟨y, hy, rfl⟩ := List.mem_map.mp hx
    exact le_foldr_max _ _ (List.mem_map_of_mem ((h y).mp hy))
  unfold bincountLen
  rw [le_antisymm (key l l' h) (key l' l fun x => (h x).symm)]

theorem bincount_repeated (hk : 1 ≤ k) {l l' : List ℕ} (h : Repeated k l l') (m : ℕ) : bincount l' m = (bincount l m).map (k * ·) := by
  unfold bincount
  rw [List.map_map, bincountLen_same (fun x => (h.mem hk x).symm)]
  apply List.map_congr_left
  intro j _
  exact h.countP _

theorem valuesAt_repeated {xs eff xs' eff' : List K} (h : PairRep k xs eff xs' eff') (f : K → ℕ) (j : ℕ) :
    Repeated k (valuesAt (xs.map f) eff j) (valuesAt (xs'.map f) eff' j) := by
  rw [valuesAt_map, valuesAt_map]
  exact (h.rep.filter _).map _

theorem fillNans_ok_of {x x' : List (Option K)} {y : List K} (h : fillNans x = .ok y) (hx : ∀ (j : ℕ) (v : K), x[j]? = some (some v) → ∃ v', x'[j]? = some (some v')) :
    ∃ y', fillNans x' = .ok y' := by
  rw [fillNans_eq] at h ⊢
  by_cases h0 : ∀ o ∈ x, o = none
  · rw [if_pos h0] at h; cases h
  · push Not at h0
    obtain ⟨o, ho, hne⟩ := h0
    obtain ⟨v, rfl⟩ := Option.ne_none_iff_exists'.mp hne
    obtain ⟨j, hj⟩ := List.getElem?_of_mem ho
    obtain ⟨v', hv'⟩ := hx j v hj
    rw [if_neg fun hc => by have := hc _ (List.mem_of_getElem? hv'); cases this]
    exact ⟨_, rfl⟩

theorem fillNans_known {x : List (Option K)} {y : List K} (h : fillNans x = .ok y) {j : ℕ} {v : K} (hv : x[j]? = some (some v)) : y[j]? = some v := by
  rw [fillNans_eq] at h
  by_cases h0 : ∀ o ∈ x, o = none
  · rw [if_pos h0] at h; cases h
  · rw [if_neg h0] at h
    cases h
    rw [getElem?_fillFrom, hv]
    rfl

theorem repeated_count_zero (hk : 1 ≤ k) (n : ℕ) : k * n ≠ 0 ↔ n ≠ 0 := by
  rw [ne_eq, Nat.mul_eq_zero]
  constructor
  · intro h1 h2; exact h1 (Or.inr h2)
  · intro h1 h2
    rcases h2 with h2 | h2
    · omega
    · exact h1 h2

/-- `compute_bin_effect` when every (value, effect) pair is repeated `k` times; `G` assigns a bin to every value. -/
theorem computeBinEffect_repeated (hk : 1 ≤ k) {xs eff xs' eff' : List K} (h : PairRep k xs eff xs' eff') (limits : List K) {be : List (Option K)} {ppb : List ℕ}
    (hp : computeBinEffect xs eff limits = .ok (be, ppb)) : computeBinEffect xs' eff' limits = .ok (be, ppb.map (k * ·)) := by
  unfold computeBinEffect at hp ⊢
  rcases digitize_form (bumpLast EPS limits) with hd | ⟨F, hd⟩
  · rw [hd] at hp; cases hp
  rw [hd] at hp ⊢
  simp only [bind, Except.bind, pure, Except.pure] at hp ⊢
  rw [binIndices_map] at hp ⊢
  by_cases h0 : ∃ x ∈ xs, F x = 0
  · rw [if_pos h0] at hp; cases hp
  have h0' : ¬ ∃ x ∈ xs', F x = 0 := fun ⟨x, hx, hx0⟩ => h0 ⟨x, (h.xs.mem hk x).mpr hx, hx0⟩
  rw [if_neg h0] at hp
  rw [if_neg h0']
  have hidx := h.xs.map fun x => F x - 1
  have hlen : bincountLen (xs'.map fun x => F x - 1) (limits.length - 1) = bincountLen (xs.map fun x => F x - 1) (limits.length - 1) :=
    bincountLen_same (fun x => (hidx.mem hk x).symm) _
  simp only [] at hp ⊢
  unfold bincountW at hp ⊢
  rw [if_pos (by rw [List.length_map, h.len])] at hp
  rw [if_pos (by rw [List.length_map, h.len'])]
  simp only [hlen, bincount_repeated hk hidx, Except.ok.injEq, Prod.mk.injEq] at hp ⊢
  obtain ⟨rfl, rfl⟩ := hp
  refine ⟨?_, rfl⟩
  unfold bincount
  rw [List.map_map, List.zipWith_map, List.zipWith_map, List.zipWith_self, List.zipWith_self]
  apply List.map_congr_left
  intro j _
  simp only [Function.comp, (valuesAt_repeated h _ j).sum, Nat.cast_mul, repeated_div hk, repeated_count_zero hk]

/-- `compute_bin_variance`: bins with two or more instances keep their variance. -/
theorem computeBinVariance_repeated (hk : 1 ≤ k) {xs eff xs' eff' : List K} (h : PairRep k xs eff xs' eff') (limits : List K) {be : List (Option K)} {ppb : List ℕ}
    (hb : computeBinEffect xs eff limits = .ok (be, ppb)) {bv bev : List (Option K)} (hp : computeBinVariance xs eff limits be = .ok (bv, bev)) :
    ∃ bv' bev', computeBinVariance xs' eff' limits be = .ok (bv', bev') ∧
      (∀ (j : ℕ) (v : K), bv[j]? = some (some v) → bv'[j]? = some (some v)) ∧
      (∀ (j : ℕ) (v : K), bev[j]? = some (some v) → bev'[j]? = some (some (v / k))) ∧
      (1 ∉ ppb → bv' = bv) := by
  unfold computeBinEffect at hb
  unfold computeBinVariance at hp ⊢
  rcases digitize_form (bumpLast EPS limits) with hd | ⟨F, hd⟩
  · rw [hd] at hp; cases hp
  rw [hd] at hp hb ⊢
  simp only [bind, Except.bind, pure, Except.pure] at hp hb ⊢
  rw [binIndices_map] at hp hb ⊢
  by_cases h0 : ∃ x ∈ xs, F x = 0
  · rw [if_pos h0] at hp; cases hp
  have h0' : ¬ ∃ x ∈ xs', F x = 0 := fun ⟨x, hx, hx0⟩ => h0 ⟨x, (h.xs.mem hk x).mpr hx, hx0⟩
  rw [if_neg h0] at hp hb
  rw [if_neg h0']
  have hidx := h.xs.map fun x => F x - 1
  have hlen : bincountLen (xs'.map fun x => F x - 1) (limits.length - 1) = bincountLen (xs.map fun x => F x - 1) (limits.length - 1) :=
    bincountLen_same (fun x => (hidx.mem hk x).symm) _
  simp only [] at hp hb ⊢
  have hppb : ppb = bincount (xs.map fun x => F x - 1) (limits.length - 1) := by
    unfold bincountW at hb
    rw [if_pos (by rw [List.length_map, h.len])] at hb
    simp only [Except.ok.injEq, Prod.mk.injEq] at hb
    exact hb.2.symm
  clear hb
  simp only [mapM_pyIndex] at hp ⊢
  by_cases hr : ∀ i ∈ xs.map fun x => F x - 1, i < be.length
  swap
  · rw [if_neg hr] at hp; cases hp
  have hr' : ∀ i ∈ xs'.map fun x => F x - 1, i < be.length := fun i hi => hr i ((hidx.mem hk i).mpr hi)
  rw [if_pos hr] at hp
  rw [if_pos hr']
  simp only [List.map_map, Function.comp_def] at hp ⊢
  unfold bincountNan at hp ⊢
  rw [if_pos (by simp [h.len])] at hp
  rw [if_pos (by simp [h.len'])]
  simp only [hlen, bincount_repeated hk hidx, Except.ok.injEq, Prod.mk.injEq] at hp ⊢
  have hval : ∀ j, nanSum (valuesAt (xs'.map fun x => F x - 1) (List.zipWith sqDev eff' (xs'.map fun x => be.getD (F x - 1) default)) j) =
      (nanSum (valuesAt (xs.map fun x => F x - 1) (List.zipWith sqDev eff (xs.map fun x => be.getD (F x - 1) default)) j)).map fun v => (k : K) * v := by
    intro j
    rw [valuesAt_zipWith (fun x => F x - 1) (fun i => be.getD i default) sqDev xs eff j,
      valuesAt_zipWith (fun x => F x - 1) (fun i => be.getD i default) sqDev xs' eff' j]
    exact nanSum_repeated hk ((valuesAt_repeated h _ j).map _)
  obtain ⟨rfl, rfl⟩ := hp
  subst hppb
  refine ⟨_, _, ⟨rfl, rfl⟩, ?_, ?_, ?_⟩
  · unfold bincount
    intro j v
    simp only [List.map_map, List.zipWith_map, List.zipWith_self, List.getElem?_map, Option.map_eq_some_iff, Function.comp, hval]
    rintro ⟨i, hi, hv⟩
    refine ⟨i, hi, ?_⟩
    have hn : 1 < (xs.map fun x => F x - 1).count i := by
      by_contra hc
      rw [if_neg hc] at hv; cases hv
    rw [if_pos hn] at hv
    rw [if_pos (lt_of_lt_of_le hn (Nat.le_mul_of_pos_left _ (by omega))), ← hv, Option.map_map]
    congr 1
    funext w
    simp only [Function.comp, Nat.cast_mul, repeated_div hk]
  · unfold bincount
    intro j v
    simp only [List.map_map, List.zipWith_map, List.zipWith_self, List.getElem?_map, Option.map_eq_some_iff, Function.comp, hval]
    rintro ⟨i, hi, hv⟩
    refine ⟨i, hi, ?_⟩
    have hn : 1 < (xs.map fun x => F x - 1).count i := by
      by_contra hc
      rw [if_neg hc] at hv; cases hv
    have hn' : 1 < k * (xs.map fun x => F x - 1).count i := lt_of_lt_of_le hn (Nat.le_mul_of_pos_left _ (by omega))
    simp only [if_pos hn, if_pos hn', Option.map_map, Option.map_eq_some_iff] at hv ⊢
    obtain ⟨w, hw, rfl⟩ := hv
    refine ⟨w, hw, ?_⟩
    simp only [Function.comp, Nat.cast_mul, repeated_div hk]
    rw [mul_comm (k : K), ← div_div]
  · unfold bincount
    intro hone
    simp only [List.map_map, List.zipWith_map, List.zipWith_self]
    apply List.map_congr_left
    intro j hj
    have hj1 : (xs.map fun x => F x - 1).count j ≠ 1 := by
      intro hc
      exact hone (List.mem_map.mpr ⟨j, hj, hc⟩)
    simp only [Function.comp, hval]
    by_cases hn : 1 < (xs.map fun x => F x - 1).count j
    · rw [if_pos hn, if_pos (lt_of_lt_of_le hn (Nat.le_mul_of_pos_left _ (by omega))), Option.map_map]
      congr 1
      funext w
      simp only [Function.comp, Nat.cast_mul, repeated_div hk]
    · have h00 : (xs.map fun x => F x - 1).count j = 0 := by omega
      simp [h00]

/-- `compute_ale_params` when every (value, effect) pair is repeated `k` times. -/
theorem computeAleParams_repeated (hk : 1 ≤ k) {xs eff xs' eff' : List K} (h : PairRep k xs eff xs' eff') (limits : List K) (p : AleParams K)
    (hp : computeAleParams xs eff limits = .ok p) :
    ∃ p', computeAleParams xs' eff' limits = .ok p' ∧ p'.limits = p.limits ∧ p'.dx = p.dx ∧ p'.binEffect = p.binEffect ∧
      p'.pointsPerBin = p.pointsPerBin.map (k * ·) ∧ (1 ∉ p.pointsPerBin → p'.binVariance = p.binVariance) := by
  unfold computeAleParams at hp ⊢
  simp only [bind, Except.bind, pure, Except.pure] at hp ⊢
  rcases hb : computeBinEffect xs eff limits with e | ⟨be, ppb⟩
  · rw [hb] at hp; cases hp
  rw [hb] at hp
  rw [computeBinEffect_repeated hk h limits hb]
  simp only [] at hp ⊢
  rcases hv : computeBinVariance xs eff limits be with e | ⟨bv, bev⟩
  · rw [hv] at hp; cases hp
  obtain ⟨bv', bev', hv', h1, h2, h3⟩ := computeBinVariance_repeated hk h limits hb hv
  rw [hv] at hp
  rw [hv']
  simp only [] at hp ⊢
  rcases hf1 : fillNans be with e | f1
  · rw [hf1] at hp; cases hp
  rw [hf1] at hp
  rcases hf2 : fillNans bv with e | f2
  · rw [hf2] at hp; cases hp
  rw [hf2] at hp
  rcases hf3 : fillNans bev with e | f3
  · rw [hf3] at hp; cases hp
  rw [hf3] at hp
  obtain ⟨g2, hg2⟩ := fillNans_ok_of hf2 fun j v hjv => ⟨v, h1 j v hjv⟩
  obtain ⟨g3, hg3⟩ := fillNans_ok_of hf3 fun j v hjv => ⟨_, h2 j v hjv⟩
  rw [hg2, hg3]
  simp only [Except.ok.injEq] at hp ⊢
  subst hp
  refine ⟨_, rfl, rfl, rfl, rfl, rfl, fun hone => ?_⟩
  rw [h3 hone, hf2] at hg2
  cases hg2
  rfl

/-! ### fit, then eval -/

namespace Spec

/-- The script `obj.fit(s, binning_method=bm, centering=c); obj.eval(s, xs, het, centering=c')` on a new object. -/
def fitThenEval [PySqrt K] (cfg : AleCfg K D) (s : Fin D) (bm : BinMethod K) (c : PyVal) (xs : List K) (het : Bool) (c' : PyVal) : Py (List K × Option (List K)) :=
  match aleFit cfg AleState.init (.int ((s : ℕ) : ℤ)) bm c with
  | (_, .error e) => .error e
  | (st, .ok ()) => (aleEval cfg st s xs het c').2

/-- The whole script with an ALE object: construct, fit, evaluate. -/
def aleFitEval [PySqrt K] (choice : ℕ → ℕ → List ℕ) (cast : K → K) (f : Row K D → K) (data : List (Row K D))
    (axisLimits : Option ((Fin D → K) × (Fin D → K))) (s : Fin D) (bm : BinMethod K) (c : PyVal) (xs : List K) (het : Bool) (c' : PyVal) :
    Py (List K × Option (List K)) :=
  (Base.init choice data (.str "all") axisLimits).bind fun b => fitThenEval (aleCfg cast (List.map f) b) s bm c xs het c'

/-- The whole script with an RHALE object. -/
def rhaleFitEval [PySqrt K] (choice : ℕ → ℕ → List ℕ) (f : Row K D → K) (jac : Option (Row K D → Row K D)) (data : List (Row K D))
    (given : Option (List (Row K D))) (axisLimits : Option ((Fin D → K) × (Fin D → K))) (s : Fin D) (bm : BinMethod K) (c : PyVal)
    (xs : List K) (het : Bool) (c' : PyVal) : Py (List K × Option (List K)) :=
  (rhaleInit choice (List.map f) (jac.map List.map) data given (.str "all") axisLimits).bind fun q => fitThenEval q.1 s bm c xs het c'

end Spec

/-- What the script computes from the parameters `p` of the fit. -/
def fromParams [PySqrt K] (cfg : AleCfg K D) (s : Fin D) (m : Centering) (xs : List K) (het : Bool) (m' : Centering) (p : AleParams K) : Py (List K × Option (List K)) :=
  (aleNormConst cfg p s m).bind fun z => do
    pyAssert (decide (cfg.axisLo s < cfg.axisHi s))
    let y ← evalUnnorm p xs
    let std ← if het then (evalHet p xs).map some else .ok none
    if m' = .off then return (y, std) else return (y.map (· - z), std)

theorem fitThenEval_eq [PySqrt K] (cfg : AleCfg K D) (s : Fin D) (bm : BinMethod K) (c : PyVal) (xs : List K) (het : Bool) (c' : PyVal) {m m' : Centering}
    (ha : cfg.allowed bm = true) (hm : prepCentering c = .ok m) (hm' : prepCentering c' = .ok m') (hmm : m' = .off ∨ m' = m) :
    fitThenEval cfg s bm c xs het c' = (cfg.fitF s bm).bind (fromParams cfg s m xs het m') := by
  unfold fitThenEval aleFit
  rw [if_pos ha]
  have hr := resolve_int s
  simp only [bind, Except.bind, pure, Except.pure] at hr ⊢
  rw [hm]
  cases hp : prepFeatures (.int ((s : ℕ) : ℤ)) D with
  | error e => rw [hp] at hr; cases hr
  | ok l =>
    rw [hp] at hr
    simp only at hr ⊢
    rw [hr]
    simp only [fitLoop, fitOne]
    cases hf : cfg.fitF s bm with
    | error e => rfl
    | ok p =>
      simp only [fromParams]
      cases hz : aleNormConst cfg p s m with
      | error e => rfl
      | ok z =>
        simp only [Except.bind, aleEval, hm', Function.update_self, needsRefit, Bool.not_true, Bool.false_eq_true, if_false]
        have hne : (if m' = .off then (.ok false : Py Bool) else .ok (decide (m ≠ m'))) = .ok false := by
          rcases hmm with h | h
          · rw [if_pos h]
          · subst h; split_ifs <;> simp
        rw [hne]
        simp only [aleEvalFitted, Function.update_self]

theorem fitThenEval_allowed [PySqrt K] {cfg : AleCfg K D} {s : Fin D} {bm : BinMethod K} {c : PyVal} {xs : List K} {het : Bool} {c' : PyVal} {r}
    (h : fitThenEval cfg s bm c xs het c' = .ok r) : cfg.allowed bm = true ∧ ∃ m m', prepCentering c = .ok m ∧ prepCentering c' = .ok m' := by
  unfold fitThenEval aleFit at h
  by_cases ha : cfg.allowed bm = true
  · refine ⟨ha, ?_⟩
    rw [if_pos ha] at h
    simp only [bind, Except.bind, pure, Except.pure] at h
    cases hp : prepFeatures (.int ((s : ℕ) : ℤ)) D with
    | error e => rw [hp] at h; cases h
    | ok l =>
      rw [hp] at h
      simp only at h
      cases hm : prepCentering c with
      | error e => rw [hm] at h; cases h
      | ok m =>
        cases hm' : prepCentering c' with
        | ok m' => exact ⟨m, m', rfl, rfl⟩
        | error e =>
          exfalso
          rw [hm] at h
          simp only [aleEval, hm'] at h
          split at h <;> cases h
  · rw [if_neg ha] at h; cases h

/-- Two fits with the same limits and bin effects (and, if asked for, bin variances) are evaluated alike. -/
theorem fromParams_congr [PySqrt K] {cfg cfg' : AleCfg K D} {s : Fin D} (hlo : cfg'.axisLo s = cfg.axisLo s) (hhi : cfg'.axisHi s = cfg.axisHi s) (m : Centering) (xs : List K)
    (het : Bool) (m' : Centering) {p p' : AleParams K} (h1 : p'.limits = p.limits) (h2 : p'.dx = p.dx) (h3 : p'.binEffect = p.binEffect)
    (h4 : het = true → p'.binVariance = p.binVariance) : fromParams cfg' s m xs het m' p' = fromParams cfg s m xs het m' p := by
  have hu : evalUnnorm p' = evalUnnorm p := by funext x; unfold evalUnnorm; rw [h1, h2, h3]
  have hn : aleNormConst cfg' p' s m = aleNormConst cfg p s m := by
    unfold aleNormConst
    rw [hu, hlo, hhi]
  unfold fromParams
  rw [hn, hu, hlo, hhi]
  cases het with
  | false => rfl
  | true =>
    have hh : evalHet p' xs = evalHet p xs := by unfold evalHet; rw [h1, h2, h4 rfl]
    rw [hh]

/-! ### The fits -/

theorem aleFit_repeated (hk : 1 ≤ k) (cast : K → K) (f : Row K D → K) {data data' : List (Row K D)} (h : Repeated k data data') (lo hi : Fin D → K) (s : Fin D)
    (bm : BinMethod K) (p : AleParams K) (hp : aleFitFeature cast (List.map f) data lo hi s bm = .ok p) :
    ∃ p', aleFitFeature cast (List.map f) data' lo hi s (timesMinPoints k bm) = .ok p' ∧ p'.limits = p.limits ∧ p'.dx = p.dx ∧ p'.binEffect = p.binEffect ∧
      p'.pointsPerBin = p.pointsPerBin.map (k * ·) ∧ (1 ∉ p.pointsPerBin → p'.binVariance = p.binVariance) := by
  rw [aleFitFeature_eq] at hp ⊢
  by_cases hf : isFixedMethod bm = true
  swap
  · rw [if_neg hf] at hp; cases hp
  have hf' : isFixedMethod (timesMinPoints k bm) = true := by cases bm <;> exact hf
  rw [if_pos hf] at hp
  rw [if_pos hf']
  have hrows := h.filter (inAxis (lo s) (hi s) s)
  have hc : CtxRep k (aleCtx data lo hi s) (aleCtx data' lo hi s) := ⟨rfl, rfl, hrows.map _, Or.inl ⟨rfl, rfl⟩⟩
  have hm : aleMethod (timesMinPoints k bm) = timesMinPoints k (aleMethod bm) := by
    cases bm <;> simp [aleMethod, timesMinPoints]
  rw [hm, findLimits_repeated hk hc]
  cases hL : findLimits (aleCtx data lo hi s) (aleMethod bm) with
  | error e => rw [hL] at hp; cases hp
  | ok l =>
    cases l with
    | impossible => rw [hL] at hp; cases hp
    | arr L =>
      rw [hL] at hp
      simp only [Except.bind] at hp ⊢
      rcases computeLocalEffects_same cast f (fun r => hrows.mem hk r) L s with ⟨e, h1, h2⟩ | ⟨φ, L', h1, h2⟩
      · rw [h1] at hp; cases hp
      · rw [h1] at hp
        rw [h2]
        simp only [] at hp ⊢
        refine computeAleParams_repeated hk ⟨by simp [aleCtx, col], by simp [aleCtx, col], ?_⟩ L' p hp
        simp only [aleCtx, col]
        rw [zip_map_both, zip_map_both]
        exact hrows.map _

theorem rhaleFit_repeated (hk : 1 ≤ k) {data eff data' eff' : List (Row K D)} (hlen : eff.length = data.length) (hlen' : eff'.length = data'.length)
    (h : Repeated k (data.zip eff) (data'.zip eff')) (lo hi : Fin D → K) (s : Fin D)
    (bm : BinMethod K) (p : AleParams K) (hp : rhaleFitFeature data eff lo hi s bm = .ok p) :
    ∃ p', rhaleFitFeature data' eff' lo hi s (timesMinPoints k bm) = .ok p' ∧ p'.limits = p.limits ∧ p'.dx = p.dx ∧ p'.binEffect = p.binEffect ∧
      p'.pointsPerBin = p.pointsPerBin.map (k * ·) ∧ (1 ∉ p.pointsPerBin → p'.binVariance = p.binVariance) := by
  have hrows := h.filter fun p => inAxis (lo s) (hi s) s p.1
  have hpr : PairRep k (col (data.filter (inAxis (lo s) (hi s) s)) s)
      (col (((data.zip eff).filter fun p => inAxis (lo s) (hi s) s p.1).map (·.2)) s)
      (col (data'.filter (inAxis (lo s) (hi s) s)) s)
      (col (((data'.zip eff').filter fun p => inAxis (lo s) (hi s) s p.1).map (·.2)) s) :=
    ⟨rhaleCtx_len data eff lo hi s hlen, rhaleCtx_len data' eff' lo hi s hlen', by
      rw [rhale_pairs _ _ _ _ _ hlen, rhale_pairs _ _ _ _ _ hlen']; exact hrows.map _⟩
  have hc : CtxRep k (rhaleCtx data eff lo hi s) (rhaleCtx data' eff' lo hi s) := ⟨rfl, rfl, hpr.xs, Or.inr ⟨_, _, rfl, rfl, hpr⟩⟩
  have hl := findLimits_repeated hk hc bm
  unfold rhaleCtx at hl
  unfold rhaleFitFeature at hp ⊢
  rw [if_neg (not_not_intro hlen)] at hp
  rw [if_neg (not_not_intro hlen')]
  simp only [] at hp ⊢
  rw [hl]
  cases hL : findLimits (K := K) _ bm with
  | error e => rw [hL] at hp; cases hp
  | ok l =>
    rw [hL] at hp
    cases l with
    | impossible => cases hp
    | arr L => exact computeAleParams_repeated hk hpr L p hp

theorem limitsOr_repeated (hk : 1 ≤ k) {data data' : List (Row K D)} (h : Repeated k data data') (a : Option ((Fin D → K) × (Fin D → K))) :
    limitsOr data' a = limitsOr data a := by
  cases a with
  | some l => rfl
  | none =>
    show axisLimitsAll data' = axisLimitsAll data
    cases data with
    | nil => rw [(h.nil_iff hk).mp rfl]
    | cons r rs =>
      cases data' with
      | nil => exact absurd ((h.nil_iff hk).mpr rfl) (by simp)
      | cons r' rs' =>
        simp only [axisLimitsAll]
        congr 2 <;> funext f
        · exact foldl_min_same fun z => ((h.map fun q : Row K D => q f).mem hk z).symm
        · exact foldl_max_same fun z => ((h.map fun q : Row K D => q f).mem hk z).symm

/-! ### C83 -/

/-- **C83 for ALE.**  Repeat every instance `k` times (in any order) and multiply the minimal number of instances per bin by `k`: if constructing, fitting and evaluating
works on the original data then it works on the repeated data and gives the same values - the same heterogeneity too, unless some bin holds exactly one
original instance.  The evaluation uses the centring of the fit or none. -/
theorem C83_ale_repeated [PySqrt K] (hk : 1 ≤ k) (choice : ℕ → ℕ → List ℕ) (cast : K → K) (f : Row K D → K) (data data' : List (Row K D)) (h : Repeated k data data')
    (axisLimits : Option ((Fin D → K) × (Fin D → K))) (s : Fin D) (bm : BinMethod K) (c c' : PyVal)
    (hcc : prepCentering c' = .ok .off ∨ prepCentering c' = prepCentering c) (xs : List K) (het : Bool)
    (hone : het = true → ∀ b p, Base.init choice data (.str "all") axisLimits = .ok b →
      aleFitFeature cast (List.map f) b.data b.axisLo b.axisHi s bm = .ok p → 1 ∉ p.pointsPerBin)
    (r : List K × Option (List K)) (hr : aleFitEval choice cast f data axisLimits s bm c xs het c' = .ok r) :
    aleFitEval choice cast f data' axisLimits s (timesMinPoints k bm) c xs het c' = .ok r := by
  unfold aleFitEval at hr ⊢
  rw [base_init_all] at hr hone ⊢
  rw [limitsOr_repeated hk h]
  cases hl : limitsOr data axisLimits with
  | error e => rw [hl] at hr; cases hr
  | ok l =>
    rw [hl] at hr hone
    simp only [Except.bind] at hr hone ⊢
    obtain ⟨ha, m, m', hm, hm'⟩ := fitThenEval_allowed hr
    have hmm : m' = .off ∨ m' = m := by
      rcases hcc with h1 | h1
      · rw [h1] at hm'; cases hm'; exact Or.inl rfl
      · rw [hm', hm] at h1; cases h1; exact Or.inr rfl
    rw [fitThenEval_eq _ s bm c xs het c' ha hm hm' hmm] at hr
    rw [fitThenEval_eq _ s _ c xs het c' (by cases bm <;> exact ha) hm hm' hmm]
    cases hp : aleFitFeature cast (List.map f) data l.1 l.2 s bm with
    | error e =>
      have : (aleCfg cast (List.map f) { data := data, indices := List.range data.length, axisLo := l.1, axisHi := l.2 }).fitF s bm = .error e := hp
      rw [this] at hr; cases hr
    | ok p =>
      obtain ⟨p', hp', h1, h2, h3, -, h5⟩ := aleFit_repeated hk cast f h l.1 l.2 s bm p hp
      have e1 : (aleCfg cast (List.map f) { data := data, indices := List.range data.length, axisLo := l.1, axisHi := l.2 }).fitF s bm = .ok p := hp
      have e2 : (aleCfg cast (List.map f) { data := data', indices := List.range data'.length, axisLo := l.1, axisHi := l.2 }).fitF s (timesMinPoints k bm) = .ok p' := hp'
      rw [e1] at hr
      rw [e2]
      exact (fromParams_congr (by rfl) (by rfl) m xs het m' h1 h2 h3 fun ht => h5 (hone ht _ p rfl hp)).trans hr

namespace Spec

/-- Every instance, together with its given effects if there are any, repeated `k` times. -/
def RepeatedRows (k : ℕ) (data data' : List (Row K D)) : Option (List (Row K D)) → Option (List (Row K D)) → Prop
  | none, none => Repeated k data data'
  | some e, some e' => e.length = data.length ∧ e'.length = data'.length ∧ Repeated k (data.zip e) (data'.zip e')
  | _, _ => False

end Spec

/-- **C83 for RHALE**, whatever the source of the effects (given rows, repeated along with the instances; a row-wise Jacobian; numerical differentiation) and every binning
method. -/
theorem C83_rhale_repeated [PySqrt K] (hk : 1 ≤ k) (choice : ℕ → ℕ → List ℕ) (f : Row K D → K) (jac : Option (Row K D → Row K D)) (data data' : List (Row K D))
    (given given' : Option (List (Row K D))) (h : RepeatedRows k data data' given given')
    (axisLimits : Option ((Fin D → K) × (Fin D → K))) (s : Fin D) (bm : BinMethod K) (c c' : PyVal)
    (hcc : prepCentering c' = .ok .off ∨ prepCentering c' = prepCentering c) (xs : List K) (het : Bool)
    (hone : het = true → ∀ q p, rhaleInit choice (List.map f) (jac.map List.map) data given (.str "all") axisLimits = .ok q →
      q.1.fitF s bm = .ok p → 1 ∉ p.pointsPerBin)
    (r : List K × Option (List K)) (hr : rhaleFitEval choice f jac data given axisLimits s bm c xs het c' = .ok r) :
    rhaleFitEval choice f jac data' given' axisLimits s (timesMinPoints k bm) c xs het c' = .ok r := by
  have hg : ∀ e, given = some e → e.length = data.length := by
    rintro e rfl
    cases given' with
    | none => exact h.elim
    | some e' => exact h.1
  have hg' : ∀ e, given' = some e → e.length = data'.length := by
    rintro e rfl
    cases given with
    | none => exact h.elim
    | some e' => exact h.2.1
  have hrep : Repeated k data data' := by
    cases given with
    | none =>
      cases given' with
      | none => exact h
      | some e' => exact h.elim
    | some e =>
      cases given' with
      | none => exact h.elim
      | some e' =>
        have := h.2.2.map Prod.fst
        rwa [List.map_fst_zip h.1.ge, List.map_fst_zip h.2.1.ge] at this
  have hzip : (rhaleEffects (List.map f) (jac.map List.map) given data).length = data.length ∧
      (rhaleEffects (List.map f) (jac.map List.map) given' data').length = data'.length ∧
      Repeated k (data.zip (rhaleEffects (List.map f) (jac.map List.map) given data))
        (data'.zip (rhaleEffects (List.map f) (jac.map List.map) given' data')) := by
    cases given with
    | none =>
      cases given' with
      | none =>
        obtain ⟨φ, hφ⟩ := rhaleEffects_rowwise f jac
        rw [hφ, hφ, zip_self_map, zip_self_map]
        exact ⟨by simp, by simp, hrep.map _⟩
      | some e' => exact h.elim
    | some e =>
      cases given' with
      | none => exact h.elim
      | some e' => cases jac <;> exact h
  unfold rhaleFitEval at hr ⊢
  rw [rhaleInit_all _ _ _ _ _ hg] at hr hone
  rw [rhaleInit_all _ _ _ _ _ hg', limitsOr_repeated hk hrep]
  cases hl : limitsOr data axisLimits with
  | error e => rw [hl] at hr; cases hr
  | ok l =>
    rw [hl] at hr hone
    simp only [Except.bind] at hr hone ⊢
    obtain ⟨ha, m, m', hm, hm'⟩ := fitThenEval_allowed hr
    have hmm : m' = .off ∨ m' = m := by
      rcases hcc with h1 | h1
      · rw [h1] at hm'; cases hm'; exact Or.inl rfl
      · rw [hm', hm] at h1; cases h1; exact Or.inr rfl
    rw [fitThenEval_eq _ s bm c xs het c' ha hm hm' hmm] at hr
    rw [fitThenEval_eq _ s _ c xs het c' (by cases bm <;> exact ha) hm hm' hmm]
    generalize rhaleEffects (List.map f) (jac.map List.map) given data = E at *
    generalize rhaleEffects (List.map f) (jac.map List.map) given' data' = E' at *
    cases hp : rhaleFitFeature data E l.1 l.2 s bm with
    | error e =>
      have : (rhaleCfg E { data := data, indices := List.range data.length, axisLo := l.1, axisHi := l.2 }).fitF s bm = .error e := hp
      rw [this] at hr; cases hr
    | ok p =>
      obtain ⟨p', hp', h1, h2, h3, -, h5⟩ := rhaleFit_repeated hk hzip.1 hzip.2.1 hzip.2.2 l.1 l.2 s bm p hp
      have e1 : (rhaleCfg E { data := data, indices := List.range data.length, axisLo := l.1, axisHi := l.2 }).fitF s bm = .ok p := hp
      have e2 : (rhaleCfg E' { data := data', indices := List.range data'.length, axisLo := l.1, axisHi := l.2 }).fitF s (timesMinPoints k bm) = .ok p' := hp'
      rw [e1] at hr
      rw [e2]
      exact (fromParams_congr (by rfl) (by rfl) m xs het m' h1 h2 h3 fun ht => h5 (hone ht _ p rfl e1)).trans hr

/-- **C83 for PDP and DerPDP.**  Repeating every instance `k` times changes neither the average nor the heterogeneity, for any centring and after any calls that respect the axis
limits (see C31). -/
theorem C83_pdp_repeated [PySqrt K] (hk : 1 ≤ k) (M : PdpModel K D) (lo hi : Fin D → K) (data data' : List (Row K D)) (h : Repeated k data data') (s : Fin D)
    (calls calls' : List (PdpOp K D)) (hcalls : ∀ op ∈ calls, PdpCallOk data lo hi s op) (hcalls' : ∀ op ∈ calls', PdpCallOk data' lo hi s op)
    (xs : List K) (het : Bool) (c : PyVal) (vec : Bool) :
    pdpEvalAfter M lo hi data' calls' s xs het c false vec = pdpEvalAfter M lo hi data calls s xs het c false vec := by
  unfold pdpEvalAfter
  rw [pdp_eval_spec M lo hi data s calls hcalls, pdp_eval_spec M lo hi data' s calls' hcalls']
  cases prepCentering c with
  | error e => rfl
  | ok m =>
    have hrep : Repeated k (inLimits data lo hi s) (inLimits data' lo hi s) := h.filter _
    have h1 : ∀ v, avg ((inLimits data' lo hi s).map fun r => M.at s v r - M.shift lo hi s r m) =
        avg ((inLimits data lo hi s).map fun r => M.at s v r - M.shift lo hi s r m) := fun v => avg_repeated hk (hrep.map _)
    have h2 : ∀ v, popVar ((inLimits data' lo hi s).map fun r => M.at s v r - M.shift lo hi s r m) =
        popVar ((inLimits data lo hi s).map fun r => M.at s v r - M.shift lo hi s r m) := fun v => popVar_repeated hk (hrep.map _)
    simp only [PdpModel.value, report, PdpModel.ice, List.map_map, Function.comp_def, Bool.false_eq_true, if_false, h1, h2]

end

/-! ### Non-vacuity -/

/-- Four instances, every one given twice. -/
example : Repeated 2 [(![0] : Row ℚ 1), ![1], ![3], ![4]] [![0], ![1], ![3], ![4], ![4], ![3], ![1], ![0]] ∧
    aleFitEval (K := ℚ) (D := 1) (fun _ _ => []) id (fun r => r 0 ^ 2) [![0], ![1], ![3], ![4]] none 0 (.fixed 2 (some 2) 0) (.bool false) [2] false (.bool false) =
      .ok ([4], none) ∧
    aleFitEval (K := ℚ) (D := 1) (fun _ _ => []) id (fun r => r 0 ^ 2) [![0], ![1], ![3], ![4], ![4], ![3], ![1], ![0]] none 0 (.fixed 2 (some 4) 0) (.bool false) [2] false
      (.bool false) = .ok ([4], none) := by
  refine ⟨?_, by decide +kernel, by decide +kernel⟩
  show List.Perm _ ([(![0] : Row ℚ 1), ![1], ![3], ![4]] ++ ([(![0] : Row ℚ 1), ![1], ![3], ![4]] ++ []))
  rw [List.append_nil]
  exact List.Perm.append_left [(![0] : Row ℚ 1), ![1], ![3], ![4]] (List.reverse_perm [(![0] : Row ℚ 1), ![1], ![3], ![4]])

/-- **C83, heterogeneity, is false without the hypothesis on single instances**: with the bins of width 1 on 0, 1/2 and 3/2, the second bin holds one instance, whose
variance is unknown and replaced by that of the other bin; when the instances are given twice, it is known to be 0. -/
theorem C83_false_single_instance :
    let E : List (Row ℚ 1) := [![1], ![3], ![2]]
    let d : List (Row ℚ 1) := [![0], ![1 / 2], ![3 / 2]]
    (rhaleFitFeature d E ![0] ![2] 0 (.fixed 2 (some 0) 0)).map (fun p => (p.pointsPerBin, p.binVariance)) = .ok ([2, 1], [1, 1]) ∧
    (rhaleFitFeature (d ++ d) (E ++ E) ![0] ![2] 0 (.fixed 2 (some 0) 0)).map (fun p => (p.pointsPerBin, p.binVariance)) = .ok ([4, 2], [1, 0]) := by
  decide +kernel

end Effector
