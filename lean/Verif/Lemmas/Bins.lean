import Verif.Lemmas.Accum

/-! # Lemmas about binning: digitize, bincount, compute_bin_effect, compute_bin_variance -/

namespace Effector

set_option linter.unusedSectionVars false

open Spec

variable {K : Type} [Field K] [LinearOrder K]

/-- On a sorted list, `countLe` separates the entries `≤ x` from the others. -/
theorem countLe_spec {l : List K} (hs : l.Pairwise (· ≤ ·)) (x : K) (i : ℕ) (a : K) (h : l[i]? = some a) :
    a ≤ x ↔ i < countLe l x := by
  induction l generalizing i with
  | nil => simp at h
  | cons b t ih =>
    have hs' := (List.pairwise_cons.mp hs).2
    rw [countLe_cons]
    cases i with
    | zero =>
      simp only [List.getElem?_cons_zero, Option.some.injEq] at h
      subst h
      by_cases hb : b ≤ x
      · simp [hb]
      · have : countLe t x = 0 := countLe_eq_zero fun c hc =>
          lt_of_lt_of_le (lt_of_not_ge hb) ((List.pairwise_cons.mp hs).1 c hc)
        simp [hb, this]
    | succ i =>
      simp only [List.getElem?_cons_succ] at h
      rw [ih hs' i h]
      by_cases hb : b ≤ x
      · simp [hb]
      · have : countLe t x = 0 := countLe_eq_zero fun c hc =>
          lt_of_lt_of_le (lt_of_not_ge hb) ((List.pairwise_cons.mp hs).1 c hc)
        simp [hb, this]

theorem length_bumpLast (e : K) (l : List K) : (bumpLast e l).length = l.length := by
  induction l with
  | nil => rfl
  | cons a t ih =>
    cases t with
    | nil => rfl
    | cons b t => simpa [bumpLast] using ih

theorem getElem?_bumpLast (e : K) (l : List K) (i : ℕ) :
    (bumpLast e l)[i]? = l[i]?.map (fun a => if i + 1 = l.length then a + e else a) := by
  induction l generalizing i with
  | nil => simp [bumpLast]
  | cons a t ih =>
    cases t with
    | nil =>
      cases i with
      | zero => simp [bumpLast]
      | succ i => simp [bumpLast]
    | cons b t =>
      cases i with
      | zero => simp [bumpLast]
      | succ i =>
        simp only [bumpLast, List.getElem?_cons_succ, ih]
        simp

theorem bumpLast_cons_cons (e a b : K) (t : List K) : bumpLast e (a :: b :: t) = a :: bumpLast e (b :: t) := rfl

variable [IsStrictOrderedRing K]

theorem EPS_pos : (0 : K) < EPS := by unfold EPS; positivity

theorem BIG_M_pos : (0 : K) < BIG_M := by unfold BIG_M; positivity

theorem bumpLast_ge {e : K} (he : 0 ≤ e) {l : List K} {c : K} (h : ∀ a ∈ l, c < a) : ∀ a ∈ bumpLast e l, c < a := by
  induction l with
  | nil => simp [bumpLast]
  | cons a t ih =>
    cases t with
    | nil =>
      intro x hx
      simp only [bumpLast, List.mem_singleton] at hx
      subst hx
      have := h a (by simp)
      linarith
    | cons b t =>
      intro x hx
      rw [bumpLast_cons_cons] at hx
      rcases List.mem_cons.mp hx with rfl | hx
      · exact h x (by simp)
      · exact ih (fun y hy => h y (by simp [hy])) x hx

theorem increasing_bumpLast {e : K} (he : 0 ≤ e) {l : List K} (h : Increasing l) : Increasing (bumpLast e l) := by
  induction l with
  | nil => exact h
  | cons a t ih =>
    cases t with
    | nil => simp [bumpLast, Increasing]
    | cons b t =>
      rw [bumpLast_cons_cons]
      obtain ⟨h1, h2⟩ := List.pairwise_cons.mp h
      exact List.pairwise_cons.mpr ⟨bumpLast_ge he h1, ih h2⟩

theorem head?_bumpLast (e : K) (a b : K) (t : List K) : (bumpLast e (a :: b :: t)).head? = some a := rfl

/-- The index computed by `np.digitize(x, limits with the last one enlarged)`. -/
def binIdx (limits : List K) (x : K) : ℕ := countLe (bumpLast EPS limits) x

theorem increasing_le {l : List K} (h : Increasing l) : l.Pairwise (· ≤ ·) := h.imp le_of_lt

theorem binIdx_lt {limits : List K} (hinc : Increasing limits) (hlen : 2 ≤ limits.length) {x lo hi : K}
    (hlo : limits.head? = some lo) (hhi : limits.getLast? = some hi) (h1 : lo ≤ x) (h2 : x ≤ hi) :
    0 < binIdx limits x ∧ binIdx limits x < limits.length := by
  have hs := increasing_le (increasing_bumpLast (EPS_pos (K := K)).le hinc)
  constructor
  · refine (countLe_spec hs x 0 lo ?_).mp h1
    rw [getElem?_bumpLast, ← List.head?_eq_getElem?, hlo]
    simp
    omega
  · by_contra hge
    have hge' : limits.length - 1 < countLe (bumpLast EPS limits) x := by unfold binIdx at hge; omega
    have hl : (bumpLast EPS limits)[limits.length - 1]? = some (hi + EPS) := by
      rw [getElem?_bumpLast, ← List.getLast?_eq_getElem?, hhi]
      simp
      omega
    have := (countLe_spec hs x _ _ hl).mpr hge'
    have := EPS_pos (K := K)
    linarith

/-- An instance inside the limits is in bin `k` exactly when its digitize index is `k + 1`. -/
theorem inBin_iff {limits : List K} (hinc : Increasing limits) (hlen : 2 ≤ limits.length) {x lo hi : K}
    (hlo : limits.head? = some lo) (hhi : limits.getLast? = some hi) (h1 : lo ≤ x) (h2 : x ≤ hi) (k : ℕ) :
    InBin limits k x ↔ binIdx limits x = k + 1 := by
  have hs := increasing_le (increasing_bumpLast (EPS_pos (K := K)).le hinc)
  obtain ⟨hp, hl⟩ := binIdx_lt hinc hlen hlo hhi h1 h2
  have hE := EPS_pos (K := K)
  constructor
  · rintro ⟨a, ha, b, hb, hax, hxb⟩
    rw [Option.mem_def] at ha hb
    have hkl : k + 1 < limits.length := by
      by_contra hc
      rw [List.getElem?_eq_none (by omega)] at hb
      cases hb
    have hk : k < binIdx limits x := by
      refine (countLe_spec hs x k a ?_).mp hax
      rw [getElem?_bumpLast, ha]
      simp
      omega
    have hk1 : ¬ k + 1 < binIdx limits x := by
      rw [binIdx, ← countLe_spec hs x (k + 1) (if k + 2 = limits.length then b + EPS else b)
        (by rw [getElem?_bumpLast, hb]; simp)]
      split_ifs at hxb ⊢ <;> linarith
    omega
  · intro h
    have hkl : k + 1 < limits.length := by omega
    refine ⟨limits[k], by simp, limits[k + 1], by simp, ?_, ?_⟩
    · refine (countLe_spec hs x k _ ?_).mpr (by unfold binIdx at h; omega)
      rw [getElem?_bumpLast, List.getElem?_eq_getElem (by omega), Option.map_some, if_neg (by omega)]
    · split_ifs with h3
      · rw [List.getLast?_eq_getElem?, show limits.length - 1 = k + 1 by omega, List.getElem?_eq_getElem hkl] at hhi
        simp only [Option.some.injEq] at hhi
        rw [hhi]
        exact h2
      · rw [← not_le, countLe_spec hs x (k + 1) (limits[k + 1]) (by
          rw [getElem?_bumpLast, List.getElem?_eq_getElem (by omega), Option.map_some, if_neg (by omega)])]
        unfold binIdx at h
        omega

theorem exists_unique_bin {limits : List K} (hinc : Increasing limits) (hlen : 2 ≤ limits.length) {x lo hi : K}
    (hlo : limits.head? = some lo) (hhi : limits.getLast? = some hi) (h1 : lo ≤ x) (h2 : x ≤ hi) :
    ∃! k, InBin limits k x := by
  obtain ⟨hp, hl⟩ := binIdx_lt hinc hlen hlo hhi h1 h2
  refine ⟨binIdx limits x - 1, (inBin_iff hinc hlen hlo hhi h1 h2 _).mpr (by omega), fun k hk => ?_⟩
  have := (inBin_iff hinc hlen hlo hhi h1 h2 k).mp hk
  omega

theorem bincountLen_eq {idx : List ℕ} {m : ℕ} (h : ∀ i ∈ idx, i < m) : bincountLen idx m = m := by
  unfold bincountLen
  apply max_eq_left
  induction idx with
  | nil => simp
  | cons a t ih =>
    simp only [List.map_cons, List.foldr_cons]
    have := h a (by simp)
    exact max_le (by omega) (ih fun i hi => h i (by simp [hi]))

theorem valuesAt_map {α β : Type} (f : α → ℕ) (xs : List α) (w : List β) (k : ℕ) :
    valuesAt (xs.map f) w k = ((xs.zip w).filter fun p => f p.1 == k).map (·.2) := by
  unfold valuesAt
  induction xs generalizing w with
  | nil => simp
  | cons x t ih =>
    cases w with
    | nil => simp
    | cons b w =>
      simp only [List.map_cons, List.zip_cons_cons, List.filter_cons]
      split_ifs <;> simp [ih]

theorem sum_map_zero' {α : Type} (l : List α) (f : α → ℕ) (h : ∀ a ∈ l, f a = 0) : (l.map f).sum = 0 := by
  induction l with
  | nil => rfl
  | cons a t ih => simp [h a (by simp), ih fun b hb => h b (by simp [hb])]

theorem sum_ite_range (n a : ℕ) (h : a < n) : ((List.range n).map fun k => if a = k then 1 else 0).sum = 1 := by
  induction n with
  | zero => omega
  | succ n ih =>
    rw [List.range_succ, List.map_append, List.sum_append]
    by_cases ha : a = n
    · subst ha
      rw [sum_map_zero' _ _ (by intro b hb; simp at hb; simp; omega)]
      simp
    · rw [ih (by omega)]
      simp [ha]

/-- Every element is counted once. -/
theorem sum_countP_range {α : Type} (l : List α) (f : α → ℕ) (n : ℕ) (h : ∀ a ∈ l, f a < n) :
    ((List.range n).map fun k => l.countP fun a => f a == k).sum = l.length := by
  induction l with
  | nil => simp
  | cons a t ih =>
    simp only [List.countP_cons, List.length_cons]
    rw [List.sum_map_add, ih fun b hb => h b (by simp [hb])]
    have : (fun k => if (f a == k) = true then 1 else 0) = fun k => if f a = k then (1 : ℕ) else 0 := by
      funext k; simp
    rw [this, sum_ite_range n (f a) (h a (by simp))]

/-- The setting shared by the bin lemmas. -/
structure BinSetting (limits xs eff : List K) : Prop where
  inc : Increasing limits
  two : 2 ≤ limits.length
  within : Within limits xs
  len : eff.length = xs.length

section setting
variable {limits xs eff : List K} (h : BinSetting limits xs eff)
include h

theorem BinSetting.idx : digitize xs (bumpLast EPS limits) = .ok (xs.map (binIdx limits)) :=
  digitize_sorted (increasing_le (increasing_bumpLast EPS_pos.le h.inc))

theorem BinSetting.lt {x : K} (hx : x ∈ xs) : 0 < binIdx limits x ∧ binIdx limits x < limits.length := by
  obtain ⟨lo, hi, h1, h2, h3⟩ := h.within
  exact binIdx_lt h.inc h.two h1 h2 (h3 x hx).1 (h3 x hx).2

theorem BinSetting.inBin {x : K} (hx : x ∈ xs) (k : ℕ) : InBin limits k x ↔ binIdx limits x - 1 = k := by
  obtain ⟨lo, hi, h1, h2, h3⟩ := h.within
  have := (h.lt hx).1
  rw [inBin_iff h.inc h.two h1 h2 (h3 x hx).1 (h3 x hx).2 k]
  omega

theorem BinSetting.binIndices : binIndices (xs.map (binIdx limits)) = .ok (xs.map fun x => binIdx limits x - 1) := by
  unfold Effector.binIndices
  rw [if_neg]
  · rw [List.map_map]; rfl
  · intro h0
    obtain ⟨x, hx, hx0⟩ := List.mem_map.mp h0
    have := (h.lt hx).1
    omega

theorem BinSetting.len_idx : bincountLen (xs.map fun x => binIdx limits x - 1) (limits.length - 1) =
    limits.length - 1 := by
  apply bincountLen_eq
  intro i hi
  obtain ⟨x, hx, rfl⟩ := List.mem_map.mp hi
  have := h.lt hx
  omega

theorem BinSetting.valuesAt (k : ℕ) :
    Effector.valuesAt (xs.map fun x => binIdx limits x - 1) eff k = binEffects limits xs eff k := by
  rw [valuesAt_map]
  unfold binEffects
  congr 1
  apply List.filter_congr
  intro p hp
  have := h.inBin (List.of_mem_zip hp).1 k
  simp only [this, beq_eq_decide]

omit h in
theorem filter_zip_fst {α β : Type} (xs : List α) (w : List β) (hl : w.length = xs.length) (p : α → Bool) :
    ((xs.zip w).filter fun q => p q.1).length = xs.countP p := by
  induction xs generalizing w with
  | nil => simp
  | cons x t ih =>
    cases w with
    | nil => simp at hl
    | cons b w =>
      simp only [List.zip_cons_cons, List.filter_cons, List.countP_cons]
      split_ifs with hp <;> simp [ih w (by simpa using hl)]

theorem BinSetting.count (k : ℕ) : (xs.map fun x => binIdx limits x - 1).count k = (binEffects limits xs eff k).length := by
  rw [← h.valuesAt, valuesAt_map, List.length_map, List.count, List.countP_map]
  rw [filter_zip_fst xs eff h.len fun x => binIdx limits x - 1 == k]
  rfl

theorem BinSetting.bincount : Effector.bincount (xs.map fun x => binIdx limits x - 1) (limits.length - 1) =
    (List.range (limits.length - 1)).map fun k => (binEffects limits xs eff k).length := by
  unfold Effector.bincount
  rw [h.len_idx]
  exact List.map_congr_left fun k _ => h.count k

theorem BinSetting.sum_count :
    ((List.range (limits.length - 1)).map fun k => (binEffects limits xs eff k).length).sum = xs.length := by
  rw [← sum_countP_range xs (fun x => binIdx limits x - 1) (limits.length - 1)
    (fun x hx => by have := h.lt hx; omega)]
  congr 1
  apply List.map_congr_left
  intro k _
  rw [← h.count, List.count, List.countP_map]
  rfl

/-- `compute_bin_effect` in terms of the specification. -/
theorem computeBinEffect_eq : computeBinEffect xs eff limits =
    .ok ((List.range (limits.length - 1)).map (fun k =>
          if binEffects limits xs eff k = [] then none else some (avg (binEffects limits xs eff k))),
        (List.range (limits.length - 1)).map fun k => (binEffects limits xs eff k).length) := by
  unfold computeBinEffect
  rw [h.idx]
  simp only [bind, Except.bind]
  rw [h.binIndices]
  simp only []
  unfold bincountW
  rw [if_pos (by simp [h.len]), h.bincount, h.len_idx]
  simp only [pure, Except.pure]
  congr 2
  rw [List.zipWith_map, List.zipWith_self]
  apply List.map_congr_left
  intro k _
  rw [h.valuesAt]
  unfold avg
  by_cases he : binEffects limits xs eff k = []
  · simp [he]
  · simp [he]

end setting

theorem nanSum_map_some {α : Type} (l : List α) (g : α → K) :
    nanSum (l.map fun a => some (g a)) = some ((l.map g).sum) := by
  induction l with
  | nil => rfl
  | cons a t ih => simp [nanSum, ih]

theorem valuesAt_zipWith {α β γ : Type} (f : α → ℕ) (M : ℕ → β) (g : γ → β → δ) (xs : List α) (w : List γ) (k : ℕ) :
    valuesAt (xs.map f) (List.zipWith g w (xs.map fun x => M (f x))) k =
      (valuesAt (xs.map f) w k).map fun e => g e (M k) := by
  induction xs generalizing w with
  | nil => simp [valuesAt]
  | cons x t ih =>
    cases w with
    | nil => simp [valuesAt]
    | cons b w =>
      have := ih w
      unfold valuesAt at this ⊢
      simp only [List.map_cons, List.zipWith_cons_cons, List.zip_cons_cons, List.filter_cons]
      by_cases hk : f x = k
      · simp [hk, this]
      · simp [hk, this]

/-- `compute_bin_variance` in terms of the specification. -/
theorem computeBinVariance_eq {limits xs eff : List K} (h : BinSetting limits xs eff) {be : List (Option K)} {ppb : List ℕ}
    (hbe : computeBinEffect xs eff limits = .ok (be, ppb)) :
    computeBinVariance xs eff limits be =
      .ok ((List.range (limits.length - 1)).map (fun k =>
            if 2 ≤ (binEffects limits xs eff k).length then some (popVar (binEffects limits xs eff k)) else none),
        (List.range (limits.length - 1)).map fun k =>
            if 2 ≤ (binEffects limits xs eff k).length then
              some (popVar (binEffects limits xs eff k) / ((binEffects limits xs eff k).length : K)) else none) := by
  rw [computeBinEffect_eq h] at hbe
  simp only [Except.ok.injEq, Prod.mk.injEq] at hbe
  obtain ⟨hbe, -⟩ := hbe
  unfold computeBinVariance
  rw [h.idx]
  simp only [bind, Except.bind]
  rw [h.binIndices]
  simp only []
  set M : ℕ → Option K := fun k =>
    if binEffects limits xs eff k = [] then none else some (avg (binEffects limits xs eff k)) with hM
  have hms : (xs.map fun x => binIdx limits x - 1).mapM (fun i => pyIndex be i) =
      .ok ((xs.map fun x => binIdx limits x - 1).map M) := by
    apply mapM_ok
    intro i hi
    obtain ⟨x, hx, rfl⟩ := List.mem_map.mp hi
    have := h.lt hx
    apply pyIndex_ok
    rw [← hbe, List.getElem?_map, List.getElem?_range (by omega)]
    rfl
  rw [hms]
  simp only []
  unfold bincountNan
  rw [if_pos (by simp [h.len]), h.bincount, h.len_idx]
  simp only [pure, Except.pure]
  have key : ∀ k, (if 1 < (binEffects limits xs eff k).length then
      (nanSum (valuesAt (xs.map fun x => binIdx limits x - 1)
        (List.zipWith sqDev eff ((xs.map fun x => binIdx limits x - 1).map M)) k)).map
          (· / ((binEffects limits xs eff k).length : K)) else none) =
      if 2 ≤ (binEffects limits xs eff k).length then some (popVar (binEffects limits xs eff k)) else none := by
    intro k
    by_cases h2 : 2 ≤ (binEffects limits xs eff k).length
    · rw [if_pos (by omega), if_pos h2, List.map_map]
      have hne : binEffects limits xs eff k ≠ [] := by
        intro h0; rw [h0] at h2; simp at h2
      have := valuesAt_zipWith (fun x => binIdx limits x - 1) M sqDev xs eff k
      rw [show (M ∘ fun x => binIdx limits x - 1) = fun x => M (binIdx limits x - 1) from rfl, this, h.valuesAt]
      simp only [hM, if_neg hne, sqDev, Option.map_some]
      rw [nanSum_map_some]
      rfl
    · rw [if_neg (by omega), if_neg h2]
  rw [List.zipWith_map, List.zipWith_self]
  simp only [key]
  congr 2
  rw [List.zipWith_map, List.zipWith_self]
  apply List.map_congr_left
  intro k _
  by_cases h2 : 2 ≤ (binEffects limits xs eff k).length
  · rw [if_pos h2, if_pos (by omega), if_pos h2]; rfl
  · rw [if_neg h2, if_neg (by omega), if_neg h2]

theorem sum_nonneg' {α : Type} (l : List α) (f : α → K) (h : ∀ a ∈ l, 0 ≤ f a) : 0 ≤ (l.map f).sum := by
  induction l with
  | nil => simp
  | cons a t ih =>
    simp only [List.map_cons, List.sum_cons]
    exact add_nonneg (h a (by simp)) (ih fun b hb => h b (by simp [hb]))

theorem popVar_nonneg (l : List K) : 0 ≤ popVar l :=
  div_nonneg (sum_nonneg' _ _ fun _ _ => sq_nonneg _) (Nat.cast_nonneg _)

/-! ### fill_nans -/

theorem length_fillFrom (kn : List (K × K)) (i : ℕ) (x : List (Option K)) : (fillFrom kn i x).length = x.length := by
  induction x generalizing i with
  | nil => rfl
  | cons a t ih => cases a <;> simp [fillFrom, ih]

theorem getElem?_fillFrom (kn : List (K × K)) (i : ℕ) (x : List (Option K)) (j : ℕ) :
    (fillFrom kn i x)[j]? = x[j]?.map fun o => o.getD (interp kn ((i + j : ℕ) : K)) := by
  induction x generalizing i j with
  | nil => simp [fillFrom]
  | cons a t ih =>
    cases j with
    | zero => cases a <;> simp [fillFrom]
    | succ j =>
      have := ih (i + 1) j
      rw [show i + 1 + j = i + (j + 1) by omega] at this
      cases a <;> simpa [fillFrom] using this

theorem knownFrom_append (i : ℕ) (x y : List (Option K)) :
    knownFrom i (x ++ y) = knownFrom i x ++ knownFrom (i + x.length) y := by
  induction x generalizing i with
  | nil => simp [knownFrom]
  | cons a t ih =>
    have := ih (i + 1)
    rw [show i + 1 + t.length = i + (a :: t).length by simp; omega] at this
    cases a <;> simp [knownFrom, this]

theorem knownFrom_none (i : ℕ) (x : List (Option K)) (h : ∀ o ∈ x, o = none) : knownFrom i x = [] := by
  induction x generalizing i with
  | nil => rfl
  | cons a t ih =>
    rw [h a (by simp)]
    exact ih _ fun o ho => h o (by simp [ho])

theorem knownFrom_eq_nil_iff (i : ℕ) (x : List (Option K)) : knownFrom i x = [] ↔ ∀ o ∈ x, o = none := by
  refine ⟨fun h => ?_, knownFrom_none i x⟩
  induction x generalizing i with
  | nil => simp
  | cons a t ih =>
    cases a with
    | none => simpa using ih _ h
    | some v => simp [knownFrom] at h

theorem mem_knownFrom (i : ℕ) (x : List (Option K)) (p : K × K) :
    p ∈ knownFrom i x ↔ ∃ j v, x[j]? = some (some v) ∧ p = (((i + j : ℕ) : K), v) := by
  induction x generalizing i with
  | nil => simp [knownFrom]
  | cons a t ih =>
    have hshift : (∃ j v, t[j]? = some (some v) ∧ p = (((i + 1 + j : ℕ) : K), v)) ↔
        ∃ j v, (a :: t)[j + 1]? = some (some v) ∧ p = (((i + (j + 1) : ℕ) : K), v) := by
      simp [show ∀ j, i + 1 + j = i + (j + 1) from fun j => by omega]
    cases a with
    | none =>
      simp only [knownFrom]
      rw [ih, hshift]
      constructor
      · rintro ⟨j, v, h1, h2⟩
        exact ⟨j + 1, v, h1, h2⟩
      · rintro ⟨j, v, h1, h2⟩
        cases j with
        | zero => simp at h1
        | succ j => exact ⟨j, v, h1, h2⟩
    | some w =>
      simp only [knownFrom, List.mem_cons]
      rw [ih, hshift]
      constructor
      · rintro (rfl | ⟨j, v, h1, h2⟩)
        · exact ⟨0, w, by simp, by simp⟩
        · exact ⟨j + 1, v, h1, h2⟩
      · rintro ⟨j, v, h1, h2⟩
        cases j with
        | zero =>
          left
          simp at h1
          simp [h2, h1]
        | succ j => exact Or.inr ⟨j, v, h1, h2⟩

theorem knownFrom_sorted (i : ℕ) (x : List (Option K)) : (knownFrom i x).Pairwise (fun p q => p.1 < q.1) := by
  induction x generalizing i with
  | nil => exact List.Pairwise.nil
  | cons a t ih =>
    cases a with
    | none => exact ih (i + 1)
    | some v =>
      refine List.pairwise_cons.mpr ⟨?_, ih (i + 1)⟩
      intro q hq
      obtain ⟨j, w, -, rfl⟩ := (mem_knownFrom (i + 1) t q).mp hq
      simp only
      exact_mod_cast (by omega : i < i + 1 + j)

theorem interp_between (pre post : List (K × K)) (a fa b fb x : K)
    (hs : (pre ++ (a, fa) :: (b, fb) :: post).Pairwise (fun p q => p.1 < q.1)) (h1 : a < x) (h2 : x < b) :
    interp (pre ++ (a, fa) :: (b, fb) :: post) x = fa + (x - a) * ((fb - fa) / (b - a)) := by
  induction pre with
  | nil =>
    simp only [List.nil_append, interp]
    rw [if_neg (not_le.mpr h1), if_pos h2]
  | cons p pre ih =>
    obtain ⟨hp, hs'⟩ := List.pairwise_cons.mp hs
    have hpa : p.1 < a := hp (a, fa) (by simp)
    cases pre with
    | nil =>
      simp only [List.cons_append, List.nil_append, interp]
      rw [if_neg (not_le.mpr (hpa.trans h1)), if_neg (not_lt.mpr h1.le), if_neg (not_le.mpr h1), if_pos h2]
    | cons q pre =>
      have hqa : q.1 < a := (List.pairwise_cons.mp hs').1 (a, fa) (by simp)
      have := ih hs'
      simp only [List.cons_append] at this ⊢
      rw [interp, if_neg (not_le.mpr (hpa.trans h1)), if_neg (not_lt.mpr (hqa.trans h1).le)]
      exact this

theorem interp_left (a fa x : K) (t : List (K × K)) (h : x ≤ a) : interp ((a, fa) :: t) x = fa := by
  cases t with
  | nil => rfl
  | cons q t => rw [interp, if_pos h]

theorem interp_right (pre : List (K × K)) (a fa x : K)
    (hs : (pre ++ [(a, fa)]).Pairwise (fun p q => p.1 < q.1)) (h : a < x) :
    interp (pre ++ [(a, fa)]) x = fa := by
  induction pre with
  | nil => rfl
  | cons p pre ih =>
    obtain ⟨hp, hs'⟩ := List.pairwise_cons.mp hs
    have hpa : p.1 < a := hp (a, fa) (by simp)
    cases pre with
    | nil =>
      simp only [List.cons_append, List.nil_append, interp]
      rw [if_neg (not_le.mpr (hpa.trans h)), if_neg (not_lt.mpr h.le)]
    | cons q pre =>
      have hqa : q.1 < a := (List.pairwise_cons.mp hs').1 (a, fa) (by simp)
      have := ih hs'
      simp only [List.cons_append] at this ⊢
      rw [interp, if_neg (not_le.mpr (hpa.trans h)), if_neg (not_lt.mpr (hqa.trans h).le)]
      exact this

theorem interp_mem (kn : List (K × K)) (x lo hi : K) (hne : kn ≠ [])
    (hs : kn.Pairwise (fun p q => p.1 < q.1)) (hb : ∀ p ∈ kn, lo ≤ p.2 ∧ p.2 ≤ hi) :
    lo ≤ interp kn x ∧ interp kn x ≤ hi := by
  induction kn with
  | nil => exact absurd rfl hne
  | cons p t ih =>
    obtain ⟨a, fa⟩ := p
    cases t with
    | nil => exact hb (a, fa) (by simp)
    | cons q t =>
      obtain ⟨b, fb⟩ := q
      obtain ⟨hp, hs'⟩ := List.pairwise_cons.mp hs
      have hab : a < b := hp (b, fb) (by simp)
      have hfa := hb (a, fa) (by simp)
      have hfb := hb (b, fb) (by simp)
      rw [interp]
      split_ifs with h1 h2
      · exact hfa
      · have ht0 : 0 ≤ (x - a) / (b - a) := div_nonneg (by linarith) (by linarith)
        have ht1 : (x - a) / (b - a) ≤ 1 := by rw [div_le_one (by linarith)]; linarith
        have : (x - a) * ((fb - fa) / (b - a)) = (x - a) / (b - a) * (fb - fa) := by ring
        rw [this]
        simp only at hfa hfb
        constructor <;> nlinarith
      · exact ih (by simp) hs' fun p hp => hb p (by simp [hp])

theorem fillNans_eq (x : List (Option K)) :
    fillNans x = if ∀ o ∈ x, o = none then .error .valueError else .ok (fillFrom (knownFrom 0 x) 0 x) := by
  unfold fillNans
  split
  · rename_i h
    rw [if_pos ((knownFrom_eq_nil_iff 0 x).mp h)]
  · rename_i h
    rw [if_neg]
    exact fun hc => h ((knownFrom_eq_nil_iff 0 x).mpr hc)

end Effector
