import Verif.Lemmas.Binning

/-! # Lemmas about the dynamic programming search and about categorical limits -/

namespace Effector

set_option linter.unusedSectionVars false

open Spec

variable {K : Type} [Field K] [LinearOrder K]

/-! ### np.min and np.argmin without NaN -/

theorem npArgminFrom_spec (m : K) (best i : ℕ) (l : List K) (pre : List K) (hi : pre.length = i) (hb : best < i)
    (hm : pre[best]? = some m) (hmin : ∀ y ∈ pre, m ≤ y) :
    ∃ v, (pre ++ l)[npArgminFrom m best i (l.map some)]? = some v ∧ (∀ y ∈ pre ++ l, v ≤ y) ∧
      npMinFrom m (l.map some) = some v := by
  induction l generalizing m best i pre with
  | nil => exact ⟨m, by simpa [npArgminFrom] using hm, by simpa using hmin, rfl⟩
  | cons y t ih =>
    simp only [List.map_cons, npArgminFrom, npMinFrom]
    by_cases hy : y < m
    · rw [if_pos hy, if_pos hy]
      obtain ⟨v, h1, h2, h3⟩ := ih y i (i + 1) (pre ++ [y]) (by simp [hi]) (by omega)
        (by rw [List.getElem?_append_right (by omega)]; simp [hi]) (by
          intro z hz
          rcases List.mem_append.mp hz with hz | hz
          · exact hy.le.trans (hmin z hz)
          · simp at hz; exact hz.ge)
      exact ⟨v, by simpa using h1, by simpa using h2, h3⟩
    · rw [if_neg hy, if_neg hy]
      obtain ⟨v, h1, h2, h3⟩ := ih m best (i + 1) (pre ++ [y]) (by simp [hi]) (by omega)
        (by rw [List.getElem?_append_left (by omega)]; exact hm) (by
          intro z hz
          rcases List.mem_append.mp hz with hz | hz
          · exact hmin z hz
          · simp at hz; rw [hz]; exact not_lt.mp hy)
      exact ⟨v, by simpa using h1, by simpa using h2, h3⟩

theorem npArgmin_spec (l : List K) (hne : l ≠ []) :
    ∃ v, l[npArgmin (l.map some)]? = some v ∧ (∀ y ∈ l, v ≤ y) ∧ npMin (l.map some) = some v := by
  cases l with
  | nil => exact absurd rfl hne
  | cons a t =>
    obtain ⟨v, h1, h2, h3⟩ := npArgminFrom_spec a 0 1 t [a] rfl (by omega) rfl (by simp)
    exact ⟨v, by simpa [npArgmin] using h1, by simpa using h2, h3⟩

/-! ### Path costs -/

/-- The cost of visiting the limits `l` one after the other. -/
def chainCost (c : ℕ → ℕ → K) : List ℕ → K
  | a :: b :: t => c a b + chainCost c (b :: t)
  | _ => 0

theorem chainCost_snoc (c : ℕ → ℕ → K) (a b : ℕ) (l : List ℕ) :
    chainCost c (l ++ [a, b]) = chainCost c (l ++ [a]) + c a b := by
  induction l with
  | nil => simp [chainCost]
  | cons x t ih =>
    cases t with
    | nil => simp [chainCost, add_comm]
    | cons y t =>
      simp only [List.cons_append, chainCost] at ih ⊢
      rw [ih, add_assoc]

theorem chainCost_dedup (c : ℕ → ℕ → K) (h0 : ∀ i, c i i = 0) (l : List ℕ) : chainCost c (dedupAdj l) = chainCost c l := by
  induction l with
  | nil => rfl
  | cons a t ih =>
    cases t with
    | nil => rfl
    | cons b t =>
      unfold dedupAdj
      split_ifs with h
      · subst h
        rw [ih, chainCost, h0, zero_add]
      · have hd : ∃ u, dedupAdj (b :: t) = b :: u := by
          clear ih h
          induction t generalizing b with
          | nil => exact ⟨[], rfl⟩
          | cons d t iht =>
            unfold dedupAdj
            split_ifs with h
            · subst h; exact iht b
            · exact ⟨_, rfl⟩
        obtain ⟨u, hu⟩ := hd
        rw [hu] at ih ⊢
        rw [chainCost, chainCost, ih]

theorem chainCost_stay (c : ℕ → ℕ → K) (h0 : ∀ i, c i i = 0) (a n : ℕ) (l : List ℕ) :
    chainCost c (List.replicate n a ++ a :: l) = chainCost c (a :: l) := by
  induction n with
  | zero => rfl
  | succ n ih =>
    rw [List.replicate_succ, List.cons_append]
    cases n with
    | zero =>
      simp only [List.replicate_zero, List.nil_append, chainCost, h0, zero_add]
    | succ n =>
      rw [List.replicate_succ, List.cons_append] at ih ⊢
      rw [chainCost, h0, zero_add, ih]

/-- Adjacent entries of the de-duplicated list differ, and are adjacent entries of the original list. -/
theorem dedupAdj_chain (R : ℕ → ℕ → Prop) (l : List ℕ) (h : ∀ k a b, l[k]? = some a → l[k + 1]? = some b → a = b ∨ R a b) :
    ∀ k a b, (dedupAdj l)[k]? = some a → (dedupAdj l)[k + 1]? = some b → R a b := by
  induction l with
  | nil => intro k a b ha; simp [dedupAdj] at ha
  | cons x t ih =>
    cases t with
    | nil => intro k a b ha hb; simp [dedupAdj] at hb
    | cons y t =>
      have ih' := ih fun k a b ha hb => h (k + 1) a b (by simpa using ha) (by simpa using hb)
      unfold dedupAdj
      split_ifs with hxy
      · exact ih'
      · intro k a b ha hb
        cases k with
        | zero =>
          have hd : ∀ (y : ℕ) (t : List ℕ), (dedupAdj (y :: t))[0]? = some y := by
            intro y t
            induction t generalizing y with
            | nil => rfl
            | cons d t iht =>
              unfold dedupAdj
              split_ifs with hh
              · subst hh; exact iht y
              · rfl
          simp only [List.getElem?_cons_zero, Option.some.injEq] at ha
          simp only [zero_add, List.getElem?_cons_succ, hd, Option.some.injEq] at hb
          subst ha hb
          rcases h 0 x y rfl rfl with h1 | h1
          · exact absurd h1 hxy
          · exact h1
        | succ k => exact ih' k a b (by simpa using ha) (by simpa using hb)

theorem dedupAdj_head (y : ℕ) (t : List ℕ) : (dedupAdj (y :: t)).head? = some y := by
  induction t generalizing y with
  | nil => rfl
  | cons d t iht =>
    unfold dedupAdj
    split_ifs with hh
    · subst hh; exact iht y
    · rfl

theorem dedupAdj_last (l : List ℕ) : (dedupAdj l).getLast? = l.getLast? := by
  induction l with
  | nil => rfl
  | cons a t ih =>
    cases t with
    | nil => rfl
    | cons b t =>
      unfold dedupAdj
      split_ifs with h
      · rw [ih, List.getLast?_cons_cons]
      · have hd := dedupAdj_head b t
        obtain ⟨u, hu⟩ : ∃ u, dedupAdj (b :: t) = b :: u := by
          cases hh : dedupAdj (b :: t) with
          | nil => rw [hh] at hd; simp at hd
          | cons z u => rw [hh] at hd; simp at hd; exact ⟨u, by rw [hd]⟩
        rw [hu] at ih ⊢
        rw [List.getLast?_cons_cons, ih, List.getLast?_cons_cons]

theorem dedupAdj_mem (l : List ℕ) (x : ℕ) (h : x ∈ dedupAdj l) : x ∈ l := by
  induction l with
  | nil => exact h
  | cons a t ih =>
    cases t with
    | nil => exact h
    | cons b t =>
      unfold dedupAdj at h
      split_ifs at h
      · exact List.mem_cons_of_mem _ (ih h)
      · rcases List.mem_cons.mp h with rfl | h
        · simp
        · exact List.mem_cons_of_mem _ (ih h)

section dp
variable [IsStrictOrderedRing K]
variable {cost : ℕ → ℕ → Option K} {c : ℕ → ℕ → K} {k : ℕ} (hc : ∀ i j, i ≤ k → j ≤ k → cost i j = some (c i j))
include hc

theorem dpMatrix_getD_zero (j : ℕ) (hj : j ≤ k) : (dpMatrix cost k 0).getD j none = some (c 0 j) := by
  unfold dpMatrix
  rw [List.getD_eq_getElem?_getD, List.getElem?_map, List.getElem?_range (by omega)]
  simp [hc 0 j (by omega) hj]

/-- The value at column `b` is attained by back-tracking, which stays in range. -/
theorem dp_attained (b : ℕ) : ∀ j, j ≤ k →
    (∀ i ∈ dpBack cost k b j, i ≤ k) ∧ (dpBack cost k b j).length = b ∧
    (dpMatrix cost k b).getD j none = some (chainCost c (0 :: dpBack cost k b j ++ [j])) ∧
    ∀ p : List ℕ, p.length = b → (∀ i ∈ p, i ≤ k) → chainCost c (0 :: dpBack cost k b j ++ [j]) ≤ chainCost c (0 :: p ++ [j]) := by
  induction b with
  | zero =>
    intro j hj
    refine ⟨by simp [dpBack], rfl, ?_, ?_⟩
    · rw [dpMatrix_getD_zero hc j hj]
      simp [dpBack, chainCost]
    · intro p hp _
      rw [List.length_eq_zero_iff.mp hp]
      simp [dpBack]
  | succ b ih =>
    intro j hj
    have htmp : dpTmp cost k (dpMatrix cost k b) j =
        ((List.range (k + 1)).map fun i => chainCost c (0 :: dpBack cost k b i ++ [i]) + c i j).map some := by
      unfold dpTmp
      rw [List.map_map]
      apply List.map_congr_left
      intro i hi
      have hik : i ≤ k := by simp at hi; omega
      rw [(ih i hik).2.2.1, hc i j hik hj]
      rfl
    obtain ⟨v, hv, hmin, hval⟩ := npArgmin_spec
      ((List.range (k + 1)).map fun i => chainCost c (0 :: dpBack cost k b i ++ [i]) + c i j) (by simp)
    have harg : (dpArg cost k b).getD j 0 = npArgmin (dpTmp cost k (dpMatrix cost k b) j) := by
      unfold dpArg
      rw [List.getD_eq_getElem?_getD, List.getElem?_map, List.getElem?_range (by omega)]
      rfl
    rw [← htmp, ← harg] at hv
    rw [← htmp] at hval
    set a := (dpArg cost k b).getD j 0 with ha
    have hak : a ≤ k := by
      by_contra hcon
      rw [List.getElem?_eq_none (by simp; omega)] at hv
      cases hv
    rw [List.getElem?_map, List.getElem?_range (by omega), Option.map_some, Option.some.injEq] at hv
    have hback : dpBack cost k (b + 1) j = dpBack cost k b a ++ [a] := rfl
    have hval' : chainCost c (0 :: dpBack cost k (b + 1) j ++ [j]) = v := by
      rw [hback, ← hv]
      have := chainCost_snoc c a j (0 :: dpBack cost k b a)
      simpa using this
    refine ⟨?_, ?_, ?_, ?_⟩
    · intro i hi
      rw [hback] at hi
      rcases List.mem_append.mp hi with hi | hi
      · exact (ih a hak).1 i hi
      · simp at hi; omega
    · rw [hback, List.length_append, (ih a hak).2.1]; rfl
    · rw [hval']
      rw [dpMatrix, List.getD_eq_getElem?_getD, List.getElem?_map, List.getElem?_range (by omega)]
      simpa using hval
    · intro p hp hpk
      rw [hval']
      have hpne : p ≠ [] := by intro h0; simp [h0] at hp
      obtain ⟨q, i, rfl⟩ : ∃ q i, p = q ++ [i] := ⟨_, _, (List.dropLast_append_getLast hpne).symm⟩
      have hik : i ≤ k := hpk i (by simp)
      have h1 := hmin (chainCost c (0 :: dpBack cost k b i ++ [i]) + c i j) (List.mem_map.mpr ⟨i, by simp; omega, rfl⟩)
      have h2 := (ih i hik).2.2.2 q (by simpa using hp) fun x hx => hpk x (by simp [hx])
      have h3 := chainCost_snoc c i j (0 :: q)
      have h3' : chainCost c (0 :: (q ++ [i]) ++ [j]) = chainCost c (0 :: q ++ [i]) + c i j := by simpa using h3
      rw [h3']
      exact h1.trans (by linarith)

/-- The search result, before positions are attached: starts at 0, ends at `k`, and costs no more than any walk from
`0` to `k` with at most `k` moves (stays are free). -/
theorem dp_optimal (h0 : ∀ i, c i i = 0) (hk : 1 ≤ k) :
    (dpIndices cost k).head? = some 0 ∧ (dpIndices cost k).getLast? = some k ∧ (∀ i ∈ dpIndices cost k, i ≤ k) ∧
    ∀ q : List ℕ, q.length + 1 ≤ k → (∀ i ∈ q, i ≤ k) →
      chainCost c (dpIndices cost k) ≤ chainCost c (0 :: q ++ [k]) := by
  obtain ⟨hr, hl, -, hopt⟩ := dp_attained hc (k - 1) k le_rfl
  unfold dpIndices
  refine ⟨by rw [List.cons_append, dedupAdj_head], by rw [dedupAdj_last, List.getLast?_concat], ?_, ?_⟩
  · intro i hi
    have := dedupAdj_mem _ _ hi
    simp only [List.cons_append, List.mem_cons, List.mem_append, List.mem_nil_iff, or_false] at this
    rcases this with h | h | h
    · omega
    · exact hr i h
    · omega
  · intro q hq hqk
    rw [chainCost_dedup c h0]
    have := hopt (List.replicate (k - 1 - q.length) 0 ++ q) (by simp; omega) (by
      intro i hi
      rcases List.mem_append.mp hi with hi | hi
      · have := (List.mem_replicate.mp hi).2; omega
      · exact hqk i hi)
    refine this.trans (le_of_eq ?_)
    have h2 := chainCost_stay c h0 0 (k - 1 - q.length) (q ++ [k])
    rw [← List.cons_append] at h2
    rw [← h2]
    congr 1
    have : List.replicate (k - 1 - q.length) 0 ++ [0] = 0 :: List.replicate (k - 1 - q.length) 0 := by
      rw [← List.replicate_succ, List.replicate_succ']
    rw [show List.replicate (k - 1 - q.length) 0 ++ (0 :: q ++ [k]) =
      (List.replicate (k - 1 - q.length) 0 ++ [0]) ++ (q ++ [k]) by simp, this]
    simp

end dp

variable [IsStrictOrderedRing K]

/-- Each move costs at most the whole walk, when costs are non-negative. -/
theorem move_le_chainCost (c : ℕ → ℕ → K) (hpos : ∀ i j, 0 ≤ c i j) (l : List ℕ) (n a b : ℕ)
    (ha : l[n]? = some a) (hb : l[n + 1]? = some b) : c a b ≤ chainCost c l := by
  induction l generalizing n with
  | nil => simp at ha
  | cons x t ih =>
    cases t with
    | nil => simp at hb
    | cons y t =>
      have hnn : ∀ l : List ℕ, 0 ≤ chainCost c l := by
        intro l
        induction l with
        | nil => exact le_rfl
        | cons x t ih =>
          cases t with
          | nil => exact le_rfl
          | cons y t => exact add_nonneg (hpos _ _) ih
      unfold chainCost
      cases n with
      | zero =>
        simp only [List.getElem?_cons_zero, Option.some.injEq, zero_add, List.getElem?_cons_succ] at ha hb
        subst ha hb
        have := hnn (y :: t)
        linarith
      | succ n =>
        have h1 := ih n (by simpa using ha) (by simpa using hb)
        have h2 := hpos x y
        linarith

/-- A strictly increasing list of naturals from 0 to `k` has at most `k + 1` entries. -/
theorem increasing_length_le (l : List ℕ) (k : ℕ) (hinc : l.Pairwise (· < ·)) (hk : ∀ i ∈ l, i ≤ k) : l.length ≤ k + 1 := by
  have h1 : l.Nodup := hinc.imp fun h => ne_of_lt h
  have h2 : l ⊆ List.range (k + 1) := fun i hi => by simp; have := hk i hi; omega
  have := (List.subperm_of_subset h1 h2).length_le
  simpa using this

theorem pairwise_of_adjacent {α : Type} {R : α → α → Prop} (htrans : ∀ a b c, R a b → R b c → R a c) (l : List α)
    (h : ∀ k a b, l[k]? = some a → l[k + 1]? = some b → R a b) : l.Pairwise R := by
  induction l with
  | nil => exact List.Pairwise.nil
  | cons a t ih =>
    have ih' := ih fun k x y hx hy => h (k + 1) x y (by simpa using hx) (by simpa using hy)
    refine List.pairwise_cons.mpr ⟨?_, ih'⟩
    cases t with
    | nil => simp
    | cons b t =>
      have hab : R a b := h 0 a b rfl rfl
      intro x hx
      rcases List.mem_cons.mp hx with rfl | hx
      · exact hab
      · exact htrans _ _ _ hab ((List.pairwise_cons.mp ih').1 x hx)

/-! ### Categorical limits -/

theorem catLimitsTail_spec (l last u : K) (rest : List K) (hinc : Increasing (u :: rest)) (hlast : 0 < last) (hl : l < u) :
    Increasing (l :: catLimitsTail last (u :: rest)) ∧
    (catLimitsTail last (u :: rest)).length = rest.length + 1 ∧
    ∀ k a, (u :: rest)[k]? = some a → ∃ p q, (l :: catLimitsTail last (u :: rest))[k]? = some p ∧
      (l :: catLimitsTail last (u :: rest))[k + 1]? = some q ∧ p < a ∧ a < q := by
  induction rest generalizing l last u with
  | nil =>
    refine ⟨?_, rfl, ?_⟩
    · simp only [catLimitsTail, Increasing, List.pairwise_cons, List.mem_singleton, forall_eq]
      refine ⟨by linarith, by simp, List.Pairwise.nil⟩
    · intro k a ha
      cases k with
      | zero =>
        simp only [List.getElem?_cons_zero, Option.some.injEq] at ha
        subst ha
        exact ⟨l, u + last / 2, rfl, rfl, hl, by linarith⟩
      | succ k => simp at ha
  | cons v t ih =>
    obtain ⟨hu, hinc'⟩ := List.pairwise_cons.mp hinc
    have huv : u < v := hu v (by simp)
    obtain ⟨h1, h2, h3⟩ := ih (u + (v - u) / 2) (v - u) v hinc' (by linarith) (by linarith)
    refine ⟨?_, ?_, ?_⟩
    · rw [catLimitsTail]
      refine List.pairwise_cons.mpr ⟨?_, h1⟩
      have hl' : l < u + (v - u) / 2 := by linarith
      intro x hx
      rcases List.mem_cons.mp hx with rfl | hx
      · exact hl'
      · exact hl'.trans ((List.pairwise_cons.mp h1).1 x hx)
    · rw [catLimitsTail, List.length_cons, h2, List.length_cons]
    · intro k a ha
      rw [catLimitsTail]
      cases k with
      | zero =>
        simp only [List.getElem?_cons_zero, Option.some.injEq] at ha
        subst ha
        exact ⟨l, u + (v - u) / 2, rfl, rfl, hl, by linarith⟩
      | succ k =>
        obtain ⟨p, q, hp, hq, h4, h5⟩ := h3 k a (by simpa using ha)
        exact ⟨p, q, by simpa using hp, by simpa using hq, h4, h5⟩

theorem catLimits_spec (uniq : List K) (hinc : Increasing uniq) (h2 : 2 ≤ uniq.length) :
    ∃ L, catLimits uniq = .ok L ∧ Increasing L ∧ L.length = uniq.length + 1 ∧
      ∀ (k : ℕ) (a : K), uniq[k]? = some a → ∃ p q, L[k]? = some p ∧ L[k + 1]? = some q ∧ p < a ∧ a < q := by
  match uniq, h2 with
  | u :: v :: t, _ =>
    have huv : u < v := (List.pairwise_cons.mp hinc).1 v (by simp)
    obtain ⟨h1, h2, h3⟩ := catLimitsTail_spec (u - (v - u) / 2) (v - u) u (v :: t) hinc (by linarith) (by linarith)
    exact ⟨_, rfl, h1, by rw [List.length_cons, h2]; rfl, h3⟩

theorem increasing_getElem?_lt {l : List K} (h : Increasing l) {i j : ℕ} {a b : K} (ha : l[i]? = some a)
    (hb : l[j]? = some b) (hij : i < j) : a < b := by
  have hj : j < l.length := by
    by_contra hc
    rw [List.getElem?_eq_none (by omega)] at hb
    cases hb
  rw [List.getElem?_eq_getElem (by omega)] at ha hb
  simp only [Option.some.injEq] at ha hb
  rw [← ha, ← hb]
  exact List.pairwise_iff_getElem.mp h i j (by omega) hj hij

theorem increasing_getElem?_le {l : List K} (h : Increasing l) {i j : ℕ} {a b : K} (ha : l[i]? = some a)
    (hb : l[j]? = some b) (hij : i ≤ j) : a ≤ b := by
  rcases Nat.lt_or_ge i j with h1 | h1
  · exact (increasing_getElem?_lt h ha hb h1).le
  · have : i = j := by omega
    subst this
    rw [ha] at hb
    exact (Option.some.inj hb).le

/-- The closed bin of a value contains exactly the instances that have this value. -/
theorem cat_count (xs L : List K) (hinc : Increasing L)
    (hspec : ∀ (k : ℕ) (a : K), (npUnique xs)[k]? = some a → ∃ p q, L[k]? = some p ∧ L[k + 1]? = some q ∧ p < a ∧ a < q)
    (k : ℕ) (a p q : K) (ha : (npUnique xs)[k]? = some a) (hp : L[k]? = some p) (hq : L[k + 1]? = some q) :
    (xs.countP fun x => p ≤ x ∧ x ≤ q) = xs.count a := by
  rw [List.count]
  apply List.countP_congr
  intro x hx
  simp only [decide_eq_true_eq, beq_iff_eq]
  obtain ⟨p', q', hp', hq', h1, h2⟩ := hspec k a ha
  rw [hp] at hp'
  rw [hq] at hq'
  obtain rfl := Option.some.inj hp'
  obtain rfl := Option.some.inj hq'
  constructor
  · rintro ⟨h3, h4⟩
    obtain ⟨j, hj⟩ := List.mem_iff_getElem?.mp ((mem_npUnique x xs).mpr hx)
    obtain ⟨pj, qj, hpj, hqj, h5, h6⟩ := hspec j x hj
    rcases lt_trichotomy j k with h | h | h
    · exact absurd h3 (not_le.mpr (lt_of_lt_of_le h6 (increasing_getElem?_le hinc hqj hp (by omega))))
    · subst h
      rw [ha] at hj
      exact (Option.some.inj hj).symm
    · exact absurd h4 (not_le.mpr (lt_of_le_of_lt (increasing_getElem?_le hinc hq hpj (by omega)) h5))
  · rintro rfl
    exact ⟨h1.le, h2.le⟩

end Effector
