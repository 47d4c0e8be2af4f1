import Verif.Lemmas.Bins
import Verif.Model.BinSplitting
import Mathlib.Data.List.Dedup
import Mathlib.Tactic.FieldSimp

/-! # Lemmas about np.unique, np.linspace and the binning algorithms -/

namespace Effector

set_option linter.unusedSectionVars false

open Spec

variable {K : Type} [Field K] [LinearOrder K]

/-! ### np.unique -/

theorem mem_insertUniq (x y : K) (l : List K) : y ∈ insertUniq x l ↔ y = x ∨ y ∈ l := by
  induction l with
  | nil => simp [insertUniq]
  | cons a t ih =>
    unfold insertUniq
    split_ifs with h1 h2
    · simp
    · subst h2; simp
    · simp only [List.mem_cons, ih]
      tauto

theorem insertUniq_sorted (x : K) (l : List K) (h : Increasing l) : Increasing (insertUniq x l) := by
  induction l with
  | nil => simp [insertUniq, Increasing]
  | cons a t ih =>
    obtain ⟨ha, ht⟩ := List.pairwise_cons.mp h
    unfold insertUniq
    split_ifs with h1 h2
    · refine List.pairwise_cons.mpr ⟨?_, h⟩
      intro b hb
      rcases List.mem_cons.mp hb with rfl | hb
      · exact h1
      · exact h1.trans (ha b hb)
    · exact h
    · refine List.pairwise_cons.mpr ⟨?_, ih ht⟩
      intro b hb
      rcases (mem_insertUniq x b t).mp hb with rfl | hb
      · exact lt_of_le_of_ne (not_lt.mp h1) (Ne.symm h2)
      · exact ha b hb

theorem npUnique_sorted (l : List K) : Increasing (npUnique l) := by
  induction l with
  | nil => exact List.Pairwise.nil
  | cons a t ih => exact insertUniq_sorted a _ ih

theorem mem_npUnique (x : K) (l : List K) : x ∈ npUnique l ↔ x ∈ l := by
  induction l with
  | nil => simp [npUnique]
  | cons a t ih =>
    have : npUnique (a :: t) = insertUniq a (npUnique t) := rfl
    rw [this, mem_insertUniq, ih, List.mem_cons]

theorem increasing_nodup {l : List K} (h : Increasing l) : l.Nodup := h.imp fun h => ne_of_lt h

theorem npUnique_length (l : List K) : (npUnique l).length = l.dedup.length := by
  apply List.Perm.length_eq
  rw [List.perm_ext_iff_of_nodup (increasing_nodup (npUnique_sorted l)) (List.nodup_dedup l)]
  intro a
  rw [mem_npUnique, List.mem_dedup]

/-! ### np.linspace -/

theorem length_linspace (a b : K) (n : ℕ) : (linspace a b n).length = n := by simp [linspace]

theorem getElem?_linspace (a b : K) (n i : ℕ) (h : i < n + 1) :
    (linspace a b (n + 1))[i]? = some (a + (i : K) * ((b - a) / (n : K))) := by
  unfold linspace
  rw [List.getElem?_map, List.getElem?_range h]
  simp [linspaceAt]

theorem linspace_evenly (a b : K) (n : ℕ) : linspace a b n = Spec.evenly a b n := rfl

theorem midpoints_range (g : ℕ → K) (n : ℕ) :
    midpoints ((List.range (n + 1)).map g) = (List.range n).map fun i => (g i + g (i + 1)) / 2 := by
  induction n generalizing g with
  | zero => simp [midpoints]
  | succ n ih =>
    rw [List.range_succ_eq_map, List.map_cons, List.map_map]
    have h1 := ih (g ∘ Nat.succ)
    rw [List.range_succ_eq_map (n := n)] at h1 ⊢
    rw [List.map_cons] at h1 ⊢
    rw [midpoints, h1, List.map_cons, List.map_map]
    rfl

/-- The grid of both rules: the centres of `n` equal cells, where `nof_points = n + 1`. -/
theorem C58_grid_is_cell_centres [IsStrictOrderedRing K] (a b : K) (n : ℕ) (hn : 1 ≤ n) :
    midpoints (linspace a b (n + 1)) = Spec.centres a b n := by
  unfold linspace Spec.centres
  rw [midpoints_range]
  apply List.map_congr_left
  intro i _
  have h : (n : K) ≠ 0 := by exact_mod_cast (by omega : n ≠ 0)
  simp only [linspaceAt, Spec.cellCentre, Nat.add_sub_cancel]
  push_cast
  field_simp
  ring

theorem centring_grid [IsStrictOrderedRing K] (a b : K) : midpoints (linspace a b 100) = Spec.centres a b 99 := C58_grid_is_cell_centres a b 99 (by norm_num)

/-! ### Closed-interval counts -/

theorem filterXs_length (xs : List K) (a b : K) :
    (filterXs xs a b).length = xs.countP fun x => a ≤ x ∧ x ≤ b := by
  unfold filterXs
  rw [← List.countP_eq_length_filter]
  apply List.countP_congr
  intro x _
  simp [inBin]

theorem binValid_iff (xs : List K) (m : ℕ) (a b : K) :
    binValid xs m a b = true ↔ m ≤ xs.countP fun x => a ≤ x ∧ x ≤ b := by
  unfold binValid
  rw [filterXs_length]
  simp

theorem countP_closed_mono (xs : List K) {a b a' b' : K} (h1 : a' ≤ a) (h2 : b ≤ b') :
    (xs.countP fun x => a ≤ x ∧ x ≤ b) ≤ xs.countP fun x => a' ≤ x ∧ x ≤ b' := by
  apply List.countP_mono_left
  intro x _ hx
  simp only [decide_eq_true_eq] at hx ⊢
  exact ⟨h1.trans hx.1, hx.2.trans h2⟩

theorem binValid_mono {xs : List K} {m : ℕ} {a b a' b' : K} (h1 : a' ≤ a) (h2 : b ≤ b') (h : binValid xs m a b = true) :
    binValid xs m a' b' = true := by
  rw [binValid_iff] at h ⊢
  exact h.trans (countP_closed_mono xs h1 h2)

theorem bins_mem_iff (l : List K) (p : K × K) :
    p ∈ bins l ↔ ∃ k, l[k]? = some p.1 ∧ l[k + 1]? = some p.2 := by
  induction l with
  | nil => simp [bins]
  | cons a t ih =>
    cases t with
    | nil => simp [bins]
    | cons b t =>
      rw [bins, List.mem_cons, ih]
      constructor
      · rintro (rfl | ⟨k, h1, h2⟩)
        · exact ⟨0, by simp, by simp⟩
        · exact ⟨k + 1, by simpa using h1, by simpa using h2⟩
      · rintro ⟨k, h1, h2⟩
        cases k with
        | zero =>
          left
          simp at h1 h2
          exact Prod.ext h1.symm h2.symm
        | succ k => exact Or.inr ⟨k, by simpa using h1, by simpa using h2⟩

/-! ### Greedy -/

theorem greedyLoop_ne_nil (xs e : List K) (m : ℕ) (d left : K) (rest : List K) :
    ∃ t, greedyLoop xs e m d left rest = left :: t ∧ (rest ≠ [] → t ≠ []) := by
  induction rest generalizing left with
  | nil => exact ⟨[], rfl, by simp⟩
  | cons l1 t ih =>
    cases t with
    | nil => exact ⟨[l1], rfl, by simp⟩
    | cons l2 t =>
      unfold greedyLoop
      split_ifs
      · obtain ⟨u, hu, -⟩ := ih l1
        exact ⟨_, rfl, by rw [hu]; simp⟩
      · obtain ⟨u, hu, hne⟩ := ih left
        exact ⟨u, hu, fun _ => hne (by simp)⟩

theorem greedyLoop_sublist (xs e : List K) (m : ℕ) (d left : K) (rest : List K) :
    (greedyLoop xs e m d left rest).Sublist (left :: rest) := by
  induction rest generalizing left with
  | nil => exact List.Sublist.refl _
  | cons l1 t ih =>
    cases t with
    | nil => exact List.Sublist.refl _
    | cons l2 t =>
      unfold greedyLoop
      split_ifs
      · exact List.Sublist.cons_cons _ (ih l1)
      · obtain ⟨u, hu, -⟩ := greedyLoop_ne_nil xs e m d left (l2 :: t)
        have := ih left
        rw [hu] at this ⊢
        have h2 : u.Sublist (l2 :: t) := by
          cases this with
          | cons _ h => exact (List.sublist_of_cons_sublist h)
          | cons_cons _ h => exact h
        exact List.Sublist.cons_cons _ (List.Sublist.cons _ h2)

theorem greedyLoop_last (xs e : List K) (m : ℕ) (d left : K) (rest : List K) :
    (greedyLoop xs e m d left rest).getLast? = (left :: rest).getLast? := by
  induction rest generalizing left with
  | nil => rfl
  | cons l1 t ih =>
    cases t with
    | nil => rfl
    | cons l2 t =>
      unfold greedyLoop
      split_ifs
      · obtain ⟨u, hu, -⟩ := greedyLoop_ne_nil xs e m d l1 (l2 :: t)
        have := ih l1
        rw [hu] at this ⊢
        rw [List.getLast?_cons_cons, this]
        simp [List.getLast?_cons_cons]
      · rw [ih left]
        simp [List.getLast?_cons_cons]

/-- All bins but the last one of the loop's result are valid. -/
theorem greedyLoop_valid (xs e : List K) (m : ℕ) (d left : K) (rest : List K) (init : List K) (a b : K)
    (h : greedyLoop xs e m d left rest = init ++ [a, b]) :
    ∀ p ∈ bins (init ++ [a]), binValid xs m p.1 p.2 = true := by
  induction rest generalizing left init with
  | nil =>
    have := congrArg List.length h
    simp [greedyLoop] at this
  | cons l1 t ih =>
    cases t with
    | nil =>
      have hl := congrArg List.length h
      simp [greedyLoop] at hl
      subst hl
      simp [bins]
    | cons l2 t =>
      unfold greedyLoop at h
      split_ifs at h with hc
      · cases init with
        | nil => simp [bins]
        | cons c init =>
          simp only [List.cons_append, List.cons.injEq] at h
          obtain ⟨hlc, h⟩ := h
          subst hlc
          obtain ⟨u, hu, -⟩ := greedyLoop_ne_nil xs e m d l1 (l2 :: t)
          have hv : binValid xs m left l1 = true := by
            unfold closeDecision at hc
            by_contra hn
            simp [hn] at hc
          have ih' := ih l1 init h
          rw [hu] at h
          have hia : ∃ w, init ++ [a] = l1 :: w := by
            cases init with
            | nil => simp only [List.nil_append, List.cons.injEq] at h; exact ⟨[], by simp [h.1]⟩
            | cons q init => simp only [List.cons_append, List.cons.injEq] at h; exact ⟨init ++ [a], by simp [h.1]⟩
          obtain ⟨w, hw⟩ := hia
          rw [List.cons_append, hw, bins]
          rw [hw] at ih'
          intro p hp
          rcases List.mem_cons.mp hp with rfl | hp
          · exact hv
          · exact ih' p hp
      · exact ih left init h

theorem bins_append (init : List K) (a b : K) (p : K × K) (h : p ∈ bins (init ++ [a, b])) :
    p ∈ bins (init ++ [a]) ∨ p = (a, b) := by
  induction init with
  | nil => simpa [bins] using h
  | cons c init ih =>
    cases init with
    | nil =>
      simp [bins] at h ⊢
      exact h
    | cons d init =>
      simp only [List.cons_append, bins, List.mem_cons] at h ⊢
      rcases h with h | h
      · exact Or.inl (Or.inl h)
      · rcases ih (by simpa using h) with h | h
        · exact Or.inl (Or.inr (by simpa using h))
        · exact Or.inr h

theorem exists_init_two (l : List K) (h : 2 ≤ l.length) : ∃ init a b, l = init ++ [a, b] := by
  have h1 : l ≠ [] := by intro h0; simp [h0] at h
  have h2 : l.dropLast ≠ [] := by
    intro h0
    have := congrArg List.length h0
    simp at this
    omega
  refine ⟨l.dropLast.dropLast, l.dropLast.getLast h2, l.getLast h1, ?_⟩
  conv_lhs => rw [← List.dropLast_append_getLast h1, ← List.dropLast_append_getLast h2]
  simp

theorem repairLast_eq (xs : List K) (m : ℕ) (init : List K) (a b : K) :
    repairLast xs m (init ++ [a, b]) = .ok (if binValid xs m a b then init ++ [a, b] else init ++ [b]) := by
  unfold repairLast
  simp only [List.reverse_append, List.reverse_cons, List.reverse_nil, List.nil_append, List.cons_append]
  simp

variable [IsStrictOrderedRing K]

theorem linspace_increasing (a b : K) (n : ℕ) (h : a < b) : Increasing (linspace a b (n + 1)) := by
  unfold Increasing linspace
  rw [List.pairwise_map]
  refine List.Pairwise.imp_of_mem ?_ List.pairwise_lt_range
  intro i j hi hj hij
  have hn : 0 < n := by simp at hj; omega
  have hn' : (0 : K) < n := by exact_mod_cast hn
  have hd : 0 < (b - a) / (n : K) := div_pos (by linarith) hn'
  unfold linspaceAt
  have : (i : K) < j := by exact_mod_cast hij
  simp only [Nat.add_sub_cancel]
  nlinarith

theorem linspace_head (a b : K) (n : ℕ) : (linspace a b (n + 1)).head? = some a := by
  rw [List.head?_eq_getElem?, getElem?_linspace a b n 0 (by omega)]
  simp

theorem linspace_last (a b : K) (n : ℕ) (hn : 1 ≤ n) : (linspace a b (n + 1)).getLast? = some b := by
  rw [List.getLast?_eq_getElem?, length_linspace, Nat.add_sub_cancel, getElem?_linspace a b n n (by omega)]
  have : (n : K) ≠ 0 := by exact_mod_cast (by omega : n ≠ 0)
  rw [Option.some.injEq]
  rw [mul_div_cancel₀ _ this]
  ring

theorem increasing_head_le {l : List K} (h : Increasing l) {lo x : K} (hlo : l.head? = some lo) (hx : x ∈ l) : lo ≤ x := by
  cases l with
  | nil => simp at hx
  | cons a t =>
    simp only [List.head?_cons, Option.some.injEq] at hlo
    subst hlo
    rcases List.mem_cons.mp hx with rfl | hx
    · exact le_rfl
    · exact ((List.pairwise_cons.mp h).1 x hx).le

/-- The three facts about the limits of a successful Greedy search, from the loop to the repaired result. -/
theorem greedy_core (xs e : List K) (m : ℕ) (d l0 hi : K) (rest : List K) (hrest : rest ≠ [])
    (hinc : Increasing (l0 :: rest)) (hlast : (l0 :: rest).getLast? = some hi)
    (hin : ∀ x ∈ xs, l0 ≤ x ∧ x ≤ hi) (hm : m ≤ xs.length) :
    ∃ L, repairLast xs m (greedyLoop xs e m d l0 rest) = .ok L ∧ Increasing L ∧ 2 ≤ L.length ∧ L.head? = some l0 ∧
      L.getLast? = some hi ∧ L.Sublist (l0 :: rest) ∧
      ∀ p ∈ bins L, m ≤ xs.countP fun x => p.1 ≤ x ∧ x ≤ p.2 := by
  obtain ⟨u, hu, hune⟩ := greedyLoop_ne_nil xs e m d l0 rest
  have hlen : 2 ≤ (greedyLoop xs e m d l0 rest).length := by
    rw [hu]
    have := hune hrest
    have : 0 < u.length := List.length_pos_iff.mpr this
    simp
    omega
  obtain ⟨init, a, b, hab⟩ := exists_init_two _ hlen
  have hval := greedyLoop_valid xs e m d l0 rest init a b hab
  have hsub := greedyLoop_sublist xs e m d l0 rest
  have hlast' := greedyLoop_last xs e m d l0 rest
  rw [hlast, hab] at hlast'
  have hb : b = hi := by simpa using hlast'
  subst hb
  rw [hab] at hsub
  have hincL : Increasing (init ++ [a, b]) := hinc.sublist hsub
  have hhead : (init ++ [a, b]).head? = some l0 := by rw [← hab, hu]; rfl
  rw [hab, repairLast_eq]
  by_cases hv : binValid xs m a b = true
  · refine ⟨_, by rw [if_pos hv], hincL, by simp, hhead, by simp, hsub, ?_⟩
    intro p hp
    rcases bins_append init a b p hp with h | h
    · exact (binValid_iff _ _ _ _).mp (hval p h)
    · rw [h]
      exact (binValid_iff _ _ _ _).mp hv
  · have hsub2 : (init ++ [b]).Sublist (init ++ [a, b]) :=
      List.Sublist.append (List.Sublist.refl _) (List.Sublist.cons _ (List.Sublist.refl _))
    have hne : init ≠ [] := by
      intro h0
      subst h0
      apply hv
      rw [binValid_iff]
      have ha : a = l0 := by simpa using hhead
      subst ha
      rw [List.countP_eq_length.mpr]
      · exact hm
      · intro x hx
        simpa using hin x hx
    refine ⟨_, by rw [if_neg hv], hincL.sublist hsub2, ?_, ?_, by simp, hsub2.trans hsub, ?_⟩
    · have : 0 < init.length := List.length_pos_iff.mpr hne
      simp
      omega
    · cases init with
      | nil => exact absurd rfl hne
      | cons c init => simpa using hhead
    · intro p hp
      obtain ⟨init', c, rfl⟩ : ∃ init' c, init = init' ++ [c] :=
        ⟨init.dropLast, init.getLast hne, (List.dropLast_append_getLast hne).symm⟩
      rw [List.append_assoc, List.singleton_append] at hp
      have hca : binValid xs m c a = true := by
        apply hval (c, a)
        rw [bins_mem_iff]
        refine ⟨init'.length, ?_, ?_⟩ <;> simp
      have hab' : a ≤ b := by
        have := List.pairwise_append.mp hincL
        have := (List.pairwise_cons.mp this.2.1).1 b (by simp)
        exact this.le
      rcases bins_append init' c b p hp with h | h
      · apply (binValid_iff _ _ _ _).mp
        apply hval
        rw [bins_mem_iff] at h ⊢
        obtain ⟨k, h1, h2⟩ := h
        have hk : k + 1 < (init' ++ [c]).length := by
          by_contra hc
          rw [List.getElem?_eq_none (by omega)] at h2
          cases h2
        exact ⟨k, by rw [List.getElem?_append_left (by omega)]; exact h1, by rw [List.getElem?_append_left hk]; exact h2⟩
      · rw [h]
        exact (binValid_iff _ _ _ _).mp (binValid_mono le_rfl hab' hca)

end Effector
