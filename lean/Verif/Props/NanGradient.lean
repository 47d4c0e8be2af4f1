import Verif.Model.NanGradient
import Verif.Props.NanOutput

/-!
# C114: NaN gradients in RHALE
-/

set_option linter.unusedSectionVars false

namespace Effector

open Spec

variable {K : Type} [Field K] [LinearOrder K] {D : ℕ}

namespace Spec

/-- Some instance whose value lies in `[a, b]` has a NaN effect. -/
def NanIn (xs : List K) (eff : List (Option K)) (a b : K) : Prop := ∃ x, (x, none) ∈ xs.zip eff ∧ a ≤ x ∧ x ≤ b

/-- The number of instances whose value lies in `[a, b]`. -/
def countIn (xs : List K) (a b : K) : ℕ := (xs.filter fun x => decide (a ≤ x) && decide (x ≤ b)).length

end Spec

/-! ### Costs -/

theorem nFilterEff_length {xs : List K} {eff : List (Option K)} (h : eff.length = xs.length) (a b : K) :
    (nFilterEff xs eff a b).length = countIn xs a b := by
  unfold nFilterEff countIn
  rw [List.length_map]
  induction xs generalizing eff with
  | nil => rfl
  | cons x t ih =>
    cases eff with
    | nil => simp at h
    | cons e u =>
      rw [List.zip_cons_cons, List.filter_cons, List.filter_cons]
      have ih' := ih (eff := u) (by simpa using h)
      show (if inBin a b x = true then _ else _ : List (K × Option K)).length = (if inBin a b x = true then _ else _ : List K).length
      by_cases hx : inBin a b x = true
      · rw [if_pos hx, if_pos hx, List.length_cons, List.length_cons, ih']
      · rw [if_neg hx, if_neg hx, ih']

theorem none_mem_nFilterEff {xs : List K} {eff : List (Option K)} {a b : K} : none ∈ nFilterEff xs eff a b ↔ NanIn xs eff a b := by
  unfold nFilterEff NanIn inBin
  simp only [List.mem_map, List.mem_filter, Bool.and_eq_true, decide_eq_true_eq]
  constructor
  · rintro ⟨⟨x, e⟩, ⟨h1, h2⟩, rfl⟩
    exact ⟨x, h1, h2⟩
  · rintro ⟨x, h1, h2⟩
    exact ⟨(x, none), ⟨h1, h2⟩, rfl⟩

theorem nBinCost_nan {xs : List K} {eff : List (Option K)} (h : eff.length = xs.length) {m : ℕ} {d a b : K} (hn : NanIn xs eff a b) (hm : m ≤ countIn xs a b) :
    nBinCost xs eff m d a b = none := by
  unfold nBinCost
  simp only []
  rw [if_neg (by rw [nFilterEff_length h]; omega)]
  unfold nVar
  rw [if_pos (none_mem_nFilterEff.mpr hn)]
  rfl

theorem countIn_mono {xs : List K} {a b b' : K} (h : b ≤ b') : countIn xs a b ≤ countIn xs a b' := by
  unfold countIn
  apply List.Sublist.length_le
  apply List.monotone_filter_right
  intro x hx
  simp only [Bool.and_eq_true, decide_eq_true_eq] at hx ⊢
  exact ⟨hx.1, hx.2.trans h⟩

/-! ### Greedy: what is left of a NaN -/

theorem nCloseDecision_false {xs : List K} {eff : List (Option K)} (h : eff.length = xs.length) {m : ℕ} {d left l1 l2 : K} (hl : l1 ≤ l2)
    (hc : nCloseDecision xs eff m d left l1 l2 = false) : ¬ NanIn xs eff left l2 ∨ countIn xs left l1 < m := by
  by_contra hcon
  push Not at hcon
  obtain ⟨hn, hm⟩ := hcon
  have hm2 := hm.trans (countIn_mono (xs := xs) (a := left) hl)
  have hv1 : binValid xs m left l1 = true := by unfold binValid filterXs; exact decide_eq_true hm
  have hv2 : binValid xs m left l2 = true := by unfold binValid filterXs; exact decide_eq_true hm2
  unfold nCloseDecision at hc
  simp only [] at hc
  rw [hv1, hv2, nBinCost_nan h hn hm2] at hc
  cases hq : nBinCost xs eff m d left l1 <;> simp [hq, nanEqZero, nanPos, nanLe] at hc

theorem nGreedyLoop_ne_nil (xs : List K) (e : List (Option K)) (m : ℕ) (d left : K) (rest : List K) :
    ∃ t, nGreedyLoop xs e m d left rest = left :: t ∧ (rest ≠ [] → t ≠ []) := by
  induction rest generalizing left with
  | nil => exact ⟨[], rfl, by simp⟩
  | cons l1 t ih =>
    cases t with
    | nil => exact ⟨[l1], rfl, by simp⟩
    | cons l2 t =>
      unfold nGreedyLoop
      split_ifs
      · obtain ⟨u, hu, -⟩ := ih l1
        exact ⟨_, rfl, by rw [hu]; simp⟩
      · obtain ⟨u, hu, hne⟩ := ih left
        exact ⟨u, hu, fun _ => hne (by simp)⟩

theorem nGreedyLoop_sublist (xs : List K) (e : List (Option K)) (m : ℕ) (d left : K) (rest : List K) :
    (nGreedyLoop xs e m d left rest).Sublist (left :: rest) := by
  induction rest generalizing left with
  | nil => exact List.Sublist.refl _
  | cons l1 t ih =>
    cases t with
    | nil => exact List.Sublist.refl _
    | cons l2 t =>
      unfold nGreedyLoop
      split_ifs
      · exact List.Sublist.cons_cons _ (ih l1)
      · obtain ⟨u, hu, -⟩ := nGreedyLoop_ne_nil xs e m d left (l2 :: t)
        have := ih left
        rw [hu] at this ⊢
        have h2 : u.Sublist (l2 :: t) := by
          cases this with
          | cons _ h => exact (List.sublist_of_cons_sublist h)
          | cons_cons _ h => exact h
        exact List.Sublist.cons_cons _ (List.Sublist.cons _ h2)

theorem nGreedyLoop_last (xs : List K) (e : List (Option K)) (m : ℕ) (d left : K) (rest : List K) :
    (nGreedyLoop xs e m d left rest).getLast? = (left :: rest).getLast? := by
  induction rest generalizing left with
  | nil => rfl
  | cons l1 t ih =>
    cases t with
    | nil => rfl
    | cons l2 t =>
      unfold nGreedyLoop
      split_ifs
      · obtain ⟨u, hu, -⟩ := nGreedyLoop_ne_nil xs e m d l1 (l2 :: t)
        have := ih l1
        rw [hu] at this ⊢
        rw [List.getLast?_cons_cons, this]
        simp [List.getLast?_cons_cons]
      · rw [ih left]
        simp [List.getLast?_cons_cons]

/-- The bins of the loop. -/
theorem nGreedyLoop_bins {xs : List K} {eff : List (Option K)} (h : eff.length = xs.length) (m : ℕ) (d left : K) (rest : List K) (G : K → K → Prop)
    (hG : ∀ p ∈ bins rest, G p.1 p.2) (hinc : Increasing rest)
    (hhead : ∀ l1, rest.head? = some l1 → G left l1 ∨ ¬ NanIn xs eff left l1 ∨ ∃ l', G l' l1 ∧ countIn xs left l' < m) :
    ∀ p ∈ bins (nGreedyLoop xs eff m d left rest), G p.1 p.2 ∨ ¬ NanIn xs eff p.1 p.2 ∨ ∃ l', G l' p.2 ∧ countIn xs p.1 l' < m := by
  induction rest generalizing left with
  | nil => intro p hp; simp [nGreedyLoop, bins] at hp
  | cons l1 t ih =>
    cases t with
    | nil =>
      intro p hp
      simp only [nGreedyLoop, bins, List.mem_singleton] at hp
      subst hp
      exact hhead l1 rfl
    | cons l2 t =>
      have hG' : ∀ p ∈ bins (l2 :: t), G p.1 p.2 := fun p hp => hG p (by rw [bins]; exact List.mem_cons_of_mem _ hp)
      have hinc' : Increasing (l2 :: t) := (List.pairwise_cons.mp hinc).2
      have h12 : l1 < l2 := (List.pairwise_cons.mp hinc).1 l2 (by simp)
      have hg : G l1 l2 := hG (l1, l2) (by rw [bins]; simp)
      unfold nGreedyLoop
      cases hc : nCloseDecision xs eff m d left l1 l2 with
      | true =>
        rw [if_pos rfl]
        have ih' := ih l1 hG' hinc' (fun l hl => by cases hl; exact Or.inl hg)
        obtain ⟨u, hu, -⟩ := nGreedyLoop_ne_nil xs eff m d l1 (l2 :: t)
        rw [hu] at ih' ⊢
        intro p hp
        rw [bins, List.mem_cons] at hp
        rcases hp with rfl | hp
        · exact hhead l1 rfl
        · exact ih' p hp
      | false =>
        rw [if_neg (by simp)]
        refine ih left hG' hinc' (fun l hl => ?_)
        cases hl
        rcases nCloseDecision_false h h12.le hc with h1 | h1
        · exact Or.inr (Or.inl h1)
        · exact Or.inr (Or.inr ⟨l1, hg, h1⟩)

variable [IsStrictOrderedRing K]

/-- The limits of `nGreedyFind` for a feature that is not categorical: `[lo, hi]`, or the merged grid. -/
theorem nGreedyFind_form {xs : List K} {eff : List (Option K)} {lo hi : K} {n m cl : ℕ} {d : K} (hcat : cl < distinct xs) {L : List K}
    (hL : nGreedyFind xs eff lo hi n d (some m) cl = .ok (.arr L)) :
    (L = [lo, hi] ∧ nOnlyOneBin eff lo hi m = true) ∨ m ≤ xs.length ∧ ∃ init a b, 1 ≤ n ∧ nGreedyLoop xs eff m d lo (linspace lo hi (n + 1)).tail = init ++ [a, b] ∧
      L = if binValid xs m a b then init ++ [a, b] else init ++ [b] := by
  unfold nGreedyFind at hL
  rw [isCategorical_not _ _ _ hcat] at hL
  simp only [bind, Except.bind, pure, Except.pure] at hL
  cases hnv : noneValidBinning xs (some m) with
  | error e => rw [hnv] at hL; cases hL
  | ok v =>
    rw [hnv] at hL
    cases v with
    | true => cases hL
    | false =>
      simp only [Bool.false_eq_true, if_false] at hL
      cases ho : nOnlyOneBin eff lo hi m with
      | true => rw [ho] at hL; cases hL; exact Or.inl ⟨rfl, rfl⟩
      | false =>
        rw [ho] at hL
        simp only [Bool.false_eq_true, if_false] at hL
        right
        have hm : m ≤ xs.length := by
          unfold noneValidBinning at hnv
          simp only [Except.ok.injEq, Bool.or_eq_false_iff, decide_eq_false_iff_not] at hnv
          omega
        refine ⟨hm, ?_⟩
        rcases Nat.eq_zero_or_pos n with hn | hn
        · subst hn
          have hl : linspace lo hi (0 + 1) = [lo] := by simp [linspace, linspaceAt]
          rw [hl] at hL
          cases hL
        · have hh := linspace_head lo hi n
          have hlen := length_linspace lo hi (n + 1)
          generalize linspace lo hi (n + 1) = G at hL hh hlen
          cases G with
          | nil => cases hh
          | cons l0 rest =>
            obtain rfl : l0 = lo := by simpa using hh
            simp only [List.tail_cons] at hL ⊢
            obtain ⟨u, hu, hne⟩ := nGreedyLoop_ne_nil xs eff m d l0 rest
            have hne' := hne (by rintro rfl; simp at hlen; omega)
            have h2 : 2 ≤ (nGreedyLoop xs eff m d l0 rest).length := by
              rw [hu]
              cases u with
              | nil => exact absurd rfl hne'
              | cons _ _ => simp
            obtain ⟨init, a, b, hab⟩ := exists_init_two _ h2
            refine ⟨init, a, b, hn, hab, ?_⟩
            rw [hab, repairLast_eq] at hL
            cases hL
            rfl

theorem nGreedyFind_good {xs : List K} {eff : List (Option K)} {lo hi : K} {n cl : ℕ} {mo : Option ℕ} {d : K} (hlt : lo < hi) (hin : ∀ x ∈ xs, lo ≤ x ∧ x ≤ hi)
    {L : List K} (hL : nGreedyFind xs eff lo hi n d mo cl = .ok (.arr L)) : Increasing L ∧ 2 ≤ L.length ∧ Within L xs := by
  cases mo with
  | none =>
    unfold nGreedyFind noneValidBinning at hL
    cases hL
  | some m =>
    by_cases hcat : cl < distinct xs
    · rcases nGreedyFind_form hcat hL with ⟨rfl, -⟩ | ⟨hm, init, a, b, hn, hab, rfl⟩
      · exact ⟨(spans_pair hlt).inc, (spans_pair hlt).two, within_of_spans (spans_pair hlt) hin⟩
      · have hG : linspace lo hi (n + 1) = lo :: (linspace lo hi (n + 1)).tail := by
          have hh := linspace_head lo hi n
          generalize linspace lo hi (n + 1) = G at hh
          cases G with
          | nil => cases hh
          | cons l0 rest => rw [show l0 = lo by simpa using hh]; rfl
        have hsub := nGreedyLoop_sublist xs eff m d lo (linspace lo hi (n + 1)).tail
        have hlast := nGreedyLoop_last xs eff m d lo (linspace lo hi (n + 1)).tail
        obtain ⟨u, hu, -⟩ := nGreedyLoop_ne_nil xs eff m d lo (linspace lo hi (n + 1)).tail
        rw [← hG] at hsub hlast
        rw [linspace_last lo hi n hn, hab] at hlast
        rw [hab] at hsub hu
        have hb : b = hi := by simpa [List.getLast?_append] using hlast
        subst hb
        have hinc : Increasing (init ++ [a, b]) := (linspace_increasing lo b n hlt).sublist hsub
        have hhead : (init ++ [a, b]).head? = some lo := by rw [hu]; rfl
        by_cases hv : binValid xs m a b = true
        · rw [if_pos hv]
          exact ⟨hinc, by simp, ⟨lo, b, hhead, hlast, hin⟩⟩
        · rw [if_neg hv]
          have hi0 : init ≠ [] := by
            rintro rfl
            have : a = lo := by simpa using hhead
            subst this
            apply hv
            unfold binValid filterXs
            rw [List.filter_eq_self.mpr (fun x hx => by simpa [inBin] using hin x hx)]
            exact decide_eq_true hm
          refine ⟨hinc.sublist (by simp), ?_, ⟨lo, b, ?_, by simp, hin⟩⟩
          · cases init with
            | nil => exact absurd rfl hi0
            | cons _ _ => simp
          · cases init with
            | nil => exact absurd rfl hi0
            | cons _ _ => simpa using hhead
    · unfold nGreedyFind at hL
      simp only [bind, Except.bind, pure, Except.pure] at hL
      cases hnv : noneValidBinning xs (some m) with
      | error e => rw [hnv] at hL; cases hL
      | ok v =>
        rw [hnv] at hL
        cases v with
        | true => cases hL
        | false =>
          simp only [Bool.false_eq_true, if_false] at hL
          cases hc : isCategorical xs (some m) cl with
          | error e => rw [hc] at hL; cases hL
          | ok o =>
            obtain ⟨l, rfl⟩ := isCategorical_ok (by omega) o hc
            rw [hc] at hL
            simp only [Except.ok.injEq] at hL
            subst hL
            obtain ⟨h1, h2, h3, -⟩ := isCategorical_good hc
            exact ⟨h1, h2, h3⟩


/-- **C114, greedy.**  A NaN gradient costs little with the greedy method: every bin of the result that contains one is a single bin of the initial grid (width `(hi - lo) / n`) - or,
when a minimum number of points is asked for, could not have been closed one grid step earlier without having fewer. -/
theorem C114_greedy {xs : List K} {eff : List (Option K)} (h : eff.length = xs.length) {lo hi : K} {n m cl : ℕ} {d : K} (hlt : NotClose lo hi) (hcat : cl < distinct xs)
    (hm : 2 * m ≤ xs.length) {L : List K} (hL : nGreedyFind xs eff lo hi n d (some m) cl = .ok (.arr L)) :
    ∀ p ∈ bins L, (m = 0 ∨ p.2 ≠ hi) → NanIn xs eff p.1 p.2 →
      p.2 = p.1 + (hi - lo) / (n : K) ∨ countIn xs p.1 (p.2 - (hi - lo) / (n : K)) < m := by
  have hlt' : lo < hi := NotClose.lt hlt
  have hone : nOnlyOneBin eff lo hi m = false := by
    unfold nOnlyOneBin
    rw [NotClose.allclose hlt, h]
    simp
    omega
  have hgrid : ∀ p ∈ bins (linspace lo hi (n + 1)), p.2 = p.1 + (hi - lo) / (n : K) := by
    intro p hp
    obtain ⟨k, h1, h2⟩ := (bins_mem_iff _ _).mp hp
    have hk : k + 1 < n + 1 := by
      have := (List.getElem?_eq_some_iff.mp h2).1
      rwa [length_linspace] at this
    rw [getElem?_linspace lo hi n k (by omega)] at h1
    rw [getElem?_linspace lo hi n (k + 1) (by omega)] at h2
    rw [← Option.some.inj h1, ← Option.some.inj h2]
    push_cast
    ring
  have hG : linspace lo hi (n + 1) = lo :: (linspace lo hi (n + 1)).tail := by
    have hh := linspace_head lo hi n
    generalize linspace lo hi (n + 1) = G at hh
    cases G with
    | nil => cases hh
    | cons l0 rest => rw [show l0 = lo by simpa using hh]; rfl
  have hmain := nGreedyLoop_bins h m d lo (linspace lo hi (n + 1)).tail (fun a b => b = a + (hi - lo) / (n : K)) (fun p hp => hgrid p (by
      rw [hG]
      generalize (linspace lo hi (n + 1)).tail = T at hp ⊢
      cases T with
      | nil => cases hp
      | cons x T => rw [bins]; exact List.mem_cons_of_mem _ hp))
    ((linspace_increasing lo hi n hlt').sublist (List.tail_sublist _)) (fun l1 hl1 => Or.inl (hgrid (lo, l1) (by
      rw [hG]
      generalize (linspace lo hi (n + 1)).tail = T at hl1 ⊢
      cases T with
      | nil => cases hl1
      | cons x T => cases hl1; rw [bins]; simp)))
  have hcon : ∀ p ∈ bins (nGreedyLoop xs eff m d lo (linspace lo hi (n + 1)).tail), NanIn xs eff p.1 p.2 →
      p.2 = p.1 + (hi - lo) / (n : K) ∨ countIn xs p.1 (p.2 - (hi - lo) / (n : K)) < m := by
    intro p hp hn
    rcases hmain p hp with h1 | h1 | ⟨l', h1, h2⟩
    · exact Or.inl h1
    · exact absurd hn h1
    · refine Or.inr ?_
      rw [h1, add_sub_cancel_right]
      exact h2
  rcases nGreedyFind_form hcat hL with ⟨-, h1⟩ | ⟨-, init, a, b, hn, hab, rfl⟩
  · rw [hone] at h1; cases h1
  · rw [hab] at hcon
    by_cases hv : binValid xs m a b = true
    · rw [if_pos hv]
      exact fun p hp _ => hcon p hp
    · rw [if_neg hv]
      intro p hp hmp
      rcases hmp with rfl | hne
      · exact absurd (by simp [binValid]) hv
      · refine hcon p ?_
        have hlast := nGreedyLoop_last xs eff m d lo (linspace lo hi (n + 1)).tail
        rw [← hG, linspace_last lo hi n hn, hab] at hlast
        have hb : b = hi := by simpa [List.getLast?_append] using hlast
        rcases List.eq_nil_or_concat init with rfl | ⟨init', c, rfl⟩
        · simp [bins] at hp
        · rw [List.concat_eq_append, List.append_assoc] at hp
          rcases bins_append init' c b p hp with h1 | h1
          · obtain ⟨k, h2, h3⟩ := (bins_mem_iff _ _).mp h1
            refine (bins_mem_iff _ _).mpr ⟨k, ?_, ?_⟩
            · rw [List.concat_eq_append, List.getElem?_append_left (List.getElem?_eq_some_iff.mp h2).1]; exact h2
            · rw [List.concat_eq_append, List.getElem?_append_left (List.getElem?_eq_some_iff.mp h3).1]; exact h3
          · rw [h1] at hne
            exact absurd hb hne

/-! ### Dynamic programming: a NaN ruins the matrices -/

section dp

variable {cost : ℕ → ℕ → Option K} {k : ℕ}

theorem npArgminFrom_pos (m : K) (best : ℕ) : ∀ {i : ℕ} {l : List (Option K)}, 1 ≤ i → none ∈ l → 1 ≤ npArgminFrom m best i l := by
  intro i l hi h
  induction l generalizing m best i with
  | nil => cases h
  | cons a t ih =>
    cases a with
    | none => exact hi
    | some y =>
      rw [npArgminFrom]
      split_ifs
      · exact ih _ _ (by omega) (by simpa using h)
      · exact ih _ _ (by omega) (by simpa using h)

theorem dpTmp_none {prev : List (Option K)} {i j : ℕ} (hi : i ≤ k) (h : nanAdd (prev.getD i none) (cost i j) = none) : none ∈ dpTmp cost k prev j := by
  unfold dpTmp
  exact List.mem_map.mpr ⟨i, List.mem_range.mpr (by omega), h⟩

theorem nanAdd_none_left (a : Option K) : nanAdd none a = none := by cases a <;> rfl

theorem nanAdd_none_right (a : Option K) : nanAdd a none = none := by cases a <;> rfl

theorem dpMatrix_last (hnan : cost 0 k = none) (b : ℕ) : (dpMatrix cost k b).getD k none = none ∧ ∀ j ≤ k, (dpMatrix cost k (b + 1)).getD j none = none := by
  induction b with
  | zero =>
    have h0 : (dpMatrix cost k 0).getD k none = none := by simp [dpMatrix, List.getD_eq_getElem?_getD, hnan]
    refine ⟨h0, fun j hj => ?_⟩
    rw [dpMatrix, List.getD_eq_getElem?_getD, List.getElem?_map, List.getElem?_range (by omega)]
    exact npMin_none (dpTmp_none le_rfl (by rw [h0]; exact nanAdd_none_left _))
  | succ b ih =>
    have h0 := ih.2 k le_rfl
    refine ⟨h0, fun j hj => ?_⟩
    rw [dpMatrix, List.getD_eq_getElem?_getD, List.getElem?_map, List.getElem?_range (by omega)]
    exact npMin_none (dpTmp_none le_rfl (by rw [h0]; exact nanAdd_none_left _))

theorem dpArg_zero {b j : ℕ} (hj : j ≤ k) (h : nanAdd ((dpMatrix cost k b).getD 0 none) (cost 0 j) = none) : (dpArg cost k b).getD j 0 = 0 := by
  unfold dpArg
  rw [List.getD_eq_getElem?_getD, List.getElem?_map, List.getElem?_range (by omega)]
  show npArgmin (dpTmp cost k (dpMatrix cost k b) j) = 0
  unfold dpTmp
  rw [List.range_succ_eq_map, List.map_cons, h]
  rfl

theorem dpArg_first (hnan : cost 0 k = none) (h00 : cost 0 0 = some 0) : 1 ≤ (dpArg cost k 0).getD 0 0 := by
  have hk : 1 ≤ k := by
    rcases Nat.eq_zero_or_pos k with rfl | h
    · rw [hnan] at h00; cases h00
    · exact h
  unfold dpArg
  rw [List.getD_eq_getElem?_getD, List.getElem?_map, List.getElem?_range (by omega)]
  show 1 ≤ npArgmin (dpTmp cost k (dpMatrix cost k 0) 0)
  have hmem : none ∈ dpTmp cost k (dpMatrix cost k 0) 0 := dpTmp_none le_rfl (by rw [(dpMatrix_last hnan 0).1]; exact nanAdd_none_left _)
  unfold dpTmp at hmem ⊢
  rw [List.range_succ_eq_map, List.map_cons] at hmem ⊢
  have h0 : nanAdd ((dpMatrix cost k 0).getD 0 none) (cost 0 0) = some (0 + 0) := by
    simp [dpMatrix, List.range_succ_eq_map, h00, nanAdd]
  rw [h0] at hmem ⊢
  exact npArgminFrom_pos _ _ le_rfl (by simpa using hmem)

theorem dpBack_zero (hnan : cost 0 k = none) (h00 : cost 0 0 = some 0) (b : ℕ) : ∃ i, 1 ≤ i ∧ dpBack cost k (b + 1) 0 = i :: List.replicate b 0 := by
  induction b with
  | zero => exact ⟨_, dpArg_first hnan h00, rfl⟩
  | succ b ih =>
    obtain ⟨i, hi, h⟩ := ih
    refine ⟨i, hi, ?_⟩
    have h0 : (dpArg cost k (b + 1)).getD 0 0 = 0 := dpArg_zero (Nat.zero_le _) (by rw [(dpMatrix_last hnan b).2 0 (Nat.zero_le _)]; exact nanAdd_none_left _)
    rw [dpBack]
    rw [h0, h, List.replicate_succ']
    rfl

theorem dedupAdj_zeros (b k : ℕ) (hk : 1 ≤ k) : dedupAdj (List.replicate (b + 1) 0 ++ [k]) = [0, k] := by
  induction b with
  | zero => simp [dedupAdj]; omega
  | succ b ih =>
    rw [List.replicate_succ, List.replicate_succ, List.cons_append, List.cons_append, dedupAdj, if_pos rfl, ← ih, List.replicate_succ, List.cons_append]

/-- The limits found by back-tracking: one bin, or limits that go up, back to the start, and up again. -/
theorem dpIndices_nan (hnan : cost 0 k = none) (h00 : cost 0 0 = some 0) (hk : 2 ≤ k) : dpIndices cost k = [0, k] ∨ ∃ i, 1 ≤ i ∧ dpIndices cost k = [0, i, 0, k] := by
  unfold dpIndices
  obtain ⟨b, rfl⟩ : ∃ b, k = b + 2 := ⟨k - 2, by omega⟩
  cases b with
  | zero =>
    left
    have h0 : (dpArg cost 2 0).getD 2 0 = 0 := dpArg_zero le_rfl (by rw [show cost 0 2 = none from hnan]; exact nanAdd_none_right _)
    show dedupAdj (0 :: dpBack cost 2 1 2 ++ [2]) = [0, 2]
    rw [dpBack]
    rw [h0]
    rfl
  | succ b =>
    right
    have h0 : (dpArg cost (b + 1 + 2) (b + 1)).getD (b + 1 + 2) 0 = 0 :=
      dpArg_zero le_rfl (by rw [(dpMatrix_last hnan b).2 0 (Nat.zero_le _)]; exact nanAdd_none_left _)
    obtain ⟨i, hi, h⟩ := dpBack_zero hnan h00 b
    refine ⟨i, hi, ?_⟩
    rw [show b + 1 + 2 - 1 = b + 1 + 1 by omega, dpBack]
    rw [h0, h]
    show dedupAdj (0 :: i :: ((List.replicate b 0 ++ [0]) ++ [b + 1 + 2])) = _
    have hz := dedupAdj_zeros b (b + 1 + 2) (by omega)
    rw [← List.replicate_succ', dedupAdj, if_neg (by omega)]
    rw [List.replicate_succ, List.cons_append] at hz ⊢
    rw [dedupAdj, if_neg (by omega), hz]

end dp

/-! ### The whole fit -/

namespace Spec

/-- The instances within the axis limits, as pairs (value of the feature, gradient entry). -/
def gradPairs (data : List (Row K D)) (eff : List (MRow K D)) (lo hi : Fin D → K) (s : Fin D) : List (K × Option K) :=
  ((data.zip eff).filter fun p => decide (lo s ≤ p.1 s ∧ p.1 s ≤ hi s)).map fun p => (p.1 s, p.2 s)

/-- The feature has more than `cl` distinct values among the instances within the limits. -/
def ManyValues (cl : ℕ) (data : List (Row K D)) (lo hi : Fin D → K) (s : Fin D) : Prop := cl < distinct (col (inLimits data lo hi s) s)

end Spec

section fit

variable {data : List (Row K D)} {eff : List (MRow K D)} {lo hi : Fin D → K} {s : Fin D}

theorem gradPairs_fst (h : eff.length = data.length) : (gradPairs data eff lo hi s).map (·.1) = col (data.filter (inAxis (lo s) (hi s) s)) s := by
  unfold gradPairs col
  rw [List.map_map]
  induction data generalizing eff with
  | nil => rfl
  | cons r t ih =>
    cases eff with
    | nil => simp at h
    | cons e u =>
      have ih' := ih (eff := u) (by simpa using h)
      have hd : inAxis (lo s) (hi s) s r = decide (lo s ≤ r s ∧ r s ≤ hi s) := by unfold inAxis; rw [Bool.decide_and]
      rw [List.zip_cons_cons, List.filter_cons, List.filter_cons, hd]
      by_cases hr : lo s ≤ r s ∧ r s ≤ hi s
      · rw [if_pos (by simpa using hr), if_pos (by simpa using hr), List.map_cons, List.map_cons, ih']
        rfl
      · rw [if_neg (by simpa using hr), if_neg (by simpa using hr), ih']

theorem gradPairs_snd : (gradPairs data eff lo hi s).map (·.2) = mcol (((data.zip eff).filter (fun p => inAxis (lo s) (hi s) s p.1)).map (·.2)) s := by
  unfold gradPairs mcol
  rw [List.map_map, List.map_map]
  have : (fun p : Row K D × MRow K D => decide (lo s ≤ p.1 s ∧ p.1 s ≤ hi s)) = fun p => inAxis (lo s) (hi s) s p.1 := by
    funext p
    unfold inAxis
    rw [Bool.decide_and]
  rw [this]
  rfl

theorem nRhaleFit_pairs (h : eff.length = data.length) (bm : BinMethod K) : nRhaleFitFeature data eff lo hi s bm =
    (nFindLimits ((gradPairs data eff lo hi s).map (·.1)) ((gradPairs data eff lo hi s).map (·.2)) (lo s) (hi s) bm).bind fun L => match L with
      | .impossible => .error .assertionError
      | .arr L => nAleParams ((gradPairs data eff lo hi s).map (·.1)) ((gradPairs data eff lo hi s).map (·.2)) L := by
  unfold nRhaleFitFeature
  rw [if_neg (not_not_intro h), gradPairs_fst h, gradPairs_snd]
  rfl

theorem gradPairs_in : ∀ x ∈ (gradPairs data eff lo hi s).map (·.1), lo s ≤ x ∧ x ≤ hi s := by
  intro x hx
  obtain ⟨p, hp, rfl⟩ := List.mem_map.mp hx
  unfold gradPairs at hp
  obtain ⟨q, hq, rfl⟩ := List.mem_map.mp hp
  simpa using (List.mem_filter.mp hq).2

theorem nFindLimits_good {xs : List K} {e : List (Option K)} {l h : K} (hlt : l < h) (hin : ∀ x ∈ xs, l ≤ x ∧ x ≤ h) {bm : BinMethod K} (hb : FixedOrGreedy bm)
    {L : List K} (hL : nFindLimits xs e l h bm = .ok (.arr L)) : Increasing L ∧ 2 ≤ L.length ∧ Within L xs := by
  have hfix : ∀ n mo cl, 1 ≤ n → fixedFind { xs := xs, eff := none, xmin := l, xmax := h } n mo cl = .ok (.arr L) → Increasing L ∧ 2 ≤ L.length ∧ Within L xs := by
    intro n mo cl hn hf
    obtain ⟨h1, h2, h3, -⟩ := findLimits_good { xs := xs, eff := none, xmin := l, xmax := h } (.fixed n mo cl) hin hlt (fixedOrGreedy_safe _ hn) L hf
    exact ⟨h1, h2, h3⟩
  cases bm with
  | fixed n mo cl => exact hfix n mo cl hb hL
  | greedy n mo d cl => exact nGreedyFind_good hlt hin hL
  | dp n mo d cl => cases hb
  | str t =>
    unfold nFindLimits at hL
    dsimp only at hL
    by_cases h1 : t = "fixed"
    · rw [if_pos h1] at hL; exact hfix _ _ _ (by norm_num) hL
    · rw [if_neg h1] at hL
      by_cases h2 : t = "greedy"
      · rw [if_pos h2] at hL; exact nGreedyFind_good hlt hin hL
      · rw [if_neg h2, if_neg hb] at hL; cases hL

/-- **C114, `RHALE.fit`, fixed and greedy.**  Whatever the pattern of NaN gradients: once the bins are found, the stored parameters are those of the instances whose bin has no NaN; the
others are dropped without a word. -/
theorem C114_rhale_fit (hlen : eff.length = data.length) (hlt : lo s < hi s) (bm : BinMethod K) (hb : FixedOrGreedy bm) (L : List K)
    (hL : nFindLimits ((gradPairs data eff lo hi s).map (·.1)) ((gradPairs data eff lo hi s).map (·.2)) (lo s) (hi s) bm = .ok (.arr L)) :
    nRhaleFitFeature data eff lo hi s bm =
      (computeAleParams ((unspoiled L ((gradPairs data eff lo hi s).map (·.1)) ((gradPairs data eff lo hi s).map (·.2))).map (·.1))
        ((unspoiled L ((gradPairs data eff lo hi s).map (·.1)) ((gradPairs data eff lo hi s).map (·.2))).map (·.2)) L).map fun p =>
        { p with pointsPerBin := (List.range (L.length - 1)).map fun k =>
            (binOutputs L ((gradPairs data eff lo hi s).map (·.1)) ((gradPairs data eff lo hi s).map (·.2)) k).length } := by
  obtain ⟨h1, h2, h3⟩ := nFindLimits_good hlt gradPairs_in hb hL
  rw [nRhaleFit_pairs hlen, hL]
  exact C113_nan_bin h1 h2 h3 (by simp)

theorem nAleParams_oneBin {xs : List K} {e : List (Option K)} {l h : K} (hlt : l < h) (hin : ∀ x ∈ xs, l ≤ x ∧ x ≤ h) (hlen : e.length = xs.length)
    (hnan : ∃ x, (x, none) ∈ xs.zip e) : nAleParams xs e [l, h] = .error .valueError := by
  obtain ⟨x0, hx0⟩ := hnan
  have hbin : ∀ x, l ≤ x ∧ x ≤ h → InBin [l, h] 0 x := fun x hx => ⟨l, by simp, h, by simp, hx.1, by simpa using hx.2⟩
  refine C113_ale_raises (spans_pair hlt).inc (spans_pair hlt).two (within_of_spans (spans_pair hlt) hin) hlen (fun x hx => ⟨0, hbin x (hin x hx), ?_⟩)
  unfold binOutputs
  exact List.mem_map.mpr ⟨(x0, none), List.mem_filter.mpr ⟨hx0, by simpa using hbin x0 (hin x0 (List.of_mem_zip hx0).1)⟩, rfl⟩

/-- **C114, dynamic programming.**  `DynamicProgramming` with any parameters refuses a (not categorical) feature one of whose gradients is NaN: the call raises. -/
theorem C114_dp (hlen : eff.length = data.length) (hlt : lo s < hi s) (n : ℕ) (mo : Option ℕ) (d : K) (cl : ℕ) (hcont : ManyValues cl data lo hi s)
    (hnan : ∃ x, (x, none) ∈ gradPairs data eff lo hi s) : ∃ e, nRhaleFitFeature data eff lo hi s (.dp n mo d cl) = .error e := by
  have hcol : col (inLimits data lo hi s) s = (gradPairs data eff lo hi s).map (·.1) := by
    rw [gradPairs_fst hlen]
    unfold inLimits
    congr 1
    apply List.filter_congr
    intro r _
    unfold inAxis
    rw [Bool.decide_and]
  have hzip : ((gradPairs data eff lo hi s).map (·.1)).zip ((gradPairs data eff lo hi s).map (·.2)) = gradPairs data eff lo hi s := by
    rw [List.zip_map']
    simp
  have hin := gradPairs_in (data := data) (eff := eff) (lo := lo) (hi := hi) (s := s)
  have hlen' : ((gradPairs data eff lo hi s).map (·.2)).length = ((gradPairs data eff lo hi s).map (·.1)).length := by simp
  rw [nRhaleFit_pairs hlen]
  rw [← hzip] at hnan
  unfold ManyValues at hcont
  rw [hcol] at hcont
  generalize (gradPairs data eff lo hi s).map (·.1) = xs at *
  generalize (gradPairs data eff lo hi s).map (·.2) = e at *
  have hone := nAleParams_oneBin hlt hin hlen' hnan
  have hpair : (Except.bind (.ok (.arr [lo s, hi s]) : Py (Lim K)) fun L => match L with
      | .impossible => .error .assertionError
      | .arr L => nAleParams xs e L) = .error .valueError := hone
  unfold nFindLimits nDpFind
  dsimp only
  cases mo with
  | none => exact ⟨.typeError, rfl⟩
  | some m =>
    rw [isCategorical_not _ _ _ hcont]
    simp only [bind, pure, Except.pure]
    cases hnv : noneValidBinning xs (some m) with
    | error x => exact ⟨x, rfl⟩
    | ok v =>
      cases v with
      | true => exact ⟨.assertionError, rfl⟩
      | false =>
        have hm : m ≤ xs.length := by
          unfold noneValidBinning at hnv
          simp only [Except.ok.injEq, Bool.or_eq_false_iff, decide_eq_false_iff_not] at hnv
          omega
        simp only [Except.bind, Bool.false_eq_true, if_false]
        by_cases ho : nOnlyOneBin e (lo s) (hi s) m = true
        · rw [if_pos ho]; exact ⟨_, hpair⟩
        · rw [if_neg ho]
          by_cases h1 : n = 1
          · rw [if_pos h1]; exact ⟨_, hpair⟩
          · rw [if_neg h1]
            by_cases h0 : n = 0
            · rw [if_pos h0]; exact ⟨_, rfl⟩
            · rw [if_neg h0]
              have hn' : (n : K) ≠ 0 := by exact_mod_cast h0
              have g0 : gridPos (lo s) (hi s) n 0 = lo s := by simp [gridPos]
              have gn : gridPos (lo s) (hi s) n n = hi s := by
                unfold gridPos
                rw [mul_div_cancel₀ _ hn']
                ring
              have hcost : nCostOfMove xs e (lo s) (hi s) m d n 0 n = none := by
                unfold nCostOfMove
                rw [if_neg (by omega), if_neg (by omega), g0, gn]
                refine nBinCost_nan hlen' ?_ ?_
                · obtain ⟨x, hx⟩ := hnan
                  exact ⟨x, hx, hin x (List.of_mem_zip hx).1⟩
                · unfold countIn
                  rw [List.filter_eq_self.mpr (fun x hx => by simpa using hin x hx)]
                  exact hm
              have h00 : nCostOfMove xs e (lo s) (hi s) m d n 0 0 = some 0 := by simp [nCostOfMove]
              rcases dpIndices_nan hcost h00 (by omega) with h2 | ⟨i, hi1, h2⟩
              · rw [h2]
                refine ⟨.valueError, ?_⟩
                simp only [List.map_cons, List.map_nil, g0, gn]
                exact hone
              · rw [h2]
                refine ⟨.valueError, ?_⟩
                simp only [List.map_cons, List.map_nil, g0, gn]
                have hup : lo s < gridPos (lo s) (hi s) n i := by
                  unfold gridPos
                  have : (0 : K) < n := by exact_mod_cast (Nat.pos_of_ne_zero h0)
                  have hi' : (0 : K) < i := by exact_mod_cast hi1
                  have := mul_pos hi' (div_pos (sub_pos.mpr hlt) this)
                  linarith
                have hdig : digitize xs (bumpLast EPS [lo s, gridPos (lo s) (hi s) n i, lo s, hi s]) = .error .valueError := by
                  have hb : bumpLast EPS [lo s, gridPos (lo s) (hi s) n i, lo s, hi s] = [lo s, gridPos (lo s) (hi s) n i, lo s, hi s + EPS] := by simp [bumpLast]
                  rw [hb]
                  unfold digitize
                  rw [if_neg, if_neg]
                  · intro hp
                    have := (List.pairwise_cons.mp hp).1 (gridPos (lo s) (hi s) n i) (by simp)
                    exact absurd hup (not_lt.mpr this)
                  · intro hp
                    have := (List.pairwise_cons.mp (List.pairwise_cons.mp hp).2).1 (lo s) (by simp)
                    exact absurd hup (not_lt.mpr this)
                unfold nAleParams nBinEffect
                rw [hdig]
                rfl

/-- ... and the object keeps the state it had: whatever was fitted before stays as it was. -/
theorem C114_dp_fit (b : Base K D) (hlen : eff.length = b.data.length) (hlt : b.axisLo s < b.axisHi s) (n : ℕ) (mo : Option ℕ) (d : K) (cl : ℕ)
    (hcont : ManyValues cl b.data b.axisLo b.axisHi s) (hnan : ∃ x, (x, none) ∈ gradPairs b.data eff b.axisLo b.axisHi s) (st : AleState K D) (c : PyVal) :
    ∃ e, aleFit (nRhaleCfg eff b) st (.int s) (.dp n mo d cl) c = (st, .error e) := by
  obtain ⟨e, he⟩ := C114_dp hlen hlt n mo d cl hcont hnan
  unfold aleFit
  rw [if_pos (show (nRhaleCfg eff b).allowed (.dp n mo d cl) = true from rfl)]
  have hr := resolve_single s
  simp only [prepFeatures, bind, Except.bind]
  cases prepCentering c with
  | error x => exact ⟨x, rfl⟩
  | ok c' =>
    simp only [hr, pure, Except.pure]
    refine ⟨e, ?_⟩
    unfold fitLoop fitOne
    rw [show (nRhaleCfg eff b).fitF s (.dp n mo d cl) = .error e from he]

end fit

/-! ### No NaN -/

namespace Spec

/-- A row of numbers, as a row that might have had NaN entries. -/
def asMRow (r : Row K D) : MRow K D := fun i => some (r i)

/-- A whole session with an RHALE object whose model, Jacobian or given effects may have NaN entries. -/
def nRhaleSession [PySqrt K] (choice : ℕ → ℕ → List ℕ) (f : Row K D → Option K) (jac : Option (Row K D → MRow K D)) (data : List (Row K D))
    (given : Option (List (MRow K D))) (axisLimits : Option ((Fin D → K) × (Fin D → K))) (calls : List (AleOp K D)) (s : Fin D)
    (xs : List K) (het : Bool) (c : PyVal) : Py (List K × Option (List K)) :=
  (nRhaleInit choice (List.map f) (jac.map List.map) data given (.str "all") axisLimits).bind fun q =>
    (aleEval q.1 (aleRun q.1 calls) s xs het c).2

end Spec

theorem nVar_some (l : List K) : nVar (l.map some) = npVar l := by
  unfold nVar
  rw [if_neg (by simp)]
  congr 1
  unfold known
  rw [List.filterMap_map]
  simp

theorem nBinCost_some (xs e : List K) (m : ℕ) (d a b : K) : nBinCost xs (e.map some) m d a b = binCost xs e m d a b := by
  have h : nFilterEff xs (e.map some) a b = (filterEff xs e a b).map some := by
    unfold nFilterEff filterEff
    rw [List.zip_map_right, List.filter_map, List.map_map, List.map_map]
    rfl
  unfold nBinCost binCost
  simp only [h, List.length_map, nVar_some]

theorem nGreedyLoop_some (xs e : List K) (m : ℕ) (d left : K) (rest : List K) : nGreedyLoop xs (e.map some) m d left rest = greedyLoop xs e m d left rest := by
  induction rest generalizing left with
  | nil => rfl
  | cons l1 t ih =>
    cases t with
    | nil => rfl
    | cons l2 t =>
      rw [nGreedyLoop, greedyLoop, ih, ih]
      have : nCloseDecision xs (e.map some) m d left l1 l2 = closeDecision xs e m d left l1 l2 := by
        unfold nCloseDecision closeDecision
        rw [nBinCost_some, nBinCost_some]
      rw [this]

theorem nFindLimits_some (xs e : List K) (lo hi : K) (bm : BinMethod K) :
    nFindLimits xs (e.map some) lo hi bm = findLimits { xs := xs, eff := some e, xmin := lo, xmax := hi } bm := by
  have hone : ∀ m, onlyOneBinPossible { xs := xs, eff := some e, xmin := lo, xmax := hi } m = .ok (nOnlyOneBin (e.map some) lo hi m) := by
    intro m
    unfold onlyOneBinPossible nOnlyOneBin BinCtx.getEff
    rw [List.length_map]
    rfl
  have hg : ∀ n d mo cl, nGreedyFind xs (e.map some) lo hi n d mo cl = greedyFind { xs := xs, eff := some e, xmin := lo, xmax := hi } n d mo cl := by
    intro n d mo cl
    unfold nGreedyFind greedyFind
    simp only [hone, nGreedyLoop_some, BinCtx.getEff, bind, Except.bind]
    cases noneValidBinning xs mo with
    | error x => rfl
    | ok v =>
      cases v with
      | true => rfl
      | false =>
        simp only [Bool.false_eq_true, if_false]
        cases isCategorical xs mo cl with
        | error x => rfl
        | ok o =>
          cases o with
          | some l => rfl
          | none =>
            cases mo with
            | none => rfl
            | some m =>
              simp only []
              cases nOnlyOneBin (List.map some e) lo hi m with
              | true => rfl
              | false => simp only [Bool.false_eq_true, if_false]; cases linspace lo hi (n + 1) <;> rfl
  have hd : ∀ n mo d cl, nDpFind xs (e.map some) lo hi n mo d cl = dpFind { xs := xs, eff := some e, xmin := lo, xmax := hi } n mo d cl := by
    intro n mo d cl
    have hc : ∀ m, nCostOfMove xs (e.map some) lo hi m d n = costOfMove { xs := xs, eff := some e, xmin := lo, xmax := hi } e m d n := by
      intro m
      funext i j
      unfold nCostOfMove costOfMove
      rw [nBinCost_some]
    unfold nDpFind dpFind
    simp only [hone, hc, BinCtx.getEff, bind, Except.bind]
    cases noneValidBinning xs mo with
    | error x => rfl
    | ok v =>
      cases v with
      | true => rfl
      | false =>
        simp only [Bool.false_eq_true, if_false]
        cases isCategorical xs mo cl with
        | error x => rfl
        | ok o =>
          cases o with
          | some l => rfl
          | none =>
            cases mo with
            | none => rfl
            | some m => rfl
  unfold nFindLimits findLimits
  simp only [hg, hd]
  cases bm <;> rfl

theorem nRhaleFit_some (data eff : List (Row K D)) (lo hi : Fin D → K) (s : Fin D) (bm : BinMethod K) :
    nRhaleFitFeature data (eff.map asMRow) lo hi s bm = rhaleFitFeature data eff lo hi s bm := by
  have he : mcol (((data.zip (eff.map asMRow)).filter (fun p => inAxis (lo s) (hi s) s p.1)).map (·.2)) s =
      (col (((data.zip eff).filter (fun p => inAxis (lo s) (hi s) s p.1)).map (·.2)) s).map some := by
    unfold mcol col
    rw [List.zip_map_right, List.filter_map, List.map_map, List.map_map, List.map_map, List.map_map]
    rfl
  unfold nRhaleFitFeature rhaleFitFeature
  simp only [he, nFindLimits_some, nAleParams_some, List.length_map]
  rfl

theorem nJacobian_some (f0 : Row K D → K) (data : List (Row K D)) (eps : K) :
    nJacobian (List.map fun r => some (f0 r)) data eps = (computeJacobianNumerically (List.map f0) data eps).map asMRow := by
  unfold nJacobian computeJacobianNumerically
  rw [List.map_map]
  apply List.map_congr_left
  intro i hi
  funext f
  have hi' : i < data.length := List.mem_range.mp hi
  simp [nJacobianCol, jacobianCol, nanSub, asMRow, List.getD_eq_getElem?_getD, hi']

/-- **C114, numerical gradients.**  Without a Jacobian and without given effects, the gradient that RHALE uses for an instance and a feature is NaN exactly if the model is NaN at the instance or
at the instance moved by 1e-8 along the feature (so one NaN prediction spoils every feature of its instance); otherwise it is the difference quotient. -/
theorem C114_numerical (g : Row K D → Option K) (data : List (Row K D)) (i : ℕ) (r : Row K D) (hi : data[i]? = some r) (f : Fin D) :
    ∃ e, (nRhaleEffects (List.map g) none none data)[i]? = some e ∧
      (e f = none ↔ g r = none ∨ g (Function.update r f (r f + 1 / 10 ^ 8)) = none) ∧
      ∀ a b, g r = some a → g (Function.update r f (r f + 1 / 10 ^ 8)) = some b → e f = some ((b - a) / (1 / 10 ^ 8)) := by
  obtain ⟨hlt, hr⟩ := List.getElem?_eq_some_iff.mp hi
  have hE : (EPS : K) = 1 / 10 ^ 8 := rfl
  refine ⟨_, by unfold nRhaleEffects nJacobian; dsimp only; rw [List.getElem?_map, List.getElem?_range hlt]; rfl, ?_⟩
  have key : (nJacobianCol (List.map g) data EPS f).getD i none =
      (nanSub (g (Function.update r f (r f + 1 / 10 ^ 8))) (g r)).map (· / (1 / 10 ^ 8)) := by
    unfold nJacobianCol
    rw [List.getD_eq_getElem?_getD, List.getElem?_zipWith, List.map_map, List.getElem?_map, List.getElem?_map, hi, hE]
    rfl
  dsimp only
  rw [key]
  cases g r with
  | none => cases g (Function.update r f (r f + 1 / 10 ^ 8)) <;> simp [nanSub]
  | some a => cases g (Function.update r f (r f + 1 / 10 ^ 8)) <;> simp [nanSub]

/-- **C114, no NaN.**  With gradients that are all numbers nothing changes: every history of calls, every binning method. -/
theorem C114_clean [PySqrt K] (choice : ℕ → ℕ → List ℕ) (f : Row K D → K) (jac : Option (Row K D → Row K D)) (data : List (Row K D)) (given : Option (List (Row K D)))
    (axisLimits : Option ((Fin D → K) × (Fin D → K))) (calls : List (AleOp K D)) (s : Fin D) (xs : List K) (het : Bool) (c : PyVal) :
    nRhaleSession choice (fun r => some (f r)) (jac.map fun j r => asMRow (j r)) data (given.map (List.map asMRow)) axisLimits calls s xs het c =
      rhaleSession choice f jac data given axisLimits calls s xs het c := by
  have heff : ∀ (g : Option (List (Row K D))) (d : List (Row K D)),
      nRhaleEffects (List.map fun r => some (f r)) ((jac.map fun j r => asMRow (j r)).map List.map) (g.map (List.map asMRow)) d =
        (rhaleEffects (List.map f) (jac.map List.map) g d).map asMRow := by
    intro g d
    cases g with
    | some e => rfl
    | none =>
      cases jac with
      | some j =>
        show List.map (fun r => asMRow (j r)) d = (List.map j d).map asMRow
        rw [List.map_map]
        rfl
      | none => exact nJacobian_some f d EPS
  have hcfg : ∀ (e : List (Row K D)) (b : Base K D), nRhaleCfg (e.map asMRow) b = rhaleCfg e b := by
    intro e b
    unfold nRhaleCfg rhaleCfg
    congr 1
    funext s bm
    exact nRhaleFit_some _ _ _ _ _ _
  have htake : ∀ (e : List (Row K D)) (idx : List ℕ), takeRows (e.map asMRow) idx = (takeRows e idx).map (List.map asMRow) := by
    intro e idx
    unfold takeRows
    induction idx with
    | nil => rfl
    | cons i t ih =>
      rw [List.mapM_cons, List.mapM_cons, ih]
      have hp : pyIndex (e.map asMRow) i = (pyIndex e i).map asMRow := by
        unfold pyIndex
        rw [List.getElem?_map]
        cases e[i]? <;> rfl
      rw [hp]
      simp only [bind, Except.bind, pure, Except.pure]
      cases pyIndex e i with
      | error x => rfl
      | ok r =>
        simp only [Except.map]
        cases List.mapM (fun i => pyIndex e i) t <;> rfl
  have hinit : nRhaleInit choice (List.map fun r => some (f r)) ((jac.map fun j r => asMRow (j r)).map List.map) data (given.map (List.map asMRow)) (.str "all") axisLimits =
      rhaleInit choice (List.map f) (jac.map List.map) data given (.str "all") axisLimits := by
    unfold nRhaleInit rhaleInit
    simp only [bind, Except.bind, pure, Except.pure]
    cases prepNofInstances choice (.str "all") data.length with
    | error x => rfl
    | ok q =>
      simp only []
      cases takeRows data q.2 with
      | error x => rfl
      | ok d =>
        simp only []
        cases given with
        | none =>
          simp only [Option.map_none]
          cases Base.init choice d (.str "all") axisLimits with
          | error x => rfl
          | ok b =>
            simp only []
            have := heff none b.data
            rw [Option.map_none] at this
            rw [this, hcfg]
        | some e =>
          simp only [Option.map_some, htake]
          cases takeRows e q.2 with
          | error x => rfl
          | ok g =>
            simp only [Except.map]
            cases Base.init choice d (.str "all") axisLimits with
            | error x => rfl
            | ok b =>
              simp only []
              have := heff (some g) b.data
              rw [Option.map_some] at this
              rw [this, hcfg]
  unfold nRhaleSession rhaleSession
  rw [hinit]

/-! ### Counterexample and examples -/

/-- Gradients of `x_0 ^ 2` at five instances, the last one NaN. -/
def nanGradients : List (MRow ℚ 2) := [![some 1, some 0], ![some 2, some 0], ![some 6, some 0], ![some 5, some 0], ![none, some 0]]

/-- **C114 is false of RHALE.**  One gradient is NaN; with two fixed bins `eval` returns numbers: on the second half of the axis the derivative is that of the first half, although
two instances with known gradients lie there. -/
theorem C114_false_rhale :
    nRhaleSession (fun _ _ => []) sometimesNan none nanExample (some nanGradients) (some (fun _ => 0, fun _ => 4)) [.fit (.int 0) (.fixed 2 (some 1) 0) (.bool false)] 0 [1, 3] false (.bool false) =
      .ok ([3/2, 9/2], none) ∧
    nRhaleSession (fun _ _ => []) sometimesNan none (nanExample.take 4) (some (nanGradients.take 4)) (some (fun _ => 0, fun _ => 4)) [.fit (.int 0) (.fixed 2 (some 1) 0) (.bool false)] 0 [1, 3]
      false (.bool false) = .ok ([3/2, 17/2], none) := by
  refine ⟨?_, ?_⟩ <;> decide +kernel

/-- `C114_rhale_fit`: its hypotheses. -/
example : gradPairs nanExample nanGradients (fun _ => 0) (fun _ => 4) 0 = [(1/2, some 1), (1, some 2), (3, some 6), (5/2, some 5), (7/2, none)] ∧
    nFindLimits [1/2, 1, 3, 5/2, 7/2] [some (1 : ℚ), some 2, some 6, some 5, none] 0 4 (.greedy 8 (some 0) 0 0) = .ok (.arr [0, 1/2, 1, 2, 5/2, 3, 7/2, 4]) ∧
    FixedOrGreedy (.greedy 8 (some 0) (0 : ℚ) 0) := by
  refine ⟨?_, ?_, trivial⟩
  · decide +kernel
  · decide +kernel

/-- `C114_greedy`: a bin with the NaN, one step wide. -/
example : NanIn [1/2, 1, 3, 5/2, 7/2] [some (1 : ℚ), some 2, some 6, some 5, none] (7/2) 4 ∧ NotClose (0 : ℚ) 4 :=
  ⟨⟨7/2, by simp [List.zip], by norm_num, by norm_num⟩, by unfold NotClose; rw [abs_of_nonneg (by norm_num)]; norm_num⟩

/-- `C114_dp`: its hypotheses, and the exception. -/
example : ManyValues 1 nanExample (fun _ => (0 : ℚ)) (fun _ => 4) 0 ∧ (7/2, none) ∈ gradPairs nanExample nanGradients (fun _ => 0) (fun _ => 4) 0 ∧
    nFindLimits [1/2, 1, 3, 5/2, 7/2] [some (1 : ℚ), some 2, some 6, some 5, none] 0 4 (.dp 4 (some 1) 0 1) = .ok (.arr [0, 4, 0, 4]) := by
  refine ⟨?_, ?_, ?_⟩
  · show 1 < distinct _; decide +kernel
  · decide +kernel
  · decide +kernel

/-- `C114_numerical`: instances 0 and 4 of the example, the model a number at the first and NaN at the second. -/
example : (nanExample[0]?).bind sometimesNan = some (1/4) ∧ (nanExample[4]?).isSome ∧ (nanExample[4]?).bind sometimesNan = none := by
  refine ⟨?_, ?_, ?_⟩ <;> decide +kernel

end Effector
