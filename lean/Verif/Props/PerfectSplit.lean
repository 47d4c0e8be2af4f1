import Verif.Props.SearchTotal
import Verif.Props.MinPoints

/-!
# C77: the split chosen minimises the heterogeneity, and a perfect split is found
-/

set_option linter.unusedSectionVars false

namespace Effector

open Spec

variable {K : Type} [Field K] [LinearOrder K] [IsStrictOrderedRing K] {D : ℕ}

theorem onSide_false_true (typ : FeatType) (pos v : K) : ¬ OnSide typ pos false v ↔ OnSide typ pos true v := by
  unfold OnSide; cases typ <;> simp

/-- The two sides of a region have together as many rows as the region. -/
theorem mass_parts (f : Fin D) (pos : K) (typ : FeatType) (R : Region K D) :
    mass (part f pos typ false R) + mass (part f pos typ true R) = mass R + 1 := by
  unfold mass part
  have h : (R.1.filter fun r => decide (OnSide typ pos false (r f))).length + (R.1.filter fun r => decide (OnSide typ pos true (r f))).length = R.1.length := by
    induction R.1 with
    | nil => rfl
    | cons a t ih =>
      simp only [List.filter_cons]
      by_cases hc : OnSide typ pos false (a f)
      · have : ¬ OnSide typ pos true (a f) := fun h => (onSide_false_true typ pos (a f)).mpr h hc
        simp only [hc, this, decide_true, decide_false, if_true, Bool.false_eq_true, if_false, List.length_cons]
        omega
      · have := (onSide_false_true typ pos (a f)).mp hc
        simp only [hc, this, decide_true, decide_false, if_true, Bool.false_eq_true, if_false, List.length_cons]
        omega
  have h' : ((R.1.filter fun r => decide (OnSide typ pos false (r f))).length : K) + ((R.1.filter fun r => decide (OnSide typ pos true (r f))).length : K) =
      (R.1.length : K) := by exact_mod_cast h
  simp only
  linarith

/-- The drop of a split is a number that does not depend on the split, minus the heterogeneity after the split. -/
theorem weightedDrop_eq (H : List (Row K D) → Option (List (Row K D)) → K) (f : Fin D) (pos : K) (typ : FeatType) (Rs : List (Region K D)) (before : List K)
    (hl : before.length = Rs.length) :
    weightedDrop H f pos typ Rs before =
      ((Rs.zip before).map fun p => p.2 * (mass p.1 + 1)).sum / (Rs.map fun R => mass R + 1).sum - weightedHeter H (parts f pos typ Rs) := by
  have hT : ((parts f pos typ Rs).map mass).sum = (Rs.map fun R => mass R + 1).sum := by
    unfold parts
    clear hl
    induction Rs with
    | nil => rfl
    | cons R t ih =>
      simp only [List.flatMap_cons, List.cons_append, List.nil_append, List.map_cons, List.sum_cons, ih]
      rw [← mass_parts f pos typ R]
      ring
  unfold weightedDrop weightedHeter
  rw [hT, ← sub_div]
  congr 1
  unfold parts
  clear hT
  induction Rs generalizing before with
  | nil => simp
  | cons R t ih =>
    cases before with
    | nil => simp at hl
    | cons b bs =>
      have := ih bs (by simpa using hl)
      simp only [List.flatMap_cons, List.cons_append, List.nil_append, List.map_cons, List.sum_cons, List.zip_cons_cons, this]
      rw [← mass_parts f pos typ R]
      ring

/-- The regions after a split are the sides of the regions before it. -/
theorem parts_levelRegions (data : List (Row K D)) (eff : Option (List (Row K D))) (heff : ∀ e, eff = some e → data.length = e.length) (sps : List (Split K D))
    (sp : Split K D) : parts sp.feature sp.position sp.typ (levelRegions data eff sps) = levelRegions data eff (sps ++ [sp]) := by
  rw [← pairUp_regions, ← pairUp_splitAll _ _ (effRegions_len _ _ _), ← pairUp_regions, regions_snoc]
  congr 1
  cases he : eff with
  | none => rfl
  | some e =>
    simp only [Option.map_some]
    rw [effRegions_snoc _ _ (heff e he)]

/-- **C77.**  At every level the chosen split leaves the smallest weighted heterogeneity among all candidate positions of all conditioning features. -/
theorem C77_smallest_heterogeneity (cfg : RegCfg K D) (heff : EffAligned cfg) (s : Splits K D) (h : searchAllSplits cfg = .ok (some s))
    (i : ℕ) (sp : Split K D) (hi : s.levels[i]? = some sp) (f : Fin D) (hf : f ∈ cfg.foc) (pos : K) (hpos : Candidate cfg.data cfg.types cfg.nofSplits f pos) :
    sp.wHeter ≤ weightedHeter cfg.heter (parts f pos (cfg.types f) (levelRegions cfg.data cfg.dataEffect (s.levels.take i))) := by
  obtain ⟨-, h2, -, h4, -, h6, -, -⟩ := C41_best_split_at_every_level cfg heff s h i sp hi
  have := h2 f hf pos hpos
  beta_reduce at this
  rw [weightedDrop_eq _ _ _ _ _ _ (by simp), weightedDrop_eq _ _ _ _ _ _ (by simp)] at this
  have ht : s.levels.take (i + 1) = s.levels.take i ++ [sp] := by rw [List.take_add_one, hi]; rfl
  rw [← h4, parts_levelRegions _ _ heff, ← ht, ← h6] at this
  linarith

/-- The whole data set is the only region before the first split. -/
theorem levelRegions_nil (cfg : RegCfg K D) (heff : EffAligned cfg) :
    levelRegions cfg.data cfg.dataEffect ([] : List (Split K D)) = [(cfg.data, cfg.dataEffect)] := by
  rw [← pairUp_regions, regions_nil]
  cases he : cfg.dataEffect with
  | none => rfl
  | some e =>
    simp only [Option.map_some]
    rw [effRegions_nil _ _ (heff e he)]
    rfl

theorem weightedHeter_zero (H : List (Row K D) → Option (List (Row K D)) → K) (Rs : List (Region K D)) (hH : ∀ R ∈ Rs, 0 ≤ H R.1 R.2)
    (h : weightedHeter H Rs ≤ 0) : ∀ R ∈ Rs, H R.1 R.2 = 0 := by
  intro R hR
  have hT : 0 < (Rs.map mass).sum := by
    have h1 : mass R ≤ (Rs.map mass).sum := List.single_le_sum (by
      intro v hv
      obtain ⟨Q, -, rfl⟩ := List.mem_map.1 hv
      exact (mass_pos Q).le) _ (List.mem_map_of_mem hR)
    exact lt_of_lt_of_le (mass_pos R) h1
  unfold weightedHeter at h
  have hs : (Rs.map fun R => H R.1 R.2 * mass R).sum ≤ 0 := by
    by_contra hc
    exact absurd (div_pos (not_le.mp hc) hT) (not_lt.mpr h)
  have h1 : H R.1 R.2 * mass R ≤ (Rs.map fun R => H R.1 R.2 * mass R).sum := List.single_le_sum (by
      intro v hv
      obtain ⟨Q, hQ, rfl⟩ := List.mem_map.1 hv
      exact mul_nonneg (hH Q hQ) (mass_pos Q).le) _ (List.mem_map_of_mem (f := fun R => H R.1 R.2 * mass R) hR)
  have h2 := hH R hR
  have h3 := mass_pos (K := K) R
  by_contra hne
  have : 0 < H R.1 R.2 * mass R := mul_pos (lt_of_le_of_ne h2 (Ne.symm hne)) h3
  linarith

/-- **C77, a perfect split.**  If one candidate position of one conditioning feature removes all heterogeneity (both sides have heterogeneity 0), and the
heterogeneity before is positive, neither below `heter_small_enough` nor the failure value 1e8, then `fit` keeps exactly one split, and both of its sides have
heterogeneity 0. -/
theorem C77_perfect_split_found (cfg : RegCfg K D) (heff : EffAligned cfg) (s : Splits K D) (h : searchAllSplits cfg = .ok (some s))
    (hH : ∀ x e, 0 ≤ cfg.heter x e) (f : Fin D) (hf : f ∈ cfg.foc) (pos : K) (hpos : Candidate cfg.data cfg.types cfg.nofSplits f pos)
    (hperf : ∀ right, cfg.heter (part f pos (cfg.types f) right (cfg.data, cfg.dataEffect)).1 (part f pos (cfg.types f) right (cfg.data, cfg.dataEffect)).2 = 0)
    (h0 : 0 < cfg.heter cfg.data cfg.dataEffect) (hbig : cfg.heter cfg.data cfg.dataEffect ≠ 100000000)
    (hsmall : cfg.smallEnough ≤ cfg.heter cfg.data cfg.dataEffect) (hthres : cfg.dropThres < 1) :
    ∃ sp, s.levels[0]? = some sp ∧ chooseImportantSplits cfg (some s) = [sp] ∧ sp.heterogeneity = [0, 0] ∧ sp.wHeter = 0 ∧
      (sp.feature ∈ cfg.foc ∧ Candidate cfg.data cfg.types cfg.nofSplits sp.feature sp.position) ∧
      ∀ right, cfg.heter (part sp.feature sp.position (cfg.types sp.feature) right (cfg.data, cfg.dataEffect)).1
        (part sp.feature sp.position (cfg.types sp.feature) right (cfg.data, cfg.dataEffect)).2 = 0 := by
  have hS := searchAllSplits_ok cfg heff s h
  have hlen : 0 < s.levels.length := List.length_pos_of_ne_nil hS.nonempty
  obtain ⟨sp, hsp⟩ : ∃ sp, s.levels[0]? = some sp := ⟨_, List.getElem?_eq_getElem hlen⟩
  obtain ⟨c1, -, -, c4, -, c6, c7, -⟩ := C41_best_split_at_every_level cfg heff s h 0 sp hsp
  have hle := C77_smallest_heterogeneity cfg heff s h 0 sp hsp f hf pos hpos
  rw [List.take_zero, levelRegions_nil cfg heff] at hle
  have hz : weightedHeter cfg.heter (parts f pos (cfg.types f) [(cfg.data, cfg.dataEffect)]) = 0 := by
    unfold weightedHeter parts
    simp only [List.flatMap_cons, List.flatMap_nil, List.append_nil, List.map_cons, List.map_nil, hperf]
    simp
  rw [hz] at hle
  have ht : s.levels.take (0 + 1) = [] ++ [sp] := by rw [List.take_add_one, hsp]; rfl
  rw [ht, ← parts_levelRegions _ _ heff, levelRegions_nil cfg heff] at c6 c7
  have hzero := weightedHeter_zero cfg.heter _ (fun R _ => hH R.1 R.2) (c6 ▸ hle)
  have hw0 : sp.wHeter = 0 := le_antisymm hle ((C42_hypotheses_met cfg heff s h hH).2 sp (List.mem_of_getElem? hsp))
  have hparts : parts sp.feature sp.position sp.typ [(cfg.data, cfg.dataEffect)] =
      [part sp.feature sp.position sp.typ false (cfg.data, cfg.dataEffect), part sp.feature sp.position sp.typ true (cfg.data, cfg.dataEffect)] := by
    simp [parts]
  rw [hparts] at hzero c7
  obtain ⟨n, hn, hch, hall, hstop⟩ := C42_longest_prefix cfg s (by rw [hS.heterInit]; exact hbig) (by rw [hS.heterInit]; exact hsmall)
    (C42_hypotheses_met cfg heff s h hH).1 (C42_hypotheses_met cfg heff s h hH).2
  have hd0 : DropsEnough cfg.dropThres s 0 := by
    refine ⟨s.heterInit, sp, rfl, hsp, ?_⟩
    rw [hw0, sub_zero, hS.heterInit]
    have := mul_lt_mul_of_pos_right hthres h0
    rwa [one_mul] at this
  have hn1 : n = 1 := by
    have hpos : n ≠ 0 := by
      rintro rfl
      exact hstop hlen hd0
    by_contra hne
    obtain ⟨prev, sp', hp, hs1, hd⟩ := hall 1 (by omega)
    simp only [heterPrev, hsp, Option.map_some, Option.some.injEq] at hp
    subst hp
    have := (C42_hypotheses_met cfg heff s h hH).2 sp' (List.mem_of_getElem? hs1)
    rw [hw0] at hd
    linarith
  subst hn1
  refine ⟨sp, hsp, ?_, ?_, hw0, c1, ?_⟩
  · rw [hch]; exact ht
  · rw [c7]
    simp only [List.map_cons, List.map_nil]
    rw [hzero _ (by simp), hzero _ (by simp)]
  · intro right
    rw [← c4]
    cases right
    · exact hzero _ (by simp)
    · exact hzero _ (by simp)

end Effector
