import Verif.Props.MinPoints
import Verif.Props.PerfectSplit

/-!
# C104: the unit of the heterogeneity does not matter for the subregions

Two searches with the same arguments whose heterogeneities differ by a factor `q > 0` (and the penalty 1e8 for regions that are not admitted, which has no unit).
-/

set_option linter.unusedSectionVars false

namespace Effector

variable {K : Type} [Field K] [LinearOrder K] [IsStrictOrderedRing K] {D : ℕ}

open Spec

namespace Spec

/-- Some of the instances, and their effects. -/
def subRegion (data : List (Row K D)) (eff : Option (List (Row K D))) (P : Row K D → Bool) : Region K D :=
  (data.filter P, eff.map fun e => ((data.zip e).filter fun p => P p.1).map (·.2))

/-- The same search in another unit: same instances and arguments; `heter_small_enough` is converted; the heterogeneity of any set of instances is converted, or it is the
penalty 1e8 in both units, as it is for sets of fewer than `min_points` instances. -/
structure OtherUnit (q : K) (cfg cfg' : RegCfg K D) : Prop where
  feature : cfg'.feature = cfg.feature
  data : cfg'.data = cfg.data
  types : cfg'.types = cfg.types
  names : cfg'.names = cfg.names
  catLimit : cfg'.catLimit = cfg.catLimit
  foc : cfg'.foc = cfg.foc
  minPoints : cfg'.minPoints = cfg.minPoints
  nofSplits : cfg'.nofSplits = cfg.nofSplits
  maxLevels : cfg'.maxLevels = cfg.maxLevels
  dropThres : cfg'.dropThres = cfg.dropThres
  smallEnough : cfg'.smallEnough = q * cfg.smallEnough
  splitCat : cfg'.splitCat = cfg.splitCat
  aligned : EffAligned cfg
  aligned' : EffAligned cfg'
  heter : ∀ P : Row K D → Bool, let R := subRegion cfg.data cfg.dataEffect P; let R' := subRegion cfg.data cfg'.dataEffect P
    (cfg.heter R.1 R.2 = 100000000 ∧ cfg'.heter R'.1 R'.2 = 100000000) ∨ (0 ≤ cfg.heter R.1 R.2 ∧ cfg'.heter R'.1 R'.2 = q * cfg.heter R.1 R.2 ∧ cfg.minPoints ≤ R.1.length)

/-- The same split, the heterogeneities converted. -/
structure SplitIn (q : K) (sp sp' : Split K D) : Prop where
  feature : sp'.feature = sp.feature
  position : sp'.position = sp.position
  typ : sp'.typ = sp.typ
  nofInstances : sp'.nofInstances = sp.nofInstances
  heterogeneity : sp'.heterogeneity = sp.heterogeneity.map (q * ·)
  wHeter : sp'.wHeter = q * sp.wHeter

end Spec

/-- What a split asks. -/
def Split.key (sp : Split K D) : Fin D × K × FeatType := (sp.feature, sp.position, sp.typ)

theorem follows_key {sps sps' : List (Split K D)} (h : sps.map Split.key = sps'.map Split.key) (path : List Bool) (r : Row K D) :
    Follows sps path r ↔ Follows sps' path r := by
  unfold Follows
  induction sps generalizing sps' path with
  | nil =>
    cases sps' with
    | nil => rfl
    | cons a t => simp at h
  | cons a t ih =>
    cases sps' with
    | nil => simp at h
    | cons b u =>
      cases path with
      | nil => simp
      | cons x path =>
        simp only [List.map_cons, List.cons.injEq] at h
        have hk := h.1
        simp only [Split.key, Prod.mk.injEq] at hk
        simp only [List.zip_cons_cons, List.forall_mem_cons, ih h.2 path, hk.1, hk.2.1, hk.2.2]

/-- The regions as sets of instances. -/
def pathsOf (sps : List (Split K D)) : List (Row K D → Bool) := (paths sps.length).map fun path r => decide (Follows sps path r)

theorem pathsOf_key {sps sps' : List (Split K D)} (h : sps.map Split.key = sps'.map Split.key) : pathsOf sps = pathsOf sps' := by
  have hl : sps.length = sps'.length := by have := congrArg List.length h; simpa using this
  unfold pathsOf
  rw [hl]
  refine List.map_congr_left fun path _ => ?_
  funext r
  exact decide_eq_decide.mpr (follows_key h path r)

theorem levelRegions_eq (data : List (Row K D)) (eff : Option (List (Row K D))) (sps : List (Split K D)) :
    levelRegions data eff sps = (pathsOf sps).map (subRegion data eff) := by
  unfold levelRegions pathsOf subRegion
  rw [List.map_map]
  rfl

theorem subRegion_fst (data : List (Row K D)) (eff : Option (List (Row K D))) (P : Row K D → Bool) : (subRegion data eff P).1 = data.filter P := rfl

theorem mass_sub (data : List (Row K D)) (eff eff' : Option (List (Row K D))) (P : Row K D → Bool) : (mass (subRegion data eff P) : K) = mass (subRegion data eff' P) := rfl

/-- A candidate split. -/
def candSplit (f : Fin D) (pos : K) (typ : FeatType) : Split K D :=
  { feature := f, position := pos, range := (0, 0), candidates := [], nofInstances := [], typ := typ, heterogeneity := [], splitI := 0, splitJ := 0, wHeterDrop := 0, wHeter := 0 }

theorem parts_eq {cfg : RegCfg K D} (heff : EffAligned cfg) (sps : List (Split K D)) (sp : Split K D) :
    parts sp.feature sp.position sp.typ (levelRegions cfg.data cfg.dataEffect sps) = levelRegions cfg.data cfg.dataEffect (sps ++ [sp]) := by
  rw [← pairUp_regions, ← pairUp_regions, ← pairUp_splitAll _ _ (effRegions_len _ _ _), regions_snoc]
  congr 1
  cases he : cfg.dataEffect with
  | none => rfl
  | some e =>
    simp only [Option.map_some]
    rw [effRegions_snoc _ _ (heff e he)]

/-- Minimising the weighted heterogeneity after the split is maximising the drop. -/
theorem drop_le_iff {cfg : RegCfg K D} (heff : EffAligned cfg) (sps : List (Split K D)) (f g : Fin D) (u v : K) (t t' : FeatType) :
    let Rs := levelRegions cfg.data cfg.dataEffect sps
    weightedDrop cfg.heter f u t Rs (Rs.map fun R => cfg.heter R.1 R.2) ≤ weightedDrop cfg.heter g v t' Rs (Rs.map fun R => cfg.heter R.1 R.2) ↔
      weightedHeter cfg.heter (levelRegions cfg.data cfg.dataEffect (sps ++ [candSplit g v t'])) ≤
        weightedHeter cfg.heter (levelRegions cfg.data cfg.dataEffect (sps ++ [candSplit f u t])) := by
  intro Rs
  rw [weightedDrop_eq _ _ _ _ _ _ (by simp), weightedDrop_eq _ _ _ _ _ _ (by simp)]
  have h1 := parts_eq heff sps (candSplit f u t)
  have h2 := parts_eq heff sps (candSplit g v t')
  simp only [candSplit] at h1 h2
  simp only [Rs, h1, h2, candSplit]
  constructor <;> intro h <;> linarith

/-- The weighted heterogeneity of the regions that `sps` makes. -/
abbrev heterOf (cfg : RegCfg K D) (sps : List (Split K D)) : K := weightedHeter cfg.heter (levelRegions cfg.data cfg.dataEffect sps)

theorem subRegion_all {cfg : RegCfg K D} (heff : EffAligned cfg) : subRegion cfg.data cfg.dataEffect (fun _ => true) = (cfg.data, cfg.dataEffect) := by
  unfold subRegion
  refine Prod.ext (by simp) ?_
  cases he : cfg.dataEffect with
  | none => rfl
  | some e =>
    simp only [Option.map_some, List.filter_true, Option.some.injEq]
    rw [List.map_snd_zip (heff e he).ge]

theorem pathsOf_nil : pathsOf ([] : List (Split K D)) = [fun _ => true] := by
  unfold pathsOf paths
  simp [Follows]

theorem heterOf_nil {cfg : RegCfg K D} (heff : EffAligned cfg) : heterOf cfg [] = cfg.heter cfg.data cfg.dataEffect := by
  unfold heterOf weightedHeter
  rw [levelRegions_eq, pathsOf_nil]
  simp only [List.map_cons, List.map_nil, List.sum_cons, List.sum_nil, add_zero, subRegion_all heff]
  rw [mul_div_assoc, div_self (mass_pos _).ne', mul_one]

theorem heterOf_key {cfg : RegCfg K D} {sps sps' : List (Split K D)} (h : sps.map Split.key = sps'.map Split.key) : heterOf cfg sps = heterOf cfg sps' := by
  unfold heterOf
  rw [levelRegions_eq, levelRegions_eq, pathsOf_key h]

/-- The set is admitted in both units. -/
def GoodSet (q : K) (cfg cfg' : RegCfg K D) (P : Row K D → Bool) : Prop :=
  let R := subRegion cfg.data cfg.dataEffect P
  let R' := subRegion cfg.data cfg'.dataEffect P
  0 ≤ cfg.heter R.1 R.2 ∧ cfg'.heter R'.1 R'.2 = q * cfg.heter R.1 R.2 ∧ cfg.minPoints ≤ R.1.length

section

variable {q : K} {cfg cfg' : RegCfg K D}

theorem Spec.OtherUnit.symm (hq : 0 < q) (h : OtherUnit q cfg cfg') : OtherUnit q⁻¹ cfg' cfg where
  feature := h.feature.symm
  data := h.data.symm
  types := h.types.symm
  names := h.names.symm
  catLimit := h.catLimit.symm
  foc := h.foc.symm
  minPoints := h.minPoints.symm
  nofSplits := h.nofSplits.symm
  maxLevels := h.maxLevels.symm
  dropThres := h.dropThres.symm
  smallEnough := by rw [h.smallEnough, ← mul_assoc, inv_mul_cancel₀ hq.ne', one_mul]
  splitCat := h.splitCat.symm
  aligned := h.aligned'
  aligned' := h.aligned
  heter := fun P => by
    rw [h.data, h.minPoints]
    rcases h.heter P with ⟨h1, h2⟩ | ⟨h1, h2, h3⟩
    · exact Or.inl ⟨h2, h1⟩
    · refine Or.inr ⟨by rw [h2]; exact mul_nonneg hq.le h1, ?_, h3⟩
      rw [h2, ← mul_assoc, inv_mul_cancel₀ hq.ne', one_mul]

theorem Spec.OtherUnit.nonneg (h : OtherUnit q cfg cfg') (sps : List (Split K D)) : ∀ R ∈ levelRegions cfg.data cfg.dataEffect sps, 0 ≤ cfg.heter R.1 R.2 := by
  intro R hR
  rw [levelRegions_eq] at hR
  obtain ⟨P, -, rfl⟩ := List.mem_map.1 hR
  rcases h.heter P with ⟨h1, -⟩ | ⟨h1, -⟩
  · rw [h1]; norm_num
  · exact h1

theorem Spec.OtherUnit.heterOf_nonneg (h : OtherUnit q cfg cfg') (sps : List (Split K D)) : 0 ≤ heterOf cfg sps := by
  apply div_nonneg
  · apply List.sum_nonneg
    intro v hv
    obtain ⟨R, hR, rfl⟩ := List.mem_map.1 hv
    exact mul_nonneg (h.nonneg sps R hR) (mass_pos R).le
  · exact sum_mass_nonneg _

/-- Admitted regions: the weighted heterogeneity is converted. -/
theorem heterOf_good (h : OtherUnit q cfg cfg') {sps : List (Split K D)} (hg : ∀ P ∈ pathsOf sps, GoodSet q cfg cfg' P) : heterOf cfg' sps = q * heterOf cfg sps := by
  unfold heterOf weightedHeter
  rw [levelRegions_eq, levelRegions_eq, h.data]
  simp only [List.map_map, Function.comp_def]
  have e1 : ((pathsOf sps).map fun P => cfg'.heter (subRegion cfg.data cfg'.dataEffect P).1 (subRegion cfg.data cfg'.dataEffect P).2 *
      mass (subRegion cfg.data cfg'.dataEffect P)) = ((pathsOf sps).map fun P => cfg.heter (subRegion cfg.data cfg.dataEffect P).1
      (subRegion cfg.data cfg.dataEffect P).2 * mass (subRegion cfg.data cfg.dataEffect P)).map (q * ·) := by
    rw [List.map_map]
    refine List.map_congr_left fun P hP => ?_
    simp only [Function.comp]
    rw [(hg P hP).2.1, mass_sub _ cfg'.dataEffect cfg.dataEffect]
    ring
  have e2 : ∀ l : List K, (l.map (q * ·)).sum = q * l.sum := fun l => by
    induction l with
    | nil => simp
    | cons x t ih => simp only [List.map_cons, List.sum_cons, ih]; ring
  rw [e1, e2, mul_div_assoc]
  rfl

/-- A region that is not admitted: the weighted heterogeneity is large. -/
theorem good_of_small (h : OtherUnit q cfg cfg') {sps : List (Split K D)} (hs : heterOf cfg sps * ((cfg.data.length : K) + 2 ^ sps.length) < 100000000) :
    ∀ P ∈ pathsOf sps, GoodSet q cfg cfg' P := by
  intro P hP
  rcases h.heter P with ⟨h1, -⟩ | hg
  · exfalso
    have := weightedHeter_penalty cfg.heter (levelRegions cfg.data cfg.dataEffect sps) (h.nonneg sps) 100000000 (by norm_num) (subRegion cfg.data cfg.dataEffect P)
      (by rw [levelRegions_eq]; exact List.mem_map_of_mem hP) h1.ge
    rw [sum_mass_levelRegions] at this
    exact absurd hs (not_lt.mpr this)
  · exact hg

theorem good_symm (hq : 0 < q) (h : OtherUnit q cfg cfg') {P : Row K D → Bool} (hg : GoodSet q⁻¹ cfg' cfg P) : GoodSet q cfg cfg' P := by
  obtain ⟨h1, h2, h3⟩ := hg
  rw [h.data] at h1 h2 h3
  rw [h.minPoints] at h3
  refine ⟨by rw [h2]; exact mul_nonneg (inv_nonneg.mpr hq.le) h1, ?_, h3⟩
  rw [h2, ← mul_assoc, mul_inv_cancel₀ hq.ne', one_mul]

theorem take_snoc {s : Splits K D} {i : ℕ} {sp : Split K D} (hi : s.levels[i]? = some sp) : s.levels.take (i + 1) = s.levels.take i ++ [sp] := by
  rw [List.take_add_one, hi]; rfl

theorem heterOf_cand {sps : List (Split K D)} {sp : Split K D} {f : Fin D} {u : K} {t : FeatType} (h : sp.key = (f, u, t)) :
    heterOf cfg (sps ++ [candSplit f u t]) = heterOf cfg (sps ++ [sp]) := by
  refine heterOf_key ?_
  rw [List.map_append, List.map_append, List.map_cons, List.map_cons, h]
  rfl

/-- C41 in terms of the weighted heterogeneity after the split. -/
theorem best_split (heff : EffAligned cfg) {s : Splits K D} (hs : searchAllSplits cfg = .ok (some s)) {i : ℕ} {sp : Split K D} (hi : s.levels[i]? = some sp) :
    (sp.feature ∈ cfg.foc ∧ Candidate cfg.data cfg.types cfg.nofSplits sp.feature sp.position) ∧ sp.typ = cfg.types sp.feature ∧
    (∀ f ∈ cfg.foc, ∀ pos, Candidate cfg.data cfg.types cfg.nofSplits f pos →
      heterOf cfg (s.levels.take (i + 1)) ≤ heterOf cfg (s.levels.take i ++ [candSplit f pos (cfg.types f)])) ∧
    cfg.foc[sp.splitI]? = some sp.feature ∧
    (∀ (a : ℕ) f, cfg.foc[a]? = some f → ∀ pos, Candidate cfg.data cfg.types cfg.nofSplits f pos → (a < sp.splitI ∨ a = sp.splitI ∧ pos < sp.position) →
      heterOf cfg (s.levels.take (i + 1)) < heterOf cfg (s.levels.take i ++ [candSplit f pos (cfg.types f)])) ∧
    sp.wHeter = heterOf cfg (s.levels.take (i + 1)) ∧
    sp.heterogeneity = (levelRegions cfg.data cfg.dataEffect (s.levels.take (i + 1))).map (fun R => cfg.heter R.1 R.2) ∧
    sp.nofInstances = (levelRegions cfg.data cfg.dataEffect (s.levels.take (i + 1))).map fun R => R.1.length := by
  obtain ⟨b1, b2, ⟨b3, b4⟩, b5, -, b6, b7, b8⟩ := C41_best_split_at_every_level cfg heff s hs i sp hi
  have e : heterOf cfg (s.levels.take (i + 1)) = heterOf cfg (s.levels.take i ++ [candSplit sp.feature sp.position (cfg.types sp.feature)]) := by
    rw [take_snoc hi, heterOf_cand (sp := sp)]
    rw [Split.key, b5]
  refine ⟨b1, b5, fun f hf pos hp => ?_, b3, fun a f ha pos hp hlt => ?_, b6, b7, b8⟩
  · rw [e]
    exact (drop_le_iff heff _ _ _ _ _ _ _).mp (b2 f hf pos hp)
  · rw [e]
    exact not_le.mp fun hle => absurd ((drop_le_iff heff _ _ _ _ _ _ _).mpr hle) (not_le.mpr (b4 a f ha pos hp hlt))

/-- One level. -/
theorem Spec.OtherUnit.step (hq : 0 < q) (h : OtherUnit q cfg cfg') {s s' : Splits K D} (hs : searchAllSplits cfg = .ok (some s)) (hs' : searchAllSplits cfg' = .ok (some s'))
    {i : ℕ} (hi' : i ≤ s'.levels.length) (hk : (s.levels.take i).map Split.key = (s'.levels.take i).map Split.key)
    (hg : ∀ P ∈ pathsOf (s.levels.take i), GoodSet q cfg cfg' P) {sp : Split K D} (hi : s.levels[i]? = some sp)
    (hb : heterOf cfg (s.levels.take (i + 1)) * ((cfg.data.length : K) + 2 ^ cfg.maxLevels) < 100000000)
    (hb' : q * heterOf cfg (s.levels.take (i + 1)) * ((cfg.data.length : K) + 2 ^ cfg.maxLevels) < 100000000) :
    ∃ sp', s'.levels[i]? = some sp' ∧ sp'.key = sp.key ∧ ∀ P ∈ pathsOf (s.levels.take (i + 1)), GoodSet q cfg cfg' P := by
  have hlt := (List.getElem?_eq_some_iff.mp hi).1
  have hS := searchAllSplits_ok cfg h.aligned s hs
  have hS' := searchAllSplits_ok cfg' h.aligned' s' hs'
  have hlen : (s.levels.take (i + 1)).length ≤ cfg.maxLevels := (List.length_take_le' _ _).trans hS.depth
  have hN : ∀ {n : ℕ} {w : K}, 0 ≤ w → n ≤ cfg.maxLevels → w * ((cfg.data.length : K) + 2 ^ cfg.maxLevels) < 100000000 →
      w * ((cfg.data.length : K) + 2 ^ n) < 100000000 := fun hw hn hlt =>
    lt_of_le_of_lt (mul_le_mul_of_nonneg_left (by have := pow_le_pow_right₀ (one_le_two (α := K)) hn; linarith) hw) hlt
  have hgood := good_of_small h (hN (h.heterOf_nonneg _) hlen hb)
  -- the other search goes on
  have hi2 : i < s'.levels.length := by
    rcases hi'.lt_or_eq with hl | hl
    · exact hl
    exfalso
    obtain ⟨x, hx, hxs⟩ := hS'.stopped (by rw [← hl, h.maxLevels]; exact hlt.trans_le hS.depth)
    rw [← levelRegions_fst cfg'.data cfg'.dataEffect, levelRegions_eq] at hx
    obtain ⟨R, hR, rfl⟩ := List.mem_map.1 hx
    obtain ⟨P, hP, rfl⟩ := List.mem_map.1 hR
    rw [hl, List.take_length] at hk
    rw [← pathsOf_key hk] at hP
    rw [← hl] at hP
    have := (hg P hP).2.2
    rw [h.data, h.minPoints] at hxs
    exact absurd hxs (not_lt.mpr this)
  refine ⟨s'.levels[i], List.getElem?_eq_getElem hi2, ?_, hgood⟩
  obtain ⟨a1, a2, a3, a4, a5, -⟩ := best_split h.aligned hs hi
  obtain ⟨b1, b2, b3, b4, b5, -⟩ := best_split h.aligned' hs' (List.getElem?_eq_getElem hi2)
  have hlen' : (s'.levels.take (i + 1)).length ≤ cfg.maxLevels := by rw [← h.maxLevels]; exact (List.length_take_le' _ _).trans hS'.depth
  generalize hsp' : s'.levels[i] = sp' at *
  have hi3 : s'.levels[i]? = some sp' := by rw [List.getElem?_eq_getElem hi2, hsp']
  rw [h.types, h.data, h.nofSplits] at *
  rw [h.foc] at *
  have hkey : ∀ (x : Split K D), ((s'.levels.take i) ++ [x]).map Split.key = ((s.levels.take i) ++ [x]).map Split.key := fun x => by
    rw [List.map_append, List.map_append, hk]
  have c1 : ∀ f pos, heterOf cfg' (s'.levels.take i ++ [candSplit f pos (cfg.types f)]) = heterOf cfg' (s.levels.take i ++ [candSplit f pos (cfg.types f)]) :=
    fun f pos => heterOf_key (hkey _)
  have e1 : heterOf cfg' (s.levels.take i ++ [candSplit sp.feature sp.position (cfg.types sp.feature)]) = q * heterOf cfg (s.levels.take (i + 1)) := by
    rw [heterOf_cand (sp := sp) (by rw [Split.key, a2]), ← take_snoc hi, heterOf_good h hgood]
  -- the choice of the other search is admitted
  have e2 : heterOf cfg' (s'.levels.take (i + 1)) ≤ q * heterOf cfg (s.levels.take (i + 1)) := by
    have := b3 sp.feature a1.1 sp.position a1.2
    rwa [c1, e1] at this
  have hgood' : ∀ P ∈ pathsOf (s'.levels.take (i + 1)), GoodSet q cfg cfg' P := by
    have := good_of_small (h.symm hq) (sps := s'.levels.take (i + 1)) (by
      rw [h.data]
      refine hN ((h.symm hq).heterOf_nonneg _) hlen' (lt_of_le_of_lt ?_ hb')
      exact mul_le_mul_of_nonneg_right e2 (by positivity))
    exact fun P hP => good_symm hq h (this P hP)
  have e3 : heterOf cfg' (s'.levels.take (i + 1)) = q * heterOf cfg (s.levels.take i ++ [candSplit sp'.feature sp'.position (cfg.types sp'.feature)]) := by
    rw [heterOf_good h hgood', take_snoc hi3, heterOf_cand (sp := sp') (by rw [Split.key, b2])]
    congr 1
    exact heterOf_key (hkey _)
  have e4 := a3 sp'.feature b1.1 sp'.position b1.2
  have e5 : q * heterOf cfg (s.levels.take i ++ [candSplit sp'.feature sp'.position (cfg.types sp'.feature)]) ≤ q * heterOf cfg (s.levels.take (i + 1)) := by
    rw [← e3]; exact e2
  have n1 : ¬ (sp'.splitI < sp.splitI ∨ sp'.splitI = sp.splitI ∧ sp'.position < sp.position) := fun hc => by
    have := a5 _ _ b4 _ b1.2 hc
    have := mul_lt_mul_of_pos_left this hq
    linarith
  have n2 : ¬ (sp.splitI < sp'.splitI ∨ sp.splitI = sp'.splitI ∧ sp.position < sp'.position) := fun hc => by
    have := b5 _ _ a4 _ a1.2 hc
    rw [c1, e1, e3] at this
    have h4 := mul_le_mul_of_nonneg_left e4 hq.le
    linarith
  push Not at n1 n2
  have hI : sp'.splitI = sp.splitI := le_antisymm n2.1 n1.1
  have hf : sp'.feature = sp.feature := by rw [hI, a4] at b4; exact (Option.some.inj b4).symm
  have hp : sp'.position = sp.position := le_antisymm (n2.2 hI.symm) (n1.2 hI)
  unfold Split.key
  rw [a2, b2, hf, hp]

theorem heterPrev_eq (heff : EffAligned cfg) {s : Splits K D} (hs : searchAllSplits cfg = .ok (some s)) {i : ℕ} (hi : i ≤ s.levels.length) :
    heterPrev s i = some (heterOf cfg (s.levels.take i)) := by
  cases i with
  | zero => rw [heterPrev, List.take_zero, heterOf_nil heff, (searchAllSplits_ok cfg heff s hs).heterInit]
  | succ i =>
    have hlt : i < s.levels.length := hi
    obtain ⟨-, -, -, -, -, h6, -⟩ := best_split heff hs (List.getElem?_eq_getElem hlt)
    simp only [heterPrev, List.getElem?_eq_getElem hlt, Option.map_some, h6]

theorem dropsEnough_iff (heff : EffAligned cfg) {s : Splits K D} (hs : searchAllSplits cfg = .ok (some s)) (thr : K) (i : ℕ) :
    DropsEnough thr s i ↔ i < s.levels.length ∧ thr * heterOf cfg (s.levels.take i) < heterOf cfg (s.levels.take i) - heterOf cfg (s.levels.take (i + 1)) := by
  unfold DropsEnough
  constructor
  · rintro ⟨prev, sp, h1, h2, h3⟩
    have hlt := (List.getElem?_eq_some_iff.mp h2).1
    rw [heterPrev_eq heff hs hlt.le] at h1
    obtain ⟨-, -, -, -, -, h6, -⟩ := best_split heff hs h2
    rw [h6, ← Option.some.inj h1] at h3
    exact ⟨hlt, h3⟩
  · rintro ⟨hlt, h3⟩
    obtain ⟨-, -, -, -, -, h6, -⟩ := best_split heff hs (List.getElem?_eq_getElem hlt)
    exact ⟨_, _, heterPrev_eq heff hs hlt.le, List.getElem?_eq_getElem hlt, by rw [h6]; exact h3⟩

/-- The first `n` important splits are important splits of the other search. -/
theorem Spec.OtherUnit.prefix (hq : 0 < q) (h : OtherUnit q cfg cfg') {s s' : Splits K D} (hs : searchAllSplits cfg = .ok (some s)) (hs' : searchAllSplits cfg' = .ok (some s'))
    (hthr : 0 ≤ cfg.dropThres) (hg0 : GoodSet q cfg cfg' fun _ => true)
    (hb : cfg.heter cfg.data cfg.dataEffect * ((cfg.data.length : K) + 2 ^ cfg.maxLevels) ≤ 100000000)
    (hb' : q * cfg.heter cfg.data cfg.dataEffect * ((cfg.data.length : K) + 2 ^ cfg.maxLevels) ≤ 100000000) (n : ℕ) (hn : ∀ i < n, DropsEnough cfg.dropThres s i) :
    n ≤ s'.levels.length ∧ (s.levels.take n).map Split.key = (s'.levels.take n).map Split.key ∧ (∀ P ∈ pathsOf (s.levels.take n), GoodSet q cfg cfg' P) ∧
      heterOf cfg (s.levels.take n) ≤ cfg.heter cfg.data cfg.dataEffect ∧ ∀ i < n, DropsEnough cfg.dropThres s' i := by
  induction n with
  | zero =>
    refine ⟨Nat.zero_le _, by simp, ?_, by rw [List.take_zero, heterOf_nil h.aligned], by omega⟩
    rw [List.take_zero, pathsOf_nil]
    simpa using hg0
  | succ n ih =>
    obtain ⟨i1, i2, i3, i4, i5⟩ := ih fun i hi => hn i (by omega)
    obtain ⟨d1, d2⟩ := (dropsEnough_iff h.aligned hs _ _).mp (hn n (by omega))
    have hT : (0 : K) < (cfg.data.length : K) + 2 ^ cfg.maxLevels := by positivity
    have hw := mul_nonneg hthr (h.heterOf_nonneg (s.levels.take n))
    have hlt : heterOf cfg (s.levels.take (n + 1)) < cfg.heter cfg.data cfg.dataEffect := by linarith
    obtain ⟨sp', j1, j2, j3⟩ := h.step hq hs hs' i1 i2 i3 (List.getElem?_eq_getElem d1) (lt_of_lt_of_le (mul_lt_mul_of_pos_right hlt hT) hb)
      (lt_of_lt_of_le (mul_lt_mul_of_pos_right (mul_lt_mul_of_pos_left hlt hq) hT) hb')
    have hk : (s.levels.take (n + 1)).map Split.key = (s'.levels.take (n + 1)).map Split.key := by
      rw [take_snoc (List.getElem?_eq_getElem d1), take_snoc j1, List.map_append, List.map_append, i2, List.map_cons, List.map_cons, j2]
    have hlt' := (List.getElem?_eq_some_iff.mp j1).1
    refine ⟨hlt', hk, j3, hlt.le, fun i hi => ?_⟩
    rcases (Nat.lt_succ_iff.mp hi).lt_or_eq with hi | rfl
    · exact i5 i hi
    · refine (dropsEnough_iff h.aligned' hs' _ _).mpr ⟨hlt', ?_⟩
      rw [← heterOf_key i2, ← heterOf_key hk, heterOf_good h i3, heterOf_good h j3]
      have := mul_lt_mul_of_pos_left d2 hq
      calc cfg.dropThres * (q * heterOf cfg (s.levels.take i)) = q * (cfg.dropThres * heterOf cfg (s.levels.take i)) := by ring
        _ < _ := this
        _ = _ := by ring

/-- **C104, the splits.**  Two searches with the same arguments in different units choose the same important splits, with the heterogeneities converted, provided that the threshold is not
negative and the heterogeneity of the whole data set is, in both units, at most `1e8 / (N + 2 ^ max_depth)`. -/
theorem C104_important_splits (hq : 0 < q) (h : OtherUnit q cfg cfg') {s s' : Splits K D} (hs : searchAllSplits cfg = .ok (some s))
    (hs' : searchAllSplits cfg' = .ok (some s')) (hthr : 0 ≤ cfg.dropThres)
    (hb : cfg.heter cfg.data cfg.dataEffect * ((cfg.data.length : K) + 2 ^ cfg.maxLevels) ≤ 100000000)
    (hb' : cfg'.heter cfg'.data cfg'.dataEffect * ((cfg.data.length : K) + 2 ^ cfg.maxLevels) ≤ 100000000) :
    List.Forall₂ (SplitIn q) (chooseImportantSplits cfg (some s)) (chooseImportantSplits cfg' (some s')) := by
  have hS := searchAllSplits_ok cfg h.aligned s hs
  have hS' := searchAllSplits_ok cfg' h.aligned' s' hs'
  have hroot := h.heter fun _ => true
  have hr' : subRegion cfg.data cfg'.dataEffect (fun _ => true) = (cfg'.data, cfg'.dataEffect) := by rw [← h.data]; exact subRegion_all h.aligned'
  simp only [subRegion_all h.aligned, hr'] at hroot
  rcases hroot with ⟨r1, r2⟩ | ⟨r1, r2, r3⟩
  · rw [C42_nothing cfg _ (.inr ⟨s, rfl, .inr (by rw [hS.heterInit, r1])⟩), C42_nothing cfg' _ (.inr ⟨s', rfl, .inr (by rw [hS'.heterInit, r2])⟩)]
    exact .nil
  have hg0 : GoodSet q cfg cfg' fun _ => true := by
    unfold GoodSet
    simp only [subRegion_all h.aligned, hr']
    exact ⟨r1, r2, r3⟩
  have hT : (1 : K) < (cfg.data.length : K) + 2 ^ cfg.maxLevels := by
    have h1 : 1 ≤ cfg.maxLevels := by
      have := hS.depth
      have := List.length_pos_of_ne_nil hS.nonempty
      omega
    have h2 := pow_le_pow_right₀ (one_le_two (α := K)) h1
    have h3 : (0 : K) ≤ (cfg.data.length : K) := Nat.cast_nonneg _
    norm_num at h2
    linarith
  have hne : ∀ w : K, w * ((cfg.data.length : K) + 2 ^ cfg.maxLevels) ≤ 100000000 → w ≠ 100000000 := by
    rintro w hw rfl
    have : (100000000 : K) * 1 < 100000000 * ((cfg.data.length : K) + 2 ^ cfg.maxLevels) := mul_lt_mul_of_pos_left hT (by norm_num)
    linarith
  have n1 : s.heterInit ≠ 100000000 := by rw [hS.heterInit]; exact hne _ hb
  have n1' : s'.heterInit ≠ 100000000 := by rw [hS'.heterInit]; exact hne _ hb'
  have hinit : s'.heterInit = q * s.heterInit := by rw [hS'.heterInit, hS.heterInit]; exact r2
  by_cases hsm : s.heterInit < cfg.smallEnough
  · rw [C42_nothing cfg _ (.inr ⟨s, rfl, .inl hsm⟩), C42_nothing cfg' _ (.inr ⟨s', rfl, .inl (by
      rw [hinit, h.smallEnough]; exact mul_lt_mul_of_pos_left hsm hq)⟩)]
    exact .nil
  have hsm := not_lt.mp hsm
  have hpos : ∀ {cf cf' : RegCfg K D} {p : K} {t : Splits K D}, OtherUnit p cf cf' → searchAllSplits cf = .ok (some t) → ∀ sp ∈ t.levels, 0 ≤ sp.wHeter := by
    intro cf cf' p t ho ht sp hsp
    obtain ⟨k, hk⟩ := List.getElem?_of_mem hsp
    obtain ⟨-, -, -, -, -, h6, -⟩ := best_split ho.aligned ht hk
    rw [h6]
    exact ho.heterOf_nonneg _
  have h0 : 0 ≤ s.heterInit := by rw [hS.heterInit]; exact r1
  obtain ⟨n, m1, m2, m3, m4⟩ := C42_longest_prefix cfg s n1 hsm h0 (hpos h hs)
  obtain ⟨n', m1', m2', m3', m4'⟩ := C42_longest_prefix cfg' s' n1' (by rw [hinit, h.smallEnough]; exact mul_le_mul_of_nonneg_left hsm hq.le)
    (by rw [hinit]; exact mul_nonneg hq.le h0) (hpos (h.symm hq) hs')
  have hb2 : q * cfg.heter cfg.data cfg.dataEffect * ((cfg.data.length : K) + 2 ^ cfg.maxLevels) ≤ 100000000 := by rw [← r2]; exact hb'
  obtain ⟨p1, p2, p3, -, p5⟩ := h.prefix hq hs hs' hthr hg0 hb hb2 n m3
  have hg0' : GoodSet q⁻¹ cfg' cfg fun _ => true := good_symm (inv_pos.mpr hq) (h.symm hq) (by rw [inv_inv]; exact hg0)
  obtain ⟨p1', -, -, -, p5'⟩ := (h.symm hq).prefix (inv_pos.mpr hq) hs' hs (by rw [h.dropThres]; exact hthr) hg0' (by rw [h.data, h.maxLevels, ← h.data]; rw [h.data] at *; exact hb')
    (by rw [h.data, h.maxLevels]; rw [h.data] at r2; rw [r2, ← mul_assoc, inv_mul_cancel₀ hq.ne', one_mul]; exact hb) n' m3'
  have hnn : n = n' := by
    rcases lt_trichotomy n n' with hl | hl | hl
    · exact absurd (h.dropThres ▸ p5' n hl) (m4 (by omega))
    · exact hl
    · exact absurd (h.dropThres ▸ p5 n' hl) (m4' (by omega))
  subst hnn
  rw [m2, m2']
  rw [List.forall₂_iff_get]
  refine ⟨by rw [List.length_take, List.length_take]; omega, fun i hi hi' => ?_⟩
  rw [List.length_take] at hi hi'
  simp only [List.get_eq_getElem, List.getElem_take]
  have g1 : s.levels[i]? = some s.levels[i] := List.getElem?_eq_getElem _
  have g2 : s'.levels[i]? = some s'.levels[i] := List.getElem?_eq_getElem _
  obtain ⟨-, k2, k3, -⟩ := h.prefix hq hs hs' hthr hg0 hb hb2 (i + 1) fun j hj => m3 j (by omega)
  obtain ⟨-, -, -, -, -, a6, a7, a8⟩ := best_split h.aligned hs g1
  obtain ⟨-, -, -, -, -, b6, b7, b8⟩ := best_split h.aligned' hs' g2
  have hkey : (s.levels[i]).key = (s'.levels[i]).key := by
    have := congrArg (fun l => l[i]?) k2
    simp only [List.getElem?_map, List.getElem?_take, if_pos (Nat.lt_succ_self i), g1, g2, Option.map_some, Option.some.injEq] at this
    exact this
  simp only [Split.key, Prod.mk.injEq] at hkey
  rw [levelRegions_eq] at a7 a8 b7 b8
  rw [← pathsOf_key k2, h.data] at b7 b8
  refine ⟨hkey.1.symm, hkey.2.1.symm, hkey.2.2.symm, ?_, ?_, ?_⟩
  · rw [a8, b8, List.map_map, List.map_map]
    rfl
  · rw [a7, b7, List.map_map, List.map_map, List.map_map]
    exact List.map_congr_left fun P hP => (k3 P hP).2.1
  · rw [a6, b6, ← heterOf_key k2, heterOf_good h k3]

end

end Effector
