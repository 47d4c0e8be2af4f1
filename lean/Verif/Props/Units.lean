import Verif.Props.Replication
import Verif.Props.Irrelevant
import Verif.Props.Plot
import Verif.Lemmas.DpScale
import Mathlib.Tactic.FieldSimp

/-!
# C84: the unit in which a feature is measured
-/

namespace Effector

set_option linter.unusedSectionVars false

open Spec

variable {K : Type} [Field K] [LinearOrder K] [IsStrictOrderedRing K] {D : ℕ}

namespace Spec

/-- The instance with feature `s` measured in another unit: `a * x + b` instead of `x`. -/
def inUnit (s : Fin D) (a b : K) (r : Row K D) : Row K D := Function.update r s (a * r s + b)

/-- Derivatives, with the one with respect to feature `s` taken in the other unit. -/
def perUnit (s : Fin D) (a : K) (e : Row K D) : Row K D := Function.update e s (e s / a)

end Spec

section affine

variable {a b : K} (ha : 0 < a)

include ha

theorem unit_lt (x y : K) : a * x + b < a * y + b ↔ x < y := by
  rw [add_lt_add_iff_right, mul_lt_mul_iff_right₀ ha]

theorem unit_le (x y : K) : a * x + b ≤ a * y + b ↔ x ≤ y := by
  rw [add_le_add_iff_right, mul_le_mul_iff_right₀ ha]

theorem unit_min (x y : K) : min (a * x + b) (a * y + b) = a * min x y + b := by
  rcases le_total x y with h | h
  · rw [min_eq_left h, min_eq_left ((unit_le ha x y).mpr h)]
  · rw [min_eq_right h, min_eq_right ((unit_le ha y x).mpr h)]

theorem unit_max (x y : K) : max (a * x + b) (a * y + b) = a * max x y + b := by
  rcases le_total x y with h | h
  · rw [max_eq_right h, max_eq_right ((unit_le ha x y).mpr h)]
  · rw [max_eq_left h, max_eq_left ((unit_le ha y x).mpr h)]

theorem unit_increasing {l : List K} (h : Increasing l) : Increasing (l.map fun x => a * x + b) :=
  List.pairwise_map.mpr (h.imp fun hxy => (unit_lt ha _ _).mpr hxy)

theorem linspace_unit (lo hi : K) (n : ℕ) : linspace (a * lo + b) (a * hi + b) n = (linspace lo hi n).map fun x => a * x + b := by
  unfold linspace
  rw [List.map_map]
  apply List.map_congr_left
  intro i _
  simp only [linspaceAt, Function.comp]
  ring

theorem npUnique_unit (xs : List K) : npUnique (xs.map fun x => a * x + b) = (npUnique xs).map fun x => a * x + b := by
  refine increasing_ext (npUnique_sorted _) (unit_increasing ha (npUnique_sorted xs)) fun x => ?_
  simp only [mem_npUnique, List.mem_map]

theorem catLimitsTail_unit (last : K) (u : List K) :
    catLimitsTail (a * last) (u.map fun x => a * x + b) = (catLimitsTail last u).map fun x => a * x + b := by
  induction u generalizing last with
  | nil => rfl
  | cons x t ih =>
    cases t with
    | nil => simp only [List.map_cons, List.map_nil, catLimitsTail, List.cons.injEq, and_true]; ring
    | cons y t =>
      have e : a * y + b - (a * x + b) = a * (y - x) := by ring
      have := ih (y - x)
      simp only [List.map_cons] at this
      simp only [List.map_cons, catLimitsTail, e, this, List.cons.injEq, and_true]
      ring

theorem catLimits_unit (u : List K) : catLimits (u.map fun x => a * x + b) = (catLimits u).map (List.map fun x => a * x + b) := by
  match u with
  | [] => rfl
  | [x] => rfl
  | x :: y :: t =>
    have e : a * y + b - (a * x + b) = a * (y - x) := by ring
    have := catLimitsTail_unit (b := b) ha (y - x) (x :: y :: t)
    simp only [List.map_cons] at this
    simp only [List.map_cons, catLimits, e, this, Except.map, Except.ok.injEq, List.cons.injEq, and_true]
    ring

theorem bins_unit (l : List K) : bins (l.map fun x => a * x + b) = (bins l).map fun p => (a * p.1 + b, a * p.2 + b) := by
  induction l with
  | nil => rfl
  | cons x t ih =>
    cases t with
    | nil => rfl
    | cons y t =>
      simp only [List.map_cons] at ih
      simp only [List.map_cons, bins, ih]

theorem inBin_unit (u v x : K) : inBin (a * u + b) (a * v + b) (a * x + b) = inBin u v x := by
  unfold inBin
  simp only [unit_le ha]

theorem binValid_unit (xs : List K) (m : ℕ) (u v : K) : binValid (xs.map fun x => a * x + b) m (a * u + b) (a * v + b) = binValid xs m u v := by
  unfold binValid filterXs
  have : (inBin (a * u + b) (a * v + b) ∘ fun x => a * x + b) = inBin u v := funext fun x => inBin_unit ha u v x
  rw [List.filter_map, List.length_map, this]

theorem zip_unit (xs eff : List K) : (xs.map fun x => a * x + b).zip (eff.map (· / a)) = (xs.zip eff).map fun p => (a * p.1 + b, p.2 / a) := by
  rw [List.zip_map]; rfl

theorem filterEff_unit (xs eff : List K) (u v : K) :
    filterEff (xs.map fun x => a * x + b) (eff.map (· / a)) (a * u + b) (a * v + b) = (filterEff xs eff u v).map (· / a) := by
  unfold filterEff
  rw [zip_unit ha, List.filter_map, List.map_map, List.map_map]
  have : ((fun p : K × K => inBin (a * u + b) (a * v + b) p.1) ∘ fun p : K × K => (a * p.1 + b, p.2 / a)) = fun p => inBin u v p.1 :=
    funext fun p => inBin_unit ha u v p.1
  rw [this]
  rfl

theorem mean_unit (l : List K) : mean (l.map (· / a)) = mean l / a := by
  unfold mean
  have hs : (l.map (· / a)).sum = l.sum / a := by
    induction l with
    | nil => simp
    | cons x t ih => rw [List.map_cons, List.sum_cons, ih, List.sum_cons, add_div]
  rw [hs, List.length_map, div_right_comm]

theorem variance_unit (l : List K) : variance (l.map (· / a)) = variance l / a ^ 2 := by
  unfold variance
  rw [mean_unit ha]
  unfold mean
  rw [List.map_map, List.length_map, List.length_map]
  have hs : ∀ (μ : K) (l : List K), (l.map ((fun y => (y - μ / a) ^ 2) ∘ (· / a))).sum = (l.map fun y => (y - μ) ^ 2).sum / a ^ 2 := by
    intro μ l
    induction l with
    | nil => simp
    | cons x t ih =>
      rw [List.map_cons, List.sum_cons, ih, List.map_cons, List.sum_cons, add_div]
      simp only [Function.comp]
      rw [← sub_div, div_pow]
  rw [hs, div_right_comm]

theorem npVar_unit (l : List K) : npVar (l.map (· / a)) = (npVar l).map (· / a ^ 2) := by
  unfold npVar
  by_cases h : l = []
  · subst h; rfl
  · rw [if_neg h, if_neg (by simpa using h), variance_unit ha]; rfl

theorem binCost_unit (xs eff : List K) (m : ℕ) (d u v : K) (hm : ¬ (filterEff xs eff u v).length < m) :
    binCost (xs.map fun x => a * x + b) (eff.map (· / a)) m d (a * u + b) (a * v + b) = (binCost xs eff m d u v).map (· / a) := by
  have hane : a ≠ 0 := ha.ne'
  unfold binCost
  simp only [filterEff_unit ha, List.length_map, if_neg hm, npVar_unit ha, Option.map_map]
  congr 1
  funext w
  simp only [Function.comp]
  field_simp
  ring

theorem nanEqZero_unit (o : Option K) : nanEqZero (o.map (· / a)) = nanEqZero o := by
  cases o with
  | none => rfl
  | some x => simp [nanEqZero, ha.ne']

theorem nanPos_unit (o : Option K) : nanPos (o.map (· / a)) = nanPos o := by
  cases o with
  | none => rfl
  | some x => simp [nanPos, ha]

theorem nanLe_unit (o o' : Option K) : nanLe (o.map (· / a)) (o'.map (· / a)) = nanLe o o' := by
  cases o with
  | none => cases o' <;> rfl
  | some x =>
    cases o' with
    | none => rfl
    | some y => simp [nanLe, div_le_div_iff_of_pos_right ha]

theorem filterEff_length {xs eff : List K} (h : eff.length = xs.length) (u v : K) : (filterEff xs eff u v).length = (filterXs xs u v).length := by
  unfold filterEff filterXs
  conv_rhs => rw [← List.map_fst_zip h.ge]
  rw [List.filter_map, List.length_map, List.length_map]
  rfl

theorem closeDecision_unit {xs eff : List K} (h : eff.length = xs.length) (m : ℕ) (d u v w : K) :
    closeDecision (xs.map fun x => a * x + b) (eff.map (· / a)) m d (a * u + b) (a * v + b) (a * w + b) = closeDecision xs eff m d u v w := by
  unfold closeDecision
  simp only [binValid_unit ha]
  by_cases hv : (binValid xs m u v && binValid xs m u w) = true
  · rw [if_pos hv, if_pos hv]
    rw [Bool.and_eq_true] at hv
    unfold binValid at hv
    simp only [decide_eq_true_eq, ← filterEff_length ha h] at hv
    rw [binCost_unit ha _ _ _ _ _ _ (by omega), binCost_unit ha _ _ _ _ _ _ (by omega)]
    simp only [nanEqZero_unit ha, nanPos_unit ha, nanLe_unit ha]
  · rw [if_neg hv, if_neg hv]

theorem greedyLoop_unit {xs eff : List K} (h : eff.length = xs.length) (m : ℕ) (d left : K) (rest : List K) :
    greedyLoop (xs.map fun x => a * x + b) (eff.map (· / a)) m d (a * left + b) (rest.map fun x => a * x + b) =
      (greedyLoop xs eff m d left rest).map fun x => a * x + b := by
  induction rest generalizing left with
  | nil => rfl
  | cons l1 t ih =>
    cases t with
    | nil => rfl
    | cons l2 t =>
      simp only [List.map_cons] at ih
      simp only [List.map_cons, greedyLoop, closeDecision_unit ha h, ih]
      by_cases hc : closeDecision xs eff m d left l1 l2 = true
      · rw [if_pos hc, if_pos hc, List.map_cons]
      · rw [if_neg hc, if_neg hc]

theorem repairLast_unit (xs : List K) (m : ℕ) (l : List K) :
    repairLast (xs.map fun x => a * x + b) m (l.map fun x => a * x + b) = (repairLast xs m l).map (List.map fun x => a * x + b) := by
  unfold repairLast
  rw [← List.map_reverse]
  generalize hr : l.reverse = r
  have hl : l = r.reverse := by rw [← hr, List.reverse_reverse]
  subst hl
  match r with
  | [] => rfl
  | [x] => rfl
  | x :: y :: t =>
    simp only [List.map_cons, binValid_unit ha, Except.map, Except.ok.injEq]
    by_cases hv : binValid xs m y x = true
    · rw [if_pos hv, if_pos hv]
    · rw [if_neg hv, if_neg hv]
      simp

theorem noneValidBinning_unit (xs : List K) (mo : Option ℕ) : noneValidBinning (xs.map fun x => a * x + b) mo = noneValidBinning xs mo := by
  unfold noneValidBinning
  cases mo with
  | none => rfl
  | some m => simp only [npUnique_unit ha, List.length_map]

/-- The result of a binning method, in the other unit. -/
def Lim.inUnit (a b : K) : Lim K → Lim K
  | .impossible => .impossible
  | .arr l => .arr (l.map fun x => a * x + b)

theorem allValid_unit (xs : List K) (mo : Option ℕ) (l : List K) :
    (bins (l.map fun x => a * x + b)).all (fun p => binValidOpt (xs.map fun x => a * x + b) mo p.1 p.2) = (bins l).all fun p => binValidOpt xs mo p.1 p.2 := by
  rw [bins_unit ha, List.all_map]
  congr 1
  funext p
  cases mo with
  | none => rfl
  | some m => exact binValid_unit ha xs m p.1 p.2

theorem isCategorical_unit (xs : List K) (mo : Option ℕ) (cl : ℕ) :
    isCategorical (xs.map fun x => a * x + b) mo cl = (isCategorical xs mo cl).map (Option.map (Lim.inUnit a b)) := by
  unfold isCategorical
  rw [npUnique_unit ha, List.length_map, catLimits_unit ha]
  by_cases h : (npUnique xs).length ≤ cl
  · rw [if_pos h, if_pos h]
    cases catLimits (npUnique xs) with
    | error e => rfl
    | ok l =>
      simp only [Except.map, bind, Except.bind, pure, Except.pure, allValid_unit ha, Option.map_some, Except.ok.injEq, Option.some.injEq]
      split <;> rfl
  · rw [if_neg h, if_neg h]
    rfl

/-- A binning problem in the other unit. -/
structure CtxUnit (a b : K) (c c' : BinCtx K) : Prop where
  xmin : c'.xmin = a * c.xmin + b
  xmax : c'.xmax = a * c.xmax + b
  xs : c'.xs = c.xs.map fun x => a * x + b
  eff : c'.eff = c.eff.map (List.map (· / a))
  len : ∀ e, c.eff = some e → e.length = c.xs.length

theorem fixedFind_unit {c c' : BinCtx K} (h : CtxUnit a b c c') (n : ℕ) (mo : Option ℕ) (cl : ℕ) :
    fixedFind c' n mo cl = (fixedFind c n mo cl).map (Lim.inUnit a b) := by
  unfold fixedFind
  rw [h.xs, h.xmin, h.xmax, noneValidBinning_unit ha, isCategorical_unit ha, linspace_unit ha]
  cases noneValidBinning c.xs mo with
  | error e => rfl
  | ok v =>
    cases isCategorical c.xs mo cl with
    | error e => rfl
    | ok o =>
      cases o with
      | some l => rfl
      | none =>
        cases mo with
        | none => rfl
        | some m =>
          have := allValid_unit (b := b) ha c.xs (some m) (linspace c.xmin c.xmax (n + 1))
          simp only [binValidOpt] at this
          simp only [Except.map, bind, Except.bind, pure, Except.pure, this, Option.map_none, Except.ok.injEq]
          split <;> rfl

theorem getEff_unit {c c' : BinCtx K} (h : CtxUnit a b c c') : c'.getEff = c.getEff.map (List.map (· / a)) := by
  unfold BinCtx.getEff
  rw [h.eff]
  cases c.eff <;> rfl

theorem onlyOneBin_unit {c c' : BinCtx K} (h : CtxUnit a b c c') (hclose : allclose c'.xmin c'.xmax = allclose c.xmin c.xmax) (m : ℕ) :
    onlyOneBinPossible c' m = onlyOneBinPossible c m := by
  unfold onlyOneBinPossible
  rw [getEff_unit ha h, hclose]
  cases c.getEff with
  | error e => rfl
  | ok e => simp only [Except.map, bind, Except.bind, List.length_map]

theorem greedyFind_unit {c c' : BinCtx K} (h : CtxUnit a b c c') (hclose : allclose c'.xmin c'.xmax = allclose c.xmin c.xmax) (n : ℕ) (d : K) (mo : Option ℕ) (cl : ℕ) :
    greedyFind c' n d mo cl = (greedyFind c n d mo cl).map (Lim.inUnit a b) := by
  unfold greedyFind
  have ho := onlyOneBin_unit ha h hclose
  have hg := getEff_unit ha h
  rw [h.xs, noneValidBinning_unit ha, isCategorical_unit ha]
  cases noneValidBinning c.xs mo with
  | error e => rfl
  | ok v =>
    cases v with
    | true => rfl
    | false =>
    cases isCategorical c.xs mo cl with
    | error e => rfl
    | ok o =>
      cases o with
      | some l => rfl
      | none =>
        cases mo with
        | none => rfl
        | some m =>
          simp only [bind, Except.bind, pure, Except.pure, Bool.false_eq_true, if_false, Except.map, Option.map_none]
          rw [ho m, hg]
          cases onlyOneBinPossible c m with
          | error e => rfl
          | ok v =>
            cases v with
            | true => simp only [if_true, Lim.inUnit, List.map_cons, List.map_nil, h.xmin, h.xmax]
            | false =>
              simp only [Bool.false_eq_true, if_false]
              rw [h.xmin, h.xmax, linspace_unit ha]
              cases he : c.eff with
              | none => simp only [BinCtx.getEff, he, Except.map]
              | some e =>
                simp only [BinCtx.getEff, he, Except.map]
                cases linspace c.xmin c.xmax (n + 1) with
                | nil => rfl
                | cons l0 rest =>
                  simp only [List.map_cons, greedyLoop_unit ha (h.len e he), repairLast_unit ha]
                  cases repairLast c.xs m (greedyLoop c.xs e m d l0 rest) with
                  | error e => rfl
                  | ok l => rfl

theorem gridPoint_unit (u v : K) (n i : ℕ) : gridPoint (a * u + b) (a * v + b) n i = a * gridPoint u v n i + b := by
  unfold gridPoint
  ring

theorem closedCount_unit (xs : List K) (u v : K) : closedCount (xs.map fun x => a * x + b) (a * u + b) (a * v + b) = closedCount xs u v := by
  unfold closedCount
  rw [List.countP_map]
  refine List.countP_congr fun x _ => ?_
  simp only [Function.comp, unit_le ha]

theorem specBinCost_unit {xs e : List K} (hlen : e.length = xs.length) {m : ℕ} (hm1 : 1 ≤ m) (d u v : K) (hm : ¬ closedCount xs u v < m) :
    Spec.binCost (xs.map fun x => a * x + b) (e.map (· / a)) m d (a * u + b) (a * v + b) = a⁻¹ * Spec.binCost xs e m d u v := by
  have h := binCost_unit (b := b) ha xs e m d u v (by rw [filterEff_eq, closedEffects_length xs e hlen]; exact hm)
  rw [binCost_eq xs e hlen m d u v (Or.inl hm1), binCost_eq _ _ (by simpa using hlen) m d _ _ (Or.inl hm1)] at h
  exact (Option.some.inj h).trans (div_eq_inv_mul _ _)

theorem dpFind_unit {c c' : BinCtx K} (h : CtxUnit a b c c') (hclose : allclose c'.xmin c'.xmax = allclose c.xmin c.xmax) (hin : ∀ x ∈ c.xs, c.xmin ≤ x ∧ x ≤ c.xmax)
    (hlt : c.xmin < c.xmax) {e : List K} (he : c.eff = some e) (hs : SmallSpread a⁻¹ (c.xmax - c.xmin) e) {n cl : ℕ} {d : K} {mo : Option ℕ}
    (hb : ProperDp (.dp n mo d cl)) :
    dpFind c' n mo d cl = (dpFind c n mo d cl).map (Lim.inUnit a b) := by
  obtain ⟨hn, hd0, hd1, hm⟩ := hb
  obtain ⟨R, hR, s1, s2⟩ := hs
  unfold dpFind
  have ho := onlyOneBin_unit ha h hclose
  have hg := getEff_unit ha h
  rw [h.xs, noneValidBinning_unit ha, isCategorical_unit ha]
  cases mo with
  | none => rfl
  | some m =>
    by_cases hdeg : c.xs.length < m
    · have : noneValidBinning c.xs (some m) = .ok true := by unfold noneValidBinning; simp [hdeg]
      rw [this]
      rfl
    have hI : dpIndices (costOfMove c' (e.map (· / a)) m d n) n = dpIndices (costOfMove c e m d n) n := by
      have hlen := h.len e he
      refine dpIndices_scaled (q := a⁻¹) (inv_pos.mpr ha) (hm m rfl) hn hd0 hd1 hlen (by rw [h.xs]; simpa using hlen) hlt ?_ hin (by omega) hR s1 s2 ?_ ?_
      · rw [h.xmin, h.xmax]; exact (unit_lt ha _ _).mpr hlt
      · intro i j; rw [h.xs, h.xmin, h.xmax, gridPoint_unit ha, gridPoint_unit ha, closedCount_unit ha]
      · intro i j _ hc; rw [h.xs, h.xmin, h.xmax, gridPoint_unit ha, gridPoint_unit ha, specBinCost_unit ha hlen (hm m rfl) _ _ _ hc]
    cases noneValidBinning c.xs (some m) with
    | error e => rfl
    | ok v =>
      cases v with
      | true => rfl
      | false =>
      cases isCategorical c.xs (some m) cl with
      | error e => rfl
      | ok o =>
        cases o with
        | some l => rfl
        | none =>
          simp only [bind, Except.bind, pure, Except.pure, Bool.false_eq_true, if_false, Except.map, Option.map_none]
          rw [ho m, hg]
          have hge : c.getEff = .ok e := by unfold BinCtx.getEff; rw [he]
          rw [hge]
          cases onlyOneBinPossible c m with
          | error e => rfl
          | ok v =>
            cases v with
            | true => simp only [if_true, Lim.inUnit, List.map_cons, List.map_nil, h.xmin, h.xmax]
            | false =>
              simp only [Bool.false_eq_true, if_false, Except.map]
              by_cases h1 : n = 1
              · simp only [if_pos h1, Lim.inUnit, List.map_cons, List.map_nil, h.xmin, h.xmax]
              · have h0 : n ≠ 0 := by omega
                simp only [if_neg h1, if_neg h0, hI, Lim.inUnit, List.map_map]
                congr 2
                refine List.map_congr_left fun i _ => ?_
                simp only [Function.comp, gridPos, h.xmin, h.xmax]
                ring

/-! ### compute_ale_params -/

theorem InBin_unit (L : List K) (k : ℕ) (x : K) : InBin (L.map fun x => a * x + b) k (a * x + b) ↔ InBin L k x := by
  unfold InBin
  simp only [List.getElem?_map, List.length_map, Option.mem_def, Option.map_eq_some_iff]
  constructor
  · rintro ⟨_, ⟨u, hu, rfl⟩, _, ⟨v, hv, rfl⟩, h1, h2⟩
    refine ⟨u, hu, v, hv, (unit_le ha _ _).mp h1, ?_⟩
    simpa only [unit_le ha, unit_lt ha] using h2
  · rintro ⟨u, hu, v, hv, h1, h2⟩
    refine ⟨_, ⟨u, hu, rfl⟩, _, ⟨v, hv, rfl⟩, (unit_le ha _ _).mpr h1, ?_⟩
    simpa only [unit_le ha, unit_lt ha] using h2

theorem binEffects_unit (L xs eff : List K) (k : ℕ) :
    binEffects (L.map fun x => a * x + b) (xs.map fun x => a * x + b) (eff.map (· / a)) k = (binEffects L xs eff k).map (· / a) := by
  unfold binEffects
  rw [zip_unit ha, List.filter_map, List.map_map, List.map_map]
  have : ((fun p : K × K => decide (InBin (L.map fun x => a * x + b) k p.1)) ∘ fun p : K × K => (a * p.1 + b, p.2 / a)) = fun p => decide (InBin L k p.1) := by
    funext p
    simp only [Function.comp, InBin_unit ha]
  rw [this]
  rfl

omit ha in
theorem interp_unit (c : K) (kn : List (K × K)) (x : K) : interp (kn.map fun p => (p.1, p.2 / c)) x = interp kn x / c := by
  induction kn with
  | nil => simp [interp]
  | cons p t ih =>
    obtain ⟨u, fu⟩ := p
    cases t with
    | nil => rfl
    | cons q t =>
      obtain ⟨v, fv⟩ := q
      simp only [List.map_cons] at ih
      simp only [List.map_cons, interp, ih]
      by_cases h1 : x ≤ u
      · rw [if_pos h1, if_pos h1]
      · rw [if_neg h1, if_neg h1]
        by_cases h2 : x < v
        · rw [if_pos h2, if_pos h2]
          ring
        · rw [if_neg h2, if_neg h2]

omit ha in
theorem knownFrom_unit (c : K) (i : ℕ) (x : List (Option K)) : knownFrom i (x.map (Option.map (· / c))) = (knownFrom i x).map fun p => (p.1, p.2 / c) := by
  induction x generalizing i with
  | nil => rfl
  | cons o t ih => cases o <;> simp [knownFrom, ih]

omit ha in
theorem fillNans_unit (c : K) (x : List (Option K)) : fillNans (x.map (Option.map (· / c))) = (fillNans x).map (List.map (· / c)) := by
  rw [fillNans_eq, fillNans_eq, knownFrom_unit]
  have h1 : (∀ o ∈ x.map (Option.map (· / c)), o = none) ↔ ∀ o ∈ x, o = none := by simp
  have h2 : ∀ (kn : List (K × K)) (i : ℕ) (x : List (Option K)),
      fillFrom (kn.map fun p => (p.1, p.2 / c)) i (x.map (Option.map (· / c))) = (fillFrom kn i x).map (· / c) := by
    intro kn i x
    induction x generalizing i with
    | nil => rfl
    | cons o t ih => cases o <;> simp [fillFrom, ih, interp_unit]
  simp only [h1, h2]
  split_ifs <;> rfl

theorem diffs_unit (l : List K) : diffs (l.map fun x => a * x + b) = (diffs l).map (a * ·) := by
  induction l with
  | nil => rfl
  | cons x t ih =>
    cases t with
    | nil => rfl
    | cons y t =>
      simp only [List.map_cons] at ih
      simp only [List.map_cons, diffs, ih, List.cons.injEq, and_true]
      ring

/-- The fitted parameters in the other unit. -/
def AleParams.inUnit (a b : K) (p : AleParams K) : AleParams K where
  limits := p.limits.map fun x => a * x + b
  dx := p.dx.map (a * ·)
  pointsPerBin := p.pointsPerBin
  binEffect := p.binEffect.map (· / a)
  binVariance := p.binVariance.map (· / a ^ 2)
  binEstimatorVariance := p.binEstimatorVariance.map (· / a ^ 2)

omit ha in
theorem computeAleParams_eq {limits xs eff : List K} (h : BinSetting limits xs eff) :
    computeAleParams xs eff limits =
      (fillNans ((List.range (limits.length - 1)).map fun k => if binEffects limits xs eff k = [] then none else some (avg (binEffects limits xs eff k)))).bind fun be =>
      (fillNans ((List.range (limits.length - 1)).map fun k => if 2 ≤ (binEffects limits xs eff k).length then some (popVar (binEffects limits xs eff k)) else none)).bind fun bv =>
      (fillNans ((List.range (limits.length - 1)).map fun k => if 2 ≤ (binEffects limits xs eff k).length then
          some (popVar (binEffects limits xs eff k) / ((binEffects limits xs eff k).length : K)) else none)).bind fun bev =>
      .ok { limits := limits, dx := diffs limits, pointsPerBin := (List.range (limits.length - 1)).map fun k => (binEffects limits xs eff k).length,
            binEffect := be, binVariance := bv, binEstimatorVariance := bev } := by
  have hbe := computeBinEffect_eq h
  have hbv := computeBinVariance_eq h hbe
  unfold computeAleParams
  rw [hbe]
  simp only [bind, Except.bind, pure, Except.pure]
  rw [hbv]

theorem avg_unit (l : List K) : avg (l.map (· / a)) = avg l / a := mean_unit ha l

theorem popVar_unit (l : List K) : popVar (l.map (· / a)) = popVar l / a ^ 2 := by
  have h := variance_unit ha l
  unfold variance mean at h
  unfold popVar avg
  simpa only [List.length_map] using h

theorem binSetting_unit {limits xs eff : List K} (h : BinSetting limits xs eff) :
    BinSetting (limits.map fun x => a * x + b) (xs.map fun x => a * x + b) (eff.map (· / a)) := by
  obtain ⟨h1, h2, ⟨lo, hi, hlo, hhi, h3⟩, h4⟩ := h
  refine ⟨unit_increasing ha h1, by simpa using h2, ⟨a * lo + b, a * hi + b, by simp [hlo], by simp [List.getLast?_map, hhi], ?_⟩, by simpa using h4⟩
  intro x hx
  obtain ⟨y, hy, rfl⟩ := List.mem_map.mp hx
  exact ⟨(unit_le ha _ _).mpr (h3 y hy).1, (unit_le ha _ _).mpr (h3 y hy).2⟩

theorem computeAleParams_unit {limits xs eff : List K} (h : BinSetting limits xs eff) :
    computeAleParams (xs.map fun x => a * x + b) (eff.map (· / a)) (limits.map fun x => a * x + b) = (computeAleParams xs eff limits).map (AleParams.inUnit a b) := by
  rw [computeAleParams_eq h, computeAleParams_eq (binSetting_unit ha h)]
  simp only [binEffects_unit ha, List.length_map, avg_unit ha, popVar_unit ha, List.map_eq_nil_iff, diffs_unit ha]
  have e1 : ((List.range (limits.length - 1)).map fun k => if binEffects limits xs eff k = [] then none else some (avg (binEffects limits xs eff k) / a)) =
      ((List.range (limits.length - 1)).map fun k => if binEffects limits xs eff k = [] then none else some (avg (binEffects limits xs eff k))).map (Option.map (· / a)) := by
    rw [List.map_map]
    apply List.map_congr_left
    intro k _
    simp only [Function.comp]
    split_ifs <;> rfl
  have e2 : ((List.range (limits.length - 1)).map fun k => if 2 ≤ (binEffects limits xs eff k).length then some (popVar (binEffects limits xs eff k) / a ^ 2) else none) =
      ((List.range (limits.length - 1)).map fun k => if 2 ≤ (binEffects limits xs eff k).length then some (popVar (binEffects limits xs eff k)) else none).map
        (Option.map (· / a ^ 2)) := by
    rw [List.map_map]
    apply List.map_congr_left
    intro k _
    simp only [Function.comp]
    split_ifs <;> rfl
  have e3 : ((List.range (limits.length - 1)).map fun k => if 2 ≤ (binEffects limits xs eff k).length then
        some (popVar (binEffects limits xs eff k) / a ^ 2 / ((binEffects limits xs eff k).length : K)) else none) =
      ((List.range (limits.length - 1)).map fun k => if 2 ≤ (binEffects limits xs eff k).length then
        some (popVar (binEffects limits xs eff k) / ((binEffects limits xs eff k).length : K)) else none).map (Option.map (· / a ^ 2)) := by
    rw [List.map_map]
    apply List.map_congr_left
    intro k _
    simp only [Function.comp]
    split_ifs
    · simp only [Option.map_some, Option.some.injEq]; rw [div_right_comm]
    · rfl
  rw [e1, e2, e3, fillNans_unit, fillNans_unit, fillNans_unit]
  generalize fillNans ((List.range (limits.length - 1)).map fun k => if binEffects limits xs eff k = [] then none else some (avg (binEffects limits xs eff k))) = q1
  generalize fillNans ((List.range (limits.length - 1)).map fun k => if 2 ≤ (binEffects limits xs eff k).length then some (popVar (binEffects limits xs eff k)) else none) = q2
  generalize fillNans ((List.range (limits.length - 1)).map fun k => if 2 ≤ (binEffects limits xs eff k).length then
        some (popVar (binEffects limits xs eff k) / ((binEffects limits xs eff k).length : K)) else none) = q3
  cases q1 with
  | error e => rfl
  | ok x1 =>
    cases q2 with
    | error e => rfl
    | ok x2 =>
      cases q3 with
      | error e => rfl
      | ok x3 => rfl

/-! ### Evaluation -/

theorem stepIntegral_unit (L es : List K) (x : K) :
    stepIntegral (L.map fun x => a * x + b) (es.map (· / a)) (a * x + b) = stepIntegral L es x := by
  induction L generalizing es with
  | nil => cases es <;> rfl
  | cons l t ih =>
    cases t with
    | nil => cases es <;> rfl
    | cons l' t =>
      cases es with
      | nil => rfl
      | cons e es =>
        simp only [List.map_cons] at ih
        simp only [List.map_cons, stepIntegral, ih, unit_min ha]
        have := ha.ne'
        congr 1
        field_simp
        ring

theorem goodParams_unit {p : AleParams K} (h : GoodParams p) : GoodParams (p.inUnit a b) := by
  obtain ⟨h1, h2, h3, h4, h5⟩ := h
  exact ⟨unit_increasing ha h1, by simpa [AleParams.inUnit] using h2, by simp only [AleParams.inUnit, h3, diffs_unit ha], by simpa [AleParams.inUnit] using h4,
    by simpa [AleParams.inUnit] using h5⟩

/-- Positions that are below the constant `BIG_M` in both units. -/
def BelowSentinel (a b : K) (xs : List K) : Prop := ∀ x ∈ xs, x ≤ BIG_M ∧ a * x + b ≤ BIG_M

theorem acc_unit {p : AleParams K} (h : GoodParams p) {es : List K} (hes : es.length = p.limits.length - 1) {xs : List K} (hxs : BelowSentinel a b xs) :
    computeAccumulatedEffect (xs.map fun x => a * x + b) (p.inUnit a b).limits (es.map (· / a)) (p.inUnit a b).dx = computeAccumulatedEffect xs p.limits es p.dx := by
  rw [h.acc_below es xs hes fun x hx => Or.inl (hxs x hx).1, (goodParams_unit (b := b) ha h).acc_below _ _ (by simpa [AleParams.inUnit] using hes) (by
    intro x hx
    obtain ⟨y, hy, rfl⟩ := List.mem_map.mp hx
    exact Or.inl (hxs y hy).2), List.map_map]
  congr 1
  apply List.map_congr_left
  intro x _
  exact stepIntegral_unit ha _ _ _

theorem evalUnnorm_unit {p : AleParams K} (h : GoodParams p) {xs : List K} (hxs : BelowSentinel a b xs) :
    evalUnnorm (p.inUnit a b) (xs.map fun x => a * x + b) = evalUnnorm p xs := acc_unit ha h h.be hxs

theorem evalHet_unit [PySqrt K] [LawfulSqrt K] {p : AleParams K} (h : GoodParams p) (hv : ∀ v ∈ p.binVariance, 0 ≤ v) {xs : List K} (hxs : BelowSentinel a b xs) :
    evalHet (p.inUnit a b) (xs.map fun x => a * x + b) = evalHet p xs := by
  have e : (p.inUnit a b).binVariance.map PySqrt.sqrt = (p.binVariance.map PySqrt.sqrt).map (· / a) := by
    simp only [AleParams.inUnit, List.map_map]
    apply List.map_congr_left
    intro v hv'
    simp only [Function.comp]
    have hane := ha.ne'
    have := sqrt_sq_mul a⁻¹ (hv v hv')
    rw [abs_of_pos (inv_pos.mpr ha)] at this
    rw [div_eq_inv_mul, ← inv_pow, this, div_eq_inv_mul]
  unfold evalHet
  rw [e]
  exact acc_unit ha h (by rw [List.length_map]; exact h.bv) hxs

omit [IsStrictOrderedRing K] ha in
theorem midpoints_le {l : List K} {B : K} [IsStrictOrderedRing K] (h : ∀ x ∈ l, x ≤ B) : ∀ x ∈ midpoints l, x ≤ B := by
  match l with
  | [] => intro x hx; cases hx
  | [_] => intro x hx; cases hx
  | u :: v :: t =>
    intro x hx
    rcases List.mem_cons.mp hx with rfl | hx
    · have h1 := h u List.mem_cons_self
      have h2 := h v (List.mem_cons_of_mem _ List.mem_cons_self)
      linarith
    · exact midpoints_le (fun y hy => h y (List.mem_cons_of_mem _ hy)) x hx

theorem midpoints_unit (l : List K) : midpoints (l.map fun x => a * x + b) = (midpoints l).map fun x => a * x + b := by
  induction l with
  | nil => rfl
  | cons x t ih =>
    cases t with
    | nil => rfl
    | cons y t =>
      simp only [List.map_cons] at ih
      simp only [List.map_cons, midpoints, ih, List.cons.injEq, and_true]
      ring

/-- Two objects that treat feature `s` alike, the second one with another unit for it.  `P`: the binning methods in use. -/
structure CfgUnit (s : Fin D) (a b : K) (P : BinMethod K → Prop) (cfg cfg' : AleCfg K D) : Prop where
  lo : cfg'.axisLo s = a * cfg.axisLo s + b
  hi : cfg'.axisHi s = a * cfg.axisHi s + b
  lt : cfg.axisLo s < cfg.axisHi s
  below : cfg.axisHi s ≤ BIG_M ∧ a * cfg.axisHi s + b ≤ BIG_M
  fit : ∀ bm, P bm → cfg'.fitF s bm = (cfg.fitF s bm).map (AleParams.inUnit a b)
  good : ∀ bm p, P bm → cfg.fitF s bm = .ok p → GoodParams p ∧ ∀ v ∈ p.binVariance, 0 ≤ v
  dflt : cfg'.defaultBin = cfg.defaultBin
  dfltP : P cfg.defaultBin
  allowed : cfg'.allowed = cfg.allowed

theorem norm_unit {s : Fin D} {P : BinMethod K → Prop} {cfg cfg' : AleCfg K D} (h : CfgUnit s a b P cfg cfg') {p : AleParams K} (hp : GoodParams p) (c : Centering) :
    aleNormConst cfg' (p.inUnit a b) s c = aleNormConst cfg p s c := by
  cases c with
  | off => rfl
  | zeroIntegral =>
    simp only [aleNormConst, mean1dLinspace]
    rw [h.lo, h.hi, linspace_unit ha, midpoints_unit ha, evalUnnorm_unit ha hp]
    intro x hx
    have h1 := midpoints_le (fun y hy => linspace_mem_le h.lt.le hy) x hx
    exact ⟨h1.trans h.below.1, ((unit_le ha _ _).mpr h1).trans h.below.2⟩
  | zeroStart =>
    have e := evalUnnorm_unit (b := b) ha hp (xs := [cfg.axisLo s]) (by
      intro x hx
      obtain rfl := List.mem_singleton.mp hx
      exact ⟨h.lt.le.trans h.below.1, ((unit_le ha _ _).mpr h.lt.le).trans h.below.2⟩)
    simp only [List.map_cons, List.map_nil] at e
    simp only [aleNormConst, h.lo, e]

/-- The states of two such objects. -/
structure StateUnit (s : Fin D) (a b : K) (st st' : AleState K D) : Prop where
  fe : st'.fe s = (st.fe s).map fun q => (q.1.inUnit a b, q.2)
  fitted : st'.fitted s = st.fitted s
  args : st'.args s = st.args s
  good : ∀ q, st.fe s = some q → GoodParams q.1 ∧ ∀ v ∈ q.1.binVariance, 0 ≤ v

theorem fitOne_unit {s : Fin D} {P : BinMethod K → Prop} {cfg cfg' : AleCfg K D} (h : CfgUnit s a b P cfg cfg') {st st' : AleState K D} (hs : StateUnit s a b st st')
    {bm : BinMethod K} (hP : P bm) (c : Centering) :
    StateUnit s a b (fitOne cfg st s bm c).1 (fitOne cfg' st' s bm c).1 ∧ (fitOne cfg' st' s bm c).2 = (fitOne cfg st s bm c).2 := by
  unfold fitOne
  rw [h.fit bm hP]
  cases hf : cfg.fitF s bm with
  | error e => exact ⟨hs, rfl⟩
  | ok p =>
    have hg := h.good bm p hP hf
    simp only [Except.map, norm_unit ha h hg.1]
    cases aleNormConst cfg p s c with
    | error e => exact ⟨⟨by simp, hs.fitted, hs.args, fun q hq => by simp at hq; subst hq; exact hg⟩, rfl⟩
    | ok z => exact ⟨⟨by simp, by simp, by simp, fun q hq => by simp at hq; subst hq; exact hg⟩, rfl⟩

theorem fitLoop_unit {s : Fin D} {P : BinMethod K → Prop} {cfg cfg' : AleCfg K D} (h : CfgUnit s a b P cfg cfg') {st st' : AleState K D} (hs : StateUnit s a b st st')
    {bm : BinMethod K} (hP : P bm) (c : Centering) :
    StateUnit s a b (fitLoop cfg bm c st [s]).1 (fitLoop cfg' bm c st' [s]).1 ∧ (fitLoop cfg' bm c st' [s]).2 = (fitLoop cfg bm c st [s]).2 := by
  have h1 := fitOne_unit ha h hs hP c
  unfold fitLoop
  rcases e1 : fitOne cfg st s bm c with ⟨q, r⟩
  rcases e2 : fitOne cfg' st' s bm c with ⟨q', r'⟩
  rw [e1, e2] at h1
  obtain ⟨ha', h2⟩ := h1
  simp only at h2
  subst h2
  cases r' with
  | error e => exact ⟨ha', rfl⟩
  | ok u => exact ⟨ha', rfl⟩

theorem aleFit_unit {s : Fin D} {P : BinMethod K → Prop} {cfg cfg' : AleCfg K D} (h : CfgUnit s a b P cfg cfg') {st st' : AleState K D} (hs : StateUnit s a b st st')
    (f : PyVal) (hf : f = .int s ∨ f = .list [(s : ℤ)]) {bm : BinMethod K} (hP : P bm) (c : PyVal) : StateUnit s a b (aleFit cfg st f bm c).1 (aleFit cfg' st' f bm c).1 := by
  have hp : prepFeatures f D = .ok (.list [(s : ℤ)]) := by rcases hf with rfl | rfl <;> rfl
  unfold aleFit
  rw [h.allowed, hp]
  simp only [bind, Except.bind]
  split_ifs
  · cases prepCentering c with
    | error e => exact hs
    | ok c =>
      simp only [resolve_single, pure, Except.pure]
      exact (fitLoop_unit ha h hs hP c).1
  · exact hs

theorem evalFitted_unit [PySqrt K] [LawfulSqrt K] {s : Fin D} {P : BinMethod K → Prop} {cfg cfg' : AleCfg K D} (h : CfgUnit s a b P cfg cfg') {st st' : AleState K D}
    (hs : StateUnit s a b st st') {xs : List K} (hxs : BelowSentinel a b xs) (het : Bool) (c : Centering) :
    aleEvalFitted cfg' st' s (xs.map fun x => a * x + b) het c = aleEvalFitted cfg st s xs het c := by
  unfold aleEvalFitted
  rw [h.lo, h.hi, hs.fe]
  simp only [unit_lt ha]
  cases hq : st.fe s with
  | none => rfl
  | some q =>
    obtain ⟨p, nc⟩ := q
    obtain ⟨h1, h2⟩ := hs.good _ hq
    simp only [Option.map_some, evalUnnorm_unit ha h1 hxs, evalHet_unit ha h1 h2 hxs]

theorem aleEval_unit [PySqrt K] [LawfulSqrt K] {s : Fin D} {P : BinMethod K → Prop} {cfg cfg' : AleCfg K D} (h : CfgUnit s a b P cfg cfg') {st st' : AleState K D}
    (hs : StateUnit s a b st st') {xs : List K} (hxs : BelowSentinel a b xs) (het : Bool) (c : PyVal) :
    StateUnit s a b (aleEval cfg st s xs het c).1 (aleEval cfg' st' s (xs.map fun x => a * x + b) het c).1 ∧
      (aleEval cfg' st' s (xs.map fun x => a * x + b) het c).2 = (aleEval cfg st s xs het c).2 := by
  unfold aleEval
  cases prepCentering c with
  | error e => exact ⟨hs, rfl⟩
  | ok c =>
    simp only [hs.fitted, hs.args]
    cases needsRefit (st.fitted s) (st.args s) c with
    | error e => exact ⟨hs, rfl⟩
    | ok v =>
      cases v with
      | false => exact ⟨hs, evalFitted_unit ha h hs hxs het c⟩
      | true =>
        rw [h.dflt]
        have h1 := fitLoop_unit ha h hs h.dfltP c
        rcases e1 : fitLoop cfg cfg.defaultBin c st [s] with ⟨q, r⟩
        rcases e2 : fitLoop cfg' cfg.defaultBin c st' [s] with ⟨q', r'⟩
        rw [e1, e2] at h1
        obtain ⟨ha', h2⟩ := h1
        simp only at h2
        subst h2
        cases r' with
        | error e => exact ⟨ha', rfl⟩
        | ok u => exact ⟨ha', evalFitted_unit ha h ha' hxs het c⟩

omit ha in
/-- The state after `eval` does not depend on the positions. -/
theorem aleEval_state_xs [PySqrt K] (cfg : AleCfg K D) (st : AleState K D) (s : Fin D) (xs ys : List K) (het het' : Bool) (c : PyVal) :
    (aleEval cfg st s xs het c).1 = (aleEval cfg st s ys het' c).1 := by
  unfold aleEval
  cases prepCentering c with
  | error e => rfl
  | ok c =>
    simp only []
    cases needsRefit (st.fitted s) (st.args s) c with
    | error e => rfl
    | ok v =>
      cases v with
      | false => rfl
      | true =>
        simp only []
        rcases fitLoop cfg cfg.defaultBin c st [s] with ⟨q, r⟩
        cases r <;> rfl

theorem aleEval_state_unit [PySqrt K] [LawfulSqrt K] {s : Fin D} {P : BinMethod K → Prop} {cfg cfg' : AleCfg K D} (h : CfgUnit s a b P cfg cfg') {st st' : AleState K D}
    (hs : StateUnit s a b st st') (xs ys : List K) (het het' : Bool) (c : PyVal) : StateUnit s a b (aleEval cfg st s xs het c).1 (aleEval cfg' st' s ys het' c).1 := by
  rw [aleEval_state_xs cfg st s xs [] het false, aleEval_state_xs cfg' st' s ys ([].map fun x => a * x + b) het' false]
  exact (aleEval_unit ha h hs (xs := []) (fun x hx => by cases hx) false c).1

theorem alePlot_unit [PySqrt K] [LawfulSqrt K] {s : Fin D} {P : BinMethod K → Prop} {cfg cfg' : AleCfg K D} (h : CfgUnit s a b P cfg cfg') {st st' : AleState K D}
    (hs : StateUnit s a b st st') (c : PyVal) : StateUnit s a b (alePlot cfg st s c).1 (alePlot cfg' st' s c).1 := by
  unfold alePlot
  have h1 := aleEval_unit ha h hs (xs := [cfg.axisLo s]) (by
      intro x hx
      obtain rfl := List.mem_singleton.mp hx
      exact ⟨h.lt.le.trans h.below.1, ((unit_le ha _ _).mpr h.lt.le).trans h.below.2⟩) false c
  rw [h.lo]
  simp only [List.map_cons, List.map_nil] at h1
  rcases e1 : aleEval cfg st s [cfg.axisLo s] false c with ⟨q, r⟩
  rcases e2 : aleEval cfg' st' s [a * cfg.axisLo s + b] false c with ⟨q', r'⟩
  rw [e1, e2] at h1
  obtain ⟨ha', h2⟩ := h1
  simp only at h2
  subst h2
  cases r' with
  | error e => exact ha'
  | ok u =>
    have hfe' : q'.fe s = (q.fe s).map fun x => (x.1.inUnit a b, x.2) := ha'.fe
    simp only [hfe']
    cases hfe : q.fe s with
    | none => exact ha'
    | some pn =>
      obtain ⟨p, n⟩ := pn
      simp only [Option.map_some]
      have key : ∀ i, pyIndex (p.inUnit a b).limits i = (pyIndex p.limits i).map fun x => a * x + b := by
        intro i
        unfold pyIndex
        simp only [AleParams.inUnit, List.getElem?_map]
        cases p.limits[i]? <;> rfl
      have hlen : (p.inUnit a b).limits.length = p.limits.length := by simp [AleParams.inUnit]
      rw [key, hlen, key]
      cases pyIndex p.limits 0 with
      | error e => exact ha'
      | ok u =>
        cases pyIndex p.limits (p.limits.length - 1) with
        | error e => exact ha'
        | ok v =>
          simp only [Except.map]
          have h3 := aleEval_state_unit ha h ha' (linspace u v 1000) (linspace (a * u + b) (a * v + b) 1000) true true c
          rcases e3 : aleEval cfg q s (linspace u v 1000) true c with ⟨q1, r1⟩
          rcases e4 : aleEval cfg' q' s (linspace (a * u + b) (a * v + b) 1000) true c with ⟨q2, r2⟩
          rw [e3, e4] at h3
          cases r1 <;> cases r2 <;> exact h3

end affine

namespace Spec

/-- The same call, the positions of `eval` given in the other unit. -/
def callInUnit (a b : K) : AleOp K D → AleOp K D
  | .fit f bm c => .fit f bm c
  | .eval s xs het c => .eval s (xs.map fun x => a * x + b) het c
  | .plot s c => .plot s c

end Spec

theorem aleRun_unit [PySqrt K] [LawfulSqrt K] {a b : K} (ha : 0 < a) {s : Fin D} {P : BinMethod K → Prop} {cfg cfg' : AleCfg K D} (h : CfgUnit s a b P cfg cfg')
    (ops : List (AleOp K D)) (hops : ∀ op ∈ ops, OnlyOn s op) (hP : ∀ f bm c, AleOp.fit f bm c ∈ ops → P bm) :
    StateUnit s a b (aleRun cfg ops) (aleRun cfg' (ops.map (callInUnit a b))) := by
  unfold aleRun
  suffices ∀ st st' : AleState K D, StateUnit s a b st st' → StateUnit s a b (ops.foldl (aleStep cfg) st) ((ops.map (callInUnit a b)).foldl (aleStep cfg') st') from
    this _ _ ⟨rfl, rfl, rfl, fun q hq => by cases hq⟩
  induction ops with
  | nil => exact fun _ _ h => h
  | cons op ops ih =>
    intro st st' hs
    rw [List.map_cons, List.foldl_cons, List.foldl_cons]
    refine ih (fun o ho => hops o (List.mem_cons_of_mem _ ho)) (fun f bm c hm => hP f bm c (List.mem_cons_of_mem _ hm)) _ _ ?_
    have ho := hops op List.mem_cons_self
    cases op with
    | fit f bm c => exact aleFit_unit ha h hs f ho (hP f bm c List.mem_cons_self) c
    | eval t xs het c => obtain rfl : t = s := ho; exact aleEval_state_unit ha h hs _ _ _ _ c
    | plot t c => obtain rfl : t = s := ho; exact alePlot_unit ha h hs c

/-! ### RHALE -/

namespace Spec

/-- Binning with `Fixed` (at least one bin) or `Greedy`, also by name; not with the dynamic programming method. -/
def FixedOrGreedy : BinMethod K → Prop
  | .fixed n _ _ => 1 ≤ n
  | .greedy _ _ _ _ => True
  | .str t => t ≠ "dp"
  | .dp _ _ _ _ => False

/-- `lo < hi`, and the two are not considered equal by `np.allclose`. -/
def NotClose (lo hi : K) : Prop := 1 / 10 ^ 8 + 1 / 10 ^ 5 * |hi| < hi - lo

end Spec

theorem NotClose.lt {lo hi : K} (h : NotClose lo hi) : lo < hi := by
  unfold NotClose at h
  have : (0 : K) ≤ 1 / 10 ^ 8 + 1 / 10 ^ 5 * |hi| := by positivity
  linarith

theorem NotClose.allclose {lo hi : K} (h : NotClose lo hi) : allclose lo hi = false := by
  have hlt := NotClose.lt h
  unfold NotClose at h
  unfold Effector.allclose
  rw [abs_sub_comm, abs_of_pos (by linarith), decide_eq_false_iff_not, not_le]
  exact h

section affine

variable {a b : K} (ha : 0 < a)

include ha

theorem findLimits_unit {c c' : BinCtx K} (h : CtxUnit a b c c') (hclose : allclose c'.xmin c'.xmax = allclose c.xmin c.xmax) 
    (hin : ∀ x ∈ c.xs, c.xmin ≤ x ∧ x ≤ c.xmax) (hlt : c.xmin < c.xmax) {e : List K} (he : c.eff = some e) {bm : BinMethod K}
    (hb : FixedOrGreedy bm ∨ ProperDp bm ∧ SmallSpread a⁻¹ (c.xmax - c.xmin) e) :
    findLimits c' bm = (findLimits c bm).map (Lim.inUnit a b) := by
  cases bm with
  | fixed n m cl => exact fixedFind_unit ha h n m cl
  | greedy n m d cl => exact greedyFind_unit ha h hclose n d m cl
  | dp n m d cl =>
    rcases hb with hb | ⟨hb, hs⟩
    · exact hb.elim
    · exact dpFind_unit ha h hclose hin hlt he hs hb
  | str t =>
    have hb : t ≠ "dp" := hb.elim id fun h => h.1.elim
    unfold findLimits
    by_cases h1 : t = "fixed"
    · simp only [if_pos h1]; exact fixedFind_unit ha h _ _ _
    · simp only [if_neg h1]
      by_cases h2 : t = "greedy"
      · simp only [if_pos h2]; exact greedyFind_unit ha h hclose _ _ _ _
      · simp only [if_neg h2, if_neg hb]; rfl

omit ha in
theorem inUnit_self (s : Fin D) (r : Row K D) : inUnit s a b r s = a * r s + b := Function.update_self ..

omit ha in
theorem inUnit_ne {s t : Fin D} (h : t ≠ s) (r : Row K D) : inUnit s a b r t = r t := Function.update_of_ne h ..

theorem inAxis_unit (lo hi : Fin D → K) (s : Fin D) (r : Row K D) :
    inAxis (inUnit s a b lo s) (inUnit s a b hi s) s (inUnit s a b r) = inAxis (lo s) (hi s) s r := by
  unfold inAxis
  simp only [inUnit_self, unit_le ha]

theorem rhaleCtx_unit (data eff : List (Row K D)) (hlen : eff.length = data.length) (lo hi : Fin D → K) (s : Fin D) :
    CtxUnit a b (rhaleCtx data eff lo hi s) (rhaleCtx (data.map (inUnit s a b)) (eff.map (perUnit s a)) (inUnit s a b lo) (inUnit s a b hi) s) := by
  refine ⟨inUnit_self s lo, inUnit_self s hi, ?_, ?_, ?_⟩
  · simp only [rhaleCtx, col, List.filter_map, List.map_map]
    have : inAxis (inUnit s a b lo s) (inUnit s a b hi s) s ∘ inUnit s a b = inAxis (lo s) (hi s) s := funext (inAxis_unit ha lo hi s)
    rw [this]
    apply List.map_congr_left
    intro r _
    exact inUnit_self s r
  · simp only [rhaleCtx, col, Option.map_some, Option.some.injEq]
    rw [List.zip_map, List.filter_map, List.map_map, List.map_map, List.map_map, List.map_map]
    have : ((fun p : Row K D × Row K D => inAxis (inUnit s a b lo s) (inUnit s a b hi s) s p.1) ∘ Prod.map (inUnit s a b) (perUnit s a)) =
        fun p => inAxis (lo s) (hi s) s p.1 := funext fun p => inAxis_unit ha lo hi s p.1
    rw [this]
    apply List.map_congr_left
    intro p _
    simp [perUnit]
  · rintro e ⟨⟩
    exact rhaleCtx_len data eff lo hi s hlen

omit ha in
theorem fixedOrGreedy_safe (c : BinCtx K) {bm : BinMethod K} (hb : FixedOrGreedy bm) : SafeMethod c bm := by
  cases bm with
  | fixed n m cl => exact hb
  | greedy n m d cl => trivial
  | dp n m d cl => exact hb.elim
  | str t => exact fun h => absurd h hb

omit ha in
/-- Such a method gives well-formed limits. -/
theorem findLimits_good_small {q : K} {c : BinCtx K} {e : List K} (he : c.eff = some e) (hlen : e.length = c.xs.length)
    (hin : ∀ x ∈ c.xs, c.xmin ≤ x ∧ x ≤ c.xmax) (hlt : c.xmin < c.xmax) {bm : BinMethod K}
    (hb : FixedOrGreedy bm ∨ ProperDp bm ∧ SmallSpread q (c.xmax - c.xmin) e) {L : List K}
    (hL : findLimits c bm = .ok (.arr L)) : Increasing L ∧ 2 ≤ L.length ∧ Within L c.xs := by
  rcases hb with hb | ⟨hb, hs⟩
  · obtain ⟨h1, h2, h3, -⟩ := findLimits_good _ _ hin hlt (fixedOrGreedy_safe _ hb) L hL
    exact ⟨h1, h2, h3⟩
  · exact dp_good_small he hlen hin hlt hb hs hL

omit ha in
theorem rhaleFitFeature_bind (data eff : List (Row K D)) (hlen : eff.length = data.length) (lo hi : Fin D → K) (s : Fin D) (bm : BinMethod K) :
    rhaleFitFeature data eff lo hi s bm = (findLimits (rhaleCtx data eff lo hi s) bm).bind fun L => match L with
      | .impossible => .error .assertionError
      | .arr L => computeAleParams (rhaleCtx data eff lo hi s).xs (col (((data.zip eff).filter fun p => inAxis (lo s) (hi s) s p.1).map (·.2)) s) L := by
  unfold rhaleFitFeature
  rw [if_neg (not_not_intro hlen)]
  rfl

omit ha in
/-- The effects of the instances within the limits are among all the effects. -/
theorem rhale_spread {q : K} {data eff : List (Row K D)} {lo hi : Fin D → K} {s : Fin D} {bm : BinMethod K}
    (hb : FixedOrGreedy bm ∨ ProperDp bm ∧ SmallSpread q (hi s - lo s) (eff.map fun e => e s)) :
    FixedOrGreedy bm ∨ ProperDp bm ∧ SmallSpread q (hi s - lo s) (col (((data.zip eff).filter fun p => inAxis (lo s) (hi s) s p.1).map (·.2)) s) := by
  refine hb.imp id fun h => ⟨h.1, SmallSpread.mono h.2 fun x hx => ?_⟩
  unfold col at hx
  rw [List.map_map] at hx
  obtain ⟨p, hp, rfl⟩ := List.mem_map.mp hx
  exact List.mem_map_of_mem (f := fun e : Row K D => e s) (List.of_mem_zip (List.mem_of_mem_filter hp)).2

theorem rhaleFit_unit (data eff : List (Row K D)) (hlen : eff.length = data.length) (lo hi : Fin D → K) (s : Fin D) (hc : NotClose (lo s) (hi s))
    (hc' : NotClose (a * lo s + b) (a * hi s + b)) {bm : BinMethod K}
    (hb : FixedOrGreedy bm ∨ ProperDp bm ∧ SmallSpread a⁻¹ (hi s - lo s) (eff.map fun e => e s)) :
    rhaleFitFeature (data.map (inUnit s a b)) (eff.map (perUnit s a)) (inUnit s a b lo) (inUnit s a b hi) s bm =
      (rhaleFitFeature data eff lo hi s bm).map (AleParams.inUnit a b) := by
  have hctx := rhaleCtx_unit (b := b) ha data eff hlen lo hi s
  have hb' := rhale_spread (data := data) hb
  rw [rhaleFitFeature_bind _ _ (by simpa using hlen), rhaleFitFeature_bind _ _ hlen, findLimits_unit ha hctx (by
    rw [hctx.xmin, hctx.xmax]; exact (NotClose.allclose hc').trans (NotClose.allclose hc).symm)
    (rhaleCtx_in data eff lo hi s) (NotClose.lt hc) rfl hb']
  cases hL : findLimits (rhaleCtx data eff lo hi s) bm with
  | error e => rfl
  | ok l =>
    cases l with
    | impossible => rfl
    | arr L =>
      obtain ⟨h1, h2, h3⟩ := findLimits_good_small (c := rhaleCtx data eff lo hi s) rfl (rhaleCtx_len data eff lo hi s hlen) (rhaleCtx_in data eff lo hi s) (NotClose.lt hc) hb' hL
      have he := hctx.eff
      simp only [rhaleCtx, Option.map_some, Option.some.injEq] at he
      simp only [Except.map, Except.bind, Lim.inUnit]
      rw [hctx.xs, he]
      exact computeAleParams_unit ha ⟨h1, h2, h3, rhaleCtx_len data eff lo hi s hlen⟩

theorem foldl_min_unit (l : List K) (x : K) : (l.map fun x => a * x + b).foldl min (a * x + b) = a * l.foldl min x + b := by
  induction l generalizing x with
  | nil => rfl
  | cons y t ih => rw [List.map_cons, List.foldl_cons, List.foldl_cons, unit_min ha, ih]

theorem foldl_max_unit (l : List K) (x : K) : (l.map fun x => a * x + b).foldl max (a * x + b) = a * l.foldl max x + b := by
  induction l generalizing x with
  | nil => rfl
  | cons y t ih => rw [List.map_cons, List.foldl_cons, List.foldl_cons, unit_max ha, ih]

omit ha in
/-- Axis limits in the other unit. -/
def Spec.limitsInUnit (s : Fin D) (a b : K) (l : (Fin D → K) × (Fin D → K)) : (Fin D → K) × (Fin D → K) := (inUnit s a b l.1, inUnit s a b l.2)

theorem limitsOr_unit (data : List (Row K D)) (s : Fin D) (l : Option ((Fin D → K) × (Fin D → K))) :
    limitsOr (data.map (inUnit s a b)) (l.map (limitsInUnit s a b)) = (limitsOr data l).map (limitsInUnit s a b) := by
  cases l with
  | some l => rfl
  | none =>
    show axisLimitsAll _ = (axisLimitsAll data).map _
    cases data with
    | nil =>
      simp only [List.map_nil, axisLimitsAll]
      split_ifs with h
      · subst h; exact s.elim0
      · rfl
    | cons r rs =>
      simp only [List.map_cons, axisLimitsAll, Except.map, limitsInUnit, Except.ok.injEq, Prod.mk.injEq]
      constructor <;> funext t
      · by_cases h : t = s
        · subst h
          have : (List.map (fun x : Row K D => x t) (List.map (inUnit t a b) rs)) = (rs.map fun x => x t).map fun x => a * x + b := by
            rw [List.map_map, List.map_map]; exact List.map_congr_left fun r _ => inUnit_self t r
          rw [inUnit_self, inUnit_self, this, foldl_min_unit ha]
        · have : (List.map (fun x : Row K D => x t) (List.map (inUnit s a b) rs)) = rs.map fun x => x t := by
            rw [List.map_map]; exact List.map_congr_left fun r _ => inUnit_ne h r
          rw [inUnit_ne h, inUnit_ne h, this]
      · by_cases h : t = s
        · subst h
          have : (List.map (fun x : Row K D => x t) (List.map (inUnit t a b) rs)) = (rs.map fun x => x t).map fun x => a * x + b := by
            rw [List.map_map, List.map_map]; exact List.map_congr_left fun r _ => inUnit_self t r
          rw [inUnit_self, inUnit_self, this, foldl_max_unit ha]
        · have : (List.map (fun x : Row K D => x t) (List.map (inUnit s a b) rs)) = rs.map fun x => x t := by
            rw [List.map_map]; exact List.map_congr_left fun r _ => inUnit_ne h r
          rw [inUnit_ne h, inUnit_ne h, this]

end affine

namespace Spec

/-- The derivatives handed to RHALE - given for every instance, or as a function - when feature `s` is measured in the other unit. -/
def EffectsInUnit (s : Fin D) (a b : K) (n : ℕ) (given given' : Option (List (Row K D))) (jac jac' : Option (Row K D → Row K D)) : Prop :=
  (∃ e, e.length = n ∧ given = some e ∧ given' = some (e.map (perUnit s a))) ∨
  (given = none ∧ given' = none ∧ ∃ j j', jac = some j ∧ jac' = some j' ∧ ∀ r, j' (inUnit s a b r) = perUnit s a (j r))

/-- The derivatives at the instances. -/
def effectsGiven (given : Option (List (Row K D))) (jac : Option (Row K D → Row K D)) (data : List (Row K D)) : List (Row K D) :=
  match given, jac with
  | some e, _ => e
  | none, some j => data.map j
  | none, none => []

end Spec

/-- **C84 for RHALE.**  Measure feature `s` in another unit (`a * x + b` instead of `x`, `a > 0`; derivatives with respect to `x_s` divided by `a`; axis limits converted alike).  After
the same calls for `s`, `eval` at the converted positions gives the same values and the same heterogeneity, or raises the same exception.  The binning is by `Fixed` or
`Greedy`, or by dynamic programming with effects small enough for its penalty, the two axis limits are not `np.allclose` in either unit, and positions and upper
limit are at most 10^8 in both. -/
theorem C84_rhale_units_partial [PySqrt K] [LawfulSqrt K] (choice : ℕ → ℕ → List ℕ) (s : Fin D) (a b : K) (ha : 0 < a) (f f' : Row K D → K) (jac jac' : Option (Row K D → Row K D))
    (data : List (Row K D)) (given given' : Option (List (Row K D))) (he : EffectsInUnit s a b data.length given given' jac jac')
    (axisLimits : Option ((Fin D → K) × (Fin D → K)))
    (hlim : ∀ o, Base.init choice data (.str "all") axisLimits = .ok o → NotClose (o.axisLo s) (o.axisHi s) ∧ NotClose (a * o.axisLo s + b) (a * o.axisHi s + b) ∧
      o.axisHi s ≤ 10 ^ 8 ∧ a * o.axisHi s + b ≤ 10 ^ 8)
    (calls : List (AleOp K D)) (hcalls : ∀ op ∈ calls, OnlyOn s op) (hbin : ∀ t bm c, AleOp.fit t bm c ∈ calls → FixedOrGreedy bm ∨ ProperDp bm ∧
      ∀ o, Base.init choice data (.str "all") axisLimits = .ok o →
        SmallSpread a⁻¹ (o.axisHi s - o.axisLo s) ((effectsGiven given jac data).map fun e => e s))
    (xs : List K) (hxs : ∀ x ∈ xs, x ≤ 10 ^ 8 ∧ a * x + b ≤ 10 ^ 8) (het : Bool) (c : PyVal) :
    rhaleSession choice f' jac' (data.map (inUnit s a b)) given' (axisLimits.map (limitsInUnit s a b)) (calls.map (callInUnit a b)) s (xs.map fun x => a * x + b) het c =
      rhaleSession choice f jac data given axisLimits calls s xs het c := by
  have hg : ∀ e, given = some e → e.length = data.length := by
    rintro e rfl
    rcases he with ⟨e', h1, h2, -⟩ | ⟨h1, -⟩
    · cases h2; exact h1
    · cases h1
  have hg' : ∀ e, given' = some e → e.length = (data.map (inUnit s a b)).length := by
    rintro e rfl
    rcases he with ⟨e', h1, -, h2⟩ | ⟨-, h1, -⟩
    · cases h2; simpa using h1
    · cases h1
  obtain ⟨E, hE, e1, e2⟩ : ∃ E : List (Row K D), E.length = data.length ∧ rhaleEffects (List.map f) (jac.map List.map) given data = E ∧
      rhaleEffects (List.map f') (jac'.map List.map) given' (data.map (inUnit s a b)) = E.map (perUnit s a) := by
    rcases he with ⟨e, h1, rfl, rfl⟩ | ⟨rfl, rfl, j, j', rfl, rfl, hj⟩
    · exact ⟨e, h1, by cases jac <;> rfl, by cases jac' <;> rfl⟩
    · refine ⟨data.map j, by simp, rfl, ?_⟩
      show List.map j' (data.map (inUnit s a b)) = _
      rw [List.map_map, List.map_map]
      exact List.map_congr_left fun r _ => hj r
  have hgiven : effectsGiven given jac data = E := by
    rw [← e1]
    rcases he with ⟨e, h1, rfl, rfl⟩ | ⟨rfl, rfl, j, j', rfl, rfl, hj⟩
    · cases jac <;> rfl
    · rfl
  unfold rhaleSession
  rw [base_init_all] at hlim hbin
  rw [hgiven] at hbin
  rw [rhaleInit_all _ _ _ _ _ hg, rhaleInit_all _ _ _ _ _ hg', limitsOr_unit ha, e1, e2]
  cases hl : limitsOr data axisLimits with
  | error e => rfl
  | ok l =>
    rw [hl] at hlim hbin
    obtain ⟨h1, h2, h3, h4⟩ := hlim _ rfl
    simp only [Except.map, Except.bind]
    have hcfg : CfgUnit s a b (fun bm => FixedOrGreedy bm ∨ ProperDp bm ∧ SmallSpread a⁻¹ (l.2 s - l.1 s) (E.map fun e => e s)) (rhaleCfg E { data := data, indices := List.range data.length, axisLo := l.1, axisHi := l.2 })
        (rhaleCfg (E.map (perUnit s a))
          { data := data.map (inUnit s a b), indices := List.range (data.map (inUnit s a b)).length, axisLo := inUnit s a b l.1, axisHi := inUnit s a b l.2 }) :=
      ⟨inUnit_self s l.1, inUnit_self s l.2, NotClose.lt h1, ⟨h3, h4⟩, fun bm hb => rhaleFit_unit ha data E hE l.1 l.2 s h1 h2 hb, fun bm p hb hp => by
        obtain ⟨-, L, hL, hp'⟩ := rhaleFitFeature_ok hp
        obtain ⟨k1, k2, k3⟩ := findLimits_good_small (c := rhaleCtx data E l.1 l.2 s) rfl (rhaleCtx_len data E l.1 l.2 s hE) (rhaleCtx_in data E l.1 l.2 s) (NotClose.lt h1)
          (rhale_spread hb) hL
        obtain ⟨g1, g2, -⟩ := computeAleParams_good k1 k2 k3 (rhaleCtx_len data E l.1 l.2 s hE) hp'
        rw [← g2] at k3 hp'
        have g2 := k3
        have g3 := hp'
        exact ⟨g1, computeAleParams_var_nonneg g1.inc g1.two g2 (rhaleCtx_len data E l.1 l.2 s hE) g3⟩, rfl, Or.inl fun hc => absurd hc (by decide), rfl⟩
    exact (aleEval_unit ha hcfg (aleRun_unit ha hcfg calls hcalls fun t bm c hm => (hbin t bm c hm).imp id fun h => ⟨h.1, h.2 _ rfl⟩) hxs het c).2

/-! ### PDP and DerPDP -/

namespace Spec

/-- The model (or its gradient) as a function of the instance with feature `s` in the other unit. -/
def PdpInUnit (s : Fin D) (a b : K) : PdpModel K D → PdpModel K D → Prop
  | .pdp f, .pdp f' => ∀ r, f' (inUnit s a b r) = f r
  | .derJac j, .derJac j' => ∀ r, j' (inUnit s a b r) = perUnit s a (j r)
  | _, _ => False

/-- 1 for PDP, 1/a for DerPDP: the derivative is per unit of the feature. -/
def unitFactor (a : K) : PdpModel K D → K
  | .pdp _ => 1
  | _ => 1 / a

/-- All the numbers in the result of `eval`, multiplied by `k`. -/
def outTimes (k : K) : PdpOut K → PdpOut K
  | .all y => .all (y.map (List.map (k * ·)))
  | .meanOnly m => .meanOnly (m.map (k * ·))
  | .meanStdErr m s e => .meanStdErr (m.map (k * ·)) (s.map (k * ·)) (e.map (k * ·))
  | .meanStd m s => .meanStd (m.map (k * ·)) (s.map (k * ·))

end Spec

theorem update_unit (s : Fin D) (a b v : K) (r : Row K D) : Function.update (inUnit s a b r) s (a * v + b) = inUnit s a b (Function.update r s v) := by
  unfold inUnit
  simp

theorem at_unit {s : Fin D} {a b : K} {M M' : PdpModel K D} (h : PdpInUnit s a b M M') (v : K) (r : Row K D) :
    M'.at s (a * v + b) (inUnit s a b r) = unitFactor a M * M.at s v r := by
  cases M with
  | pdp f =>
    cases M' with
    | pdp f' => simp only [PdpModel.at, update_unit, unitFactor, one_mul]; exact h _
    | derJac j => exact h.elim
    | derNum f => exact h.elim
  | derJac j =>
    cases M' with
    | derJac j' =>
      simp only [PdpModel.at, update_unit, unitFactor]
      rw [show j' (inUnit s a b (Function.update r s v)) = perUnit s a (j (Function.update r s v)) from h _]
      simp only [perUnit, Function.update_self]
      ring
    | pdp f' => exact h.elim
    | derNum f => exact h.elim
  | derNum f => cases M' <;> exact h.elim

theorem avg_times (k : K) (l : List K) : avg (l.map (k * ·)) = k * avg l := by
  unfold avg
  rw [List.length_map, List.sum_map_mul_left, List.map_id', mul_div_assoc]

theorem popVar_times (k : K) (l : List K) : popVar (l.map (k * ·)) = k ^ 2 * popVar l := by
  unfold popVar
  rw [avg_times, List.map_map, List.length_map]
  have hs : ∀ (μ : K) (l : List K), (l.map ((fun y => (y - k * μ) ^ 2) ∘ (k * ·))).sum = k ^ 2 * (l.map fun y => (y - μ) ^ 2).sum := by
    intro μ l
    induction l with
    | nil => simp
    | cons y t ih => simp only [List.map_cons, List.sum_cons, ih, Function.comp]; ring
  rw [hs, mul_div_assoc]

theorem popVar_nonneg' (l : List K) : 0 ≤ popVar l := by
  unfold popVar
  apply div_nonneg _ (Nat.cast_nonneg _)
  apply List.sum_nonneg
  intro x hx
  obtain ⟨y, -, rfl⟩ := List.mem_map.mp hx
  exact sq_nonneg _

theorem report_times [PySqrt K] [LawfulSqrt K] {k : K} (hk : 0 ≤ k) (het all : Bool) (y : List (List K)) :
    report het all (y.map (List.map (k * ·))) = outTimes k (report het all y) := by
  have h1 : (y.map (List.map (k * ·))).map avg = (y.map avg).map (k * ·) := by
    rw [List.map_map, List.map_map]
    exact List.map_congr_left fun l _ => avg_times k l
  have h2 : ((y.map (List.map (k * ·))).map fun row => PySqrt.sqrt (popVar row)) = (y.map fun row => PySqrt.sqrt (popVar row)).map (k * ·) := by
    rw [List.map_map, List.map_map]
    refine List.map_congr_left fun l _ => ?_
    simp only [Function.comp, popVar_times]
    rw [sqrt_sq_mul k (popVar_nonneg' l), abs_of_nonneg hk]
  unfold report
  rw [h1, h2]
  split_ifs <;> rfl

/-- **C84 for PDP and DerPDP (with a Jacobian).**  Measure feature `s` in another unit (axis limits and positions converted alike, any calls before that respect the axis limits, see
C31): `eval` returns the same ICE curves, average and heterogeneity for PDP, and for DerPDP those divided by `a` - a derivative per new unit -, or the same exception. -/
theorem C84_pdp_units [PySqrt K] [LawfulSqrt K] (s : Fin D) (a b : K) (ha : 0 < a) (M M' : PdpModel K D) (hM : PdpInUnit s a b M M') (lo hi : Fin D → K)
    (data : List (Row K D)) (calls calls' : List (PdpOp K D)) (hcalls : ∀ op ∈ calls, PdpCallOk data lo hi s op)
    (hcalls' : ∀ op ∈ calls', PdpCallOk (data.map (inUnit s a b)) (inUnit s a b lo) (inUnit s a b hi) s op) (xs : List K) (het : Bool) (c : PyVal) (all vec : Bool) :
    pdpEvalAfter M' (inUnit s a b lo) (inUnit s a b hi) (data.map (inUnit s a b)) calls' s (xs.map fun x => a * x + b) het c all vec =
      (pdpEvalAfter M lo hi data calls s xs het c all vec).map (outTimes (unitFactor a M)) := by
  have hk : 0 ≤ unitFactor a M := by cases M <;> simp [unitFactor, ha.le]
  unfold pdpEvalAfter
  rw [pdp_eval_spec M lo hi data s calls hcalls, pdp_eval_spec M' _ _ _ s calls' hcalls']
  cases prepCentering c with
  | error e => rfl
  | ok m =>
    have hd : inLimits (data.map (inUnit s a b)) (inUnit s a b lo) (inUnit s a b hi) s = (inLimits data lo hi s).map (inUnit s a b) := by
      unfold inLimits
      rw [List.filter_map]
      congr 1
      apply List.filter_congr
      intro r _
      simp only [Function.comp, inUnit_self, unit_le ha]
    have hsh : ∀ r, M'.shift (inUnit s a b lo) (inUnit s a b hi) s (inUnit s a b r) m = unitFactor a M * M.shift lo hi s r m := by
      intro r
      cases m with
      | off => simp [PdpModel.shift]
      | zeroStart => simp only [PdpModel.shift, inUnit_self, at_unit hM]
      | zeroIntegral =>
        simp only [PdpModel.shift, inUnit_self, ← linspace_evenly, linspace_unit ha, List.map_map, Function.comp_def, at_unit hM]
        rw [← avg_times, List.map_map]
        rfl
    have hice : M'.ice (inUnit s a b lo) (inUnit s a b hi) ((inLimits data lo hi s).map (inUnit s a b)) s m (xs.map fun x => a * x + b) =
        (M.ice lo hi (inLimits data lo hi s) s m xs).map (List.map (unitFactor a M * ·)) := by
      unfold PdpModel.ice
      simp only [List.map_map]
      apply List.map_congr_left
      intro v _
      simp only [Function.comp, List.map_map]
      apply List.map_congr_left
      intro r _
      simp only [Function.comp, hsh, at_unit hM]
      ring
    simp only [PdpModel.value, hd, hice, report_times hk, inUnit_self, unit_lt ha, List.map_eq_nil_iff]
    split_ifs <;> rfl

/-! ### Where the unit does matter -/

/-- **C84 is false for ALE**: `compute_local_effects` moves the last bin limit by the absolute amount 10^-8.  For x^2 on [0, 1] with one bin, the effect at the right end is 1 + 10^-8;
in half units (y = 2x) it is 1 + 10^-8 / 2. -/
theorem C84_false_ale :
    aleSession (K := ℚ) (D := 1) (fun _ _ => []) id (fun r => r 0 ^ 2) [![0], ![1]] none [.fit (.int 0) (.fixed 1 (some 2) 0) (.bool false)] 0 [1] false (.bool false) =
      .ok ([1 + 1 / 10 ^ 8], none) ∧
    aleSession (K := ℚ) (D := 1) (fun _ _ => []) id (fun r => (r 0 / 2) ^ 2) [![0], ![2]] none [.fit (.int 0) (.fixed 1 (some 2) 0) (.bool false)] 0 [2] false (.bool false) =
      .ok ([1 + 1 / 10 ^ 8 / 2], none) := by
  decide +kernel

/-- **C84 is false for RHALE when the axis limits are `np.allclose`**: the greedy method makes a single bin of a feature measured in a large unit, and two bins in a small one. -/
theorem C84_false_close_limits :
    (rhaleFitFeature (K := ℚ) (D := 1) [![0], ![1 / 10 ^ 9], ![2 / 10 ^ 9], ![3 / 10 ^ 9]] [![0], ![0], ![10 ^ 9], ![10 ^ 9]] ![0] ![3 / 10 ^ 9] 0
        (.greedy 2 (some 1) 0 0)).map (·.limits) = .ok [0, 3 / 10 ^ 9] ∧
    (rhaleFitFeature (K := ℚ) (D := 1) [![0], ![1], ![2], ![3]] [![0], ![0], ![1], ![1]] ![0] ![3] 0 (.greedy 2 (some 1) 0 0)).map (·.limits) = .ok [0, 3 / 2, 3] := by
  decide +kernel

/-- **C84 is false for RHALE with dynamic programming**: the cost of an invalid bin is the absolute number 10^8, so in a large unit an invalid bin becomes the cheapest choice. -/
theorem C84_false_dp :
    dpFind (K := ℚ) { xs := [0, 1 / 10, 1 / 5, 1], eff := some [0, 0, 0, 10 ^ 6], xmin := 0, xmax := 1 } 2 (some 2) 0 0 = .ok (.arr [0, 1 / 2, 1]) ∧
    dpFind (K := ℚ) { xs := [0, 10 ^ 5, 2 * 10 ^ 5, 10 ^ 6], eff := some [0, 0, 0, 1], xmin := 0, xmax := 10 ^ 6 } 2 (some 2) 0 0 = .ok (.arr [0, 10 ^ 6]) := by
  decide +kernel

/-- **C84 is false for DerPDP without a Jacobian** (and likewise for RHALE): the finite-difference step is an absolute amount of the feature's unit.  The derivative of x^3 at 1 comes
out as 3 + h^2, in half units as (3 + h^2 / 4) / 2, with h = 10^-6. -/
theorem C84_false_numerical :
    (PdpModel.derNum fun r : Row ℚ 1 => r 0 ^ 3).at 0 1 ![0] = 3 + (1 / 10 ^ 6) ^ 2 ∧
    (PdpModel.derNum fun r : Row ℚ 1 => (r 0 / 2) ^ 3).at 0 2 ![0] = (3 + (1 / 10 ^ 6) ^ 2 / 4) / 2 := by
  decide +kernel

/-! ### Non-vacuity -/

/-- Feature 0 in degrees Celsius and in degrees Fahrenheit; the derivatives are given. -/
example :
    EffectsInUnit (K := ℚ) (D := 1) 0 (9 / 5) 32 4 (some [![1], ![2], ![5], ![6]]) (some [![5 / 9], ![10 / 9], ![25 / 9], ![30 / 9]]) none none ∧
    NotClose (0 : ℚ) 20 ∧ NotClose (9 / 5 * 0 + 32 : ℚ) (9 / 5 * 20 + 32) ∧ FixedOrGreedy (.greedy 2 (some 2) 0 0 : BinMethod ℚ) ∧
    rhaleSession (K := ℚ) (D := 1) (fun _ _ => []) (fun _ => 0) none [![0], ![5], ![15], ![20]] (some [![1], ![2], ![5], ![6]]) none
        [.fit (.int 0) (.greedy 2 (some 2) 0 0) (.str "zero_start")] 0 [10, 20] false (.str "zero_start") = .ok ([15, 70], none) ∧
    rhaleSession (K := ℚ) (D := 1) (fun _ _ => []) (fun _ => 0) none [![32], ![41], ![59], ![68]] (some [![5 / 9], ![10 / 9], ![25 / 9], ![30 / 9]]) none
        [.fit (.int 0) (.greedy 2 (some 2) 0 0) (.str "zero_start")] 0 [50, 68] false (.str "zero_start") = .ok ([15, 70], none) := by
  refine ⟨Or.inl ⟨_, rfl, rfl, ?_⟩, by unfold NotClose; norm_num, by unfold NotClose; norm_num, trivial, by decide +kernel, by decide +kernel⟩
  decide +kernel

example :
    PdpInUnit (K := ℚ) (D := 1) 0 2 0 (.pdp fun r => r 0 ^ 2) (.pdp fun r => (r 0 / 2) ^ 2) ∧
    pdpEvalAfter (K := ℚ) (D := 1) (.pdp fun r => r 0 ^ 2) ![0] ![2] [![0], ![1], ![2]] [] 0 [1, 2] false (.bool false) false true = .ok (.meanOnly [1, 4]) ∧
    pdpEvalAfter (K := ℚ) (D := 1) (.pdp fun r => (r 0 / 2) ^ 2) ![0] ![4] [![0], ![2], ![4]] [] 0 [2, 4] false (.bool false) false true = .ok (.meanOnly [1, 4]) := by
  refine ⟨fun r => ?_, by decide +kernel, by decide +kernel⟩
  show (inUnit 0 2 0 r 0 / 2) ^ 2 = r 0 ^ 2
  rw [inUnit_self]
  ring

/-- The same with dynamic programming: the effects 1, 2, 5, 6 differ by at most 5, and 25 times the width 20 is far below the penalty, in both units. -/
example :
    ProperDp (.dp 2 (some 2) 0 0 : BinMethod ℚ) ∧
    SmallSpread (K := ℚ) (9 / 5)⁻¹ (20 - 0) ((effectsGiven (some [![1], ![2], ![5], ![6]]) none [![0], ![5], ![15], ![20]] : List (Row ℚ 1)).map fun e => e 0) ∧
    rhaleSession (K := ℚ) (D := 1) (fun _ _ => []) (fun _ => 0) none [![0], ![5], ![15], ![20]] (some [![1], ![2], ![5], ![6]]) none
        [.fit (.int 0) (.dp 2 (some 2) 0 0) (.str "zero_start")] 0 [10, 20] false (.str "zero_start") = .ok ([15, 70], none) ∧
    rhaleSession (K := ℚ) (D := 1) (fun _ _ => []) (fun _ => 0) none [![32], ![41], ![59], ![68]] (some [![5 / 9], ![10 / 9], ![25 / 9], ![30 / 9]]) none
        [.fit (.int 0) (.dp 2 (some 2) 0 0) (.str "zero_start")] 0 [50, 68] false (.str "zero_start") = .ok ([15, 70], none) := by
  refine ⟨⟨by norm_num, by norm_num, by norm_num, by rintro _ ⟨⟩; norm_num⟩, ⟨5, by decide +kernel, by norm_num, by norm_num⟩, ?_⟩
  decide +kernel

end Effector
