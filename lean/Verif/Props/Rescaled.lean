import Verif.Props.Locality
import Verif.Props.Units

/-!
# C125: the scale on which a feature is measured does not matter to its PDP

C84 is about another unit (`a x + b`).  A PDP keeps its values under every strictly monotone change of scale (logarithms, ranks, a reversed axis), ALE and RHALE do not.
-/

namespace Effector

set_option linter.unusedSectionVars false

open Spec

variable {K : Type} [Field K] [LinearOrder K] [IsStrictOrderedRing K] {D D' : ℕ}

namespace Spec

/-- `U` rewrites instances (in any way, also with other columns) such that a value `v` of feature `s` becomes the value `φ v` of column `s'`. -/
def Rescales (s : Fin D) (s' : Fin D') (φ : K → K) (U : Row K D → Row K D') : Prop := ∀ r v, U (Function.update r s v) = Function.update (U r) s' (φ v)

/-- The axis limits on the other scale; they change places if the scale is reversed. -/
def LimitsOnScale (φ : K → K) (lo hi lo' hi' : K) : Prop := (StrictMono φ ∧ lo' = φ lo ∧ hi' = φ hi) ∨ (StrictAnti φ ∧ lo' = φ hi ∧ hi' = φ lo)

/-- The model as a function of the rewritten instances. -/
def SameModel (U : Row K D → Row K D') (f : Row K D → K) (f' : Row K D' → K) : Prop := ∀ r, f' (U r) = f r

/-- The derivative with respect to the feature on the other scale, `w v` being 1 / φ'(v): the chain rule. -/
def SameDerivative (s : Fin D) (s' : Fin D') (w : K → K) (U : Row K D → Row K D') (j : Row K D → Row K D) (j' : Row K D' → Row K D') : Prop := ∀ r, j' (U r) s' = w (r s) * j r s

/-- The numbers for the i-th position, multiplied by the i-th factor. -/
def outWeighted (ws : List K) : PdpOut K → PdpOut K
  | .all y => .all (List.zipWith (fun w row => row.map (w * ·)) ws y)
  | .meanOnly m => .meanOnly (List.zipWith (· * ·) ws m)
  | .meanStdErr m sd e => .meanStdErr (List.zipWith (· * ·) ws m) (List.zipWith (fun w z => |w| * z) ws sd) (List.zipWith (fun w z => |w| * z) ws e)
  | .meanStd m sd => .meanStd (List.zipWith (· * ·) ws m) (List.zipWith (fun w z => |w| * z) ws sd)

end Spec

theorem Spec.Rescales.value {s : Fin D} {s' : Fin D'} {φ : K → K} {U : Row K D → Row K D'} (h : Rescales s s' φ U) (r : Row K D) : U r s' = φ (r s) := by
  have := h r (r s)
  rw [Function.update_eq_self] at this
  rw [this, Function.update_self]

theorem Spec.LimitsOnScale.lt_iff {φ : K → K} {lo hi lo' hi' : K} (h : LimitsOnScale φ lo hi lo' hi') : lo' < hi' ↔ lo < hi := by
  rcases h with ⟨h, rfl, rfl⟩ | ⟨h, rfl, rfl⟩
  · exact h.lt_iff_lt
  · exact h.lt_iff_gt

theorem Spec.LimitsOnScale.mem_iff {φ : K → K} {lo hi lo' hi' : K} (h : LimitsOnScale φ lo hi lo' hi') (x : K) : (lo' ≤ φ x ∧ φ x ≤ hi') ↔ (lo ≤ x ∧ x ≤ hi) := by
  rcases h with ⟨h, rfl, rfl⟩ | ⟨h, rfl, rfl⟩
  · rw [h.le_iff_le, h.le_iff_le]
  · rw [h.le_iff_ge, h.le_iff_ge, and_comm]

theorem inLimits_rescale {s : Fin D} {s' : Fin D'} {φ : K → K} {U : Row K D → Row K D'} (hU : Rescales s s' φ U) {lo hi : Fin D → K} {lo' hi' : Fin D' → K}
    (hl : LimitsOnScale φ (lo s) (hi s) (lo' s') (hi' s')) (data : List (Row K D)) : inLimits (data.map U) lo' hi' s' = (inLimits data lo hi s).map U := by
  unfold inLimits
  rw [List.filter_map]
  congr 1
  apply List.filter_congr
  intro r _
  simp only [Function.comp, hU.value, hl.mem_iff]

theorem at_rescale {s : Fin D} {s' : Fin D'} {φ : K → K} {U : Row K D → Row K D'} (hU : Rescales s s' φ U) {f : Row K D → K} {f' : Row K D' → K} (hf : SameModel U f f') (v : K) (r : Row K D) :
    (PdpModel.pdp f').at s' (φ v) (U r) = (PdpModel.pdp f).at s v r := by
  simp only [PdpModel.at]
  rw [← hU r v]
  exact hf _

theorem popVar_shift (l : List K) (k : K) (hl : l ≠ []) : popVar (l.map (· + k)) = popVar l := by
  have := popVar_affine hl 1 k
  simpa using this

/-- **C125, PDP.**  Measure a feature on another, strictly monotone scale: the PDP (average, heterogeneity and all ICE curves) at the converted positions is the same, or the same exception is raised, without centring and, if the scale
is not reversed, with `zero_start`.  The calls before may be different ones. -/
theorem C125_pdp [PySqrt K] {s : Fin D} {s' : Fin D'} {φ : K → K} {U : Row K D → Row K D'} (hU : Rescales s s' φ U) (f : Row K D → K) (f' : Row K D' → K) (hf : SameModel U f f') (lo hi : Fin D → K) (lo' hi' : Fin D' → K)
    (hl : LimitsOnScale φ (lo s) (hi s) (lo' s') (hi' s')) (data : List (Row K D)) (calls : List (PdpOp K D)) (calls' : List (PdpOp K D')) (hcalls : ∀ op ∈ calls, PdpCallOk data lo hi s op)
    (hcalls' : ∀ op ∈ calls', PdpCallOk (data.map U) lo' hi' s' op) (xs : List K) (het : Bool) (c : PyVal) (all vec : Bool)
    (hc : prepCentering c ≠ .ok .zeroIntegral) (hc' : prepCentering c = .ok .zeroStart → lo' s' = φ (lo s)) :
    pdpEvalAfter (.pdp f') lo' hi' (data.map U) calls' s' (xs.map φ) het c all vec = pdpEvalAfter (.pdp f) lo hi data calls s xs het c all vec := by
  unfold pdpEvalAfter
  rw [pdp_eval_spec _ lo hi data s calls hcalls, pdp_eval_spec _ lo' hi' _ s' calls' hcalls']
  cases hm : prepCentering c with
  | error e => rfl
  | ok m =>
    have hsh : ∀ r, (PdpModel.pdp f').shift lo' hi' s' (U r) m = (PdpModel.pdp f).shift lo hi s r m := by
      intro r
      cases m with
      | off => rfl
      | zeroStart => simp only [PdpModel.shift, hc' hm, at_rescale hU hf]
      | zeroIntegral => exact absurd hm hc
    have hice : (PdpModel.pdp f').ice lo' hi' ((inLimits data lo hi s).map U) s' m (xs.map φ) = (PdpModel.pdp f).ice lo hi (inLimits data lo hi s) s m xs := by
      unfold PdpModel.ice
      simp only [List.map_map, Function.comp_def, hsh, at_rescale hU hf]
    simp only [PdpModel.value, inLimits_rescale hU hl, hice, hl.lt_iff, List.map_eq_nil_iff]

/-- **C125, every centring.**  With any two centrings, also `zero_integral` and on a reversed scale, the averages differ by one number, so between any two positions they change in the same way. -/
theorem C125_pdp_centered [PySqrt K] {s : Fin D} {s' : Fin D'} {φ : K → K} {U : Row K D → Row K D'} (hU : Rescales s s' φ U) (f : Row K D → K) (f' : Row K D' → K) (hf : SameModel U f f') (lo hi : Fin D → K)
    (lo' hi' : Fin D' → K) (hl : LimitsOnScale φ (lo s) (hi s) (lo' s') (hi' s')) (data : List (Row K D)) (calls : List (PdpOp K D)) (calls' : List (PdpOp K D')) (hcalls : ∀ op ∈ calls, PdpCallOk data lo hi s op)
    (hcalls' : ∀ op ∈ calls', PdpCallOk (data.map U) lo' hi' s' op) (xs : List K) (c c' : PyVal) (m m' : Centering) (hm : prepCentering c = .ok m) (hm' : prepCentering c' = .ok m') (vec : Bool)
    (ha : EvalArgsOk data lo hi s xs vec) :
    ∃ y k, pdpEvalAfter (.pdp f) lo hi data calls s xs false c false vec = .ok (.meanOnly y) ∧
      pdpEvalAfter (.pdp f') lo' hi' (data.map U) calls' s' (xs.map φ) false c' false vec = .ok (.meanOnly (y.map (· + k))) := by
  have hpos : ¬ (vec = false ∧ xs = []) := by rintro ⟨h1, h2⟩; rcases ha.positions with h | h <;> simp_all
  refine ⟨((PdpModel.pdp f).ice lo hi (inLimits data lo hi s) s m xs).map avg,
    avg ((inLimits data lo hi s).map fun r => (PdpModel.pdp f).shift lo hi s r m) - avg ((inLimits data lo hi s).map fun r => (PdpModel.pdp f').shift lo' hi' s' (U r) m'), ?_, ?_⟩
  · unfold pdpEvalAfter
    rw [pdp_eval_spec _ lo hi data s calls hcalls, hm]
    simp only [PdpModel.value, ha.limits, not_true, if_false, hpos, report]
    rfl
  · unfold pdpEvalAfter
    rw [pdp_eval_spec _ lo' hi' _ s' calls' hcalls', hm']
    simp only [PdpModel.value, hl.lt_iff.mpr ha.limits, not_true, if_false, List.map_eq_nil_iff, hpos, report, inLimits_rescale hU hl]
    have hsub : ∀ (g h : Row K D → K), avg ((inLimits data lo hi s).map fun r => g r - h r) = avg ((inLimits data lo hi s).map g) - avg ((inLimits data lo hi s).map h) := by
      intro g h
      have hs : ∀ l : List (Row K D), (l.map fun r => g r - h r).sum = (l.map g).sum - (l.map h).sum := by
        intro l
        induction l with
        | nil => simp
        | cons a t ih => simp only [List.map_cons, List.sum_cons, ih]; ring
      unfold avg
      rw [hs, List.length_map, List.length_map, List.length_map, sub_div]
    have : ((PdpModel.pdp f').ice lo' hi' ((inLimits data lo hi s).map U) s' m' (xs.map φ)).map avg = (((PdpModel.pdp f).ice lo hi (inLimits data lo hi s) s m xs).map avg).map
        (· + (avg ((inLimits data lo hi s).map fun r => (PdpModel.pdp f).shift lo hi s r m) - avg ((inLimits data lo hi s).map fun r => (PdpModel.pdp f').shift lo' hi' s' (U r) m'))) := by
      unfold PdpModel.ice
      simp only [List.map_map]
      apply List.map_congr_left
      intro v _
      simp only [Function.comp_def, hsub, at_rescale hU hf]
      ring
    simp only [this, if_false, Bool.false_eq_true]

/-- **C125, DerPDP with a Jacobian (no centring).**  The average derivative at a converted position is the one at the position, times `w` (1 / φ' by the chain rule); the heterogeneity times `|w|`; the same for the d-ICE curves. -/
theorem C125_derpdp [PySqrt K] [LawfulSqrt K] {s : Fin D} {s' : Fin D'} {φ w : K → K} {U : Row K D → Row K D'} (hU : Rescales s s' φ U) (j : Row K D → Row K D) (j' : Row K D' → Row K D') (hj : SameDerivative s s' w U j j')
    (lo hi : Fin D → K) (lo' hi' : Fin D' → K) (hl : LimitsOnScale φ (lo s) (hi s) (lo' s') (hi' s')) (data : List (Row K D)) (calls : List (PdpOp K D)) (calls' : List (PdpOp K D'))
    (hcalls : ∀ op ∈ calls, PdpCallOk data lo hi s op) (hcalls' : ∀ op ∈ calls', PdpCallOk (data.map U) lo' hi' s' op) (xs : List K) (het : Bool) (c : PyVal) (all vec : Bool) (hc : prepCentering c = .ok .off) :
    pdpEvalAfter (.derJac j') lo' hi' (data.map U) calls' s' (xs.map φ) het c all vec = (pdpEvalAfter (.derJac j) lo hi data calls s xs het c all vec).map (outWeighted (xs.map w)) := by
  unfold pdpEvalAfter
  rw [pdp_eval_spec _ lo hi data s calls hcalls, pdp_eval_spec _ lo' hi' _ s' calls' hcalls', hc]
  have hice : (PdpModel.derJac j').ice lo' hi' ((inLimits data lo hi s).map U) s' .off (xs.map φ) =
      List.zipWith (fun w row => row.map (w * ·)) (xs.map w) ((PdpModel.derJac j).ice lo hi (inLimits data lo hi s) s .off xs) := by
    unfold PdpModel.ice
    rw [List.map_map, List.zipWith_map_left, List.zipWith_map_right, List.zipWith_self]
    apply List.map_congr_left
    intro v _
    simp only [Function.comp_def, List.map_map, PdpModel.shift, PdpModel.at, sub_zero]
    apply List.map_congr_left
    intro r _
    rw [← hU, hj, Function.update_self]
  have hrep : ∀ (ws : List K) (y : List (List K)), report het all (List.zipWith (fun w row => row.map (w * ·)) ws y) = outWeighted ws (report het all y) := by
    intro ws y
    have h1 : (List.zipWith (fun w row => row.map (w * ·)) ws y).map avg = List.zipWith (· * ·) ws (y.map avg) := by
      rw [List.map_zipWith, List.zipWith_map_right]
      simp only [avg_times]
    have h2 : ((List.zipWith (fun w row => row.map (w * ·)) ws y).map fun row => PySqrt.sqrt (popVar row)) = List.zipWith (fun w z => |w| * z) ws (y.map fun row => PySqrt.sqrt (popVar row)) := by
      rw [List.map_zipWith, List.zipWith_map_right]
      congr 1
      funext w row
      rw [popVar_times, sqrt_sq_mul w (popVar_nonneg' row)]
    unfold report
    rw [h1, h2]
    split_ifs <;> rfl
  simp only [PdpModel.value, inLimits_rescale hU hl, hice, hrep, hl.lt_iff, List.map_eq_nil_iff]
  split_ifs <;> rfl

theorem foldl_min_mono {φ : K → K} (h : StrictMono φ) (l : List K) (a : K) : (l.map φ).foldl min (φ a) = φ (l.foldl min a) := by
  induction l generalizing a with
  | nil => rfl
  | cons x t ih => rw [List.map_cons, List.foldl_cons, List.foldl_cons, ← h.monotone.map_min, ih]

theorem foldl_max_mono {φ : K → K} (h : StrictMono φ) (l : List K) (a : K) : (l.map φ).foldl max (φ a) = φ (l.foldl max a) := by
  induction l generalizing a with
  | nil => rfl
  | cons x t ih => rw [List.map_cons, List.foldl_cons, List.foldl_cons, ← h.monotone.map_max, ih]

theorem foldl_min_anti {φ : K → K} (h : StrictAnti φ) (l : List K) (a : K) : (l.map φ).foldl min (φ a) = φ (l.foldl max a) := by
  induction l generalizing a with
  | nil => rfl
  | cons x t ih => rw [List.map_cons, List.foldl_cons, List.foldl_cons, ← h.antitone.map_max, ih]

theorem foldl_max_anti {φ : K → K} (h : StrictAnti φ) (l : List K) (a : K) : (l.map φ).foldl max (φ a) = φ (l.foldl min a) := by
  induction l generalizing a with
  | nil => rfl
  | cons x t ih => rw [List.map_cons, List.foldl_cons, List.foldl_cons, ← h.antitone.map_min, ih]

/-- **C125, the constructor.**  If the axis limits are left to the library, those of the converted data are the converted limits (the hypothesis of the theorems above). -/
theorem C125_default_limits {s : Fin D} {s' : Fin D'} {φ : K → K} {U : Row K D → Row K D'} (hU : Rescales s s' φ U) (hφ : StrictMono φ ∨ StrictAnti φ) (choice choice' : ℕ → ℕ → List ℕ) (data : List (Row K D))
    (b : Base K D) (b' : Base K D') (hb : Base.init choice data (.str "all") none = .ok b) (hb' : Base.init choice' (data.map U) (.str "all") none = .ok b') :
    b'.data = b.data.map U ∧ LimitsOnScale φ (b.axisLo s) (b.axisHi s) (b'.axisLo s') (b'.axisHi s') := by
  rw [base_init_all] at hb hb'
  cases data with
  | nil => simp only [limitsOr, axisLimitsAll, Except.bind] at hb; rw [if_neg (by have := s.2; omega)] at hb; cases hb
  | cons r rs =>
    simp only [limitsOr, axisLimitsAll, Except.bind, List.map_cons] at hb hb'
    cases hb
    cases hb'
    refine ⟨rfl, ?_⟩
    have hcol : (rs.map U).map (· s') = (rs.map (· s)).map φ := by
      rw [List.map_map, List.map_map]
      exact List.map_congr_left fun r _ => hU.value r
    rcases hφ with h | h
    · refine Or.inl ⟨h, ?_, ?_⟩
      · show ((rs.map U).map (· s')).foldl min (U r s') = _
        rw [hcol, hU.value, foldl_min_mono h]
      · show ((rs.map U).map (· s')).foldl max (U r s') = _
        rw [hcol, hU.value, foldl_max_mono h]
    · refine Or.inr ⟨h, ?_, ?_⟩
      · show ((rs.map U).map (· s')).foldl min (U r s') = _
        rw [hcol, hU.value, foldl_min_anti h]
      · show ((rs.map U).map (· s')).foldl max (U r s') = _
        rw [hcol, hU.value, foldl_max_anti h]

/-- **C125 is false for ALE and RHALE**: the bins have equal widths on the scale on which the feature is measured.  x² at 1/2 (limits 0 and 2) and, on the scale y = x², y at 1/4 (limits 0 and 4); the PDP is 1/4 at both. -/
theorem C125_not_ale :
    pdpEvalAfter (K := ℚ) (D := 1) (.pdp fun r => r 0 ^ 2) ![0] ![2] [![1 / 2], ![3 / 4], ![3 / 2], ![7 / 4]] [] 0 [1 / 2] false (.bool false) false true = .ok (.meanOnly [1 / 4]) ∧
    pdpEvalAfter (K := ℚ) (D := 1) (.pdp fun r => r 0) ![0] ![4] [![1 / 4], ![9 / 16], ![9 / 4], ![49 / 16]] [] 0 [1 / 4] false (.bool false) false true = .ok (.meanOnly [1 / 4]) ∧
    aleSession (K := ℚ) (D := 1) (fun _ _ => []) id (fun r => r 0 ^ 2) [![1 / 2], ![3 / 4], ![3 / 2], ![7 / 4]] (some (![0], ![2])) [.fit (.int 0) (.fixed 2 (some 0) 0) (.bool false)] 0 [1 / 2] false (.bool false) = .ok ([1 / 2], none) ∧
    aleSession (K := ℚ) (D := 1) (fun _ _ => []) id (fun r => r 0) [![1 / 4], ![9 / 16], ![9 / 4], ![49 / 16]] (some (![0], ![4])) [.fit (.int 0) (.fixed 2 (some 0) 0) (.bool false)] 0 [1 / 4] false (.bool false) = .ok ([1 / 4], none) ∧
    rhaleSession (K := ℚ) (D := 1) (fun _ _ => []) (fun r => r 0 ^ 2) none [![1 / 2], ![3 / 4], ![3 / 2], ![7 / 4]] (some [![1], ![3 / 2], ![3], ![7 / 2]]) (some (![0], ![2])) [.fit (.int 0) (.fixed 1 (some 0) 0) (.bool false)] 0 [1 / 2] false (.bool false) =
      .ok ([9 / 8], none) ∧
    rhaleSession (K := ℚ) (D := 1) (fun _ _ => []) (fun r => r 0) none [![1 / 4], ![9 / 16], ![9 / 4], ![49 / 16]] (some [![1], ![1], ![1], ![1]]) (some (![0], ![4])) [.fit (.int 0) (.fixed 1 (some 0) 0) (.bool false)] 0 [1 / 4] false (.bool false) =
      .ok ([1 / 4], none) := by
  refine ⟨?_, ?_, ?_, ?_, ?_, ?_⟩ <;> decide +kernel

/-! ### Concrete cases -/

/-- Ranks instead of values would do, here cubes, and another column left out: `U (x, z) = (x³)`, a model that uses only `x`. -/
example : Rescales (K := ℚ) (0 : Fin 2) (0 : Fin 1) (fun v => v ^ 3) (fun r => ![r 0 ^ 3]) ∧ StrictMono (fun v : ℚ => v ^ 3) ∧ LimitsOnScale (K := ℚ) (fun v => v ^ 3) (-1) 2 (-1) 8 ∧
    LimitsOnScale (K := ℚ) (fun v => -v) (-1) 2 (-2) 1 ∧ SameModel (K := ℚ) (D := 2) (D' := 1) (fun r => ![r 0 ^ 3]) (fun r => r 0 ^ 3 + 1) (fun r => r 0 + 1) ∧
    SameDerivative (K := ℚ) (D := 2) (D' := 1) 0 0 (fun _ => -1) (fun r => ![-r 0]) (fun r => ![2 * r 0, 0]) (fun r => ![2 * r 0]) := by
  have h3 : StrictMono (fun v : ℚ => v ^ 3) := Odd.strictMono_pow (by decide)
  refine ⟨?_, h3, Or.inl ⟨h3, by norm_num, by norm_num⟩, Or.inr ⟨fun a b h => neg_lt_neg h, by norm_num, by norm_num⟩, fun r => by simp, fun r => by simp⟩
  intro r v
  funext i
  fin_cases i
  simp

example : pdpEvalAfter (K := ℚ) (D := 2) (.pdp fun r => r 0 * r 1) ![0, 0] ![2, 9] [![1, 3], ![2, 5]] [] 0 [0, 1, 2] false (.str "zero_start") true false = .ok (.all [[0, 0], [3, 5], [6, 10]]) ∧
    pdpEvalAfter (K := ℚ) (D := 2) (.pdp fun r => -r 0 * r 1) ![-2, 0] ![0, 9] [![-1, 3], ![-2, 5]] [] 0 [0, -1, -2] false (.bool false) true false = .ok (.all [[0, 0], [3, 5], [6, 10]]) := by
  constructor <;> decide +kernel

end Effector
