import Verif.Props.PdpHistory
import Mathlib.Algebra.Order.AbsoluteValue.Basic
import Mathlib.Tactic.FieldSimp

/-!
# C34-C38, C60: implementations, additive models, invariance, exact derivatives, dtype, n-dimensional PDP
-/

set_option linter.unusedSectionVars false

namespace Effector

open Spec

variable {K : Type} [Field K] [LinearOrder K] [IsStrictOrderedRing K] {D : ℕ}

/-! ### C34 -/

namespace Spec

/-- A row-wise black box: a model, or a Jacobian. -/
inductive RowBox (K : Type) (D : ℕ)
  | pred (f : Row K D → K)
  | jac (j : Row K D → Row K D)

/-- As passed to `pdp_1d_*`. -/
def RowBox.toBox : RowBox K D → BlackBox K D
  | .pred f => .pred (List.map f)
  | .jac j => .jac (List.map j)

end Spec

theorem vecY_eq (cast : K → K) (b : RowBox K D) (data : List (Row K D)) (x : List K) (s : Fin D) (askDer : Bool) :
    pdpVecY cast b.toBox data x s askDer = .ok (pdpNonVecY cast b.toBox data x s askDer) := by
  have plain : ∀ b : RowBox K D, reshape2 x.length data.length (b.toBox.out s (pdpBatch cast data x s)) =
      .ok (x.map fun v => b.toBox.out s (setAll cast data s v)) := by
    intro b
    cases b with
    | pred f =>
      show reshape2 x.length data.length ((pdpBatch cast data x s).map f) = _
      rw [map_batch, reshape_flatMap x _ _ (by simp)]
      congr 1
      apply List.map_congr_left
      intro v _
      simp [RowBox.toBox, BlackBox.out, setAll, Function.comp_def]
    | jac j =>
      show reshape2 x.length data.length (col ((pdpBatch cast data x s).map j) s) = _
      unfold col
      rw [List.map_map, map_batch, reshape_flatMap x _ _ (by simp)]
      congr 1
      apply List.map_congr_left
      intro v _
      simp [RowBox.toBox, BlackBox.out, setAll, col, Function.comp_def]
  cases askDer with
  | false => cases b with
    | pred f => exact plain (.pred f)
    | jac j => exact plain (.jac j)
  | true =>
    cases b with
    | jac j => exact plain (.jac j)
    | pred f =>
      show reshape2 x.length data.length (centralDiff ((pdpBatch cast data (x.map (· + FD_STEP)) s).map f)
        ((pdpBatch cast data (x.map (· - FD_STEP)) s).map f)) = _
      unfold centralDiff
      rw [map_batch, map_batch, List.flatMap_map, List.flatMap_map, zipWith_flatMap _ _ _ _ (by simp), reshape_flatMap x _ _ (by simp)]
      congr 1
      show _ = x.map fun v => centralDiff ((setAll cast data s (v + FD_STEP)).map f) ((setAll cast data s (v - FD_STEP)).map f)
      apply List.map_congr_left
      intro v _
      simp [centralDiff, setAll, Function.comp_def]

/-- **C34, the two functions.**  For every row-wise model or Jacobian, every data set (any dtype), feature, grid with at least one position and
all flags, `pdp_1d_vectorized` and `pdp_1d_non_vectorized` return the same: ICE values, mean, standard deviation and standard error. -/
theorem C34_functions_agree [PySqrt K] (cast : K → K) (b : RowBox K D) (data : List (Row K D)) (x : List K) (hx : x ≠ []) (s : Fin D)
    (het all askDer : Bool) :
    pdp1dVec cast b.toBox data x s het all askDer = pdp1dNonVec cast b.toBox data x s het all askDer := by
  unfold pdp1dVec pdp1dNonVec
  rw [vecY_eq, if_neg hx]
  rfl

theorem predict_vec_irrelevant (cast : K → K) (M : PdpModel K D) (data : List (Row K D)) (xx : List K) (hx : xx ≠ []) (s : Fin D) (v v' : Bool) :
    pdpPredict cast M.kind data xx s v = pdpPredict cast M.kind data xx s v' := by
  have key : pdpPredict cast M.kind data xx s true = pdpPredict cast M.kind data xx s false := by
    cases M with
    | pdp f =>
      show pdpVecY cast (RowBox.pred f).toBox data xx s false = _
      rw [vecY_eq]
      simp [pdpPredict, PdpModel.kind, hx, RowBox.toBox]
    | derJac j =>
      show pdpVecY cast (RowBox.jac j).toBox data xx s false = _
      rw [vecY_eq]
      simp [pdpPredict, PdpModel.kind, hx, RowBox.toBox]
    | derNum f =>
      show pdpVecY cast (RowBox.pred f).toBox data xx s true = _
      rw [vecY_eq]
      simp [pdpPredict, PdpModel.kind, hx, RowBox.toBox]
  cases v <;> cases v' <;> simp [key]

namespace Spec

/-- The same call with another choice of implementation. -/
def PdpOp.SameButVec : PdpOp K D → PdpOp K D → Prop
  | .fit f c p _, .fit f' c' p' _ => f = f' ∧ c = c' ∧ p = p' ∧ 0 < p
  | .eval s xs het c all _, .eval s' xs' het' c' all' _ => s = s' ∧ xs = xs' ∧ het = het' ∧ c = c' ∧ all = all'
  | _, _ => False

end Spec

theorem fitFeature_vec (cast : K → K) (M : PdpModel K D) (lo hi : Fin D → K) (data : List (Row K D)) (s : Fin D) (c : Centering) (p : ℕ)
    (hp : 0 < p) (v v' : Bool) :
    pdpFitFeature { cast := cast, kind := M.kind, axisLo := lo, axisHi := hi } data s c p v =
      pdpFitFeature { cast := cast, kind := M.kind, axisLo := lo, axisHi := hi } data s c p v' := by
  have hne : evenly (lo s) (hi s) p ≠ [] := by
    intro h
    have := congrArg List.length h
    unfold evenly at this
    simp at this
    omega
  unfold pdpFitFeature
  simp only [linspace_evenly]
  cases c with
  | off => rfl
  | zeroIntegral => simp only [predict_vec_irrelevant cast M _ _ hne s v v']
  | zeroStart => simp only [predict_vec_irrelevant cast M _ [lo s] (by simp) s v v']

theorem fitLoop_vec (cast : K → K) (M : PdpModel K D) (lo hi : Fin D → K) (c : Centering) (p : ℕ) (hp : 0 < p) (v v' : Bool) (l : List (Fin D))
    (st : PdpState K D) :
    pdpFitLoop { cast := cast, kind := M.kind, axisLo := lo, axisHi := hi } c p v st l =
      pdpFitLoop { cast := cast, kind := M.kind, axisLo := lo, axisHi := hi } c p v' st l := by
  induction l generalizing st with
  | nil => rfl
  | cons t l ih =>
    unfold pdpFitLoop
    rw [fitFeature_vec cast M lo hi st.data t c p hp v v']
    simp only [ih]

/-- **C34 on the objects.**  For every history of calls and every other history that differs only in the `use_vectorized` flags (centring grids
with at least one point), any dtype, any row-wise model or Jacobian: `eval` at one or more positions gives the same with either implementation. -/
theorem C34_objects_agree [PySqrt K] (cast : K → K) (M : PdpModel K D) (lo hi : Fin D → K) (data : List (Row K D)) (calls calls' : List (PdpOp K D))
    (hcalls : List.Forall₂ PdpOp.SameButVec calls calls') (s : Fin D) (xs : List K) (hx : xs ≠ []) (het : Bool) (c : PyVal) (all v v' : Bool) :
    let cfg : PdpCfg K D := { cast := cast, kind := M.kind, axisLo := lo, axisHi := hi }
    (pdpEval cfg (pdpRun cfg data calls) s xs het c all v).2 = (pdpEval cfg (pdpRun cfg data calls') s xs het c all v').2 := by
  intro cfg
  have hfitted : ∀ (st : PdpState K D) (s : Fin D) (xs : List K) (het : Bool) (m : Centering) (all v v' : Bool), xs ≠ [] →
      pdpEvalFitted cfg st s xs het m all v = pdpEvalFitted cfg st s xs het m all v' := by
    intro st s xs het m all v v' hx
    have h := predict_vec_irrelevant cast M st.data xs hx s v v'
    unfold pdpEvalFitted
    show (do pyAssert (decide (cfg.axisLo s < cfg.axisHi s)); let yy ← pdpPredict cast M.kind st.data xs s v; _) = _
    rw [h]
  have hstate : ∀ (st : PdpState K D) (s : Fin D) (xs : List K) (het : Bool) (c : PyVal) (all v v' : Bool),
      (pdpEval cfg st s xs het c all v).1 = (pdpEval cfg st s xs het c all v').1 := by
    intro st s xs het c all v v'
    unfold pdpEval
    cases prepCentering c with
    | error e => rfl
    | ok m =>
      simp only []
      cases needsRefit (st.fitted s) (st.args s) m with
      | error e => rfl
      | ok b =>
        cases b with
        | false => rfl
        | true =>
          simp only []
          rw [fitLoop_vec cast M lo hi m 100 (by norm_num) v v']
          rcases pdpFitLoop cfg m 100 v' st [s] with ⟨q, r⟩
          cases r <;> rfl
  have hrun : pdpRun cfg data calls = pdpRun cfg data calls' := by
    unfold pdpRun
    generalize PdpState.init data = st
    induction hcalls generalizing st with
    | nil => rfl
    | @cons a b l l' hab hl ih =>
      have : pdpStep cfg st a = pdpStep cfg st b := by
        cases a with
        | fit f c p w =>
          cases b with
          | fit f' c' p' w' =>
            obtain ⟨rfl, rfl, rfl, hp⟩ := hab
            show (pdpFit cfg st f c p w).1 = (pdpFit cfg st f c p w').1
            unfold pdpFit
            cases (do let c ← prepCentering c
                      let f ← prepFeatures f D
                      let l ← resolveFeatures D f
                      return (l, c) : Py (List (Fin D) × Centering)) with
            | error e => rfl
            | ok q =>
              obtain ⟨l, m⟩ := q
              simp only []
              rw [fitLoop_vec cast M lo hi m p hp w w']
          | eval => exact hab.elim
        | eval t xs het c all w =>
          cases b with
          | fit => exact hab.elim
          | eval t' xs' het' c' all' w' =>
            obtain ⟨rfl, rfl, rfl, rfl, rfl⟩ := hab
            exact hstate st t xs het c all w w'
      simp only [List.foldl_cons, this]
      exact ih _
  rw [hrun]
  generalize pdpRun cfg data calls' = st
  unfold pdpEval
  cases prepCentering c with
  | error e => rfl
  | ok m =>
    simp only []
    cases needsRefit (st.fitted s) (st.args s) m with
    | error e => rfl
    | ok b =>
      cases b with
      | false => exact hfitted st s xs het m all v v' hx
      | true =>
        simp only []
        rw [fitLoop_vec cast M lo hi m 100 (by norm_num) v v']
        rcases pdpFitLoop cfg m 100 v' st [s] with ⟨q, r⟩
        cases r with
        | error e => rfl
        | ok u => exact hfitted q s xs het m all v v' hx

/-- **C34 is false for an empty grid**: the batch implementation returns nothing, the loop raises. -/
theorem C34_false_empty_grid :
    pdp1dVec id (RowBox.pred fun r : Row ℚ 1 => r 0).toBox [![1]] [] 0 false false false = .ok (.meanOnly []) ∧
    pdp1dNonVec id (RowBox.pred fun r : Row ℚ 1 => r 0).toBox [![1]] [] 0 false false false = .error .valueError := by
  constructor <;> decide +kernel

/-! ### C35 -/

theorem used_ne {data : List (Row K D)} {lo hi : Fin D → K} {s : Fin D} (h : ∃ r ∈ data, lo s ≤ r s ∧ r s ≤ hi s) : inLimits data lo hi s ≠ [] := by
  obtain ⟨r, hr, h⟩ := h
  exact List.ne_nil_of_mem (List.mem_filter.mpr ⟨hr, by simpa using h⟩)

/-- An ICE matrix all of whose columns are the same curve `w`. -/
theorem report_common [PySqrt K] [LawfulSqrt K] (xs : List K) (d : List (Row K D)) (hd : d ≠ []) (w : K → K) :
    report true false (xs.map fun v => d.map fun _ => w v) = .meanStd (xs.map w) (xs.map fun _ => 0) := by
  unfold report
  simp only [Bool.false_eq_true, if_false, if_true, List.map_map, PdpOut.meanStd.injEq]
  refine ⟨?_, ?_⟩ <;> apply List.map_congr_left <;> intro v _ <;> simp only [Function.comp]
  · exact avg_const (by simp) (by simpa using hd)
  · rw [popVar_const (c := w v) (by simp), sqrt_zero]

namespace Spec

/-- `f` is a function of feature `s` plus a function of the other features. -/
def Additive (f : Row K D → K) (s : Fin D) (g : K → K) (h : Row K D → K) : Prop :=
  (∀ r, f r = g (r s) + h r) ∧ ∀ r v, h (Function.update r s v) = h r

end Spec

theorem additive_at {f : Row K D → K} {s : Fin D} {g : K → K} {h : Row K D → K} (hf : Additive f s g h) (v : K) (r : Row K D) :
    (PdpModel.pdp f).at s v r = g v + h r := by
  unfold PdpModel.at
  simp only []
  rw [hf.1, hf.2]
  simp

/-- **C35.**  An additive model, any (non-interfering) history.  `zero_start`: every ICE curve is `g(x) - g(axis minimum)`, so that is the PDP and the
heterogeneity is 0.  `zero_integral`: every ICE curve is `g(x)` minus the average of `g` over the centring grid.  Uncentred: the PDP is `g(x)` plus the
average of the other part. -/
theorem C35_additive [PySqrt K] [LawfulSqrt K] (f : Row K D → K) (s : Fin D) (g : K → K) (h : Row K D → K) (hf : Additive f s g h)
    (lo hi : Fin D → K) (data : List (Row K D)) (calls : List (PdpOp K D)) (hcalls : ∀ op ∈ calls, PdpCallOk data lo hi s op) (xs : List K)
    (vec : Bool) (ha : EvalArgsOk data lo hi s xs vec) :
    (pdpEvalAfter (.pdp f) lo hi data calls s xs false (.str "zero_start") true vec =
        .ok (.all (xs.map fun v => List.replicate (inLimits data lo hi s).length (g v - g (lo s)))) ∧
      pdpEvalAfter (.pdp f) lo hi data calls s xs true (.str "zero_start") false vec =
        .ok (.meanStd (xs.map fun v => g v - g (lo s)) (xs.map fun _ => 0))) ∧
    (pdpEvalAfter (.pdp f) lo hi data calls s xs true (.str "zero_integral") false vec =
        .ok (.meanStd (xs.map fun v => g v - avg ((evenly (lo s) (hi s) 100).map g)) (xs.map fun _ => 0))) ∧
    pdpEvalAfter (.pdp f) lo hi data calls s xs false (.bool false) false vec =
      .ok (.meanOnly (xs.map fun v => g v + avg ((inLimits data lo hi s).map h))) := by
  have hne := used_ne ha.instances
  have hzs : (PdpModel.pdp f).ice lo hi (inLimits data lo hi s) s .zeroStart xs = xs.map fun v => (inLimits data lo hi s).map fun _ => g v - g (lo s) := by
    unfold PdpModel.ice PdpModel.shift
    simp only [additive_at hf, add_sub_add_right_eq_sub]
  have hzi : (PdpModel.pdp f).ice lo hi (inLimits data lo hi s) s .zeroIntegral xs =
      xs.map fun v => (inLimits data lo hi s).map fun _ => g v - avg ((evenly (lo s) (hi s) 100).map g) := by
    unfold PdpModel.ice PdpModel.shift
    simp only [additive_at hf]
    apply List.map_congr_left
    intro v _
    apply List.map_congr_left
    intro r _
    have : avg ((evenly (lo s) (hi s) 100).map fun v => g v + h r) = avg ((evenly (lo s) (hi s) 100).map g) + h r := by
      unfold avg
      rw [List.sum_map_add]
      simp only [List.length_map, evenly, List.length_range, List.map_const', List.sum_replicate, nsmul_eq_mul]
      rw [add_div]
      congr 1
      field_simp
    rw [this]
    ring
  refine ⟨⟨?_, ?_⟩, ?_, ?_⟩
  · rw [evalAfter_ok _ lo hi data s calls hcalls xs false (m := .zeroStart) rfl true vec ha, hzs]
    simp [report]
  · rw [evalAfter_ok _ lo hi data s calls hcalls xs true (m := .zeroStart) rfl false vec ha, hzs, report_common _ _ hne]
  · rw [evalAfter_ok _ lo hi data s calls hcalls xs true (m := .zeroIntegral) rfl false vec ha, hzi, report_common _ _ hne]
  · rw [evalAfter_ok _ lo hi data s calls hcalls xs false (m := .off) rfl false vec ha]
    unfold PdpModel.ice PdpModel.shift report
    simp only [additive_at hf, sub_zero, List.map_map, Bool.false_eq_true, if_false]
    congr 2
    apply List.map_congr_left
    intro v _
    have hl : ((inLimits data lo hi s).length : K) ≠ 0 := by
      have := List.length_pos_iff.mpr hne
      exact_mod_cast this.ne'
    simp only [Function.comp, avg, List.sum_map_add, List.length_map, List.map_const', List.sum_replicate, nsmul_eq_mul]
    field_simp

/-- **C35**, a feature that the model ignores has a constant PDP: the average prediction. -/
theorem C35_ignored_feature [PySqrt K] (f : Row K D → K) (s : Fin D) (hf : ∀ r v, f (Function.update r s v) = f r)
    (lo hi : Fin D → K) (data : List (Row K D)) (calls : List (PdpOp K D)) (hcalls : ∀ op ∈ calls, PdpCallOk data lo hi s op) (xs : List K)
    (vec : Bool) (ha : EvalArgsOk data lo hi s xs vec) :
    pdpEvalAfter (.pdp f) lo hi data calls s xs false (.bool false) false vec =
      .ok (.meanOnly (xs.map fun _ => avg ((inLimits data lo hi s).map f))) := by
  rw [evalAfter_ok _ lo hi data s calls hcalls xs false (m := .off) rfl false vec ha]
  unfold PdpModel.ice PdpModel.shift report PdpModel.at
  simp [hf]

/-! ### C36 -/

theorem avg_perm {l l' : List K} (h : l.Perm l') : avg l = avg l' := mean_perm h

theorem popVar_perm {l l' : List K} (h : l.Perm l') : popVar l = popVar l' := by
  unfold popVar
  rw [avg_perm h, (h.map _).sum_eq, h.length_eq]

namespace Spec

/-- The columns of an ICE matrix for `n` instances: one curve per instance. -/
def curves (n : ℕ) (ice : List (List K)) : List (List K) := (List.range n).map fun i => ice.map fun row => row.getD i 0

end Spec

theorem curves_ice (M : PdpModel K D) (lo hi : Fin D → K) (d : List (Row K D)) (s : Fin D) (m : Centering) (xs : List K) :
    curves d.length (M.ice lo hi d s m xs) = d.map fun r => xs.map fun v => M.at s v r - M.shift lo hi s r m := by
  unfold curves PdpModel.ice
  apply List.ext_getElem
  · simp
  · intro i h1 h2
    have hi : i < d.length := by simpa using h2
    simp [hi, Function.comp_def]

/-- **C36, order of the instances.**  Re-ordering the rows changes neither the mean nor the heterogeneity, for any centring and either
implementation; the ICE curves are re-ordered like the instances. -/
theorem C36_row_order [PySqrt K] (M : PdpModel K D) (lo hi : Fin D → K) (data data' : List (Row K D)) (hp : data.Perm data') (s : Fin D)
    (calls : List (PdpOp K D)) (hcalls : ∀ op ∈ calls, PdpCallOk data lo hi s op) (xs : List K) (vec : Bool) (ha : EvalArgsOk data lo hi s xs vec)
    (c : PyVal) (m : Centering) (hc : prepCentering c = .ok m) :
    (∀ het, pdpEvalAfter M lo hi data calls s xs het c false vec = pdpEvalAfter M lo hi data' calls s xs het c false vec) ∧
    ∃ ice ice', pdpEvalAfter M lo hi data calls s xs false c true vec = .ok (.all ice) ∧
      pdpEvalAfter M lo hi data' calls s xs false c true vec = .ok (.all ice') ∧
      (curves (inLimits data lo hi s).length ice).Perm (curves (inLimits data' lo hi s).length ice') := by
  have hperm : (inLimits data lo hi s).Perm (inLimits data' lo hi s) := hp.filter _
  have hcalls' : ∀ op ∈ calls, PdpCallOk data' lo hi s op := by
    intro op hop
    have := hcalls op hop
    have hcov : ∀ t, Covers data lo hi s t → Covers data' lo hi s t := fun t h r hr => h r (hp.mem_iff.mpr hr)
    cases op with
    | fit f c p v => exact ⟨this.1, fun t ht => hcov t (this.2 t ht)⟩
    | eval t xs het c all v => exact hcov t this
  have ha' : EvalArgsOk data' lo hi s xs vec := ⟨ha.limits, ha.positions, by
    obtain ⟨r, hr, h⟩ := ha.instances
    exact ⟨r, hp.mem_iff.mp hr, h⟩⟩
  refine ⟨fun het => ?_, _, _, evalAfter_ok M lo hi data s calls hcalls xs false hc true vec ha,
    evalAfter_ok M lo hi data' s calls hcalls' xs false hc true vec ha', ?_⟩
  · rw [evalAfter_ok M lo hi data s calls hcalls xs het hc false vec ha, evalAfter_ok M lo hi data' s calls hcalls' xs het hc false vec ha']
    unfold report PdpModel.ice
    simp only [List.map_map, Bool.false_eq_true, if_false]
    have h1 : ∀ v, avg ((inLimits data lo hi s).map fun r => M.at s v r - M.shift lo hi s r m) =
        avg ((inLimits data' lo hi s).map fun r => M.at s v r - M.shift lo hi s r m) := fun v => avg_perm (hperm.map _)
    have h2 : ∀ v, popVar ((inLimits data lo hi s).map fun r => M.at s v r - M.shift lo hi s r m) =
        popVar ((inLimits data' lo hi s).map fun r => M.at s v r - M.shift lo hi s r m) := fun v => popVar_perm (hperm.map _)
    simp only [Function.comp_def, h1, h2]
  · rw [curves_ice, curves_ice]
    exact hperm.map _

theorem avg_affine {l : List K} (hl : l ≠ []) (a b : K) : avg (l.map fun y => a * y + b) = a * avg l + b := by
  have h : (l.length : K) ≠ 0 := by
    have := List.length_pos_iff.mpr hl
    exact_mod_cast this.ne'
  have hs : ∀ l : List K, (l.map fun y => a * y + b).sum = a * l.sum + l.length * b := by
    intro l
    induction l with
    | nil => simp
    | cons y t ih => simp only [List.map_cons, List.sum_cons, ih, List.length_cons]; push_cast; ring
  unfold avg
  rw [hs, List.length_map]
  field_simp

theorem popVar_affine {l : List K} (hl : l ≠ []) (a b : K) : popVar (l.map fun y => a * y + b) = a ^ 2 * popVar l := by
  unfold popVar
  rw [avg_affine hl, List.map_map, List.length_map]
  have hs : ∀ (μ : K) (l : List K), (l.map ((fun y => (y - (a * μ + b)) ^ 2) ∘ fun y => a * y + b)).sum = a ^ 2 * (l.map fun y => (y - μ) ^ 2).sum := by
    intro μ l
    induction l with
    | nil => simp
    | cons y t ih => simp only [List.map_cons, List.sum_cons, ih, Function.comp]; ring
  rw [hs, mul_div_assoc]

theorem sqrt_sq_mul [PySqrt K] [LawfulSqrt K] (a : K) {v : K} (hv : 0 ≤ v) : PySqrt.sqrt (a ^ 2 * v) = |a| * PySqrt.sqrt v := by
  have h1 : 0 ≤ PySqrt.sqrt (a ^ 2 * v) := LawfulSqrt.sqrt_nonneg _
  have h2 : 0 ≤ |a| * PySqrt.sqrt v := mul_nonneg (abs_nonneg a) (LawfulSqrt.sqrt_nonneg _)
  have h3 : PySqrt.sqrt (a ^ 2 * v) * PySqrt.sqrt (a ^ 2 * v) = a ^ 2 * v := LawfulSqrt.sqrt_mul_self _ (mul_nonneg (sq_nonneg a) hv)
  have h4 : (|a| * PySqrt.sqrt v) * (|a| * PySqrt.sqrt v) = a ^ 2 * v := by
    have := LawfulSqrt.sqrt_mul_self v hv
    calc (|a| * PySqrt.sqrt v) * (|a| * PySqrt.sqrt v) = (|a| * |a|) * (PySqrt.sqrt v * PySqrt.sqrt v) := by ring
      _ = a ^ 2 * v := by rw [this, abs_mul_abs_self]; ring
  exact (mul_self_inj_of_nonneg h1 h2).mp (h3.trans h4.symm)

/-- **C36, affine maps of the model.**  The PDP of `a*f + b` is `a*PDP(f) + b` without centring and `a*PDP(f)` with centring, and its
heterogeneity is `|a|` times that of `f`; the ICE curves transform alike.  The two objects may have different histories. -/
theorem C36_affine_model [PySqrt K] [LawfulSqrt K] (f : Row K D → K) (a b : K) (lo hi : Fin D → K) (data : List (Row K D)) (s : Fin D)
    (calls calls' : List (PdpOp K D)) (hcalls : ∀ op ∈ calls, PdpCallOk data lo hi s op) (hcalls' : ∀ op ∈ calls', PdpCallOk data lo hi s op)
    (xs : List K) (vec : Bool) (ha : EvalArgsOk data lo hi s xs vec) (c : PyVal) (m : Centering) (hc : prepCentering c = .ok m) :
    ∃ ice mu std, pdpEvalAfter (.pdp f) lo hi data calls s xs false c true vec = .ok (.all ice) ∧
      pdpEvalAfter (.pdp f) lo hi data calls s xs true c false vec = .ok (.meanStd mu std) ∧
      pdpEvalAfter (.pdp fun r => a * f r + b) lo hi data calls' s xs false c true vec =
        .ok (.all (ice.map fun row => row.map fun y => a * y + if m = .off then b else 0)) ∧
      pdpEvalAfter (.pdp fun r => a * f r + b) lo hi data calls' s xs true c false vec =
        .ok (.meanStd (mu.map fun y => a * y + if m = .off then b else 0) (std.map fun z => |a| * z)) := by
  have hne := used_ne ha.instances
  have hice : (PdpModel.pdp fun r => a * f r + b).ice lo hi (inLimits data lo hi s) s m xs =
      ((PdpModel.pdp f).ice lo hi (inLimits data lo hi s) s m xs).map fun row => row.map fun y => a * y + if m = .off then b else 0 := by
    unfold PdpModel.ice
    rw [List.map_map]
    apply List.map_congr_left
    intro v _
    simp only [Function.comp, List.map_map]
    apply List.map_congr_left
    intro r _
    simp only [Function.comp, PdpModel.at]
    cases m with
    | off => simp [PdpModel.shift]
    | zeroStart => simp only [PdpModel.shift, PdpModel.at, reduceCtorEq, if_false]; ring
    | zeroIntegral =>
      simp only [PdpModel.shift, PdpModel.at, reduceCtorEq, if_false]
      have hl : (evenly (lo s) (hi s) 100).map (fun v => f (Function.update r s v)) ≠ [] := by unfold evenly; simp
      have := avg_affine hl a b
      rw [List.map_map] at this
      rw [show (fun v => a * f (Function.update r s v) + b) = (fun y => a * y + b) ∘ fun v => f (Function.update r s v) from rfl, this]
      ring
  refine ⟨_, _, _, evalAfter_ok _ lo hi data s calls hcalls xs false hc true vec ha, evalAfter_ok _ lo hi data s calls hcalls xs true hc false vec ha,
    ?_, ?_⟩
  · rw [evalAfter_ok _ lo hi data s calls' hcalls' xs false hc true vec ha, hice]
    rfl
  · rw [evalAfter_ok _ lo hi data s calls' hcalls' xs true hc false vec ha, hice]
    unfold report
    simp only [Bool.false_eq_true, if_false, if_true, List.map_map]
    have hrow : ∀ row ∈ (PdpModel.pdp f).ice lo hi (inLimits data lo hi s) s m xs, row ≠ [] := by
      intro row hrow
      obtain ⟨v, -, rfl⟩ := List.mem_map.1 hrow
      simpa using hne
    congr 2 <;> apply List.map_congr_left <;> intro row hr
    · exact avg_affine (hrow row hr) _ _
    · simp only [Function.comp]
      rw [popVar_affine (hrow row hr), sqrt_sq_mul a (popVar_nonneg _)]

/-! ### C37 -/

/-- **C37, d-PDP.**  For a model that is quadratic in the feature, given the others, central differences are exact: every d-ICE value is the partial
derivative `2 A x + B`, and the d-PDP is their average. -/
theorem C37_derpdp_exact_quadratic [PySqrt K] (f : Row K D → K) (s : Fin D) (A B C : Row K D → K)
    (hf : ∀ r v, f (Function.update r s v) = A r * v ^ 2 + B r * v + C r)
    (lo hi : Fin D → K) (data : List (Row K D)) (calls : List (PdpOp K D)) (hcalls : ∀ op ∈ calls, PdpCallOk data lo hi s op) (xs : List K)
    (vec : Bool) (ha : EvalArgsOk data lo hi s xs vec) :
    pdpEvalAfter (.derNum f) lo hi data calls s xs false (.bool false) true vec =
        .ok (.all (xs.map fun v => (inLimits data lo hi s).map fun r => 2 * A r * v + B r)) ∧
    pdpEvalAfter (.derNum f) lo hi data calls s xs false (.bool false) false vec =
        .ok (.meanOnly (xs.map fun v => avg ((inLimits data lo hi s).map fun r => 2 * A r * v + B r))) := by
  have hice : (PdpModel.derNum f).ice lo hi (inLimits data lo hi s) s .off xs = xs.map fun v => (inLimits data lo hi s).map fun r => 2 * A r * v + B r := by
    unfold PdpModel.ice PdpModel.shift PdpModel.at
    apply List.map_congr_left
    intro v _
    apply List.map_congr_left
    intro r _
    simp only [hf, sub_zero]
    field_simp
    ring
  constructor
  · rw [evalAfter_ok _ lo hi data s calls hcalls xs false (m := .off) rfl true vec ha, hice]
    rfl
  · rw [evalAfter_ok _ lo hi data s calls hcalls xs false (m := .off) rfl false vec ha, hice]
    simp [report, Function.comp_def]

/-- **C37, RHALE.**  For a model that is affine in every feature, given the others, the numerical Jacobian is exact (any step other than 0). -/
theorem C37_jacobian_exact_affine (f : Row K D → K) (B C : Fin D → Row K D → K) (hf : ∀ j r v, f (Function.update r j v) = B j r * v + C j r)
    (data : List (Row K D)) (eps : K) (he : eps ≠ 0) : computeJacobianNumerically (List.map f) data eps = data.map fun r j => B j r := by
  rw [jacobian_rowwise]
  apply List.map_congr_left
  intro r _
  funext j
  have h0 : f r = B j r * r j + C j r := by
    have := hf j r (r j)
    rwa [Function.update_eq_self] at this
  rw [hf, h0]
  field_simp
  ring

/-! ### C38 -/

/-- **C38, when the dtype can hold the requested positions** (always for float data): the ICE values are the model outputs at exactly `xs`.
Missing: positions that an integer array cannot hold, where the property is false (`C38_false`). -/
theorem C38_representable_partial (cast : K → K) (f : Row K D → K) (data : List (Row K D)) (xs : List K) (hx : xs ≠ []) (s : Fin D) (vec : Bool)
    (hcast : ∀ v ∈ xs, cast v = v) :
    pdpPredict cast (.pdp (List.map f)) data xs s vec = .ok (xs.map fun v => data.map fun r => f (Function.update r s v)) := by
  rw [show PdpKind.pdp (List.map f) = (PdpModel.pdp f).kind from rfl, predict_vec_irrelevant cast _ data xs hx s vec false]
  simp only [pdpPredict, PdpModel.kind, hx, Bool.false_eq_true, if_false, pdpNonVecY, BlackBox.out, setAll, List.map_map, Function.comp_def]
  congr 1
  apply List.map_congr_left
  intro v hv
  rw [hcast v hv]

/-- Assignment into an `int64` array: truncation towards 0. -/
def truncCast (v : ℚ) : ℚ := ((v.num.tdiv v.den : ℤ) : ℚ)

/-- **C38 is false for integer data** (bug): model `f(x) = x`, integer data `[[0], [2]]`, `PDP.eval(0, [0.5, 1.5])` is `[0, 1]` instead of
`[0.5, 1.5]`; and for d-PDP by finite differences the slope of `f(x) = x` at 1.5 comes out as 0. -/
theorem C38_false :
    (pdpEval { cast := truncCast, kind := .pdp (List.map fun r : Row ℚ 1 => r 0), axisLo := ![0], axisHi := ![2] }
        (PdpState.init [![0], ![2]]) 0 [1/2, 3/2] false (.bool false) false true).2 = .ok (.meanOnly [0, 1]) ∧
    (pdpEval { cast := truncCast, kind := .derNum (List.map fun r : Row ℚ 1 => r 0), axisLo := ![0], axisHi := ![2] }
        (PdpState.init [![0], ![2]]) 0 [3/2] false (.bool false) false true).2 = .ok (.meanOnly [0]) := by
  constructor <;> decide +kernel

/-! ### C60 -/

namespace Spec

/-- The instance with the listed features overwritten by the listed values. -/
def overwrite (r : Row K D) (features : List (Fin D)) (v : List K) : Row K D :=
  fun j => if j ∈ features then v.getD (features.idxOf j) 0 else r j

end Spec

theorem setMany_spec (data : List (Row K D)) (features : List (Fin D)) (hn : features.Nodup) (v : List K) (hv : v.length = features.length) :
    setMany id data features v = data.map fun r => overwrite r features v := by
  unfold setMany
  apply List.map_congr_left
  intro r hr
  clear hr
  simp only [id]
  induction features generalizing v r with
  | nil => funext j; simp [overwrite]
  | cons a t ih =>
    cases v with
    | nil => simp at hv
    | cons x v =>
      rw [List.nodup_cons] at hn
      simp only [List.zip_cons_cons, List.foldl_cons]
      rw [ih hn.2 v (by simpa using hv)]
      funext j
      unfold overwrite
      by_cases hj : j ∈ t
      · have hja : j ≠ a := fun e => hn.1 (e ▸ hj)
        have : (a :: t).idxOf j = t.idxOf j + 1 := List.idxOf_cons_ne _ (Ne.symm hja)
        simp [hj, this]
      · by_cases hja : j = a
        · subst hja; simp [hj]
        · simp [hj, hja]

/-- **C60, `pdp_nd_vectorized`.**  For every row-wise model, every list of different features and every list of positions: the mean at a position is the
average over all instances of the model output with exactly those features overwritten; std and standard error belong to the same values. -/
theorem C60_pdp_nd_vectorized [PySqrt K] (f : Row K D → K) (data : List (Row K D)) (x : List (List K)) (features : List (Fin D))
    (hn : features.Nodup) (hx : ∀ v ∈ x, v.length = features.length) :
    let ice := x.map fun v => data.map fun r => f (overwrite r features v)
    pdpNdVec id (List.map f) data x features false = .ok (.meanOnly (ice.map avg)) ∧
    pdpNdVec id (List.map f) data x features true =
      .ok (.meanStdErr (ice.map avg) (ice.map fun row => PySqrt.sqrt (popVar row))
        (ice.map fun row => PySqrt.sqrt (popVar row) / PySqrt.sqrt (data.length : K))) := by
  intro ice
  have hy : reshape2 x.length data.length ((x.flatMap fun v => setMany id data features v).map f) = .ok ice := by
    have : (x.flatMap fun v => setMany id data features v).map f = x.flatMap fun v => data.map fun r => f (overwrite r features v) := by
      clear ice
      induction x with
      | nil => rfl
      | cons v t ih =>
        simp only [List.flatMap_cons, List.map_append, ih (fun w hw => hx w (List.mem_cons_of_mem _ hw))]
        rw [setMany_spec data features hn v (hx v List.mem_cons_self)]
        simp [Function.comp_def]
    rw [this]
    exact reshape_flatMap x _ _ (by simp)
  have hassert : (x.all fun v => decide (v.length = features.length)) = true := by
    rw [List.all_eq_true]
    intro v hv
    simpa using hx v hv
  have h1 : (mean : List K → K) = avg := rfl
  have h2 : (npStd : List K → K) = fun row => PySqrt.sqrt (popVar row) := by
    funext row
    simp [npStd, variance, popVar, mean, avg]
  constructor
  · unfold pdpNdVec
    simp only [hassert, pyAssert, if_true, bind, Except.bind, hy, pure, Except.pure, pdpFinish, Bool.false_eq_true, if_false, h1]
  · unfold pdpNdVec
    simp only [hassert, pyAssert, if_true, bind, Except.bind, hy, pure, Except.pure, pdpFinish, Bool.false_eq_true, if_false, h1, h2,
      List.map_map, Function.comp_def]

/-- **C60 is false for `pdp_nd_non_vectorized`** (bug: `for j, feat in features` unpacks an `int`): for every model, data set, at least one position
and at least one feature it raises `TypeError`. -/
theorem C60_false_non_vectorized [PySqrt K] (m : List (Row K D) → List K) (data : List (Row K D)) (x : List (List K)) (features : List (Fin D))
    (hx : ∀ v ∈ x, v.length = features.length) (hne : x ≠ []) (hf : features ≠ []) (het : Bool) :
    pdpNdNonVec m data x features het = .error .typeError := by
  have hassert : (x.all fun v => decide (v.length = features.length)) = true := by
    rw [List.all_eq_true]
    intro v hv
    simpa using hx v hv
  unfold pdpNdNonVec
  simp only [hassert, pyAssert, if_true, bind, Except.bind]
  rw [if_pos ⟨hne, hf⟩]

/-! ### Non-vacuity -/

/-- A model `x_0^2 + x_1` on three instances, with user limits that exclude one of them for feature 0. -/
def exModel : Row ℚ 2 → ℚ := fun r => r 0 ^ 2 + r 1
def exData : List (Row ℚ 2) := [![0, 1], ![1, 3], ![5, 7]]
def exLo : Fin 2 → ℚ := ![0, 0]
def exHi : Fin 2 → ℚ := ![2, 8]

example : Additive exModel 0 (fun v => v ^ 2) (fun r => r 1) :=
  ⟨fun _ => rfl, fun r v => by simp⟩

example : EvalArgsOk exData exLo exHi 0 [0, 1, 2] true :=
  ⟨by decide +kernel, by simp, ![0, 1], by simp [exData], by decide +kernel⟩

/-- A history with calls on both features that satisfies the hypothesis of all theorems above about feature 0. -/
example : ∀ op ∈ [PdpOp.fit (.str "all") (.bool true) 100 true, .eval 1 [3] true (.str "zero_start") false false, .fit (.int 1) (.bool false) 7 true],
    PdpCallOk exData exLo exHi 0 op := by
  have h1 : ∀ t : Fin 2, Covers exData exLo exHi 0 t := by
    intro t r hr
    simp only [exData, List.mem_cons, List.not_mem_nil, or_false] at hr
    fin_cases t <;> rcases hr with rfl | rfl | rfl <;> decide +kernel
  intro op hop
  simp only [List.mem_cons, List.not_mem_nil, or_false] at hop
  rcases hop with rfl | rfl | rfl
  · exact ⟨fun _ => rfl, fun t _ => h1 t⟩
  · exact h1 1
  · refine ⟨fun h => ?_, fun t _ => h1 t⟩
    exact absurd h (by decide +kernel)

/-- The result of that history: centred PDP of feature 0 is `x^2` (up to the limits), one instance is out of the limits. -/
example : (pdpEval (pdpCfgOf (.pdp exModel) exLo exHi)
      (pdpRun (pdpCfgOf (.pdp exModel) exLo exHi) exData [.fit (.str "all") (.bool true) 100 true, .fit (.int 1) (.bool false) 7 true])
      0 [0, 1, 2] false (.str "zero_start") true true).2 = .ok (.all [[0, 0], [1, 1], [4, 4]]) := by
  decide +kernel

example : pdpNdVec id (List.map exModel) exData [[1, 1], [2, 0]] [0, 1] false = .ok (.meanOnly [2, 4]) := by decide +kernel

end Effector
