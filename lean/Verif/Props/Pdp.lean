import Verif.Props.AleState

/-!
# C25-C27, C31, C33-C38 for PDP and d-PDP

The black-box model (and its Jacobian) is a row-wise function.  `Spec.PdpModel` are the three possibilities; `Spec.PdpModel.at M s v r` is the
value that belongs to instance `r` when feature `s` is set to `v`: an ICE value, or a d-ICE value.
-/

set_option linter.unusedSectionVars false

namespace Effector

open Spec

variable {K : Type} [Field K] [LinearOrder K] [IsStrictOrderedRing K] {D : ℕ}

namespace Spec

/-- PDP of a model, d-PDP with a Jacobian, d-PDP by finite differences. -/
inductive PdpModel (K : Type) (D : ℕ)
  | pdp (f : Row K D → K)
  | derJac (j : Row K D → Row K D)
  | derNum (f : Row K D → K)

/-- The (d-)ICE value of instance `r` at `x_s = v`; all other features unchanged. -/
def PdpModel.at (M : PdpModel K D) (s : Fin D) (v : K) (r : Row K D) : K :=
  match M with
  | .pdp f => f (Function.update r s v)
  | .derJac j => j (Function.update r s v) s
  | .derNum f => (f (Function.update r s (v + 1 / 10 ^ 6)) - f (Function.update r s (v - 1 / 10 ^ 6))) / (2 * (1 / 10 ^ 6))

/-- As passed to the library. -/
def PdpModel.kind : PdpModel K D → PdpKind K D
  | .pdp f => .pdp (List.map f)
  | .derJac j => .derJac (List.map j)
  | .derNum f => .derNum (List.map f)

/-- The instances within the axis limits of feature `s`. -/
def inLimits (data : List (Row K D)) (lo hi : Fin D → K) (s : Fin D) : List (Row K D) := data.filter fun r => lo s ≤ r s ∧ r s ≤ hi s

/-- The constant subtracted from the curve of instance `r`. -/
def PdpModel.shift (M : PdpModel K D) (lo hi : Fin D → K) (s : Fin D) (r : Row K D) : Centering → K
  | .off => 0
  | .zeroStart => M.at s (lo s) r
  | .zeroIntegral => avg ((evenly (lo s) (hi s) 100).map fun v => M.at s v r)

/-- Centred ICE values: one row per position, one column per instance. -/
def PdpModel.ice (M : PdpModel K D) (lo hi : Fin D → K) (d : List (Row K D)) (s : Fin D) (m : Centering) (xs : List K) : List (List K) :=
  xs.map fun v => d.map fun r => M.at s v r - M.shift lo hi s r m

/-- What `eval` returns, from the ICE matrix. -/
def report [PySqrt K] (het all : Bool) (y : List (List K)) : PdpOut K :=
  if all then .all y
  else if het then .meanStd (y.map avg) (y.map fun row => PySqrt.sqrt (popVar row))
  else .meanOnly (y.map avg)

/-- What `eval` should return, with no reference to any history. -/
def PdpModel.value [PySqrt K] (M : PdpModel K D) (lo hi : Fin D → K) (data : List (Row K D)) (s : Fin D) (xs : List K) (het all vec : Bool)
    (m : Centering) : Py (PdpOut K) :=
  if ¬ lo s < hi s then .error .assertionError
  else if vec = false ∧ xs = [] then .error .valueError
  else .ok (report het all (M.ice lo hi (inLimits data lo hi s) s m xs))

end Spec

/-! ### `_predict` of a row-wise model -/

theorem reshape_flatMap {α : Type} (x : List α) (n : ℕ) (g : α → List K) (hg : ∀ a ∈ x, (g a).length = n) :
    reshape2 x.length n (x.flatMap g) = .ok (x.map g) := by
  have hlen : (x.flatMap g).length = x.length * n := by
    induction x with
    | nil => simp
    | cons a t ih =>
      rw [List.flatMap_cons, List.length_append, hg a (by simp), ih (fun b hb => hg b (by simp [hb])), List.length_cons]
      ring
  unfold reshape2
  rw [if_pos hlen]
  congr 1
  induction x with
  | nil => rfl
  | cons a t ih =>
    have ha : (g a).length = n := hg a (by simp)
    have ih' := ih (fun b hb => hg b (by simp [hb])) (by
      have := hlen
      rw [List.flatMap_cons, List.length_append, ha, List.length_cons] at this
      have h2 : (t.length + 1) * n = n + t.length * n := by ring
      omega)
    rw [List.length_cons, List.range_succ_eq_map, List.map_cons, List.map_map, List.map_cons]
    congr 1
    · simp [List.flatMap_cons, ← ha]
    · rw [← ih']
      apply List.map_congr_left
      intro i _
      simp only [Function.comp, List.flatMap_cons]
      have : (i + 1) * n = (g a).length + i * n := by rw [ha]; ring
      rw [Nat.succ_eq_add_one, this, List.drop_append, List.drop_of_length_le (by omega)]
      simp

theorem zipWith_flatMap {α : Type} (x : List α) (op : K → K → K) (g h : α → List K) (hl : ∀ a ∈ x, (g a).length = (h a).length) :
    List.zipWith op (x.flatMap g) (x.flatMap h) = x.flatMap fun a => List.zipWith op (g a) (h a) := by
  induction x with
  | nil => rfl
  | cons a t ih =>
    simp only [List.flatMap_cons]
    rw [List.zipWith_append (hl a (by simp)), ih (fun b hb => hl b (by simp [hb]))]

theorem map_batch {β : Type} (cast : K → K) (data : List (Row K D)) (x : List K) (s : Fin D) (f : Row K D → β) :
    (pdpBatch cast data x s).map f = x.flatMap fun v => data.map fun r => f (Function.update r s (cast v)) := by
  unfold pdpBatch
  induction x with
  | nil => rfl
  | cons a t ih =>
    simp only [List.flatMap_cons, List.map_append, ih]
    simp only [setAll, List.map_map, Function.comp_def]

/-- `_predict` for float data. -/
theorem predict_rowwise (M : PdpModel K D) (data : List (Row K D)) (xx : List K) (s : Fin D) (vec : Bool) :
    pdpPredict id M.kind data xx s vec =
      if vec = false ∧ xx = [] then .error .valueError else .ok (xx.map fun v => data.map fun r => M.at s v r) := by
  have fd : (FD_STEP : K) = 1 / 10 ^ 6 := rfl
  cases vec with
  | true =>
    rw [if_neg (by simp)]
    cases M with
    | pdp f =>
      show reshape2 xx.length data.length ((pdpBatch id data xx s).map f) = _
      rw [map_batch]
      exact reshape_flatMap xx _ _ (by simp)
    | derJac j =>
      show reshape2 xx.length data.length (col ((pdpBatch id data xx s).map j) s) = _
      unfold col
      rw [List.map_map, map_batch]
      exact reshape_flatMap xx _ _ (by simp)
    | derNum f =>
      show reshape2 xx.length data.length (centralDiff ((pdpBatch id data (xx.map (· + FD_STEP)) s).map f)
        ((pdpBatch id data (xx.map (· - FD_STEP)) s).map f)) = _
      unfold centralDiff
      rw [map_batch, map_batch, List.flatMap_map, List.flatMap_map, zipWith_flatMap _ _ _ _ (by simp)]
      rw [reshape_flatMap xx _ _ (by simp)]
      congr 1
      apply List.map_congr_left
      intro v _
      rw [List.zipWith_map, List.zipWith_self]
      simp only [PdpModel.at, fd, id]
  | false =>
    by_cases hx : xx = []
    · rw [if_pos ⟨rfl, hx⟩]
      cases M <;> simp [pdpPredict, PdpModel.kind, hx]
    · rw [if_neg (by simp [hx])]
      cases M with
      | pdp f => simp [pdpPredict, PdpModel.kind, hx, pdpNonVecY, BlackBox.out, setAll, PdpModel.at, Function.comp_def]
      | derJac j => simp [pdpPredict, PdpModel.kind, hx, pdpNonVecY, BlackBox.out, setAll, PdpModel.at, col, Function.comp_def]
      | derNum f =>
        simp [pdpPredict, PdpModel.kind, hx, pdpNonVecY, setAll, PdpModel.at, centralDiff, fd, Function.comp_def, List.zipWith_map,
          List.zipWith_self]

/-! ### The state machine -/

theorem dropOutside_eq (data : List (Row K D)) (lo hi : Fin D → K) (s : Fin D) :
    dropOutside data (lo s) (hi s) s = inLimits data lo hi s := by
  unfold dropOutside inLimits
  rw [List.filter_filter]
  apply List.filter_congr
  intro r _
  rw [Bool.eq_iff_iff]
  simp [and_comm]

theorem inLimits_idem (data : List (Row K D)) (lo hi : Fin D → K) (s : Fin D) :
    inLimits (inLimits data lo hi s) lo hi s = inLimits data lo hi s := by
  unfold inLimits
  rw [List.filter_filter]
  simp

namespace Spec

/-- Restricting to the instances valid for `s` already restricts to those valid for `t`. -/
def Covers (data : List (Row K D)) (lo hi : Fin D → K) (s t : Fin D) : Prop :=
  ∀ r ∈ data, lo s ≤ r s ∧ r s ≤ hi s → lo t ≤ r t ∧ r t ≤ hi t

/-- The axis limits of the features that a call names do not exclude instances valid for `s`, and a `fit` of `s` itself uses the default
number of centring points. -/
def PdpCallOk (data : List (Row K D)) (lo hi : Fin D → K) (s : Fin D) : PdpOp K D → Prop
  | .fit f _ points _ => (s ∈ named D f → points = 100) ∧ ∀ t ∈ named D f, Covers data lo hi s t
  | .eval t _ _ _ _ _ => Covers data lo hi s t

end Spec

theorem inLimits_other {data d : List (Row K D)} {lo hi : Fin D → K} {s t : Fin D} (hsub : d.Sublist data) (hc : Covers data lo hi s t) :
    inLimits (inLimits d lo hi t) lo hi s = inLimits d lo hi s := by
  unfold inLimits
  rw [List.filter_filter]
  apply List.filter_congr
  intro r hr
  have := hc r (hsub.subset hr)
  rw [Bool.eq_iff_iff]
  simp only [Bool.and_eq_true, decide_eq_true_eq]
  exact ⟨fun h => h.1, fun h => ⟨h, this h⟩⟩

/-- The stored normalisation constant for mode `m`. -/
def storedNorm (M : PdpModel K D) (lo hi : Fin D → K) (d : List (Row K D)) (s : Fin D) : Centering → NormConst K
  | .off => .scalar EMPTY_SYMBOL
  | m => .vec (d.map fun r => M.shift lo hi s r m)

/-- Invariant for feature `s`: the data still contain all instances within the limits of `s`, and if `s` is fitted they are exactly those and
the stored constant is right for the recorded mode. -/
structure PdpInv (M : PdpModel K D) (lo hi : Fin D → K) (data : List (Row K D)) (s : Fin D) (st : PdpState K D) : Prop where
  sub : st.data.Sublist data
  keep : inLimits st.data lo hi s = inLimits data lo hi s
  fit : (st.fitted s = false ∧ st.fe s = none) ∨
    (st.fitted s = true ∧ st.data = inLimits data lo hi s ∧
      ∃ m, st.args s = some m ∧ st.fe s = some (storedNorm M lo hi (inLimits data lo hi s) s m))

def pdpCfgOf (M : PdpModel K D) (lo hi : Fin D → K) : PdpCfg K D := { cast := id, kind := M.kind, axisLo := lo, axisHi := hi }

theorem colMeans_rows (d : List (Row K D)) (grid : List K) (g : K → Row K D → K) :
    colMeans d.length (grid.map fun v => d.map (g v)) = d.map fun r => avg (grid.map fun v => g v r) := by
  unfold colMeans
  apply List.ext_getElem
  · simp
  · intro i h1 h2
    have hi : i < d.length := by simpa using h2
    rw [List.getElem_map, List.getElem_range, List.getElem_map, List.map_map]
    unfold mean avg
    simp [Function.comp_def, hi]

theorem fitFeature_spec (M : PdpModel K D) (lo hi : Fin D → K) (d : List (Row K D)) (t : Fin D) (m : Centering) (vec : Bool) :
    pdpFitFeature (pdpCfgOf M lo hi) d t m 100 vec =
      (inLimits d lo hi t, .ok (storedNorm M lo hi (inLimits d lo hi t) t m)) := by
  unfold pdpFitFeature pdpCfgOf
  simp only [dropOutside_eq, Prod.mk.injEq, true_and]
  cases m with
  | off => rfl
  | zeroStart =>
    simp only [predict_rowwise, List.cons_ne_nil, and_false, if_false, bind, Except.bind]
    rfl
  | zeroIntegral =>
    have : evenly (lo t) (hi t) 100 ≠ [] := by unfold evenly; simp
    simp only [linspace_evenly, predict_rowwise, this, and_false, if_false, bind, Except.bind, pure, Except.pure, colMeans_rows]
    rfl

theorem fitLoop_inv {M : PdpModel K D} {lo hi : Fin D → K} {data : List (Row K D)} {s : Fin D} (m : Centering) (vec : Bool) (l : List (Fin D))
    (hl : ∀ t ∈ l, Covers data lo hi s t) {st : PdpState K D} (h : PdpInv M lo hi data s st) :
    PdpInv M lo hi data s (pdpFitLoop (pdpCfgOf M lo hi) m 100 vec st l).1 ∧ (pdpFitLoop (pdpCfgOf M lo hi) m 100 vec st l).2 = .ok () ∧
      (s ∈ l → (pdpFitLoop (pdpCfgOf M lo hi) m 100 vec st l).1.fitted s = true ∧
        (pdpFitLoop (pdpCfgOf M lo hi) m 100 vec st l).1.args s = some m) ∧
      ((st.fitted s = true ∧ st.args s = some m) → (pdpFitLoop (pdpCfgOf M lo hi) m 100 vec st l).1.fitted s = true ∧
        (pdpFitLoop (pdpCfgOf M lo hi) m 100 vec st l).1.args s = some m) := by
  induction l generalizing st with
  | nil => exact ⟨h, rfl, by simp, fun h => h⟩
  | cons t l ih =>
    have ht := hl t List.mem_cons_self
    unfold pdpFitLoop
    rw [fitFeature_spec]
    simp only []
    have hinv : PdpInv M lo hi data s
        { data := inLimits st.data lo hi t
          fe := Function.update st.fe t (some (storedNorm M lo hi (inLimits st.data lo hi t) t m))
          fitted := Function.update st.fitted t true
          args := Function.update st.args t (some m) } := by
      refine ⟨(List.filter_sublist).trans h.sub, ?_, ?_⟩
      · show inLimits (inLimits st.data lo hi t) lo hi s = _
        rw [inLimits_other h.sub ht, h.keep]
      · by_cases hst : s = t
        · subst hst
          right
          refine ⟨by simp, h.keep, m, by simp, ?_⟩
          simp only [Function.update_self]
          rw [h.keep]
        · rcases h.fit with ⟨h1, h2⟩ | ⟨h1, h2, m', h3, h4⟩
          · exact Or.inl ⟨by simp [hst, h1], by simp [hst, h2]⟩
          · right
            refine ⟨by simp [hst, h1], ?_, m', by simp [hst, h3], by simp [hst, h4]⟩
            show inLimits st.data lo hi t = _
            rw [h2]
            unfold inLimits
            rw [List.filter_filter]
            apply List.filter_congr
            intro r hr
            have := ht r hr
            rw [Bool.eq_iff_iff]
            simp only [Bool.and_eq_true, decide_eq_true_eq]
            exact ⟨fun h => h.2, fun h => ⟨this h, h⟩⟩
    obtain ⟨i1, i2, i3, i4⟩ := ih (fun t ht => hl t (List.mem_cons_of_mem _ ht)) hinv
    refine ⟨i1, i2, fun hs => ?_, fun hs => ?_⟩
    · by_cases hst : s = t
      · subst hst
        exact i4 ⟨by simp, by simp⟩
      · exact i3 (by simpa [hst] using hs)
    · by_cases hst : s = t
      · subst hst
        exact i4 ⟨by simp, by simp⟩
      · exact i4 ⟨by simp [hst, hs.1], by simp [hst, hs.2]⟩

theorem inLimits_fitted {data : List (Row K D)} {lo hi : Fin D → K} {s t : Fin D} (hc : Covers data lo hi s t) :
    inLimits (inLimits data lo hi s) lo hi t = inLimits data lo hi s := by
  unfold inLimits
  rw [List.filter_filter]
  apply List.filter_congr
  intro r hr
  have := hc r hr
  rw [Bool.eq_iff_iff]
  simp only [Bool.and_eq_true, decide_eq_true_eq]
  exact ⟨fun h => h.2, fun h => ⟨this h, h⟩⟩

/-- Fitting other features, with any number of centring points, successfully or not. -/
theorem fitLoop_otherInv {M : PdpModel K D} {lo hi : Fin D → K} {data : List (Row K D)} {s : Fin D} (m : Centering) (points : ℕ) (vec : Bool)
    (l : List (Fin D)) (hs : s ∉ l) (hl : ∀ t ∈ l, Covers data lo hi s t) {st : PdpState K D} (h : PdpInv M lo hi data s st) :
    PdpInv M lo hi data s (pdpFitLoop (pdpCfgOf M lo hi) m points vec st l).1 := by
  induction l generalizing st with
  | nil => exact h
  | cons t l ih =>
    have ht := hl t List.mem_cons_self
    have hst : s ≠ t := fun e => hs (by simp [e])
    have hd : (pdpFitFeature (pdpCfgOf M lo hi) st.data t m points vec).1 = inLimits st.data lo hi t := by
      unfold pdpFitFeature
      exact dropOutside_eq st.data lo hi t
    have hfit : ∀ {q : PdpState K D}, q.data = inLimits st.data lo hi t → q.fe s = st.fe s → q.fitted s = st.fitted s → q.args s = st.args s →
        PdpInv M lo hi data s q := by
      intro q h1 h2 h3 h4
      refine ⟨?_, ?_, ?_⟩
      · rw [h1]; exact (List.filter_sublist).trans h.sub
      · rw [h1, inLimits_other h.sub ht, h.keep]
      · rw [h1, h2, h3, h4]
        rcases h.fit with h0 | ⟨h5, h6, h7⟩
        · exact Or.inl h0
        · exact Or.inr ⟨h5, by rw [h6, inLimits_fitted ht], h7⟩
    unfold pdpFitLoop
    rcases e1 : pdpFitFeature (pdpCfgOf M lo hi) st.data t m points vec with ⟨d, r⟩
    rw [e1] at hd
    subst hd
    cases r with
    | error e => exact hfit rfl rfl rfl rfl
    | ok nc =>
      exact ih (fun h => hs (by simp [h])) (fun t ht => hl t (List.mem_cons_of_mem _ ht))
        (hfit rfl (by simp [hst]) (by simp [hst]) (by simp [hst]))

theorem covers_self (data : List (Row K D)) (lo hi : Fin D → K) (s : Fin D) : Covers data lo hi s s := fun _ _ h => h

theorem needsRefit_pdp {M : PdpModel K D} {lo hi : Fin D → K} {data : List (Row K D)} {s : Fin D} {st : PdpState K D}
    (h : PdpInv M lo hi data s st) (m : Centering) : ∃ b, needsRefit (st.fitted s) (st.args s) m = .ok b := by
  unfold needsRefit
  rcases h.fit with ⟨h1, -⟩ | ⟨h1, -, m', h3, -⟩
  · exact ⟨true, by simp [h1]⟩
  · rw [h1, h3]
    by_cases hm : m = .off
    · exact ⟨false, by simp [hm]⟩
    · exact ⟨decide (m' ≠ m), by simp [hm]⟩

theorem eval_inv [PySqrt K] {M : PdpModel K D} {lo hi : Fin D → K} {data : List (Row K D)} {s t : Fin D} (ht : Covers data lo hi s t)
    {st : PdpState K D} (h : PdpInv M lo hi data s st) (xs : List K) (het : Bool) (c : PyVal) (all vec : Bool) :
    PdpInv M lo hi data s (pdpEval (pdpCfgOf M lo hi) st t xs het c all vec).1 := by
  unfold pdpEval
  cases prepCentering c with
  | error e => exact h
  | ok m =>
    simp only []
    cases needsRefit (st.fitted t) (st.args t) m with
    | error e => exact h
    | ok b =>
      cases b with
      | false => exact h
      | true =>
        obtain ⟨i1, i2, -⟩ := fitLoop_inv m vec [t] (by simpa using ht) h
        simp only []
        rcases e1 : pdpFitLoop (pdpCfgOf M lo hi) m 100 vec st [t] with ⟨q, r⟩
        rw [e1] at i1
        cases r <;> exact i1

theorem run_inv [PySqrt K] (M : PdpModel K D) (lo hi : Fin D → K) (data : List (Row K D)) (s : Fin D) (calls : List (PdpOp K D))
    (hcalls : ∀ op ∈ calls, PdpCallOk data lo hi s op) : PdpInv M lo hi data s (pdpRun (pdpCfgOf M lo hi) data calls) := by
  unfold pdpRun
  have h0 : PdpInv M lo hi data s (PdpState.init data) := ⟨List.Sublist.refl _, rfl, Or.inl ⟨rfl, rfl⟩⟩
  generalize PdpState.init data = st at h0
  induction calls generalizing st with
  | nil => exact h0
  | cons op t ih =>
    refine ih (fun o ho => hcalls o (List.mem_cons_of_mem _ ho)) _ ?_
    have ho := hcalls op List.mem_cons_self
    cases op with
    | eval t xs het c all vec => exact eval_inv ho h0 xs het c all vec
    | fit f c points vec =>
      obtain ⟨hp, ho⟩ := ho
      show PdpInv M lo hi data s (pdpFit (pdpCfgOf M lo hi) st f c points vec).1
      unfold pdpFit
      unfold named at ho hp
      simp only [bind, Except.bind] at ho hp ⊢
      cases prepCentering c with
      | error e => exact h0
      | ok m =>
        simp only []
        cases hf : prepFeatures f D with
        | error e => exact h0
        | ok g =>
          rw [hf] at ho hp
          simp only [] at ho hp ⊢
          cases hr : resolveFeatures D g with
          | error e => exact h0
          | ok l =>
            rw [hr] at ho hp
            by_cases hs : s ∈ l
            · obtain rfl := hp hs
              exact (fitLoop_inv m vec l ho h0).1
            · exact fitLoop_otherInv m points vec l hs ho h0

theorem mapM_subNorm (d : List (Row K D)) (xs : List K) (g : K → Row K D → K) (z : Row K D → K) :
    (xs.map fun v => d.map (g v)).mapM (subNorm (.vec (d.map z))) = (.ok (xs.map fun v => d.map fun r => g v r - z r) : Py _) := by
  rw [List.mapM_map]
  apply mapM_ok
  intro v _
  simp only [Function.comp, subNorm, List.length_map, if_true]
  rw [List.zipWith_map, List.zipWith_self]

theorem report_eq [PySqrt K] (het all : Bool) (y : List (List K)) :
    (if all = true then PdpOut.all y else if het = true then .meanStd (y.map mean) (y.map npStd) else .meanOnly (y.map mean)) = report het all y := by
  have h1 : (mean : List K → K) = avg := rfl
  have h2 : (npStd : List K → K) = fun row => PySqrt.sqrt (popVar row) := by
    funext row
    simp [npStd, variance, popVar, mean, avg]
  unfold report
  rw [h1, h2]

/-- `eval` on a state in which `s` is fitted. -/
theorem evalFitted_spec [PySqrt K] {M : PdpModel K D} {lo hi : Fin D → K} {data : List (Row K D)} {s : Fin D} {st : PdpState K D}
    (h : PdpInv M lo hi data s st) (hfit : st.fitted s = true) (m : Centering) (hm : m = .off ∨ st.args s = some m) (xs : List K)
    (het all vec : Bool) :
    pdpEvalFitted (pdpCfgOf M lo hi) st s xs het m all vec = M.value lo hi data s xs het all vec m := by
  rcases h.fit with ⟨h1, -⟩ | ⟨-, hdata, m', ha, hfe⟩
  · rw [hfit] at h1; cases h1
  · unfold pdpEvalFitted PdpModel.value pyAssert
    by_cases hlt : lo s < hi s
    · simp only [pdpCfgOf, hlt, decide_true, if_true, not_true_eq_false, if_false, bind, Except.bind, predict_rowwise]
      by_cases hx : vec = false ∧ xs = []
      · rw [if_pos hx, if_pos hx]
      · rw [if_neg hx, if_neg hx]
        simp only [hdata, hfe]
        by_cases hoff : m = .off
        · subst hoff
          simp only [if_true, pure, Except.pure]
          rw [report_eq]
          unfold PdpModel.ice PdpModel.shift
          simp
        · obtain hm := hm.resolve_left hoff
          rw [ha] at hm
          cases hm
          simp only [if_neg hoff]
          have : storedNorm M lo hi (inLimits data lo hi s) s m =
              .vec ((inLimits data lo hi s).map fun r => M.shift lo hi s r m) := by
            cases m with
            | off => exact absurd rfl hoff
            | zeroStart => rfl
            | zeroIntegral => rfl
          rw [this, mapM_subNorm]
          simp only [pure, Except.pure]
          rw [report_eq]
          rfl
    · simp [pdpCfgOf, hlt, bind, Except.bind]

/-- **The behaviour of PDP / d-PDP objects.**  After any history of `fit` and `eval` calls (for `s` with the default centring grid of 100 points)
on features whose axis limits do not exclude instances that are valid for `s`, `eval` for `s` returns `PdpModel.value`, which mentions no
history.  In particular a centred `eval` subtracts from each ICE curve the constant of the requested mode (C27), whatever was fitted before. -/
theorem pdp_eval_spec [PySqrt K] (M : PdpModel K D) (lo hi : Fin D → K) (data : List (Row K D)) (s : Fin D) (calls : List (PdpOp K D))
    (hcalls : ∀ op ∈ calls, PdpCallOk data lo hi s op) (xs : List K) (het : Bool) (c : PyVal) (all vec : Bool) :
    (pdpEval (pdpCfgOf M lo hi) (pdpRun (pdpCfgOf M lo hi) data calls) s xs het c all vec).2 =
      match prepCentering c with
      | .error e => .error e
      | .ok m => M.value lo hi data s xs het all vec m := by
  have h := run_inv M lo hi data s calls hcalls
  generalize pdpRun (pdpCfgOf M lo hi) data calls = st at *
  unfold pdpEval
  cases prepCentering c with
  | error e => rfl
  | ok m =>
    simp only []
    obtain ⟨b, hb⟩ := needsRefit_pdp h m
    rw [hb]
    cases b with
    | false =>
      obtain ⟨h1, h2⟩ := needsRefit_false hb
      exact evalFitted_spec h h1 m h2 xs het all vec
    | true =>
      obtain ⟨i1, i2, i3, -⟩ := fitLoop_inv m vec [s] (by simpa using covers_self data lo hi s) h
      obtain ⟨i3, i4⟩ := i3 (by simp)
      simp only []
      rcases e1 : pdpFitLoop (pdpCfgOf M lo hi) m 100 vec st [s] with ⟨q, r⟩
      rw [e1] at i1 i2 i3 i4
      obtain rfl : r = .ok () := i2
      exact evalFitted_spec i1 i3 m (Or.inr i4) xs het all vec

end Effector
