import Verif.Props.ColumnsMovedShapley

/-!
# C129: the ShapDP of a feature the model is additive in is a matter of this feature alone

With exact Shapley values: whole sessions (constructor, sub-sampling, any calls about the feature, `eval`) answer as on the table with this column only and the model of this column only.
-/

namespace Effector

set_option linter.unusedSectionVars false

open Spec Finset

variable {K : Type} [Field K] [LinearOrder K] [IsStrictOrderedRing K] {D D' : ℕ}

namespace Spec

/-- `ShapDP(data, model, nof_instances=nof)`, the `calls`, then `eval(s, xs, heterogeneity=het, centering=c)`. -/
def shapSession (choice : ℕ → ℕ → List ℕ) (ext : ShapExt K D) (data : List (Row K D)) (nof : PyVal) (calls : List (ShapOp K D)) (s : Fin D) (xs : List K) (het : Bool) (c : PyVal) :
    Py (List K × Option (List K)) :=
  (shapInit choice data nof none).bind fun b =>
    (shapEval { ext := ext, axisLo := b.axisLo, axisHi := b.axisHi } (shapRun { ext := ext, axisLo := b.axisLo, axisHi := b.axisHi } b.data calls) s xs het c).2

/-- The call concerns feature `s` only. -/
def ShapOnlyOn (s : Fin D) : ShapOp K D → Prop
  | .fit f _ _ => f = .int (s : ℕ)
  | .eval t _ _ _ => t = s

/-- The same call, about feature `s'`. -/
def shapCallOn (s' : Fin D') : ShapOp K D → ShapOp K D'
  | .fit _ c n => .fit (.int (s' : ℕ)) c n
  | .eval _ xs het c => .eval s' xs het c

/-- The model is the sum of a function of feature `s` and of a function of the others. -/
def AdditiveIn (s : Fin D) (g : K → K) (f : Row K D → K) : Prop := ∃ h : Row K D → K, (∀ r, f r = g (r s) + h r) ∧ ∀ r v, h (Function.update r s v) = h r

end Spec

section

variable {ι : Fin D → Fin D'} {s : Fin D}

theorem shapEval_state_moved {cfg : ShapCfg K D} {cfg' : ShapCfg K D'} (hx : ShapMoved ι cfg.ext cfg'.ext) (hlo : cfg'.axisLo (ι s) = cfg.axisLo s) (hhi : cfg'.axisHi (ι s) = cfg.axisHi s)
    {st : ShapState K D} {st' : ShapState K D'} (h : ShapLike ι s st st') (xs : List K) (het : Bool) (c : PyVal) :
    ShapLike ι s (shapEval cfg st s xs het c).1 (shapEval cfg' st' (ι s) xs het c).1 := by
  unfold shapEval
  cases prepCentering c with
  | error e => exact h
  | ok c =>
    simp only [h.fitted, h.args]
    cases needsRefit (st'.fitted (ι s)) (st'.args (ι s)) c with
    | error e => exact h
    | ok b =>
      cases b with
      | false => exact h
      | true =>
        have h3 := shapFitLoop_moved hx hlo hhi h c 100
        rcases e1 : shapFitLoop cfg c 100 st [s] with ⟨q, r⟩
        rcases e2 : shapFitLoop cfg' c 100 st' [ι s] with ⟨q', r'⟩
        rw [e1, e2] at h3
        obtain ⟨ha, rfl⟩ := h3
        cases r with
        | error e => exact ha
        | ok u => exact ha

theorem shapRun_moved {cfg : ShapCfg K D} {cfg' : ShapCfg K D'} (hx : ShapMoved ι cfg.ext cfg'.ext) (hlo : cfg'.axisLo (ι s) = cfg.axisLo s) (hhi : cfg'.axisHi (ι s) = cfg.axisHi s)
    (calls : List (ShapOp K D')) (hc : ∀ op ∈ calls, ShapOnlyOn (ι s) op) {st : ShapState K D} {st' : ShapState K D'} (h : ShapLike ι s st st') :
    ShapLike ι s ((calls.map (shapCallOn s)).foldl (shapStep cfg) st) (calls.foldl (shapStep cfg') st') := by
  induction calls generalizing st st' with
  | nil => exact h
  | cons op t ih =>
    rw [List.map_cons, List.foldl_cons, List.foldl_cons]
    refine ih (fun o ho => hc o (List.mem_cons_of_mem _ ho)) ?_
    have h0 := hc op List.mem_cons_self
    cases op with
    | fit f c n =>
      obtain rfl := h0
      exact (shapFit_moved hx hlo hhi h c n).1
    | eval t xs het c =>
      obtain rfl := h0
      exact shapEval_state_moved hx hlo hhi h xs het c

/-- **C129, sessions.**  If the explainer gives the columns `ι 0, ι 1, ...` the same values whether or not it sees the others: a ShapDP object for the whole table, and one for the table with only these columns, give the same
answers after the same calls about one of these columns. -/
theorem C129_session (choice : ℕ → ℕ → List ℕ) (hι : Function.Injective ι) {ext : ShapExt K D} {ext' : ShapExt K D'} (hx : ShapMoved ι ext ext') (data : List (Row K D')) (nof : PyVal)
    (calls : List (ShapOp K D')) (hc : ∀ op ∈ calls, ShapOnlyOn (ι s) op) (xs : List K) (het : Bool) (c : PyVal) :
    shapSession choice ext' data nof calls (ι s) xs het c = shapSession choice ext (data.map (onlyColumns ι)) nof (calls.map (shapCallOn s)) s xs het c := by
  unfold shapSession
  rcases shapInit_moved (s := s) choice hι data nof with ⟨er, h1, h2⟩ | ⟨B', B, h1, h2, h3, h4, h5⟩
  · rw [h1, h2]; rfl
  · rw [h1, h2]
    simp only [Except.bind]
    symm
    refine shapEval_moved (cfg := { ext := ext, axisLo := B.axisLo, axisHi := B.axisHi }) (cfg' := { ext := ext', axisLo := B'.axisLo, axisHi := B'.axisHi }) hx h4 h5 ?_ xs het c
    exact shapRun_moved (cfg := { ext := ext, axisLo := B.axisLo, axisHi := B.axisHi }) (cfg' := { ext := ext', axisLo := B'.axisLo, axisHi := B'.axisHi }) hx h4 h5 calls hc ⟨h3, rfl, rfl, rfl⟩

end

theorem shapley_weights {P : Type} [DecidableEq P] (N : Finset P) (p : P) (hp : p ∈ N) :
    ∑ S ∈ (N.erase p).powerset, ((S.card.factorial * (N.card - S.card - 1).factorial : ℕ) : K) / (N.card.factorial : ℕ) = 1 := by
  have h := shapley_dummies (K := K) (fun S => if p ∈ S then 1 else 0) (mem_singleton_self p) (N.erase p) (fun d hd => by simpa using (mem_erase.mp hd).1)
    fun d hd S => by simp [mem_insert, (mem_erase.mp hd).1.symm]
  have hN : N.erase p ∪ {p} = N := by rw [union_comm, ← insert_eq, insert_erase hp]
  rw [hN] at h
  have h1 : shapleyValue ({p} : Finset P) (fun S => if p ∈ S then (1 : K) else 0) p = 1 := by simp [shapleyValue]
  rw [h1] at h
  rw [← h]
  unfold shapleyValue
  refine sum_congr rfl fun S hS => ?_
  have hpS : p ∉ S := fun hc => by simpa using (mem_powerset.mp hS) hc
  simp [hpS]

/-- **C129, the values.**  The exact Shapley value of a feature the model is additive in: the component of the feature at the instance, minus its mean over the instances. -/
theorem C129_value {s : Fin D} {g : K → K} {f : Row K D → K} (h : AdditiveIn s g f) (x : List (Row K D)) (hx : x ≠ []) (r : Row K D) :
    shapleyValue univ (shapleyGame f x r) s = g (r s) - mean (x.map fun z => g (z s)) := by
  obtain ⟨h, h1, h2⟩ := h
  have hdiff : ∀ S : Finset (Fin D), s ∉ S → shapleyGame f x r (insert s S) - shapleyGame f x r S = g (r s) - mean (x.map fun z => g (z s)) := by
    intro S hS
    have hp : ∀ z : Row K D, (fun j => if j ∈ insert s S then r j else z j) = Function.update (fun j => if j ∈ S then r j else z j) s (r s) := by
      intro z
      funext j
      by_cases hj : j = s
      · subst hj; simp
      · simp [mem_insert, hj]
    have hl : (x.length : K) ≠ 0 := by exact_mod_cast (List.length_pos_iff.mpr hx).ne'
    unfold shapleyGame mean
    simp only [hp, h1, h2, Function.update_self, if_neg hS, List.sum_map_add, List.length_map, List.map_const', List.sum_replicate, nsmul_eq_mul]
    field_simp
    ring
  unfold shapleyValue
  rw [← one_mul (g (r s) - mean (x.map fun z => g (z s))), ← shapley_weights (univ : Finset (Fin D)) s (mem_univ s), sum_mul]
  refine sum_congr rfl fun S hS => ?_
  rw [hdiff S fun hc => by simpa using (mem_powerset.mp hS) hc]

theorem additive_moved {s : Fin D} {g : K → K} {f : Row K D → K} (h : AdditiveIn s g f) (spline : List (K × K) → Py (K → K)) :
    ShapMoved (fun _ : Fin 1 => s) (exactShapley (fun r => g (r 0)) spline) (exactShapley f spline) := by
  refine ⟨fun x => ?_, rfl⟩
  simp only [exactShapley, Except.map, List.map_map]
  congr 1
  refine List.map_congr_left fun r hr => ?_
  have hx : x ≠ [] := fun hn => by rw [hn] at hr; cases hr
  funext j
  obtain rfl : j = 0 := Subsingleton.elim _ _
  simp only [Function.comp]
  show _ = shapleyValue univ (shapleyGame f x r) s
  rw [C129_value h x hx, C129_value (g := g) ⟨fun _ => 0, fun r => (add_zero _).symm, fun _ _ => rfl⟩ _ (by simpa using hx), List.map_map]
  rfl

/-- **C129.**  ShapDP with exact Shapley values, a model that is additive in feature `s`: every session about this feature (any sub-sampling, the same in both; any calls) answers as the session on the table with this
column only and the component `g` as the model. -/
theorem C129_additive (choice : ℕ → ℕ → List ℕ) {s : Fin D} {g : K → K} {f : Row K D → K} (h : AdditiveIn s g f) (spline : List (K × K) → Py (K → K)) (data : List (Row K D)) (nof : PyVal)
    (calls : List (ShapOp K D)) (hc : ∀ op ∈ calls, ShapOnlyOn s op) (xs : List K) (het : Bool) (c : PyVal) :
    shapSession choice (exactShapley f spline) data nof calls s xs het c =
      shapSession choice (exactShapley (fun r : Row K 1 => g (r 0)) spline) (data.map fun r _ => r s) nof (calls.map (shapCallOn 0)) 0 xs het c :=
  C129_session (ι := fun _ : Fin 1 => s) (s := 0) choice (fun _ _ _ => Subsingleton.elim _ _) (additive_moved h spline) data nof calls hc xs het c

/-- Four instances. -/
def squareRows : List (Row ℚ 2) := [![0, 0], ![1, 0], ![0, 1], ![1, 1]]

/-- A curve: the mean of the values at the position. -/
def meanCurve : List (ℚ × ℚ) → Py (ℚ → ℚ) := fun p => .ok fun x => mean ((p.filter fun q => q.1 = x).map (·.2))

/-- A concrete additive model. -/
example : AdditiveIn (0 : Fin 2) (fun v : ℚ => v ^ 2) (fun r => r 0 ^ 2 + 3 * r 1) := ⟨fun r => 3 * r 1, fun _ => rfl, fun r v => by simp⟩

/-- Its ShapDP, after a call, and that of the column alone. -/
theorem C129_example :
    shapSession (fun _ n => List.range n) (exactShapley (fun r : Row ℚ 2 => r 0 ^ 2 + 3 * r 1) meanCurve) squareRows (.int 100) [.fit (.int 0) (.bool false) 100] 0 [0, 1] true (.bool false) =
      .ok ([-1 / 2, 1 / 2], some [0, 0]) ∧
    shapSession (fun _ n => List.range n) (exactShapley (fun r : Row ℚ 1 => r 0 ^ 2) meanCurve) (squareRows.map fun r _ => r 0) (.int 100) [.fit (.int 0) (.bool false) 100] 0 [0, 1] true (.bool false) =
      .ok ([-1 / 2, 1 / 2], some [0, 0]) := by
  refine ⟨?_, ?_⟩ <;> decide +kernel

/-- **For a model with an interaction C129 is false**: two instances with the same value of the feature have different Shapley values of it. -/
theorem C129_false_interaction :
    shapleyValue univ (shapleyGame (fun r : Row ℚ 2 => r 0 + 2 * r 0 * r 1) squareRows ![1, 0]) 0 ≠ shapleyValue univ (shapleyGame (fun r : Row ℚ 2 => r 0 + 2 * r 0 * r 1) squareRows ![1, 1]) 0 := by
  decide +kernel

end Effector
