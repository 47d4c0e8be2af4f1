import Verif.Props.AleInvariance
import Mathlib.Tactic.FieldSimp

/-!
# C25-C30, C32: ALE / RHALE objects as state machines

`AleCfg` is what a constructed object consists of (axis limits, data - through the fitting function -, default binning method, accepted
methods); the theorems hold for every such object, in particular for `aleCfg ..` (class `ALE`) and `rhaleCfg ..` (class `RHALE`), and for
every history of `fit`, `eval` and `plot` calls, failed ones included.
-/

set_option linter.unusedSectionVars false

namespace Effector

open Spec

variable {K : Type} [Field K] [LinearOrder K] [IsStrictOrderedRing K] {D : ℕ}

/-! ### The curve is computed pointwise -/

theorem mapM_sub {α β : Type} {f : α → Py β} {l : List α} {r : List β} (h : l.mapM f = .ok r) :
    ∀ (i : ℕ) a, l[i]? = some a → ∃ b, f a = .ok b ∧ r[i]? = some b := by
  induction l generalizing r with
  | nil => intro i a ha; simp at ha
  | cons a t ih =>
    rw [List.mapM_cons] at h
    simp only [bind, Except.bind, pure, Except.pure] at h
    cases h1 : f a with
    | error e => rw [h1] at h; cases h
    | ok b =>
      rw [h1] at h
      simp only [] at h
      cases h2 : List.mapM f t with
      | error e => rw [h2] at h; cases h
      | ok bs =>
        rw [h2] at h
        cases h
        intro i x hx
        cases i with
        | zero => simp only [List.getElem?_cons_zero, Option.some.injEq] at hx; subst hx; exact ⟨b, h1, rfl⟩
        | succ i => simp only [List.getElem?_cons_succ] at hx ⊢; exact ih h2 i x hx

theorem mapM_len {α β : Type} {f : α → Py β} {l : List α} {r : List β} (h : l.mapM f = .ok r) : r.length = l.length := by
  induction l generalizing r with
  | nil => cases h; rfl
  | cons a t ih =>
    rw [List.mapM_cons] at h
    simp only [bind, Except.bind, pure, Except.pure] at h
    cases h1 : f a with
    | error e => rw [h1] at h; cases h
    | ok b =>
      rw [h1] at h
      simp only [] at h
      cases h2 : List.mapM f t with
      | error e => rw [h2] at h; cases h
      | ok bs => rw [h2] at h; cases h; simp [ih h2]

/-- `compute_accumulated_effect` evaluates each point by itself. -/
theorem acc_pointwise (limits be dx : List K) (sq : Bool) :
    (∃ e, ∀ xs, computeAccumulatedEffect xs limits be dx sq = .error e) ∨
    ∃ G : K → Py K, ∀ xs, computeAccumulatedEffect xs limits be dx sq = xs.mapM G := by
  unfold computeAccumulatedEffect
  rcases digitize_form limits with hd | ⟨F, hd⟩
  · exact Or.inl ⟨.valueError, fun xs => by rw [hd]; rfl⟩
  · by_cases hlen : be.length ≠ dx.length
    · exact Or.inl ⟨.valueError, fun xs => by rw [hd]; simp only [bind, Except.bind]; rw [if_pos hlen]⟩
    · refine Or.inr ⟨fun x => accAt limits be dx sq x (F x), fun xs => ?_⟩
      rw [hd]
      simp only [bind, Except.bind]
      rw [if_neg hlen]
      induction xs with
      | nil => rfl
      | cons x t ih =>
        simp only [List.map_cons, List.zip_cons_cons, List.mapM_cons]
        rw [ih]

theorem evalUnnorm_at {p : AleParams K} {xs y : List K} (h : evalUnnorm p xs = .ok y) :
    y.length = xs.length ∧ ∀ (i : ℕ) x, xs[i]? = some x → ∃ v, y[i]? = some v ∧ evalUnnorm p [x] = .ok [v] := by
  unfold evalUnnorm at *
  rcases acc_pointwise p.limits p.binEffect p.dx false with ⟨e, he⟩ | ⟨G, hG⟩
  · rw [he] at h; cases h
  · rw [hG] at h
    refine ⟨mapM_len h, fun i x hx => ?_⟩
    obtain ⟨b, hb, hr⟩ := mapM_sub h i x hx
    refine ⟨b, hr, ?_⟩
    rw [hG, List.mapM_cons, List.mapM_nil, hb]
    rfl

/-! ### The invariant -/

/-- What is always true of the stored entry of a feature: a stored normalisation constant is the one of the recorded centring mode for the
stored curve. -/
def StoredOk (cfg : AleCfg K D) (st : AleState K D) : Prop :=
  ∀ s p z, st.fe s = some (p, some z) → ∃ c, st.args s = some c ∧ aleNormConst cfg p s c = .ok z

theorem storedOk_init (cfg : AleCfg K D) : StoredOk cfg AleState.init := by
  intro s p z h
  cases h

theorem fitOne_stored {cfg : AleCfg K D} {st : AleState K D} (h : StoredOk cfg st) (s : Fin D) (bm : BinMethod K) (c : Centering) :
    StoredOk cfg (fitOne cfg st s bm c).1 := by
  unfold fitOne
  cases hf : cfg.fitF s bm with
  | error e => exact h
  | ok p =>
    simp only []
    cases hz : aleNormConst cfg p s c with
    | error e =>
      intro t q z hq
      by_cases hts : t = s
      · subst hts
        simp at hq
      · simp only [ne_eq, hts, not_false_eq_true, Function.update_of_ne] at hq
        exact h t q z hq
    | ok z =>
      intro t q z' hq
      by_cases hts : t = s
      · subst hts
        simp only [Function.update_self, Option.some.injEq, Prod.mk.injEq] at hq
        obtain ⟨rfl, rfl⟩ := hq
        exact ⟨c, by simp, hz⟩
      · simp only [ne_eq, hts, not_false_eq_true, Function.update_of_ne] at hq
        obtain ⟨c', h1, h2⟩ := h t q z' hq
        exact ⟨c', by simp [hts, h1], h2⟩

theorem fitLoop_stored {cfg : AleCfg K D} (bm : BinMethod K) (c : Centering) (l : List (Fin D)) {st : AleState K D} (h : StoredOk cfg st) :
    StoredOk cfg (fitLoop cfg bm c st l).1 := by
  induction l generalizing st with
  | nil => exact h
  | cons t l ih =>
    have h1 := fitOne_stored h t bm c
    unfold fitLoop
    rcases e1 : fitOne cfg st t bm c with ⟨q, r⟩
    rw [e1] at h1
    cases r with
    | error e => exact h1
    | ok u => exact ih h1

theorem aleFit_stored {cfg : AleCfg K D} {st : AleState K D} (h : StoredOk cfg st) (f : PyVal) (bm : BinMethod K) (c : PyVal) :
    StoredOk cfg (aleFit cfg st f bm c).1 := by
  unfold aleFit
  split_ifs
  · split
    · exact h
    · exact fitLoop_stored _ _ _ h
  · exact h

theorem aleEval_stored [PySqrt K] {cfg : AleCfg K D} {st : AleState K D} (h : StoredOk cfg st) (s : Fin D) (xs : List K) (het : Bool)
    (c : PyVal) : StoredOk cfg (aleEval cfg st s xs het c).1 := by
  unfold aleEval
  cases prepCentering c with
  | error e => exact h
  | ok c =>
    simp only []
    cases needsRefit (st.fitted s) (st.args s) c with
    | error e => exact h
    | ok b =>
      cases b with
      | false => exact h
      | true =>
        have h1 := fitLoop_stored cfg.defaultBin c [s] h
        simp only []
        rcases e1 : fitLoop cfg cfg.defaultBin c st [s] with ⟨q, r⟩
        rw [e1] at h1
        cases r with
        | error e => exact h1
        | ok u => exact h1

theorem alePlot_state [PySqrt K] (cfg : AleCfg K D) (st : AleState K D) (s : Fin D) (c : PyVal) :
    ∃ l : List (List K × Bool), (alePlot cfg st s c).1 = l.foldl (fun st q => (aleEval cfg st s q.1 q.2 c).1) st := by
  unfold alePlot
  rcases e1 : aleEval cfg st s [cfg.axisLo s] false c with ⟨q, r⟩
  have hq : q = (aleEval cfg st s [cfg.axisLo s] false c).1 := by rw [e1]
  cases r with
  | error e => exact ⟨[([cfg.axisLo s], false)], hq⟩
  | ok u =>
    simp only []
    cases hfe : q.fe s with
    | none => exact ⟨[([cfg.axisLo s], false)], hq⟩
    | some pn =>
      obtain ⟨p, n⟩ := pn
      simp only []
      cases pyIndex p.limits 0 with
      | error e => exact ⟨[([cfg.axisLo s], false)], hq⟩
      | ok a =>
        cases pyIndex p.limits (p.limits.length - 1) with
        | error e => exact ⟨[([cfg.axisLo s], false)], hq⟩
        | ok b =>
          simp only []
          rcases e2 : aleEval cfg q s (linspace a b 1000) true c with ⟨q2, r2⟩
          have hq2 : q2 = (aleEval cfg q s (linspace a b 1000) true c).1 := by rw [e2]
          refine ⟨[([cfg.axisLo s], false), (linspace a b 1000, true)], ?_⟩
          simp only [List.foldl_cons, List.foldl_nil]
          rw [← hq, ← hq2]
          cases r2 <;> rfl

/-- Anything preserved by `fit` and `eval` is preserved by every public call. -/
theorem aleStep_preserves [PySqrt K] {cfg : AleCfg K D} (P : AleState K D → Prop)
    (hfit : ∀ st f bm c, P st → P (aleFit cfg st f bm c).1) (heval : ∀ st s xs het c, P st → P (aleEval cfg st s xs het c).1)
    {st : AleState K D} (h : P st) (op : AleOp K D) : P (aleStep cfg st op) := by
  cases op with
  | fit f bm c => exact hfit st f bm c h
  | eval s xs het c => exact heval st s xs het c h
  | plot s c =>
    obtain ⟨l, hl⟩ := alePlot_state cfg st s c
    show P (alePlot cfg st s c).1
    rw [hl]
    clear hl
    induction l generalizing st with
    | nil => exact h
    | cons q l ih => exact ih (heval _ _ _ _ _ h)

theorem aleRun_stored [PySqrt K] (cfg : AleCfg K D) (calls : List (AleOp K D)) : StoredOk cfg (aleRun cfg calls) := by
  unfold aleRun
  have := storedOk_init (K := K) cfg
  generalize AleState.init = st at this
  induction calls generalizing st with
  | nil => exact this
  | cons op t ih =>
    exact ih _ (aleStep_preserves (StoredOk cfg) (fun st f bm c h => aleFit_stored h f bm c) (fun st s xs het c h => aleEval_stored h s xs het c) this op)

/-! ### What a successful centred eval returns -/

theorem fitted_fin {c : Centering} {nc : Option K} {u y : List K} {o o' : Option (List K)}
    (h : (if c = Centering.off then (pure (u, o') : Py (List K × Option (List K)))
      else match nc with
        | none => Except.error PyErr.keyError
        | some z => pure (List.map (fun x => x - z) u, o')) = Except.ok (y, o)) :
    o = o' ∧ ((c = .off ∧ y = u) ∨ (c ≠ .off ∧ ∃ z, nc = some z ∧ y = u.map (· - z))) := by
  by_cases hc : c = .off
  · rw [if_pos hc] at h
    cases h
    exact ⟨rfl, Or.inl ⟨hc, rfl⟩⟩
  · rw [if_neg hc] at h
    cases nc with
    | none => cases h
    | some z =>
      cases h
      exact ⟨rfl, Or.inr ⟨hc, z, rfl, rfl⟩⟩

theorem evalFitted_inv [PySqrt K] {cfg : AleCfg K D} {st : AleState K D} {s : Fin D} {xs : List K} {het : Bool} {c : Centering}
    {y : List K} {o : Option (List K)} (h : aleEvalFitted cfg st s xs het c = .ok (y, o)) :
    cfg.axisLo s < cfg.axisHi s ∧ ∃ p nc u, st.fe s = some (p, nc) ∧ evalUnnorm p xs = .ok u ∧
      ((het = true ∧ ∃ v, evalHet p xs = .ok v ∧ o = some v) ∨ (het = false ∧ o = none)) ∧
      ((c = .off ∧ y = u) ∨ (c ≠ .off ∧ ∃ z, nc = some z ∧ y = u.map (· - z))) := by
  unfold aleEvalFitted at h
  by_cases hlt : cfg.axisLo s < cfg.axisHi s
  · refine ⟨hlt, ?_⟩
    have ha : pyAssert (decide (cfg.axisLo s < cfg.axisHi s)) = .ok () := by simp [pyAssert, hlt]
    simp only [ha, bind, Except.bind] at h
    cases hfe : st.fe s with
    | none => rw [hfe] at h; cases h
    | some pn =>
      obtain ⟨p, nc⟩ := pn
      rw [hfe] at h
      simp only [] at h
      refine ⟨p, nc, ?_⟩
      cases hu : evalUnnorm p xs with
      | error e => rw [hu] at h; cases h
      | ok u =>
        rw [hu] at h
        simp only [] at h
        refine ⟨u, rfl, rfl, ?_⟩
        cases het with
        | false =>
          rw [if_neg (by simp)] at h
          obtain ⟨rfl, h2⟩ := fitted_fin (o' := none) h
          exact ⟨Or.inr ⟨rfl, rfl⟩, h2⟩
        | true =>
          rw [if_pos rfl] at h
          cases hv : evalHet p xs with
          | error e => rw [hv] at h; cases h
          | ok v =>
            rw [hv] at h
            obtain ⟨rfl, h2⟩ := fitted_fin (o' := some v) h
            exact ⟨Or.inl ⟨rfl, v, rfl, rfl⟩, h2⟩
  · have ha : pyAssert (decide (cfg.axisLo s < cfg.axisHi s)) = .error .assertionError := by simp [pyAssert, hlt]
    rw [ha] at h
    cases h

theorem needsRefit_false {b : Bool} {a : Option Centering} {c : Centering} (h : needsRefit b a c = .ok false) :
    b = true ∧ (c = .off ∨ a = some c) := by
  unfold needsRefit at h
  cases b with
  | false => simp at h
  | true =>
    refine ⟨rfl, ?_⟩
    simp only [Bool.not_true, Bool.false_eq_true, if_false] at h
    by_cases hc : c = .off
    · exact Or.inl hc
    · rw [if_neg hc] at h
      cases a with
      | none => cases h
      | some a =>
        simp only [Except.ok.injEq, decide_eq_false_iff_not, not_not] at h
        rw [h]; exact Or.inr rfl

/-- After a successful `fit` of `s` alone. -/
theorem fitLoop_single {cfg : AleCfg K D} {bm : BinMethod K} {c : Centering} {st st' : AleState K D} {s : Fin D}
    (h : fitLoop cfg bm c st [s] = (st', .ok ())) :
    ∃ p z, cfg.fitF s bm = .ok p ∧ aleNormConst cfg p s c = .ok z ∧ st'.fe s = some (p, some z) ∧ st'.fitted s = true ∧
      st'.args s = some c := by
  unfold fitLoop fitOne at h
  cases hf : cfg.fitF s bm with
  | error e => rw [hf] at h; cases h
  | ok p =>
    rw [hf] at h
    simp only [] at h
    cases hz : aleNormConst cfg p s c with
    | error e => rw [hz] at h; cases h
    | ok z =>
      rw [hz] at h
      unfold fitLoop at h
      cases h
      exact ⟨p, z, rfl, hz, by simp, by simp, by simp⟩

/-- **C27.**  After any history, a successful `eval` with a centring mode `m` (normalised argument, not `False`) returns the uncentred curve
of the currently stored fit minus the constant computed *for that mode on that curve*; with `centering=False` it returns the uncentred curve. -/
theorem C27_eval_uses_right_constant [PySqrt K] (cfg : AleCfg K D) (calls : List (AleOp K D)) (s : Fin D) (xs : List K) (het : Bool) (c : PyVal)
    (m : Centering) (hm : prepCentering c = .ok m) (st' : AleState K D) (y : List K) (o : Option (List K))
    (h : aleEval cfg (aleRun cfg calls) s xs het c = (st', .ok (y, o))) :
    ∃ p nc u, st'.fe s = some (p, nc) ∧ evalUnnorm p xs = .ok u ∧
      match m with
      | .off => y = u
      | .zeroStart => ∃ v, evalUnnorm p [cfg.axisLo s] = .ok [v] ∧ y = u.map (· - v)
      | .zeroIntegral => ∃ g, evalUnnorm p (centres (cfg.axisLo s) (cfg.axisHi s) 99) = .ok g ∧ y = u.map (· - avg g) := by
  have hst := aleRun_stored cfg calls
  generalize aleRun cfg calls = st at *
  have hst' := aleEval_stored hst s xs het c
  have key : aleEvalFitted cfg st' s xs het m = .ok (y, o) ∧ (m = .off ∨ st'.args s = some m) := by
    unfold aleEval at h
    rw [hm] at h
    simp only [] at h
    cases hr : needsRefit (st.fitted s) (st.args s) m with
    | error e => rw [hr] at h; cases h
    | ok b =>
      rw [hr] at h
      cases b with
      | false =>
        simp only [Prod.mk.injEq] at h
        obtain ⟨rfl, h⟩ := h
        exact ⟨h, (needsRefit_false hr).2⟩
      | true =>
        simp only [] at h
        rcases e1 : fitLoop cfg cfg.defaultBin m st [s] with ⟨q, r⟩
        rw [e1] at h
        cases r with
        | error e => cases h
        | ok u =>
          simp only [Prod.mk.injEq] at h
          obtain ⟨rfl, h⟩ := h
          obtain ⟨-, -, -, -, -, -, ha⟩ := fitLoop_single e1
          exact ⟨h, Or.inr ha⟩
  rw [h] at hst'
  obtain ⟨-, p, nc, u, hfe, hu, -, hy⟩ := evalFitted_inv key.1
  refine ⟨p, nc, u, hfe, hu, ?_⟩
  rcases hy with ⟨rfl, rfl⟩ | ⟨hne, z, rfl, rfl⟩
  · rfl
  · obtain ⟨c', ha, hz⟩ := hst' s p z hfe
    rcases key.2 with h' | h'
    · exact absurd h' hne
    · simp only at ha
      rw [h'] at ha
      cases ha
      cases m with
      | off => exact absurd rfl hne
      | zeroStart =>
        unfold aleNormConst at hz
        simp only [bind, Except.bind] at hz
        cases hv : evalUnnorm p [cfg.axisLo s] with
        | error e => rw [hv] at hz; cases hz
        | ok v =>
          rw [hv] at hz
          have hl := (evalUnnorm_at hv).1
          obtain ⟨w, rfl⟩ := List.length_eq_one_iff.mp hl
          cases hz
          exact ⟨_, rfl, rfl⟩
      | zeroIntegral =>
        unfold aleNormConst mean1dLinspace at hz
        rw [centring_grid] at hz
        simp only [bind, Except.bind] at hz
        cases hv : evalUnnorm p (centres (cfg.axisLo s) (cfg.axisHi s) 99) with
        | error e => rw [hv] at hz; cases hz
        | ok g =>
          rw [hv] at hz
          cases hz
          exact ⟨g, rfl, rfl⟩

/-- **C25.**  `eval(..., centering="zero_start")` is 0 at the left axis limit, after any history. -/
theorem C25_ale_zero_start [PySqrt K] (cfg : AleCfg K D) (calls : List (AleOp K D)) (s : Fin D) (xs : List K) (het : Bool)
    (y : List K) (o : Option (List K)) (h : (aleEval cfg (aleRun cfg calls) s xs het (.str "zero_start")).2 = .ok (y, o))
    (i : ℕ) (hi : xs[i]? = some (cfg.axisLo s)) : y[i]? = some 0 := by
  rcases e : aleEval cfg (aleRun cfg calls) s xs het (.str "zero_start") with ⟨st', r⟩
  rw [e] at h
  simp only at h
  subst h
  obtain ⟨p, nc, u, -, hu, v, hv, rfl⟩ := C27_eval_uses_right_constant cfg calls s xs het _ .zeroStart rfl st' y o e
  obtain ⟨w, hw, hw'⟩ := (evalUnnorm_at hu).2 i _ hi
  rw [hv] at hw'
  cases hw'
  rw [List.getElem?_map, hw]
  simp

theorem sum_map_sub_avg (g : List K) : (g.map (· - avg g)).sum = 0 := by
  have h : ∀ (l : List K) (a : K), (l.map (· - a)).sum = l.sum - l.length * a := by
    intro l a
    induction l with
    | nil => simp
    | cons x t ih => simp only [List.map_cons, List.sum_cons, ih, List.length_cons, Nat.cast_add, Nat.cast_one]; ring
  rw [h]
  unfold avg
  rcases Nat.eq_zero_or_pos g.length with h0 | h0
  · rw [List.eq_nil_of_length_eq_zero h0]; simp
  · have : (g.length : K) ≠ 0 := by exact_mod_cast h0.ne'
    rw [mul_div_cancel₀ _ this, sub_self]

theorem midpoints_length (l : List K) : (midpoints l).length = l.length - 1 := by
  match l with
  | [] => rfl
  | [a] => rfl
  | a :: b :: t => simp only [midpoints, List.length_cons]; rw [midpoints_length (b :: t)]; simp

/-- **C26.**  `eval(..., centering=True)` and `eval(..., centering="zero_integral")` average to 0 over the 99 midpoints of the centring grid,
after any history. -/
theorem C26_ale_zero_integral [PySqrt K] (cfg : AleCfg K D) (calls : List (AleOp K D)) (s : Fin D) (het : Bool) (c : PyVal)
    (hc : c = .bool true ∨ c = .str "zero_integral") (y : List K) (o : Option (List K))
    (h : (aleEval cfg (aleRun cfg calls) s (centres (cfg.axisLo s) (cfg.axisHi s) 99) het c).2 = .ok (y, o)) :
    y.length = 99 ∧ avg y = 0 := by
  have hm : prepCentering c = .ok .zeroIntegral := by rcases hc with rfl | rfl <;> rfl
  rcases e : aleEval cfg (aleRun cfg calls) s (centres (cfg.axisLo s) (cfg.axisHi s) 99) het c with ⟨st', r⟩
  rw [e] at h
  simp only at h
  subst h
  obtain ⟨p, nc, u, -, hu, g, hg, rfl⟩ := C27_eval_uses_right_constant cfg calls s _ het _ .zeroIntegral hm st' y o e
  rw [hu] at hg
  cases hg
  refine ⟨?_, ?_⟩
  · rw [List.length_map, (evalUnnorm_at hu).1, centres, List.length_map, List.length_range]
  · have h0 := sum_map_sub_avg u
    generalize avg u = a at *
    unfold avg
    rw [h0, zero_div]

/-! ### C30, C32: features do not interfere; failed fits -/

theorem sameAt_refl (s : Fin D) (st : AleState K D) : SameAt s st st := ⟨rfl, rfl, rfl⟩

/-- Whether fitting one feature succeeds depends on the object only, not on its state. -/
theorem fitOne_result (cfg : AleCfg K D) (st st' : AleState K D) (t : Fin D) (bm : BinMethod K) (c : Centering) :
    (fitOne cfg st t bm c).2 = (fitOne cfg st' t bm c).2 := by
  unfold fitOne
  cases cfg.fitF t bm with
  | error e => rfl
  | ok p =>
    simp only []
    cases aleNormConst cfg p t c <;> rfl

theorem fitOne_other (cfg : AleCfg K D) (st : AleState K D) {s t : Fin D} (hst : s ≠ t) (bm : BinMethod K) (c : Centering) :
    SameAt s (fitOne cfg st t bm c).1 st := by
  unfold fitOne SameAt
  cases cfg.fitF t bm with
  | error e => exact ⟨rfl, rfl, rfl⟩
  | ok p =>
    simp only []
    cases aleNormConst cfg p t c with
    | error e => exact ⟨by simp [hst], rfl, rfl⟩
    | ok z => exact ⟨by simp [hst], by simp [hst], by simp [hst]⟩

theorem SameAt.symm {s : Fin D} {a b : AleState K D} (h : SameAt s a b) : SameAt s b a := ⟨h.1.symm, h.2.1.symm, h.2.2.symm⟩
theorem SameAt.trans {s : Fin D} {a b c : AleState K D} (h : SameAt s a b) (h' : SameAt s b c) : SameAt s a c :=
  ⟨h.1.trans h'.1, h.2.1.trans h'.2.1, h.2.2.trans h'.2.2⟩

theorem cfgSame_refl (s : Fin D) (cfg : AleCfg K D) : CfgSame s cfg cfg := ⟨rfl, rfl, rfl, rfl, rfl⟩

theorem fitLoop_local (cfg : AleCfg K D) (s : Fin D) (bm : BinMethod K) (c : Centering) (l : List (Fin D)) {st st' : AleState K D}
    (hs : SameAt s st st') :
    SameAt s (fitLoop cfg bm c st l).1 (fitLoop cfg bm c st' l).1 ∧ (fitLoop cfg bm c st l).2 = (fitLoop cfg bm c st' l).2 := by
  induction l generalizing st st' with
  | nil => exact ⟨hs, rfl⟩
  | cons t l ih =>
    have h2 := fitOne_result cfg st st' t bm c
    have h1 : SameAt s (fitOne cfg st t bm c).1 (fitOne cfg st' t bm c).1 := by
      by_cases hst : s = t
      · subst hst
        exact (fitOne_same (cfgSame_refl s cfg) hs bm c).1
      · exact (fitOne_other cfg st hst bm c).trans (hs.trans (fitOne_other cfg st' hst bm c).symm)
    unfold fitLoop
    rcases e1 : fitOne cfg st t bm c with ⟨q, r⟩
    rcases e2 : fitOne cfg st' t bm c with ⟨q', r'⟩
    rw [e1, e2] at h1 h2
    obtain rfl : r = r' := h2
    cases r with
    | error e => exact ⟨h1, rfl⟩
    | ok u => exact ih h1

theorem fitLoop_other (cfg : AleCfg K D) {s : Fin D} (bm : BinMethod K) (c : Centering) (l : List (Fin D)) (hl : s ∉ l) (st : AleState K D) :
    SameAt s (fitLoop cfg bm c st l).1 st := by
  induction l generalizing st with
  | nil => exact sameAt_refl s st
  | cons t l ih =>
    have h1 := fitOne_other cfg st (s := s) (t := t) (fun h => hl (by simp [h])) bm c
    unfold fitLoop
    rcases e1 : fitOne cfg st t bm c with ⟨q, r⟩
    rw [e1] at h1
    cases r with
    | error e => exact h1
    | ok u => exact (ih (fun h => hl (List.mem_cons_of_mem _ h)) q).trans h1

namespace Spec

/-- The features a `fit` call names; none if the argument is rejected. -/
def named (D : ℕ) (features : PyVal) : List (Fin D) :=
  match (prepFeatures features D).bind (resolveFeatures D) with
  | .ok l => l
  | .error _ => []

/-- The call names feature `s`. -/
def Concerns (s : Fin D) : AleOp K D → Prop
  | .fit f _ _ => s ∈ named D f
  | .eval t _ _ _ => t = s
  | .plot t _ => t = s

instance (s : Fin D) (op : AleOp K D) : Decidable (Concerns s op) := by
  cases op <;> unfold Concerns <;> infer_instance

end Spec

/-- `fit` either leaves the state alone (rejected arguments) or runs the loop over the named features. -/
theorem aleFit_cases (cfg : AleCfg K D) (f : PyVal) (bm : BinMethod K) (c : PyVal) :
    (∃ e, ∀ st : AleState K D, aleFit cfg st f bm c = (st, .error e)) ∨
    (cfg.allowed bm = true ∧ ∃ m, prepCentering c = .ok m ∧ (prepFeatures f D).bind (resolveFeatures D) = .ok (named D f) ∧
      ∀ st : AleState K D, aleFit cfg st f bm c = fitLoop cfg bm m st (named D f)) := by
  unfold aleFit named
  by_cases ha : cfg.allowed bm = true
  · simp only [if_pos ha, bind, Except.bind]
    cases prepFeatures f D with
    | error e => exact Or.inl ⟨e, fun st => rfl⟩
    | ok g =>
      simp only []
      cases prepCentering c with
      | error e => exact Or.inl ⟨e, fun st => rfl⟩
      | ok m =>
        simp only []
        cases resolveFeatures D g with
        | error e => exact Or.inl ⟨e, fun st => rfl⟩
        | ok l => exact Or.inr ⟨ha, m, rfl, rfl, fun st => rfl⟩
  · simp only [if_neg ha]
    exact Or.inl ⟨_, fun st => rfl⟩

theorem aleEval_other [PySqrt K] (cfg : AleCfg K D) (st : AleState K D) {s t : Fin D} (hst : s ≠ t) (xs : List K) (het : Bool) (c : PyVal) :
    SameAt s (aleEval cfg st t xs het c).1 st := by
  unfold aleEval
  cases prepCentering c with
  | error e => exact sameAt_refl s st
  | ok c =>
    simp only []
    cases needsRefit (st.fitted t) (st.args t) c with
    | error e => exact sameAt_refl s st
    | ok b =>
      cases b with
      | false => exact sameAt_refl s st
      | true =>
        have h1 := fitLoop_other cfg cfg.defaultBin c [t] (by simpa using hst) st
        simp only []
        rcases e1 : fitLoop cfg cfg.defaultBin c st [t] with ⟨q, r⟩
        rw [e1] at h1
        cases r with
        | error e => exact h1
        | ok u => exact h1

theorem aleStep_other [PySqrt K] (cfg : AleCfg K D) (st : AleState K D) {s : Fin D} (op : AleOp K D) (hop : ¬ Concerns s op) :
    SameAt s (aleStep cfg st op) st := by
  cases op with
  | fit f bm c =>
    show SameAt s (aleFit cfg st f bm c).1 st
    rcases aleFit_cases cfg f bm c with ⟨e, h⟩ | ⟨-, m, -, -, h⟩
    · rw [h]; exact sameAt_refl s st
    · rw [h]; exact fitLoop_other cfg bm m _ hop st
  | eval t xs het c => exact aleEval_other cfg st (fun h => hop h.symm) xs het c
  | plot t c =>
    have hst : s ≠ t := fun h => hop h.symm
    show SameAt s (alePlot cfg st t c).1 st
    obtain ⟨l, hl⟩ := alePlot_state cfg st t c
    rw [hl]
    clear hl
    induction l generalizing st with
    | nil => exact sameAt_refl s st
    | cons q l ih => exact (ih _).trans (aleEval_other cfg st hst q.1 q.2 c)

theorem aleStep_local [PySqrt K] (cfg : AleCfg K D) (s : Fin D) (op : AleOp K D) {st st' : AleState K D} (hs : SameAt s st st') :
    SameAt s (aleStep cfg st op) (aleStep cfg st' op) := by
  by_cases hop : Concerns s op
  · cases op with
    | fit f bm c =>
      show SameAt s (aleFit cfg st f bm c).1 (aleFit cfg st' f bm c).1
      rcases aleFit_cases cfg f bm c with ⟨e, h⟩ | ⟨-, m, -, -, h⟩
      · rw [h, h]; exact hs
      · rw [h, h]; exact (fitLoop_local cfg s bm m _ hs).1
    | eval t xs het c => obtain rfl : t = s := hop; exact (aleEval_same (cfgSame_refl t cfg) hs xs het c).1
    | plot t c => obtain rfl : t = s := hop; exact (alePlot_same (cfgSame_refl t cfg) hs c).1
  · exact (aleStep_other cfg st op hop).trans (hs.trans (aleStep_other cfg st' op hop).symm)

/-- **C30.**  For every history of calls, successful or not: dropping all calls that do not name feature `i` changes nothing about what
`eval` returns (or raises) for feature `i`. -/
theorem C30_features_do_not_interfere [PySqrt K] (cfg : AleCfg K D) (calls : List (AleOp K D)) (i : Fin D) (xs : List K) (het : Bool) (c : PyVal) :
    (aleEval cfg (aleRun cfg calls) i xs het c).2 =
      (aleEval cfg (aleRun cfg (calls.filter fun op => Concerns i op)) i xs het c).2 := by
  suffices ∀ st st' : AleState K D, SameAt i st st' →
      SameAt i (calls.foldl (aleStep cfg) st) ((calls.filter fun op => Concerns i op).foldl (aleStep cfg) st') from
    (aleEval_same (cfgSame_refl i cfg) (this _ _ (sameAt_refl i AleState.init)) xs het c).2
  induction calls with
  | nil => exact fun _ _ h => h
  | cons op t ih =>
    intro st st' hs
    by_cases hop : Concerns i op
    · rw [List.filter_cons_of_pos (by simpa using hop)]
      exact ih _ _ (aleStep_local cfg i op hs)
    · rw [List.filter_cons_of_neg (by simpa using hop)]
      exact ih _ _ ((aleStep_other cfg st op hop).trans hs)

/-- **C30**, one call at a time: a call that does not name `i` leaves `eval` of `i` as it was. -/
theorem C30_one_call [PySqrt K] (cfg : AleCfg K D) (calls : List (AleOp K D)) (op : AleOp K D) (i : Fin D) (hop : ¬ Concerns i op)
    (xs : List K) (het : Bool) (c : PyVal) :
    (aleEval cfg (aleRun cfg (calls ++ [op])) i xs het c).2 = (aleEval cfg (aleRun cfg calls) i xs het c).2 := by
  unfold aleRun
  rw [List.foldl_append]
  exact (aleEval_same (cfgSame_refl i cfg) (aleStep_other cfg _ op hop) xs het c).2

theorem fitLoop_prefix {cfg : AleCfg K D} {bm : BinMethod K} {m : Centering} {t : Fin D} {e : PyErr} (hfail : cfg.fitF t bm = .error e)
    (l1 l2 : List (Fin D)) (h1 : ∀ j ∈ l1, ∃ p z, cfg.fitF j bm = .ok p ∧ aleNormConst cfg p j m = .ok z) (st : AleState K D) :
    fitLoop cfg bm m st (l1 ++ t :: l2) = ((fitLoop cfg bm m st l1).1, .error e) ∧ (fitLoop cfg bm m st l1).2 = .ok () := by
  induction l1 generalizing st with
  | nil =>
    refine ⟨?_, rfl⟩
    simp [fitLoop, fitOne, hfail]
  | cons j l ih =>
    obtain ⟨p, z, hp, hz⟩ := h1 j List.mem_cons_self
    have := ih (fun j hj => h1 j (List.mem_cons_of_mem _ hj))
    simp only [List.cons_append, fitLoop, fitOne, hp, hz]
    exact this _

theorem aleFit_run {cfg : AleCfg K D} {features centering : PyVal} {bm : BinMethod K} {m : Centering} {l : List (Fin D)}
    (hallow : cfg.allowed bm = true) (hc : prepCentering centering = .ok m)
    (hl : (prepFeatures features D).bind (resolveFeatures D) = .ok l) {st : AleState K D} :
    aleFit cfg st features bm centering = fitLoop cfg bm m st l := by
  unfold aleFit
  rw [if_pos hallow]
  simp only [bind, Except.bind] at hl ⊢
  cases hf : prepFeatures features D with
  | error e => rw [hf] at hl; cases hl
  | ok g =>
    rw [hf] at hl
    simp only [] at hl ⊢
    rw [hc, hl]
    rfl

theorem resolve_list (l : List (Fin D)) :
    (prepFeatures (.list (l.map fun j : Fin D => ((j : ℕ) : ℤ))) D).bind (resolveFeatures D) = .ok l := by
  simp only [prepFeatures, Except.bind, resolveFeatures]
  rw [List.mapM_map, mapM_ok (g := id)]
  · simp
  · intro a _
    have h : 0 ≤ ((a : ℕ) : ℤ) ∧ ((a : ℕ) : ℤ).toNat < D := ⟨by omega, by have := a.2; omega⟩
    simp only [Function.comp, dif_pos h]
    rfl

/-- **C32.**  Let `fit(features = [.. earlier .., t, .. later ..])` be called after any history, and let the binning of `t` be impossible
(or fail in another way) while the earlier ones can be fitted.  Then the call raises that exception; every feature that is neither `t` nor
earlier in the list evaluates exactly as before the call, and the features earlier in the list evaluate exactly as if only they had been fitted. -/
theorem C32_failed_fit_is_harmless [PySqrt K] (cfg : AleCfg K D) (calls : List (AleOp K D)) (features centering : PyVal) (m : Centering)
    (bm : BinMethod K) (earlier later : List (Fin D)) (t : Fin D) (e : PyErr)
    (hallow : cfg.allowed bm = true) (hc : prepCentering centering = .ok m)
    (hl : (prepFeatures features D).bind (resolveFeatures D) = .ok (earlier ++ t :: later))
    (hok : ∀ j ∈ earlier, ∃ p z, cfg.fitF j bm = .ok p ∧ aleNormConst cfg p j m = .ok z) (hfail : cfg.fitF t bm = .error e) :
    (aleFit cfg (aleRun cfg calls) features bm centering).2 = .error e ∧
    ∀ xs het c, (∀ i, i ∉ earlier → (aleEval cfg (aleFit cfg (aleRun cfg calls) features bm centering).1 i xs het c).2 =
        (aleEval cfg (aleRun cfg calls) i xs het c).2) ∧
      (∀ i ∈ earlier, (aleEval cfg (aleFit cfg (aleRun cfg calls) features bm centering).1 i xs het c).2 =
        (aleEval cfg (aleFit cfg (aleRun cfg calls) (.list (earlier.map fun j : Fin D => ((j : ℕ) : ℤ))) bm centering).1 i xs het c).2) := by
  generalize aleRun cfg calls = st
  have hfit : aleFit cfg st features bm centering = ((fitLoop cfg bm m st earlier).1, .error e) := by
    rw [aleFit_run hallow hc hl]
    exact (fitLoop_prefix hfail earlier later hok st).1
  have hfit' : aleFit cfg st (.list (earlier.map fun j : Fin D => ((j : ℕ) : ℤ))) bm centering = fitLoop cfg bm m st earlier := by
    rw [aleFit_run hallow hc]
    exact resolve_list earlier
  rw [hfit, hfit']
  refine ⟨rfl, fun xs het c => ⟨fun i hi => ?_, fun i hi => rfl⟩⟩
  exact (aleEval_same (cfgSame_refl i cfg) (fitLoop_other cfg bm m earlier hi st) xs het c).2
