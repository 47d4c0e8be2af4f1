import Verif.Props.AleState
import Verif.Props.AleEffects

/-!
# C28, C29: what `eval` of ALE/RHALE returns, as a function of the history
-/

set_option linter.unusedSectionVars false

namespace Effector

open Spec

variable {K : Type} [Field K] [LinearOrder K] [IsStrictOrderedRing K] {D : ℕ}

namespace Spec

/-- For every feature the fit in force: binning method and centring mode of the last successful (explicit or implicit) fit. -/
abbrev LastFit (K : Type) (D : ℕ) := Fin D → Option (BinMethod K × Centering)

/-- Fitting the listed features in order, up to the first one that cannot be fitted. -/
def afterFit (cfg : AleCfg K D) (bm : BinMethod K) (m : Centering) : LastFit K D → List (Fin D) → LastFit K D
  | L, [] => L
  | L, s :: t =>
    match cfg.fitF s bm with
    | .ok _ => afterFit cfg bm m (Function.update L s (some (bm, m))) t
    | .error _ => L

/-- `eval` fits a feature that was never fitted, or whose last fit used another centring mode, with the default binning method. -/
def afterEval (cfg : AleCfg K D) (L : LastFit K D) (s : Fin D) (m : Centering) : LastFit K D :=
  match L s with
  | none => afterFit cfg cfg.defaultBin m L [s]
  | some (_, m0) => if m = .off ∨ m = m0 then L else afterFit cfg cfg.defaultBin m L [s]

def afterCall (cfg : AleCfg K D) (L : LastFit K D) : AleOp K D → LastFit K D
  | .fit f bm c =>
    if cfg.allowed bm then
      match (prepFeatures f D).bind (resolveFeatures D), prepCentering c with
      | .ok l, .ok m => afterFit cfg bm m L l
      | _, _ => L
    else L
  | .eval s _ _ c => match prepCentering c with
    | .ok m => afterEval cfg L s m
    | .error _ => L
  | .plot s c => match prepCentering c with
    | .ok m => afterEval cfg L s m
    | .error _ => L

/-- The fits in force after a history of calls on a fresh object. -/
def lastFit (cfg : AleCfg K D) (calls : List (AleOp K D)) : LastFit K D := calls.foldl (afterCall cfg) fun _ => none

/-- The number subtracted from the curve. -/
def shift (cfg : AleCfg K D) (p : AleParams K) (s : Fin D) : Centering → Py K
  | .off => .ok 0
  | .zeroStart => (evalUnnorm p [cfg.axisLo s]).bind fun y => pyIndex y 0
  | .zeroIntegral => (evalUnnorm p (centres (cfg.axisLo s) (cfg.axisHi s) 99)).map avg

/-- The value of `eval` for feature `s` when it is fitted with binning method `bm` and centred by mode `m`: no history involved. -/
def valueOf [PySqrt K] (cfg : AleCfg K D) (bm : BinMethod K) (m : Centering) (s : Fin D) (xs : List K) (het : Bool) :
    Py (List K × Option (List K)) := do
  let p ← cfg.fitF s bm
  pyAssert (decide (cfg.axisLo s < cfg.axisHi s))
  let y ← evalUnnorm p xs
  let h ← if het then (evalHet p xs).map some else .ok none
  let z ← shift cfg p s m
  return (y.map (· - z), h)

/-- Which binning method `eval` with mode `m` uses, given the fit in force. -/
def effectiveBin (cfg : AleCfg K D) (last : Option (BinMethod K × Centering)) (m : Centering) : BinMethod K :=
  match last with
  | some (bm, m0) => if m = .off ∨ m = m0 then bm else cfg.defaultBin
  | none => cfg.defaultBin

/-- The curve of every successful fit with `bm` can be evaluated for centring (true whenever the limits are increasing). -/
def Evaluable (cfg : AleCfg K D) (bm : BinMethod K) : Prop :=
  ∀ s p, cfg.fitF s bm = .ok p → ∀ m, ∃ z, shift cfg p s m = .ok z

def UsesEvaluable (cfg : AleCfg K D) : AleOp K D → Prop
  | .fit _ bm _ => Evaluable cfg bm
  | _ => True

end Spec

theorem normConst_of_shift {cfg : AleCfg K D} {p : AleParams K} {s : Fin D} {m : Centering} {z : K} (h : shift cfg p s m = .ok z) :
    ∃ z', aleNormConst cfg p s m = .ok z' ∧ (m ≠ .off → z' = z) := by
  cases m with
  | off => exact ⟨_, rfl, fun h => absurd rfl h⟩
  | zeroStart =>
    refine ⟨z, ?_, fun _ => rfl⟩
    exact h
  | zeroIntegral =>
    refine ⟨z, ?_, fun _ => rfl⟩
    unfold shift at h
    unfold aleNormConst mean1dLinspace; rw [centring_grid]
    cases hv : evalUnnorm p (centres (cfg.axisLo s) (cfg.axisHi s) 99) with
    | error e => rw [hv] at h; cases h
    | ok g => rw [hv] at h; exact h

/-- The concrete state agrees with the fits in force. -/
def Tracks (cfg : AleCfg K D) (L : LastFit K D) (st : AleState K D) : Prop :=
  ∀ s, match L s with
    | none => st.fitted s = false
    | some (bm, m) => ∃ p z, cfg.fitF s bm = .ok p ∧ aleNormConst cfg p s m = .ok z ∧ st.fe s = some (p, some z) ∧
        st.fitted s = true ∧ st.args s = some m

theorem fitOne_tracks {cfg : AleCfg K D} {L : LastFit K D} {st : AleState K D} (h : Tracks cfg L st) {bm : BinMethod K} (hbm : Evaluable cfg bm)
    (m : Centering) (s : Fin D) :
    (∃ p, cfg.fitF s bm = .ok p ∧ Tracks cfg (Function.update L s (some (bm, m))) (fitOne cfg st s bm m).1 ∧
      (fitOne cfg st s bm m).2 = .ok ()) ∨
    (∃ e, cfg.fitF s bm = .error e ∧ (fitOne cfg st s bm m) = (st, .error e)) := by
  unfold fitOne
  cases hf : cfg.fitF s bm with
  | error e => exact Or.inr ⟨e, rfl, rfl⟩
  | ok p =>
    refine Or.inl ⟨p, rfl, ?_⟩
    obtain ⟨z, hz⟩ := hbm s p hf m
    obtain ⟨z', hz', -⟩ := normConst_of_shift hz
    simp only [hz']
    refine ⟨fun t => ?_, trivial⟩
    by_cases hts : t = s
    · subst hts
      simp only [Function.update_self]
      exact ⟨p, z', hf, hz', by simp, by simp, by simp⟩
    · have := h t
      simp only [ne_eq, hts, not_false_eq_true, Function.update_of_ne]
      exact this

theorem fitLoop_tracks {cfg : AleCfg K D} {bm : BinMethod K} (hbm : Evaluable cfg bm) (m : Centering) (l : List (Fin D)) {L : LastFit K D}
    {st : AleState K D} (h : Tracks cfg L st) : Tracks cfg (afterFit cfg bm m L l) (fitLoop cfg bm m st l).1 := by
  induction l generalizing L st with
  | nil => exact h
  | cons s t ih =>
    unfold afterFit fitLoop
    rcases fitOne_tracks h hbm m s with ⟨p, hp, ht, hok⟩ | ⟨e, he, hres⟩
    · rcases e1 : fitOne cfg st s bm m with ⟨q, r⟩
      rw [e1] at ht hok
      obtain rfl : r = .ok () := hok
      simp only [hp]
      exact ih ht
    · rw [hres]
      simp only [he]
      exact h

theorem needsRefit_tracks {cfg : AleCfg K D} {L : LastFit K D} {st : AleState K D} (h : Tracks cfg L st) (s : Fin D) (m : Centering) :
    needsRefit (st.fitted s) (st.args s) m = .ok (match L s with
      | none => true
      | some (_, m0) => decide (¬ (m = .off ∨ m = m0))) := by
  have hs := h s
  cases hL : L s with
  | none =>
    rw [hL] at hs
    simp only at hs
    unfold needsRefit
    simp [hs]
  | some q =>
    obtain ⟨bm, m0⟩ := q
    rw [hL] at hs
    obtain ⟨p, z, -, -, -, h1, h2⟩ := hs
    unfold needsRefit
    rw [h1, h2]
    by_cases hm : m = .off
    · simp [hm]
    · simp only [Bool.not_true, Bool.false_eq_true, if_false, hm, false_or]
      congr 1
      exact decide_eq_decide.mpr (not_congr eq_comm)

theorem aleEval_tracks [PySqrt K] {cfg : AleCfg K D} (hdef : Evaluable cfg cfg.defaultBin) {L : LastFit K D} {st : AleState K D}
    (h : Tracks cfg L st) (s : Fin D) (xs : List K) (het : Bool) (c : PyVal) (m : Centering) (hm : prepCentering c = .ok m) :
    Tracks cfg (afterEval cfg L s m) (aleEval cfg st s xs het c).1 := by
  unfold aleEval
  rw [hm]
  simp only [needsRefit_tracks h]
  unfold afterEval
  have key : ∀ q : AleState K D × Py Unit, q = fitLoop cfg cfg.defaultBin m st [s] → Tracks cfg (afterFit cfg cfg.defaultBin m L [s])
      (match q with
        | (st', .error e) => (st', (.error e : Py (List K × Option (List K))))
        | (st', .ok ()) => (st', aleEvalFitted cfg st' s xs het m)).1 := by
    rintro ⟨q, r⟩ hq
    have := fitLoop_tracks hdef m [s] h
    rw [← hq] at this
    cases r <;> exact this
  cases hL : L s with
  | none => exact key _ rfl
  | some q =>
    obtain ⟨bm, m0⟩ := q
    simp only []
    by_cases hc : m = .off ∨ m = m0
    · simp only [hc, not_true_eq_false, decide_false, if_true]
      exact h
    · simp only [hc, not_false_eq_true, decide_true, if_false]
      exact key _ rfl

theorem afterEval_idem {cfg : AleCfg K D} (L : LastFit K D) (s : Fin D) (m : Centering) :
    afterEval cfg (afterEval cfg L s m) s m = afterEval cfg L s m := by
  have key : ∀ L : LastFit K D, (afterFit cfg cfg.defaultBin m L [s] = L) ∨
      (afterFit cfg cfg.defaultBin m L [s] = Function.update L s (some (cfg.defaultBin, m)) ∧
        afterEval cfg (Function.update L s (some (cfg.defaultBin, m))) s m = Function.update L s (some (cfg.defaultBin, m))) := by
    intro L
    unfold afterFit
    cases cfg.fitF s cfg.defaultBin with
    | error e => exact Or.inl rfl
    | ok p =>
      refine Or.inr ⟨rfl, ?_⟩
      unfold afterEval
      simp
  have h0 : afterEval cfg L s m = L ∨ afterEval cfg L s m = afterFit cfg cfg.defaultBin m L [s] := by
    unfold afterEval
    cases L s with
    | none => exact Or.inr rfl
    | some q =>
      obtain ⟨bm, m0⟩ := q
      simp only []
      split_ifs
      · exact Or.inl rfl
      · exact Or.inr rfl
  rcases h0 with h | h
  · rw [h, h]
  · rw [h]
    rcases key L with h1 | ⟨h1, h2⟩
    · rw [h1, h, h1]
    · rw [h1, h2]

theorem aleStep_tracks [PySqrt K] {cfg : AleCfg K D} (hdef : Evaluable cfg cfg.defaultBin) {L : LastFit K D} {st : AleState K D}
    (h : Tracks cfg L st) (op : AleOp K D) (hop : UsesEvaluable cfg op) : Tracks cfg (afterCall cfg L op) (aleStep cfg st op) := by
  cases op with
  | fit f bm c =>
    unfold afterCall aleStep aleFit
    by_cases ha : cfg.allowed bm = true
    · simp only [if_pos ha, bind, Except.bind]
      cases prepFeatures f D with
      | error e => exact h
      | ok g =>
        simp only []
        cases prepCentering c with
        | error e => cases resolveFeatures D g <;> exact h
        | ok m =>
          simp only []
          cases resolveFeatures D g with
          | error e => exact h
          | ok l => exact fitLoop_tracks hop m l h
    · simp only [if_neg ha]
      exact h
  | eval s xs het c =>
    show Tracks cfg (match prepCentering c with
      | .ok m => afterEval cfg L s m
      | .error _ => L) (aleEval cfg st s xs het c).1
    cases hm : prepCentering c with
    | error e =>
      unfold aleEval
      rw [hm]
      exact h
    | ok m => exact aleEval_tracks hdef h s xs het c m hm
  | plot s c =>
    show Tracks cfg (match prepCentering c with
      | .ok m => afterEval cfg L s m
      | .error _ => L) (alePlot cfg st s c).1
    cases hm : prepCentering c with
    | error e =>
      show Tracks cfg L (alePlot cfg st s c).1
      unfold alePlot aleEval
      rw [hm]
      exact h
    | ok m =>
      show Tracks cfg (afterEval cfg L s m) (alePlot cfg st s c).1
      have h1 := aleEval_tracks hdef h s [cfg.axisLo s] false c m hm
      unfold alePlot
      rcases e1 : aleEval cfg st s [cfg.axisLo s] false c with ⟨q, r⟩
      rw [e1] at h1
      cases r with
      | error e => exact h1
      | ok u =>
        simp only []
        cases hfe : q.fe s with
        | none => exact h1
        | some pn =>
          obtain ⟨p, n⟩ := pn
          simp only []
          cases pyIndex p.limits 0 with
          | error e => exact h1
          | ok a =>
            cases pyIndex p.limits (p.limits.length - 1) with
            | error e => exact h1
            | ok b =>
              simp only []
              have h2 := aleEval_tracks hdef h1 s (linspace a b 1000) true c m hm
              rw [afterEval_idem] at h2
              rcases e2 : aleEval cfg q s (linspace a b 1000) true c with ⟨q2, r2⟩
              simp only at h2
              rw [e2] at h2
              cases r2 <;> exact h2

theorem aleRun_tracks [PySqrt K] {cfg : AleCfg K D} (hdef : Evaluable cfg cfg.defaultBin) (calls : List (AleOp K D))
    (hcalls : ∀ op ∈ calls, UsesEvaluable cfg op) : Tracks cfg (lastFit cfg calls) (aleRun cfg calls) := by
  unfold lastFit aleRun
  have h0 : Tracks cfg (fun _ => none) (AleState.init : AleState K D) := fun s => rfl
  generalize (fun _ => none : LastFit K D) = L at h0 ⊢
  generalize (AleState.init : AleState K D) = st at h0 ⊢
  induction calls generalizing L st with
  | nil => exact h0
  | cons op t ih =>
    exact ih (fun o ho => hcalls o (List.mem_cons_of_mem _ ho)) _ _ (aleStep_tracks hdef h0 op (hcalls op List.mem_cons_self))

theorem evalFitted_value [PySqrt K] {cfg : AleCfg K D} {st : AleState K D} {s : Fin D} {bm : BinMethod K} {m : Centering} {p : AleParams K} {z z' : K}
    (hp : cfg.fitF s bm = .ok p) (hz : shift cfg p s m = .ok z) (hfe : st.fe s = some (p, some z')) (hzz : m ≠ .off → z' = z)
    (xs : List K) (het : Bool) : aleEvalFitted cfg st s xs het m = valueOf cfg bm m s xs het := by
  unfold aleEvalFitted valueOf
  simp only [hp, bind, Except.bind, hfe, hz]
  cases pyAssert (decide (cfg.axisLo s < cfg.axisHi s)) with
  | error e => rfl
  | ok u =>
    simp only []
    cases evalUnnorm p xs with
    | error e => rfl
    | ok y =>
      simp only []
      have hoff : m = .off → y.map (· - z) = y := by
        rintro rfl
        cases hz
        simp
      have hon : m ≠ .off → y.map (· - z') = y.map (· - z) := fun h => by rw [hzz h]
      cases het with
      | false =>
        simp only [Bool.false_eq_true, if_false]
        by_cases hm : m = .off
        · rw [if_pos hm, hoff hm]
        · rw [if_neg hm, hon hm]
      | true =>
        simp only [if_true]
        cases evalHet p xs with
        | error e => rfl
        | ok v =>
          simp only [Except.map]
          by_cases hm : m = .off
          · rw [if_pos hm, hoff hm]
          · rw [if_neg hm, hon hm]

/-- **C29.**  After any history of calls, `eval(s, xs, het, centering)` equals a value that is computed without any history from the
constructor arguments, the binning method in force for `s`, and the arguments. -/
theorem C29_eval_is_function_of_last_fit [PySqrt K] (cfg : AleCfg K D) (hdef : Evaluable cfg cfg.defaultBin) (calls : List (AleOp K D))
    (hcalls : ∀ op ∈ calls, UsesEvaluable cfg op) (s : Fin D) (xs : List K) (het : Bool) (c : PyVal) :
    (aleEval cfg (aleRun cfg calls) s xs het c).2 =
      match prepCentering c with
      | .error e => .error e
      | .ok m => valueOf cfg (effectiveBin cfg (lastFit cfg calls s) m) m s xs het := by
  have h := aleRun_tracks hdef calls hcalls
  generalize aleRun cfg calls = st at *
  generalize lastFit cfg calls = L at *
  unfold aleEval
  cases hm : prepCentering c with
  | error e => rfl
  | ok m =>
    simp only [needsRefit_tracks h]
    have key : ∀ q : AleState K D × Py Unit, q = fitLoop cfg cfg.defaultBin m st [s] →
        (match q with
          | (st', .error e) => (st', (.error e : Py (List K × Option (List K))))
          | (st', .ok ()) => (st', aleEvalFitted cfg st' s xs het m)).2 = valueOf cfg cfg.defaultBin m s xs het := by
      rintro ⟨q, r⟩ hq
      cases r with
      | error e =>
        simp only []
        unfold fitLoop at hq
        rcases fitOne_tracks h hdef m s with ⟨p, hp, -, hok⟩ | ⟨e', he', hres⟩
        · rcases e1 : fitOne cfg st s cfg.defaultBin m with ⟨q', r'⟩
          rw [e1] at hok hq
          obtain rfl : r' = .ok () := hok
          cases hq
        · rw [hres] at hq
          cases hq
          unfold valueOf
          rw [he']
          rfl
      | ok u =>
        obtain ⟨p, z', hp, hz', hfe, -, -⟩ := fitLoop_single hq.symm
        obtain ⟨z, hz⟩ := hdef s p hp m
        obtain ⟨z'', hz'', hzz⟩ := normConst_of_shift hz
        rw [hz'] at hz''
        cases hz''
        exact evalFitted_value hp hz hfe hzz xs het
    unfold effectiveBin
    have hs := h s
    cases hL : L s with
    | none => exact key _ rfl
    | some q =>
      obtain ⟨bm, m0⟩ := q
      simp only []
      by_cases hc : m = .off ∨ m = m0
      · simp only [hc, not_true_eq_false, decide_false, if_true]
        rw [hL] at hs
        obtain ⟨p, z', hp, hz', hfe, -, -⟩ := hs
        have hbm : ∃ z, shift cfg p s m = .ok z ∧ (m ≠ .off → z' = z) := by
          rcases hc with rfl | rfl
          · exact ⟨0, rfl, fun h => absurd rfl h⟩
          · cases m with
            | off => exact ⟨0, rfl, fun h => absurd rfl h⟩
            | zeroStart => exact ⟨z', hz', fun _ => rfl⟩
            | zeroIntegral =>
              refine ⟨z', ?_, fun _ => rfl⟩
              unfold aleNormConst mean1dLinspace at hz'; rw [centring_grid] at hz'
              unfold shift
              cases hv : evalUnnorm p (centres (cfg.axisLo s) (cfg.axisHi s) 99) with
              | error e => rw [hv] at hz'; cases hz'
              | ok g => rw [hv] at hz'; exact hz'
        obtain ⟨z, hz, hzz⟩ := hbm
        exact evalFitted_value hp hz hfe hzz xs het
      · simp only [hc, not_false_eq_true, decide_true, if_false]
        exact key _ rfl

/-- **C29**, two histories: if the same fit is in force for `s`, all results for `s` are the same. -/
theorem C29_history_independent [PySqrt K] (cfg : AleCfg K D) (hdef : Evaluable cfg cfg.defaultBin) (calls calls' : List (AleOp K D))
    (hcalls : ∀ op ∈ calls, UsesEvaluable cfg op) (hcalls' : ∀ op ∈ calls', UsesEvaluable cfg op) (s : Fin D)
    (hlast : lastFit cfg calls s = lastFit cfg calls' s) (xs : List K) (het : Bool) (c : PyVal) :
    (aleEval cfg (aleRun cfg calls) s xs het c).2 = (aleEval cfg (aleRun cfg calls') s xs het c).2 := by
  rw [C29_eval_is_function_of_last_fit cfg hdef calls hcalls, C29_eval_is_function_of_last_fit cfg hdef calls' hcalls', hlast]

/-- **C28 (partial).**  Let the fit in force for `s` have been made with the default binning method, or with the centring mode that is now asked
for.  Then there is one number `z`, independent of the evaluation points, such that centred and uncentred `eval` differ by `z` everywhere, with
the same heterogeneity.
Missing: a user-chosen binning method together with another centring mode; there the claim is false (`C28_false_custom_binning`). -/
theorem C28_centring_is_a_shift_partial [PySqrt K] (cfg : AleCfg K D) (hdef : Evaluable cfg cfg.defaultBin) (calls : List (AleOp K D))
    (hcalls : ∀ op ∈ calls, UsesEvaluable cfg op) (s : Fin D) (bm : BinMethod K) (m0 : Centering)
    (hlast : lastFit cfg calls s = some (bm, m0)) (c : PyVal) (m : Centering) (hm : prepCentering c = .ok m)
    (hcase : bm = cfg.defaultBin ∨ m = m0) :
    ∃ z, ∀ xs het, (aleEval cfg (aleRun cfg calls) s xs het c).2 =
      ((aleEval cfg (aleRun cfg calls) s xs het (.bool false)).2).map fun q => (q.1.map (· - z), q.2) := by
  have hbin : effectiveBin cfg (lastFit cfg calls s) m = bm := by
    rw [hlast]
    unfold effectiveBin
    simp only []
    rcases hcase with rfl | rfl
    · split_ifs <;> rfl
    · simp
  have hbin0 : effectiveBin cfg (lastFit cfg calls s) .off = bm := by rw [hlast]; simp [effectiveBin]
  have ht := aleRun_tracks hdef calls hcalls s
  rw [hlast] at ht
  obtain ⟨p, z', hp, hz', -⟩ := ht
  have hz : ∃ z, shift cfg p s m = .ok z := by
    rcases hcase with rfl | rfl
    · exact hdef s p hp m
    · cases m with
      | off => exact ⟨0, rfl⟩
      | zeroStart => exact ⟨z', hz'⟩
      | zeroIntegral =>
        unfold aleNormConst mean1dLinspace at hz'; rw [centring_grid] at hz'
        unfold shift
        cases hv : evalUnnorm p (centres (cfg.axisLo s) (cfg.axisHi s) 99) with
        | error e => rw [hv] at hz'; cases hz'
        | ok g => exact ⟨_, rfl⟩
  obtain ⟨z, hz⟩ := hz
  refine ⟨z, fun xs het => ?_⟩
  rw [C29_eval_is_function_of_last_fit cfg hdef calls hcalls, C29_eval_is_function_of_last_fit cfg hdef calls hcalls, hm]
  simp only [prepCentering]
  rw [hbin, hbin0]
  unfold valueOf
  simp only [hp, hz, bind, Except.bind, show shift cfg p s .off = .ok 0 from rfl]
  cases pyAssert (decide (cfg.axisLo s < cfg.axisHi s)) with
  | error e => rfl
  | ok u =>
    simp only []
    cases evalUnnorm p xs with
    | error e => rfl
    | ok y =>
      simp only []
      cases het with
      | false => simp [pure, Except.pure, Except.map]
      | true =>
        simp only [if_true]
        cases evalHet p xs with
        | error e => rfl
        | ok v => simp [pure, Except.pure, Except.map]

/-! ### When the hypothesis `Evaluable` holds -/

/-- Every successful fit with `bm` gives well-formed parameters (increasing limits, one entry per bin). -/
def GoodFor (cfg : AleCfg K D) (bm : BinMethod K) : Prop := ∀ s p, cfg.fitF s bm = .ok p → GoodParams p

theorem GoodFor.evaluable {cfg : AleCfg K D} {bm : BinMethod K} (h : GoodFor cfg bm) : Evaluable cfg bm := by
  intro s p hp m
  have hg := h s p hp
  cases m with
  | off => exact ⟨0, rfl⟩
  | zeroStart =>
    obtain ⟨el, -, hacc⟩ := hg.acc p.binEffect [cfg.axisLo s] hg.be
    unfold shift evalUnnorm
    rw [hacc]
    exact ⟨_, rfl⟩
  | zeroIntegral =>
    obtain ⟨el, -, hacc⟩ := hg.acc p.binEffect (centres (cfg.axisLo s) (cfg.axisHi s) 99) hg.be
    unfold shift evalUnnorm
    rw [hacc]
    exact ⟨_, rfl⟩

/-- Every method ALE accepts, except `Fixed(nof_bins=0)`, on an object with proper axis limits. -/
theorem ale_goodFor (cast : K → K) (f : Row K D → K) (b : Base K D) (hlt : ∀ s, b.axisLo s < b.axisHi s) (bm : BinMethod K)
    (hn : ∀ m cl, bm ≠ .fixed 0 m cl) : GoodFor (aleCfg cast (List.map f) b) bm := by
  intro s p hp
  obtain ⟨-, -, -, -, -, -, -, -, -, -, -, hg, -⟩ := ale_fit_cases (hlt s) (ale_safe (aleFitFeature_ok hp).1 hn) hp
  exact hg

/-- RHALE: every greedy method, every fixed one with at least one bin, DP where it is safe. -/
theorem rhale_goodFor (eff : List (Row K D)) (b : Base K D) (hlt : ∀ s, b.axisLo s < b.axisHi s) (bm : BinMethod K)
    (hsafe : ∀ s, SafeMethod (rhaleCtx b.data eff b.axisLo b.axisHi s) bm) : GoodFor (rhaleCfg eff b) bm := fun s _ hp =>
  (rhale_good (hlt s) (hsafe s) hp).1

/-- The method in force comes from a call or is the default one. -/
theorem afterFit_mem (cfg : AleCfg K D) (bm : BinMethod K) (m : Centering) (P : BinMethod K → Prop) (hbm : P bm) (l : List (Fin D)) (L : LastFit K D)
    (hL : ∀ s q, L s = some q → P q.1) : ∀ s q, afterFit cfg bm m L l s = some q → P q.1 := by
  induction l generalizing L with
  | nil => exact hL
  | cons t l ih =>
    unfold afterFit
    cases cfg.fitF t bm with
    | error e => exact hL
    | ok p =>
      refine ih _ fun s q hq => ?_
      by_cases hst : s = t
      · subst hst
        simp only [Function.update_self, Option.some.injEq] at hq
        subst hq
        exact hbm
      · simp only [ne_eq, hst, not_false_eq_true, Function.update_of_ne] at hq
        exact hL s q hq

theorem lastFit_mem (cfg : AleCfg K D) (calls : List (AleOp K D)) (P : BinMethod K → Prop) (hdef : P cfg.defaultBin)
    (hcalls : ∀ f bm c, AleOp.fit f bm c ∈ calls → P bm) : ∀ s q, lastFit cfg calls s = some q → P q.1 := by
  unfold lastFit
  have h0 : ∀ s q, (fun _ => none : LastFit K D) s = some q → P q.1 := by rintro s q ⟨⟩
  generalize (fun _ => none : LastFit K D) = L at h0 ⊢
  induction calls generalizing L with
  | nil => exact h0
  | cons op t ih =>
    refine ih (fun f bm c h => hcalls f bm c (List.mem_cons_of_mem _ h)) _ ?_
    have hev : ∀ s m, ∀ s' q, afterEval cfg L s m s' = some q → P q.1 := by
      intro s m
      unfold afterEval
      cases L s with
      | none => exact afterFit_mem cfg _ m P hdef _ L h0
      | some q =>
        simp only []
        split_ifs
        · exact h0
        · exact afterFit_mem cfg _ m P hdef _ L h0
    cases op with
    | fit f bm c =>
      unfold afterCall
      simp only []
      split_ifs
      · cases (prepFeatures f D).bind (resolveFeatures D) with
        | error e => exact h0
        | ok l =>
          cases prepCentering c with
          | error e => exact h0
          | ok m => exact afterFit_mem cfg bm m P (hcalls f bm c List.mem_cons_self) l L h0
      · exact h0
    | eval s xs het c =>
      show ∀ s' q, (match prepCentering c with
        | .ok m => afterEval cfg L s m
        | .error _ => L) s' = some q → P q.1
      cases prepCentering c with
      | error e => exact h0
      | ok m => exact hev s m
    | plot s c =>
      show ∀ s' q, (match prepCentering c with
        | .ok m => afterEval cfg L s m
        | .error _ => L) s' = some q → P q.1
      cases prepCentering c with
      | error e => exact h0
      | ok m => exact hev s m

theorem effectiveBin_mem (cfg : AleCfg K D) (calls : List (AleOp K D)) (P : BinMethod K → Prop) (hdef : P cfg.defaultBin)
    (hcalls : ∀ f bm c, AleOp.fit f bm c ∈ calls → P bm) (s : Fin D) (m : Centering) : P (effectiveBin cfg (lastFit cfg calls s) m) := by
  have := lastFit_mem cfg calls P hdef hcalls s
  unfold effectiveBin
  cases hL : lastFit cfg calls s with
  | none => exact hdef
  | some q =>
    obtain ⟨bm, m0⟩ := q
    simp only []
    split_ifs
    · exact this _ hL
    · exact hdef

theorem usesEvaluable_of (cfg : AleCfg K D) (calls : List (AleOp K D)) (h : ∀ f bm c, AleOp.fit f bm c ∈ calls → Evaluable cfg bm) :
    ∀ op ∈ calls, UsesEvaluable cfg op := by
  intro op hop
  cases op with
  | fit f bm c => exact h f bm c hop
  | eval s xs het c => trivial
  | plot s c => trivial

/-! ### C08, C09, C13 at the level of `eval` after any history -/

/-- Whatever the history, `eval` works on the parameters of a fit with the method in force. -/
theorem eval_from_fit [PySqrt K] {cfg : AleCfg K D} (hdef : Evaluable cfg cfg.defaultBin) {calls : List (AleOp K D)}
    (hcalls : ∀ op ∈ calls, UsesEvaluable cfg op) {s : Fin D} {c : PyVal} {xs : List K} {het : Bool} {y : List K} {o : Option (List K)}
    (h : (aleEval cfg (aleRun cfg calls) s xs het c).2 = .ok (y, o)) :
    ∃ m p u z, prepCentering c = .ok m ∧ cfg.fitF s (effectiveBin cfg (lastFit cfg calls s) m) = .ok p ∧ evalUnnorm p xs = .ok u ∧
      shift cfg p s m = .ok z ∧ y = u.map (· - z) ∧ ((het = false ∧ o = none) ∨ (het = true ∧ ∃ v, evalHet p xs = .ok v ∧ o = some v)) := by
  rw [C29_eval_is_function_of_last_fit cfg hdef calls hcalls] at h
  cases hm : prepCentering c with
  | error e => rw [hm] at h; cases h
  | ok m =>
    rw [hm] at h
    simp only [] at h
    unfold valueOf at h
    simp only [bind, Except.bind] at h
    cases hp : cfg.fitF s (effectiveBin cfg (lastFit cfg calls s) m) with
    | error e => rw [hp] at h; cases h
    | ok p =>
      rw [hp] at h
      simp only [] at h
      cases ha : pyAssert (decide (cfg.axisLo s < cfg.axisHi s)) with
      | error e => rw [ha] at h; cases h
      | ok u0 =>
        rw [ha] at h
        simp only [] at h
        cases hu : evalUnnorm p xs with
        | error e => rw [hu] at h; cases h
        | ok u =>
          rw [hu] at h
          simp only [] at h
          refine ⟨m, p, u, ?_⟩
          cases het with
          | false =>
            simp only [Bool.false_eq_true, if_false] at h
            cases hz : shift cfg p s m with
            | error e => rw [hz] at h; cases h
            | ok z =>
              rw [hz] at h
              cases h
              exact ⟨z, rfl, hp, hu, rfl, rfl, Or.inl ⟨rfl, rfl⟩⟩
          | true =>
            simp only [if_true] at h
            cases hv : evalHet p xs with
            | error e => rw [hv] at h; cases h
            | ok v =>
              rw [hv] at h
              simp only [Except.map] at h
              cases hz : shift cfg p s m with
              | error e => rw [hz] at h; cases h
              | ok z =>
                rw [hz] at h
                cases h
                exact ⟨z, rfl, hp, hu, rfl, rfl, Or.inr ⟨rfl, v, rfl, rfl⟩⟩

/-- **C13**, API level (ALE and RHALE): the heterogeneity returned by `eval(heterogeneity=True)` after any history is a function of the point
that is 0 at and left of the first bin limit, never negative and never decreasing. -/
theorem C13_eval_heterogeneity [PySqrt K] [LawfulSqrt K] (cfg : AleCfg K D) (hdef : GoodFor cfg cfg.defaultBin) (calls : List (AleOp K D))
    (hcalls : ∀ f bm c, AleOp.fit f bm c ∈ calls → GoodFor cfg bm) (s : Fin D) (c : PyVal) :
    ∃ H : K → K, (∀ x, 0 ≤ H x) ∧ (∀ x y, x ≤ y → H x ≤ H y) ∧
      (∀ p nc st', (∃ xs r, aleEval cfg (aleRun cfg calls) s xs true c = (st', .ok r)) → st'.fe s = some (p, nc) →
        ∀ a, p.limits.head? = some a → ∀ x ≤ a, H x = 0) ∧
      ∀ xs y o, (aleEval cfg (aleRun cfg calls) s xs true c).2 = .ok (y, o) → o = some (xs.map H) := by
  have he := usesEvaluable_of cfg calls fun f bm c h => (hcalls f bm c h).evaluable
  by_cases hex : ∃ xs y o, (aleEval cfg (aleRun cfg calls) s xs true c).2 = .ok (y, o)
  · obtain ⟨xs0, y0, o0, h0⟩ := hex
    obtain ⟨m, p, u, z, hm, hp, -, -, -, -⟩ := eval_from_fit hdef.evaluable he h0
    have hg : GoodParams p := effectiveBin_mem cfg calls (GoodFor cfg) hdef hcalls s m s p hp
    obtain ⟨H, hH, hgrow⟩ := hg.het_grows
    refine ⟨H, hgrow.nonneg, hgrow.mono, ?_, ?_⟩
    · rintro p' nc st' ⟨xs, ⟨y, o⟩, hr⟩ hfe a ha
      have hpp : p' = p := by
        have ht := aleStep_tracks hdef.evaluable (aleRun_tracks hdef.evaluable calls he) (.eval s xs true c) trivial
        have ht := ht s
        have hst : aleStep cfg (aleRun cfg calls) (.eval s xs true c) = st' := by
          show (aleEval cfg (aleRun cfg calls) s xs true c).1 = st'
          rw [hr]
        rw [hst] at ht
        have hL : ∃ m0, afterCall cfg (lastFit cfg calls) (.eval s xs true c) s = some (effectiveBin cfg (lastFit cfg calls s) m, m0) := by
          show ∃ m0, (match prepCentering c with
            | .ok m => afterEval cfg (lastFit cfg calls) s m
            | .error _ => lastFit cfg calls) s = _
          rw [hm]
          simp only []
          unfold afterEval effectiveBin
          unfold effectiveBin at hp
          cases hL : lastFit cfg calls s with
          | none =>
            rw [hL] at hp
            simp only [] at hp
            simp only [afterFit, hp, Function.update_self]
            exact ⟨m, rfl⟩
          | some q =>
            obtain ⟨bm, m0⟩ := q
            rw [hL] at hp
            simp only [] at hp ⊢
            by_cases hc : m = .off ∨ m = m0
            · rw [if_pos hc] at hp ⊢
              rw [if_pos hc, hL]
              exact ⟨m0, rfl⟩
            · rw [if_neg hc] at hp ⊢
              rw [if_neg hc]
              simp only [afterFit, hp, Function.update_self]
              exact ⟨m, rfl⟩
        obtain ⟨m0, hL⟩ := hL
        rw [hL] at ht
        obtain ⟨q, z', hq, -, hfe', -⟩ := ht
        rw [hp] at hq
        cases hq
        rw [hfe] at hfe'
        cases hfe'
        rfl
      subst hpp
      exact hgrow.zero a ha
    · intro xs y o h
      obtain ⟨m', p', u, z, hm', hp', -, -, -, hcase⟩ := eval_from_fit hdef.evaluable he h
      rw [hm] at hm'
      cases hm'
      rw [hp] at hp'
      cases hp'
      rcases hcase with ⟨h1, -⟩ | ⟨-, v, hv, rfl⟩
      · cases h1
      · rw [hH] at hv
        cases hv
        rfl
  · refine ⟨fun _ => 0, fun _ => le_rfl, fun _ _ _ => le_rfl, fun _ _ _ _ _ _ _ _ _ => rfl, fun xs y o h => absurd ⟨xs, y, o, h⟩ hex⟩

/-- **C09**, API level: after any history (binning methods with at least one bin), with any centring, the ALE of a feature the model ignores is 0 at
every point and so is its heterogeneity. -/
theorem C09_eval_ignored_feature [PySqrt K] [LawfulSqrt K] (cast : K → K) (f : Row K D → K) (b : Base K D) (hlt : ∀ s, b.axisLo s < b.axisHi s)
    (s : Fin D) (hf : ∀ r v, f (Function.update r s v) = f r) (calls : List (AleOp K D))
    (hcalls : ∀ g bm c, AleOp.fit g bm c ∈ calls → ∀ m cl, bm ≠ .fixed 0 m cl) (xs : List K) (het : Bool) (c : PyVal) (y : List K) (o : Option (List K))
    (h : (aleEval (aleCfg cast (List.map f) b) (aleRun (aleCfg cast (List.map f) b) calls) s xs het c).2 = .ok (y, o)) :
    y = xs.map (fun _ => 0) ∧ (o = none ∨ o = some (xs.map fun _ => 0)) := by
  have hdef : ∀ m cl, (aleCfg cast (List.map f) b).defaultBin ≠ .fixed 0 m cl := by intro m cl hc; cases hc
  have hgood := ale_goodFor cast f b hlt
  have he := usesEvaluable_of (aleCfg cast (List.map f) b) calls fun g bm c hm => (hgood bm (hcalls g bm c hm)).evaluable
  obtain ⟨m, p, u, z, hm, hp, hu, hz, rfl, hcase⟩ := eval_from_fit (hgood _ hdef).evaluable he h
  have hbm := effectiveBin_mem (aleCfg cast (List.map f) b) calls (fun bm => ∀ m cl, bm ≠ .fixed 0 m cl) hdef hcalls s m
  obtain ⟨-, hzero⟩ := C09_ignored_feature cast f b.data b.axisLo b.axisHi s _ p (hlt s) hbm hf hp
  rw [(hzero xs).1] at hu
  cases hu
  have hz0 : z = 0 := by
    cases m with
    | off => cases hz; rfl
    | zeroStart =>
      unfold shift at hz
      rw [(hzero _).1] at hz
      cases hz
      rfl
    | zeroIntegral =>
      have hz' : ((evalUnnorm p (centres (b.axisLo s) (b.axisHi s) 99)).map avg : Py K) = .ok z := hz
      rw [(hzero _).1] at hz'
      cases hz'
      unfold avg
      simp
  subst hz0
  refine ⟨by simp, ?_⟩
  rcases hcase with ⟨-, rfl⟩ | ⟨-, v, hv, rfl⟩
  · exact Or.inl rfl
  · rw [(hzero xs).2] at hv
    cases hv
    exact Or.inr rfl

/-- **C08**, API level: if the derivative is the constant `c` on every instance then after any history and for any centring, `eval` is the line
of slope `c` (shifted by one constant) between two points `a < b` that enclose all instances within the axis limits, with heterogeneity 0. -/
theorem C08_eval_constant_gradient [PySqrt K] [LawfulSqrt K] (eff : List (Row K D)) (b : Base K D) (hlt : ∀ s, b.axisLo s < b.axisHi s) (s : Fin D) (g : K)
    (hg : ∀ e ∈ eff, e s = g) (calls : List (AleOp K D))
    (hcalls : ∀ f bm c, AleOp.fit f bm c ∈ calls → ∀ t, SafeMethod (rhaleCtx b.data eff b.axisLo b.axisHi t) bm) (c : PyVal)
    (hok : ∃ xs het r, (aleEval (rhaleCfg eff b) (aleRun (rhaleCfg eff b) calls) s xs het c).2 = .ok r) :
    ∃ lo hi z : K, lo < hi ∧ (∀ r ∈ b.data, b.axisLo s ≤ r s → r s ≤ b.axisHi s → lo ≤ r s ∧ r s ≤ hi) ∧
      ∀ xs het, (∀ x ∈ xs, lo ≤ x ∧ x ≤ hi ∧ x ≤ 10 ^ 8) →
        (aleEval (rhaleCfg eff b) (aleRun (rhaleCfg eff b) calls) s xs het c).2 =
          .ok (xs.map fun x => g * (x - lo) - z, if het then some (xs.map fun _ => 0) else none) := by
  have hdefs : ∀ t, SafeMethod (rhaleCtx b.data eff b.axisLo b.axisHi t) (rhaleCfg eff b).defaultBin := by
    intro t hc
    exact absurd hc (by decide)
  have hgood := rhale_goodFor eff b hlt
  have hdef := (hgood _ hdefs).evaluable
  have he := usesEvaluable_of (rhaleCfg eff b) calls fun f bm c hm => (hgood bm (hcalls f bm c hm)).evaluable
  obtain ⟨xs0, het0, ⟨y0, o0⟩, h0⟩ := hok
  obtain ⟨m, p, u, z, hm, hp, hu, hz, -, -⟩ := eval_from_fit hdef he h0
  have hsafe := effectiveBin_mem (rhaleCfg eff b) calls (fun bm => ∀ t, SafeMethod (rhaleCtx b.data eff b.axisLo b.axisHi t) bm) hdefs hcalls s m s
  obtain ⟨hgp, hwith, hpp⟩ := rhale_good (hlt s) hsafe hp
  obtain ⟨hlen, L, hL, hcp⟩ := rhaleFitFeature_ok hp
  have hce : ∀ y ∈ col (((b.data.zip eff).filter fun p => inAxis (b.axisLo s) (b.axisHi s) s p.1).map (·.2)) s, y = g := by
    intro y hy
    obtain ⟨r, hr, rfl⟩ := List.mem_map.mp hy
    obtain ⟨q, hq, rfl⟩ := List.mem_map.mp hr
    exact hg _ (List.of_mem_zip (List.mem_filter.mp hq).1).2
  obtain ⟨hb, hv⟩ := computeAleParams_const hgp.inc hgp.two hwith (rhaleCtx_len b.data eff b.axisLo b.axisHi s hlen) hpp hce
  obtain ⟨lo, hi, hlo, hhi, hlh, hev⟩ := hgp.eval_const hb
  have hhet := hgp.het_zero hv
  refine ⟨lo, hi, z, hlh, ?_, ?_⟩
  · intro r hr h1 h2
    obtain ⟨l, h, hl, hh, hall⟩ := hwith
    rw [hlo] at hl
    rw [hhi] at hh
    cases hl
    cases hh
    refine hall (r s) ?_
    simp only [rhaleCtx, col, List.mem_map]
    exact ⟨r, List.mem_filter.mpr ⟨hr, by simp [inAxis, h1, h2]⟩, rfl⟩
  · intro xs het hxs
    rw [C29_eval_is_function_of_last_fit _ hdef calls he, hm]
    simp only []
    unfold valueOf
    have hassert : pyAssert (decide ((rhaleCfg eff b).axisLo s < (rhaleCfg eff b).axisHi s)) = .ok () := by
      simp [pyAssert, rhaleCfg, hlt s]
    have hev' : evalUnnorm p xs = .ok (xs.map fun x => g * (x - lo)) := by
      rw [hev]
      congr 1
      apply List.map_congr_left
      intro x hx
      obtain ⟨h1, h2, h3⟩ := hxs x hx
      rw [min_eq_left h2, min_eq_right h1, if_neg (by unfold BIG_M; intro hcon; exact absurd hcon.2 (not_lt.mpr h3)), add_zero]
    simp only [hp, hassert, hev', hz, bind, Except.bind, hhet]
    cases het with
    | false => simp [pure, Except.pure]
    | true => simp [pure, Except.pure, Except.map]

/-! ### C28: the counterexample, and non-vacuity -/

/-- Eight instances 0,0,1,1,2,2,3,3 of one feature, gradients `2 x` (the model `x²`). -/
def exBase : Base ℚ 1 where
  data := [![0], ![0], ![1], ![1], ![2], ![2], ![3], ![3]]
  indices := List.range 8
  axisLo := fun _ => 0
  axisHi := fun _ => 3

def exRhale : AleCfg ℚ 1 := rhaleCfg (exBase.data.map fun r j => 2 * r j) exBase

/-- `fit(0, binning_method=Fixed(nof_bins=1, min_points_per_bin=2, cat_limit=0), centering=False)`. -/
def exCalls : List (AleOp ℚ 1) := [.fit (.int 0) (.fixed 1 (some 2) 0) (.bool false)]

/-- **C28 is false for user-chosen binning methods**: after that fit, `eval` without centring is the line `3 x` of the one bin, but `eval` with
`centering="zero_start"` silently refits with the default method and returns another curve; no constant turns one into the other. -/
theorem C28_false_custom_binning :
    lastFit exRhale exCalls 0 = some (.fixed 1 (some 2) 0, .off) ∧
    (aleEval exRhale (aleRun exRhale exCalls) 0 [0, 1, 2, 3] false (.bool false)).2 = .ok ([0, 3, 6, 9], none) ∧
    (aleEval exRhale (aleRun exRhale exCalls) 0 [0, 1, 2, 3] false (.str "zero_start")).2 = .ok ([0, 1, 4, 9], none) ∧
    ¬ ∃ z : ℚ, (aleEval exRhale (aleRun exRhale exCalls) 0 [0, 1, 2, 3] false (.str "zero_start")).2 =
      ((aleEval exRhale (aleRun exRhale exCalls) 0 [0, 1, 2, 3] false (.bool false)).2).map fun q => (q.1.map (· - z), q.2) := by
  have h1 : (aleEval exRhale (aleRun exRhale exCalls) 0 [0, 1, 2, 3] false (.bool false)).2 = .ok ([0, 3, 6, 9], none) := by decide +kernel
  have h2 : (aleEval exRhale (aleRun exRhale exCalls) 0 [0, 1, 2, 3] false (.str "zero_start")).2 = .ok ([0, 1, 4, 9], none) := by
    decide +kernel
  refine ⟨by decide +kernel, h1, h2, ?_⟩
  rintro ⟨z, hz⟩
  rw [h1, h2] at hz
  simp only [Except.map, List.map_cons, List.map_nil, Except.ok.injEq, Prod.mk.injEq, List.cons.injEq] at hz
  obtain ⟨⟨h, h', -⟩, -⟩ := hz
  linarith

/-- The hypotheses of C25-C32 are met by this object: its axis limits are proper, its default method is good, fits succeed, centred evaluations
succeed and are not trivial; a second feature list with a failing entry raises. -/
example : GoodFor exRhale exRhale.defaultBin ∧ GoodFor exRhale (.fixed 1 (some 2) 0) ∧
    (aleEval exRhale (aleRun exRhale exCalls) 0 [1, 2] false (.bool true)).2 = .ok ([-2087 / 1089, 1180 / 1089], none) ∧
    (aleEval exRhale (aleRun exRhale (exCalls ++ [.plot 0 (.str "zero_start")])) 0 [0, 2] false (.bool false)).2 = .ok ([0, 4], none) ∧
    (aleFit exRhale (aleRun exRhale exCalls) (.int 0) (.fixed 1 (some 9) 0) (.bool false)).2 = .error .assertionError := by
  have hlt : ∀ s, exBase.axisLo s < exBase.axisHi s := fun s => by show (0 : ℚ) < 3; norm_num
  refine ⟨rhale_goodFor _ _ hlt _ fun s h => absurd h (by decide), rhale_goodFor _ _ hlt _ fun s => (by decide : 1 ≤ 1), ?_, ?_, ?_⟩
  · decide +kernel
  · decide +kernel
  · decide +kernel

end Effector
