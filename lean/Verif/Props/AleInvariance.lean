import Verif.Lemmas.Perm
import Verif.Lemmas.AleFit
import Verif.Model.Regional
import Mathlib.Data.Fin.VecNotation

/-!
# C11, C12: which instances matter for ALE and RHALE
-/

set_option linter.unusedSectionVars false

namespace Effector

open Spec

variable {K : Type} [Field K] [LinearOrder K] [IsStrictOrderedRing K] {D : ℕ}

/-! ### One feature -/

theorem zip_self_map {α β : Type} (l : List α) (φ : α → β) : l.zip (l.map φ) = l.map fun r => (r, φ r) := by
  induction l with
  | nil => rfl
  | cons a t ih => simp [ih]

theorem zip_map_both {α β : Type} (l : List α) (ψ φ : α → β) : (l.map ψ).zip (l.map φ) = l.map fun r => (ψ r, φ r) := by
  induction l with
  | nil => rfl
  | cons a t ih => simp [ih]

/-- The in-range (value, effect) pairs of feature `s`. -/
theorem rhale_pairs (data eff : List (Row K D)) (lo hi : K) (s : Fin D) (hlen : eff.length = data.length) :
    (col (data.filter (inAxis lo hi s)) s).zip (col (((data.zip eff).filter fun p => inAxis lo hi s p.1).map (·.2)) s) =
      ((data.zip eff).filter fun p => inAxis lo hi s p.1).map fun p => (p.1 s, p.2 s) := by
  have h1 : data.filter (inAxis lo hi s) = ((data.zip eff).filter fun p => inAxis lo hi s p.1).map (·.1) := by
    conv_lhs => rw [← List.map_fst_zip hlen.ge]
    rw [List.filter_map]
    rfl
  rw [h1]
  simp only [col, List.map_map]
  rw [zip_map_both]
  rfl

/-- The fit of RHALE depends on the in-range (row, effect) pairs only, and not on their order. -/
theorem rhaleFitFeature_congr {data eff data' eff' : List (Row K D)} {lo hi : Fin D → K} {s : Fin D} (bm : BinMethod K)
    (hlen : eff.length = data.length) (hlen' : eff'.length = data'.length)
    (h : ((data.zip eff).filter fun p => inAxis (lo s) (hi s) s p.1).Perm ((data'.zip eff').filter fun p => inAxis (lo s) (hi s) s p.1)) :
    rhaleFitFeature data eff lo hi s bm = rhaleFitFeature data' eff' lo hi s bm := by
  have hp : PairPerm (col (data.filter (inAxis (lo s) (hi s) s)) s)
      (col (((data.zip eff).filter fun p => inAxis (lo s) (hi s) s p.1).map (·.2)) s)
      (col (data'.filter (inAxis (lo s) (hi s) s)) s)
      (col (((data'.zip eff').filter fun p => inAxis (lo s) (hi s) s p.1).map (·.2)) s) :=
    ⟨rhaleCtx_len data eff lo hi s hlen, rhaleCtx_len data' eff' lo hi s hlen', by
      rw [rhale_pairs _ _ _ _ _ hlen, rhale_pairs _ _ _ _ _ hlen']; exact h.map _⟩
  have hc : CtxPerm (rhaleCtx data eff lo hi s) (rhaleCtx data' eff' lo hi s) :=
    ⟨rfl, rfl, hp.xs, Or.inr ⟨_, _, rfl, rfl, hp⟩⟩
  have hl := findLimits_perm hc bm
  unfold rhaleCtx at hl
  unfold rhaleFitFeature
  rw [if_neg (not_not_intro hlen), if_neg (not_not_intro hlen')]
  simp only []
  rw [hl]
  cases findLimits (K := K) _ bm with
  | error e => rfl
  | ok l =>
    cases l with
    | impossible => rfl
    | arr L => exact computeAleParams_perm hp L

/-- The fit of ALE depends on the in-range rows only, and not on their order. -/
theorem aleFitFeature_congr {cast : K → K} {f : Row K D → K} {data data' : List (Row K D)} {lo hi : Fin D → K} {s : Fin D}
    (bm : BinMethod K) (h : (data.filter (inAxis (lo s) (hi s) s)).Perm (data'.filter (inAxis (lo s) (hi s) s))) :
    aleFitFeature cast (List.map f) data lo hi s bm = aleFitFeature cast (List.map f) data' lo hi s bm := by
  rw [aleFitFeature_eq, aleFitFeature_eq]
  have hc : CtxPerm (aleCtx data lo hi s) (aleCtx data' lo hi s) := ⟨rfl, rfl, h.map _, Or.inl ⟨rfl, rfl⟩⟩
  rw [findLimits_perm hc]
  split_ifs with hf
  · cases findLimits (aleCtx data' lo hi s) (aleMethod bm) with
    | error e => rfl
    | ok l =>
      cases l with
      | impossible => rfl
      | arr L =>
        simp only [Except.bind]
        rcases computeLocalEffects_perm cast f h L s with ⟨e, h1, h2⟩ | ⟨φ, L', h1, h2⟩
        · rw [h1, h2]
        · rw [h1, h2]
          simp only []
          apply computeAleParams_perm
          refine ⟨by simp [aleCtx, col], by simp [aleCtx, col], ?_⟩
          simp only [aleCtx, col]
          rw [zip_map_both, zip_map_both]
          exact h.map _
  · rfl

/-! ### Constructors -/

theorem takeRows_range {α : Type} (data : List α) : takeRows data (List.range data.length) = .ok data := by
  rcases data with _ | ⟨a, t⟩
  · rfl
  · have : Inhabited α := ⟨a⟩
    unfold takeRows
    rw [mapM_pyIndex, if_pos (by intro i hi; simpa using hi)]
    congr 1
    apply List.ext_getElem
    · simp
    · intro i h1 h2
      simp only [List.getElem_map, List.getElem_range, List.getD_eq_getElem?_getD, List.getElem?_eq_getElem h2, Option.getD_some]

/-- The axis limits in force: the given ones, or those of the data. -/
def limitsOr (data : List (Row K D)) : Option ((Fin D → K) × (Fin D → K)) → Py ((Fin D → K) × (Fin D → K))
  | some l => .ok l
  | none => axisLimitsAll data

/-- Without sub-sampling, the constructor keeps the rows as they are. -/
theorem base_init_all (choice : ℕ → ℕ → List ℕ) (data : List (Row K D)) (axisLimits : Option ((Fin D → K) × (Fin D → K))) :
    Base.init choice data (.str "all") axisLimits =
      (limitsOr data axisLimits).bind fun l =>
        .ok { data := data, indices := List.range data.length, axisLo := l.1, axisHi := l.2 } := by
  unfold Base.init prepNofInstances
  simp only [if_true, bind, Except.bind, pure, Except.pure, takeRows_range]
  cases axisLimits with
  | some l => rfl
  | none => rfl

theorem axisLimitsAll_perm {data data' : List (Row K D)} (h : data.Perm data') : axisLimitsAll data = axisLimitsAll data' := by
  cases data with
  | nil => rw [List.nil_perm.mp h]
  | cons r rs =>
    cases data' with
    | nil => exact absurd h.length_eq (by simp)
    | cons r' rs' =>
      simp only [axisLimitsAll]
      congr 2 <;> funext f
      · have hf : (r f :: rs.map (fun q => q f)).Perm (r' f :: rs'.map (fun q => q f)) := h.map (fun q : Row K D => q f)
        exact foldl_min_perm hf
      · have hf : (r f :: rs.map (fun q => q f)).Perm (r' f :: rs'.map (fun q => q f)) := h.map (fun q : Row K D => q f)
        exact foldl_max_perm hf

theorem limitsOr_perm {data data' : List (Row K D)} (h : data.Perm data') (a : Option ((Fin D → K) × (Fin D → K))) :
    limitsOr data a = limitsOr data' a := by
  cases a with
  | some l => rfl
  | none => exact axisLimitsAll_perm h

namespace Spec

/-- A whole session with an ALE object: construct it (all instances used), make any calls, then evaluate. -/
def aleSession [PySqrt K] (choice : ℕ → ℕ → List ℕ) (cast : K → K) (f : Row K D → K) (data : List (Row K D))
    (axisLimits : Option ((Fin D → K) × (Fin D → K))) (calls : List (AleOp K D)) (s : Fin D) (xs : List K) (het : Bool) (c : PyVal) :
    Py (List K × Option (List K)) :=
  (Base.init choice data (.str "all") axisLimits).bind fun b =>
    (aleEval (aleCfg cast (List.map f) b) (aleRun (aleCfg cast (List.map f) b) calls) s xs het c).2

/-- A whole session with an RHALE object; `jac` is the row-wise gradient function, if given. -/
def rhaleSession [PySqrt K] (choice : ℕ → ℕ → List ℕ) (f : Row K D → K) (jac : Option (Row K D → Row K D)) (data : List (Row K D))
    (given : Option (List (Row K D))) (axisLimits : Option ((Fin D → K) × (Fin D → K))) (calls : List (AleOp K D)) (s : Fin D)
    (xs : List K) (het : Bool) (c : PyVal) : Py (List K × Option (List K)) :=
  (rhaleInit choice (List.map f) (jac.map List.map) data given (.str "all") axisLimits).bind fun q =>
    (aleEval q.1 (aleRun q.1 calls) s xs het c).2

/-- `data'`, `given'` are the rows of `data`, `given` in another order. -/
def SameRows (data data' : List (Row K D)) : Option (List (Row K D)) → Option (List (Row K D)) → Prop
  | none, none => data.Perm data'
  | some e, some e' => e.length = data.length ∧ e'.length = data'.length ∧ (data.zip e).Perm (data'.zip e')
  | _, _ => False

end Spec

/-- **C11 for ALE.**  For every data set, every row-wise model, every re-ordering of the rows, every (given or default) axis limits and
every history of calls, `eval` returns the same values or raises the same exception. -/
theorem C11_ale_row_order [PySqrt K] (choice : ℕ → ℕ → List ℕ) (cast : K → K) (f : Row K D → K) (data data' : List (Row K D))
    (h : data.Perm data') (axisLimits : Option ((Fin D → K) × (Fin D → K))) (calls : List (AleOp K D)) (s : Fin D) (xs : List K)
    (het : Bool) (c : PyVal) :
    aleSession choice cast f data axisLimits calls s xs het c = aleSession choice cast f data' axisLimits calls s xs het c := by
  unfold aleSession
  rw [base_init_all, base_init_all, limitsOr_perm h]
  cases hl : limitsOr data' axisLimits with
  | error e => rfl
  | ok l =>
    simp only [Except.bind]
    have : ∀ i i' : List ℕ, aleCfg cast (List.map f) { data := data, indices := i, axisLo := l.1, axisHi := l.2 } =
        aleCfg cast (List.map f) { data := data', indices := i', axisLo := l.1, axisHi := l.2 } := by
      intro i i'
      unfold aleCfg
      congr 1
      funext t bm
      exact aleFitFeature_congr bm (h.filter _)
    rw [this _ (List.range data'.length)]

theorem jacobian_rowwise (f : Row K D → K) (data : List (Row K D)) (eps : K) :
    computeJacobianNumerically (List.map f) data eps =
      data.map fun r j => (f (Function.update r j (r j + eps)) - f r) / eps := by
  unfold computeJacobianNumerically
  apply List.ext_getElem
  · simp
  · intro i h1 h2
    funext j
    have hi : i < data.length := by simpa using h2
    have e1 : ((List.range data.length).map fun i => fun g => (jacobianCol (List.map f) data eps g).getD i 0)[i] =
        fun g => (jacobianCol (List.map f) data eps g).getD i 0 := by rw [List.getElem_map, List.getElem_range]
    have e2 : (data.map fun r j => (f (Function.update r j (r j + eps)) - f r) / eps)[i] =
        fun j => (f (Function.update data[i] j (data[i] j + eps)) - f data[i]) / eps := List.getElem_map ..
    rw [e1, e2]
    simp only [jacobianCol, List.map_map, List.zipWith_map, List.zipWith_self,
      List.getD_eq_getElem?_getD, List.getElem?_map, List.getElem?_eq_getElem hi, Option.map_some, Option.getD_some, Function.comp]

/-- The effects a RHALE object works with when they come from a row-wise function. -/
theorem rhaleEffects_rowwise (f : Row K D → K) (jac : Option (Row K D → Row K D)) :
    ∃ φ : Row K D → Row K D, ∀ data, rhaleEffects (List.map f) (jac.map List.map) none data = data.map φ := by
  cases jac with
  | some j => exact ⟨j, fun data => rfl⟩
  | none => exact ⟨_, fun data => jacobian_rowwise f data EPS⟩

theorem rhaleInit_all (choice : ℕ → ℕ → List ℕ) (model : List (Row K D) → List K) (jac : Option (List (Row K D) → List (Row K D)))
    (data : List (Row K D)) (given : Option (List (Row K D))) (hg : ∀ e, given = some e → e.length = data.length)
    (axisLimits : Option ((Fin D → K) × (Fin D → K))) :
    rhaleInit choice model jac data given (.str "all") axisLimits =
      (limitsOr data axisLimits).bind fun l =>
        let b : Base K D := { data := data, indices := List.range data.length, axisLo := l.1, axisHi := l.2 }
        .ok (rhaleCfg (rhaleEffects model jac given data) b, b) := by
  unfold rhaleInit
  rw [show prepNofInstances choice (.str "all") data.length = .ok ((data.length : ℤ), List.range data.length) from rfl]
  simp only [bind, Except.bind, pure, Except.pure, takeRows_range, base_init_all]
  cases given with
  | none =>
    simp only []
    cases limitsOr data axisLimits <;> rfl
  | some e =>
    have : takeRows e (List.range data.length) = .ok e := by rw [← hg e rfl]; exact takeRows_range e
    simp only [this, Except.map]
    cases limitsOr data axisLimits <;> rfl

/-- **C11 for RHALE.**  Whatever the source of the effects (given rows, a row-wise Jacobian, or numerical differentiation), every binning
method, every history of calls: re-ordering the instances together with their effects changes no result and no exception. -/
theorem C11_rhale_row_order [PySqrt K] (choice : ℕ → ℕ → List ℕ) (f : Row K D → K) (jac : Option (Row K D → Row K D))
    (data data' : List (Row K D)) (given given' : Option (List (Row K D))) (h : SameRows data data' given given')
    (axisLimits : Option ((Fin D → K) × (Fin D → K))) (calls : List (AleOp K D)) (s : Fin D) (xs : List K) (het : Bool) (c : PyVal) :
    rhaleSession choice f jac data given axisLimits calls s xs het c =
      rhaleSession choice f jac data' given' axisLimits calls s xs het c := by
  have hg : ∀ e, given = some e → e.length = data.length := by
    rintro e rfl
    cases given' with
    | none => exact h.elim
    | some e' => exact h.1
  have hg' : ∀ e, given' = some e → e.length = data'.length := by
    rintro e rfl
    cases given with
    | none => exact h.elim
    | some e' => exact h.2.1
  have hperm : data.Perm data' := by
    cases given with
    | none =>
      cases given' with
      | none => exact h
      | some e' => exact h.elim
    | some e =>
      cases given' with
      | none => exact h.elim
      | some e' =>
        have := h.2.2.map Prod.fst
        rwa [List.map_fst_zip h.1.ge, List.map_fst_zip h.2.1.ge] at this
  have hzip : (rhaleEffects (List.map f) (jac.map List.map) given data).length = data.length ∧
      (rhaleEffects (List.map f) (jac.map List.map) given' data').length = data'.length ∧
      (data.zip (rhaleEffects (List.map f) (jac.map List.map) given data)).Perm
        (data'.zip (rhaleEffects (List.map f) (jac.map List.map) given' data')) := by
    cases given with
    | none =>
      cases given' with
      | none =>
        obtain ⟨φ, hφ⟩ := rhaleEffects_rowwise f jac
        rw [hφ, hφ, zip_self_map, zip_self_map]
        exact ⟨by simp, by simp, hperm.map _⟩
      | some e' => exact h.elim
    | some e =>
      cases given' with
      | none => exact h.elim
      | some e' => cases jac <;> exact h
  unfold rhaleSession
  rw [rhaleInit_all _ _ _ _ _ hg, rhaleInit_all _ _ _ _ _ hg', limitsOr_perm hperm]
  cases hl : limitsOr data' axisLimits with
  | error e => rfl
  | ok l =>
    simp only [Except.bind]
    have : ∀ i i' : List ℕ, rhaleCfg (rhaleEffects (List.map f) (jac.map List.map) given data)
          { data := data, indices := i, axisLo := l.1, axisHi := l.2 } =
        rhaleCfg (rhaleEffects (List.map f) (jac.map List.map) given' data')
          { data := data', indices := i', axisLo := l.1, axisHi := l.2 } := by
      intro i i'
      unfold rhaleCfg
      congr 1
      funext t bm
      exact rhaleFitFeature_congr bm hzip.1 hzip.2.1 (hzip.2.2.filter _)
    rw [this _ (List.range data'.length)]

/-- **C11**, bins: any binning method finds the same limits (or fails alike) on re-ordered (value, effect) pairs. -/
theorem C11_limits_row_order (xs eff xs' eff' : List K) (hlen : eff.length = xs.length) (hlen' : eff'.length = xs'.length)
    (h : (xs.zip eff).Perm (xs'.zip eff')) (lo hi : K) (bm : BinMethod K) :
    findLimits { xs := xs, eff := some eff, xmin := lo, xmax := hi } bm =
      findLimits { xs := xs', eff := some eff', xmin := lo, xmax := hi } bm :=
  findLimits_perm (c := { xs := xs, eff := some eff, xmin := lo, xmax := hi }) (c' := { xs := xs', eff := some eff', xmin := lo, xmax := hi })
    ⟨rfl, rfl, (PairPerm.xs ⟨hlen, hlen', h⟩), Or.inr ⟨_, _, rfl, rfl, ⟨hlen, hlen', h⟩⟩⟩ bm

/-! ### C12 -/

/-- The part of the state that belongs to feature `s`. -/
def SameAt (s : Fin D) (st st' : AleState K D) : Prop := st.fe s = st'.fe s ∧ st.fitted s = st'.fitted s ∧ st.args s = st'.args s

/-- Two objects that treat feature `s` alike. -/
structure CfgSame (s : Fin D) (cfg cfg' : AleCfg K D) : Prop where
  lo : cfg.axisLo s = cfg'.axisLo s
  hi : cfg.axisHi s = cfg'.axisHi s
  fit : cfg.fitF s = cfg'.fitF s
  dflt : cfg.defaultBin = cfg'.defaultBin
  allowed : cfg.allowed = cfg'.allowed

theorem CfgSame.norm {s : Fin D} {cfg cfg' : AleCfg K D} (h : CfgSame s cfg cfg') (p : AleParams K) (c : Centering) :
    aleNormConst cfg p s c = aleNormConst cfg' p s c := by
  cases c with
  | off => rfl
  | zeroIntegral => simp only [aleNormConst, h.lo, h.hi]
  | zeroStart => simp only [aleNormConst, h.lo]

theorem fitOne_same {s : Fin D} {cfg cfg' : AleCfg K D} (h : CfgSame s cfg cfg') {st st' : AleState K D} (hs : SameAt s st st')
    (bm : BinMethod K) (c : Centering) :
    SameAt s (fitOne cfg st s bm c).1 (fitOne cfg' st' s bm c).1 ∧ (fitOne cfg st s bm c).2 = (fitOne cfg' st' s bm c).2 := by
  unfold fitOne
  rw [h.fit]
  cases cfg'.fitF s bm with
  | error e => exact ⟨hs, rfl⟩
  | ok p =>
    simp only [h.norm]
    cases aleNormConst cfg' p s c with
    | error e => exact ⟨⟨by simp, hs.2.1, hs.2.2⟩, rfl⟩
    | ok z => exact ⟨⟨by simp, by simp, by simp⟩, rfl⟩

theorem fitLoop_same {s : Fin D} {cfg cfg' : AleCfg K D} (h : CfgSame s cfg cfg') (bm : BinMethod K) (c : Centering) (l : List (Fin D))
    (hl : ∀ t ∈ l, t = s) {st st' : AleState K D} (hs : SameAt s st st') :
    SameAt s (fitLoop cfg bm c st l).1 (fitLoop cfg' bm c st' l).1 ∧ (fitLoop cfg bm c st l).2 = (fitLoop cfg' bm c st' l).2 := by
  induction l generalizing st st' with
  | nil => exact ⟨hs, rfl⟩
  | cons t l ih =>
    obtain rfl : t = s := hl t List.mem_cons_self
    have h1 := fitOne_same h hs bm c
    unfold fitLoop
    rcases e1 : fitOne cfg st t bm c with ⟨q, r⟩
    rcases e2 : fitOne cfg' st' t bm c with ⟨q', r'⟩
    rw [e1, e2] at h1
    obtain ⟨ha, rfl⟩ := h1
    cases r with
    | error e => exact ⟨ha, rfl⟩
    | ok u => exact ih (fun t ht => hl t (List.mem_cons_of_mem _ ht)) ha

theorem evalFitted_same [PySqrt K] {s : Fin D} {cfg cfg' : AleCfg K D} (h : CfgSame s cfg cfg') {st st' : AleState K D}
    (hs : SameAt s st st') (xs : List K) (het : Bool) (c : Centering) :
    aleEvalFitted cfg st s xs het c = aleEvalFitted cfg' st' s xs het c := by
  unfold aleEvalFitted
  rw [h.lo, h.hi, hs.1]

theorem aleEval_same [PySqrt K] {s : Fin D} {cfg cfg' : AleCfg K D} (h : CfgSame s cfg cfg') {st st' : AleState K D}
    (hs : SameAt s st st') (xs : List K) (het : Bool) (c : PyVal) :
    SameAt s (aleEval cfg st s xs het c).1 (aleEval cfg' st' s xs het c).1 ∧
      (aleEval cfg st s xs het c).2 = (aleEval cfg' st' s xs het c).2 := by
  unfold aleEval
  cases prepCentering c with
  | error e => exact ⟨hs, rfl⟩
  | ok c =>
    simp only [hs.2.1, hs.2.2]
    cases needsRefit (st'.fitted s) (st'.args s) c with
    | error e => exact ⟨hs, rfl⟩
    | ok b =>
      cases b with
      | false => exact ⟨hs, evalFitted_same h hs xs het c⟩
      | true =>
        rw [h.dflt]
        have h1 := fitLoop_same h cfg'.defaultBin c [s] (by simp) hs
        rcases e1 : fitLoop cfg cfg'.defaultBin c st [s] with ⟨q, r⟩
        rcases e2 : fitLoop cfg' cfg'.defaultBin c st' [s] with ⟨q', r'⟩
        rw [e1, e2] at h1
        obtain ⟨ha, rfl⟩ := h1
        cases r with
        | error e => exact ⟨ha, rfl⟩
        | ok u => exact ⟨ha, evalFitted_same h ha xs het c⟩

theorem alePlot_same [PySqrt K] {s : Fin D} {cfg cfg' : AleCfg K D} (h : CfgSame s cfg cfg') {st st' : AleState K D}
    (hs : SameAt s st st') (c : PyVal) :
    SameAt s (alePlot cfg st s c).1 (alePlot cfg' st' s c).1 ∧ (alePlot cfg st s c).2 = (alePlot cfg' st' s c).2 := by
  unfold alePlot
  rw [h.lo]
  have h1 := aleEval_same h hs [cfg'.axisLo s] false c
  rcases e1 : aleEval cfg st s [cfg'.axisLo s] false c with ⟨q, r⟩
  rcases e2 : aleEval cfg' st' s [cfg'.axisLo s] false c with ⟨q', r'⟩
  rw [e1, e2] at h1
  obtain ⟨ha, rfl⟩ := h1
  cases r with
  | error e => exact ⟨ha, rfl⟩
  | ok u =>
    have hqq : q.fe s = q'.fe s := ha.1
    simp only [hqq]
    cases hfe : q'.fe s with
    | none => exact ⟨ha, rfl⟩
    | some pn =>
      obtain ⟨p, n⟩ := pn
      simp only []
      cases pyIndex p.limits 0 with
      | error e => exact ⟨ha, rfl⟩
      | ok a =>
        cases pyIndex p.limits (p.limits.length - 1) with
        | error e => exact ⟨ha, rfl⟩
        | ok b =>
          simp only []
          have h2 := aleEval_same h ha (linspace a b 1000) true c
          rcases e1 : aleEval cfg q s (linspace a b 1000) true c with ⟨q2, r2⟩
          rcases e2 : aleEval cfg' q' s (linspace a b 1000) true c with ⟨q2', r2'⟩
          rw [e1, e2] at h2
          obtain ⟨hb, rfl⟩ := h2
          cases r2 with
          | error e => exact ⟨hb, rfl⟩
          | ok y => exact ⟨hb, rfl⟩

namespace Spec

/-- The call concerns feature `s` only. -/
def OnlyOn (s : Fin D) : AleOp K D → Prop
  | .fit f _ _ => f = .int s ∨ f = .list [(s : ℤ)]
  | .eval t _ _ _ => t = s
  | .plot t _ => t = s

end Spec

theorem resolve_single (s : Fin D) : resolveFeatures D (.list [(s : ℤ)]) = .ok [s] := by
  have h : 0 ≤ (s : ℤ) ∧ (s : ℤ).toNat < D := ⟨by omega, by have := s.2; omega⟩
  simp only [resolveFeatures, List.mapM_cons, List.mapM_nil, dif_pos h, bind, Except.bind, pure, Except.pure]
  congr 2

theorem aleFit_same {s : Fin D} {cfg cfg' : AleCfg K D} (h : CfgSame s cfg cfg') {st st' : AleState K D} (hs : SameAt s st st')
    (f : PyVal) (hf : f = .int s ∨ f = .list [(s : ℤ)]) (bm : BinMethod K) (c : PyVal) :
    SameAt s (aleFit cfg st f bm c).1 (aleFit cfg' st' f bm c).1 ∧ (aleFit cfg st f bm c).2 = (aleFit cfg' st' f bm c).2 := by
  have hp : prepFeatures f D = .ok (.list [(s : ℤ)]) := by rcases hf with rfl | rfl <;> rfl
  unfold aleFit
  rw [h.allowed, hp]
  simp only [bind, Except.bind]
  split_ifs
  · cases prepCentering c with
    | error e => exact ⟨hs, rfl⟩
    | ok c =>
      simp only [resolve_single, pure, Except.pure]
      exact fitLoop_same h bm c [s] (by simp) hs
  · exact ⟨hs, rfl⟩

theorem aleRun_same [PySqrt K] {s : Fin D} {cfg cfg' : AleCfg K D} (h : CfgSame s cfg cfg') (ops : List (AleOp K D))
    (hops : ∀ op ∈ ops, OnlyOn s op) : SameAt s (aleRun cfg ops) (aleRun cfg' ops) := by
  unfold aleRun
  suffices ∀ st st' : AleState K D, SameAt s st st' → SameAt s (ops.foldl (aleStep cfg) st) (ops.foldl (aleStep cfg') st') from
    this _ _ ⟨rfl, rfl, rfl⟩
  induction ops with
  | nil => exact fun _ _ h => h
  | cons op ops ih =>
    intro st st' hs
    refine ih (fun o ho => hops o (List.mem_cons_of_mem _ ho)) _ _ ?_
    have ho := hops op List.mem_cons_self
    cases op with
    | fit f bm c => exact (aleFit_same h hs f ho bm c).1
    | eval t xs het c => obtain rfl : t = s := ho; exact (aleEval_same h hs xs het c).1
    | plot t c => obtain rfl : t = s := ho; exact (alePlot_same h hs c).1

/-- **C12 for ALE.**  Fix user-given axis limits.  If two data sets contain the same instances with lo ≤ x_s ≤ hi (in any order) - in
particular if one arises from the other by adding or removing instances outside the limits - then `eval` for feature `s`, after any calls
for `s`, gives the same values or raises the same exception. -/
theorem C12_ale_outside_ignored [PySqrt K] (choice : ℕ → ℕ → List ℕ) (cast : K → K) (f : Row K D → K) (data data' : List (Row K D))
    (lo hi : Fin D → K) (s : Fin D)
    (h : (data.filter fun r => lo s ≤ r s ∧ r s ≤ hi s).Perm (data'.filter fun r => lo s ≤ r s ∧ r s ≤ hi s))
    (calls : List (AleOp K D)) (hc : ∀ op ∈ calls, OnlyOn s op) (xs : List K) (het : Bool) (c : PyVal) :
    aleSession choice cast f data (some (lo, hi)) calls s xs het c = aleSession choice cast f data' (some (lo, hi)) calls s xs het c := by
  have hin : (fun r : Row K D => decide (lo s ≤ r s ∧ r s ≤ hi s)) = inAxis (lo s) (hi s) s := by
    funext r; simp [inAxis]
  rw [hin] at h
  unfold aleSession
  rw [base_init_all, base_init_all]
  simp only [limitsOr, Except.bind]
  have hcfg : CfgSame s (aleCfg cast (List.map f) { data := data, indices := List.range data.length, axisLo := lo, axisHi := hi })
      (aleCfg cast (List.map f) { data := data', indices := List.range data'.length, axisLo := lo, axisHi := hi }) :=
    ⟨rfl, rfl, funext fun bm => aleFitFeature_congr bm h, rfl, rfl⟩
  exact (aleEval_same hcfg (aleRun_same hcfg calls hc) xs het c).2

/-- **C12 for RHALE**, with given effects. -/
theorem C12_rhale_outside_ignored [PySqrt K] (choice : ℕ → ℕ → List ℕ) (f : Row K D → K) (jac : Option (Row K D → Row K D))
    (data data' eff eff' : List (Row K D)) (hlen : eff.length = data.length) (hlen' : eff'.length = data'.length)
    (lo hi : Fin D → K) (s : Fin D)
    (h : ((data.zip eff).filter fun p => lo s ≤ p.1 s ∧ p.1 s ≤ hi s).Perm ((data'.zip eff').filter fun p => lo s ≤ p.1 s ∧ p.1 s ≤ hi s))
    (calls : List (AleOp K D)) (hc : ∀ op ∈ calls, OnlyOn s op) (xs : List K) (het : Bool) (c : PyVal) :
    rhaleSession choice f jac data (some eff) (some (lo, hi)) calls s xs het c =
      rhaleSession choice f jac data' (some eff') (some (lo, hi)) calls s xs het c := by
  have hin : (fun p : Row K D × Row K D => decide (lo s ≤ p.1 s ∧ p.1 s ≤ hi s)) = fun p => inAxis (lo s) (hi s) s p.1 := by
    funext r; simp [inAxis]
  rw [hin] at h
  unfold rhaleSession
  rw [rhaleInit_all _ _ _ _ _ (by rintro e ⟨⟩; exact hlen), rhaleInit_all _ _ _ _ _ (by rintro e ⟨⟩; exact hlen')]
  simp only [limitsOr, Except.bind]
  have hcfg : CfgSame s (rhaleCfg (rhaleEffects (List.map f) (jac.map List.map) (some eff) data)
        { data := data, indices := List.range data.length, axisLo := lo, axisHi := hi })
      (rhaleCfg (rhaleEffects (List.map f) (jac.map List.map) (some eff') data')
        { data := data', indices := List.range data'.length, axisLo := lo, axisHi := hi }) :=
    ⟨rfl, rfl, funext fun bm => rhaleFitFeature_congr bm hlen hlen' h, rfl, rfl⟩
  exact (aleEval_same hcfg (aleRun_same hcfg calls hc) xs het c).2

/-- **C12 for RHALE**, effects computed by a row-wise Jacobian or numerically. -/
theorem C12_rhale_outside_ignored_computed [PySqrt K] (choice : ℕ → ℕ → List ℕ) (f : Row K D → K) (jac : Option (Row K D → Row K D))
    (data data' : List (Row K D)) (lo hi : Fin D → K) (s : Fin D)
    (h : (data.filter fun r => lo s ≤ r s ∧ r s ≤ hi s).Perm (data'.filter fun r => lo s ≤ r s ∧ r s ≤ hi s))
    (calls : List (AleOp K D)) (hc : ∀ op ∈ calls, OnlyOn s op) (xs : List K) (het : Bool) (c : PyVal) :
    rhaleSession choice f jac data none (some (lo, hi)) calls s xs het c =
      rhaleSession choice f jac data' none (some (lo, hi)) calls s xs het c := by
  obtain ⟨φ, hφ⟩ := rhaleEffects_rowwise f jac
  have hin : (fun r : Row K D => decide (lo s ≤ r s ∧ r s ≤ hi s)) = inAxis (lo s) (hi s) s := by
    funext r; simp [inAxis]
  rw [hin] at h
  unfold rhaleSession
  rw [rhaleInit_all _ _ _ _ _ (by rintro e ⟨⟩), rhaleInit_all _ _ _ _ _ (by rintro e ⟨⟩)]
  simp only [limitsOr, Except.bind, hφ]
  have hz : ∀ d : List (Row K D), (d.zip (d.map φ)).filter (fun p => inAxis (lo s) (hi s) s p.1) =
      (d.filter (inAxis (lo s) (hi s) s)).map fun r => (r, φ r) := by
    intro d
    rw [zip_self_map, List.filter_map]
    rfl
  have hcfg : CfgSame s (rhaleCfg (data.map φ) { data := data, indices := List.range data.length, axisLo := lo, axisHi := hi })
      (rhaleCfg (data'.map φ) { data := data', indices := List.range data'.length, axisLo := lo, axisHi := hi }) :=
    ⟨rfl, rfl, funext fun bm => rhaleFitFeature_congr bm (by simp) (by simp) (by rw [hz, hz]; exact h.map _), rfl, rfl⟩
  exact (aleEval_same hcfg (aleRun_same hcfg calls hc) xs het c).2

/-- **C12**, the literal reading: appending instances that lie outside the limits changes nothing. -/
theorem C12_ale_append_outside [PySqrt K] (choice : ℕ → ℕ → List ℕ) (cast : K → K) (f : Row K D → K) (data extra : List (Row K D))
    (lo hi : Fin D → K) (s : Fin D) (hout : ∀ r ∈ extra, r s < lo s ∨ hi s < r s)
    (calls : List (AleOp K D)) (hc : ∀ op ∈ calls, OnlyOn s op) (xs : List K) (het : Bool) (c : PyVal) :
    aleSession choice cast f (data ++ extra) (some (lo, hi)) calls s xs het c =
      aleSession choice cast f data (some (lo, hi)) calls s xs het c := by
  apply C12_ale_outside_ignored _ _ _ _ _ _ _ _ _ _ hc
  have : extra.filter (fun r => lo s ≤ r s ∧ r s ≤ hi s) = [] := by
    rw [List.filter_eq_nil_iff]
    intro r hr hcon
    have h1 := of_decide_eq_true hcon
    rcases hout r hr with h | h
    · exact absurd h1.1 (not_le.mpr h)
    · exact absurd h1.2 (not_le.mpr h)
  rw [List.filter_append, this, List.append_nil]

/-! ### Non-vacuity: concrete sessions that succeed with a non-trivial result -/

/-- Three orders/extensions of one data set; axis limits [0, 4]; the extra row (9) lies outside. -/
example :
    aleSession (K := ℚ) (D := 1) (fun _ _ => []) id (fun r => r 0 ^ 2) [![0], ![1], ![3], ![4]] (some (fun _ => 0, fun _ => 4))
        [.fit (.int 0) (.fixed 2 (some 1) 0) (.bool false)] 0 [2] false (.bool false) = .ok ([4], none) ∧
    aleSession (K := ℚ) (D := 1) (fun _ _ => []) id (fun r => r 0 ^ 2) [![4], ![1], ![9], ![0], ![3]] (some (fun _ => 0, fun _ => 4))
        [.fit (.int 0) (.fixed 2 (some 1) 0) (.bool false)] 0 [2] false (.bool false) = .ok ([4], none) ∧
    rhaleSession (K := ℚ) (D := 1) (fun _ _ => []) (fun r => r 0 ^ 2) (some fun r j => 2 * r j) [![4], ![1], ![9], ![0], ![3]] none
        (some (fun _ => 0, fun _ => 4)) [.fit (.int 0) (.greedy 4 (some 1) 0 0) (.bool false)] 0 [1, 2] false (.bool false) =
      .ok ([0, 2], none) := by
  exact ⟨by decide +kernel, by decide +kernel, by decide +kernel⟩

end Effector
