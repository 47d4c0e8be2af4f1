import Verif.Model.Missing
import Verif.Props.Irrelevant

/-!
# C112: missing values (NaN) in the data: ALE and RHALE
-/

set_option linter.unusedSectionVars false

namespace Effector

variable {K : Type} [Field K] [LinearOrder K] [IsStrictOrderedRing K] {D : ℕ}

open Spec

namespace Spec

/-- A way to fill in the missing values: feature `s`, when set to a number, keeps it, and the values of the other features do not depend on it. -/
def Fills (s : Fin D) (imp : MRow K D → Row K D) : Prop :=
  ∀ (r : MRow K D) (v : K), imp (Function.update r s (some v)) = Function.update (imp r) s v

/-- The instances whose value of feature `s` is not missing. -/
def withValue (s : Fin D) (data : List (MRow K D)) : List (MRow K D) := data.filter fun r => (r s).isSome

/-- A whole session with an ALE object on data with missing values. -/
def mAleSession [PySqrt K] (choice : ℕ → ℕ → List ℕ) (cast : K → K) (f : MRow K D → K) (data : List (MRow K D))
    (axisLimits : Option ((Fin D → K) × (Fin D → K))) (calls : List (AleOp K D)) (s : Fin D) (xs : List K) (het : Bool) (c : PyVal) :
    Py (List K × Option (List K)) :=
  (MBase.init choice data (.str "all") axisLimits).bind fun b =>
    (aleEval (mAleCfg cast (List.map f) b) (aleRun (mAleCfg cast (List.map f) b) calls) s xs het c).2

/-- A whole session with an RHALE object on data with missing values. -/
def mRhaleSession [PySqrt K] (choice : ℕ → ℕ → List ℕ) (f : MRow K D → K) (jac : Option (MRow K D → Row K D)) (data : List (MRow K D))
    (axisLimits : Option ((Fin D → K) × (Fin D → K))) (calls : List (AleOp K D)) (s : Fin D) (xs : List K) (het : Bool) (c : PyVal) :
    Py (List K × Option (List K)) :=
  (MBase.init choice data (.str "all") axisLimits).bind fun b =>
    let cfg := mRhaleCfg (mRhaleEffects (List.map f) (jac.map List.map) b.data) b
    (aleEval cfg (aleRun cfg calls) s xs het c).2

end Spec

/-! ### Limits -/

theorem npMinFrom_some (m : K) (l : List K) : npMinFrom m (l.map some) = some (l.foldl min m) := by
  induction l generalizing m with
  | nil => rfl
  | cons a l ih =>
    rw [List.map_cons, npMinFrom, ih, List.foldl_cons]
    congr 2
    by_cases h : a < m
    · rw [if_pos h, min_eq_right h.le]
    · rw [if_neg h, min_eq_left (not_lt.mp h)]

theorem npMaxFrom_some (m : K) (l : List K) : npMaxFrom m (l.map some) = some (l.foldl max m) := by
  induction l generalizing m with
  | nil => rfl
  | cons a l ih =>
    rw [List.map_cons, npMaxFrom, ih, List.foldl_cons]
    congr 2
    by_cases h : m < a
    · rw [if_pos h, max_eq_right h.le]
    · rw [if_neg h, max_eq_left (not_lt.mp h)]

theorem npMinFrom_none (m : K) {l : List (Option K)} (h : none ∈ l) : npMinFrom m l = none := by
  induction l generalizing m with
  | nil => cases h
  | cons a l ih =>
    cases a with
    | none => rfl
    | some y => exact ih _ (by simpa using h)

theorem npMaxFrom_none (m : K) {l : List (Option K)} (h : none ∈ l) : npMaxFrom m l = none := by
  induction l generalizing m with
  | nil => cases h
  | cons a l ih =>
    cases a with
    | none => rfl
    | some y => exact ih _ (by simpa using h)

theorem npMin_none {l : List (Option K)} (h : none ∈ l) : npMin l = none := by
  cases l with
  | nil => cases h
  | cons a l =>
    cases a with
    | none => rfl
    | some y => exact npMinFrom_none _ (by simpa using h)

theorem npMax_none {l : List (Option K)} (h : none ∈ l) : npMax l = none := by
  cases l with
  | nil => cases h
  | cons a l =>
    cases a with
    | none => rfl
    | some y => exact npMaxFrom_none _ (by simpa using h)

theorem npMin_some {r : Row K D} {rs : List (Row K D)} {s : Fin D} {l : List (Option K)} (h : l = (r :: rs).map fun r => some (r s)) :
    npMin l = some ((rs.map (· s)).foldl min (r s)) := by
  subst h
  rw [List.map_cons, npMin, ← npMinFrom_some, List.map_map]
  rfl

theorem npMax_some {r : Row K D} {rs : List (Row K D)} {s : Fin D} {l : List (Option K)} (h : l = (r :: rs).map fun r => some (r s)) :
    npMax l = some ((rs.map (· s)).foldl max (r s)) := by
  subst h
  rw [List.map_cons, npMax, ← npMaxFrom_some, List.map_map]
  rfl

/-- The axis limits in force on data with missing values. -/
def mLimitsOr (data : List (MRow K D)) : Option ((Fin D → K) × (Fin D → K)) → Py ((Fin D → Option K) × (Fin D → Option K))
  | some l => .ok (fun s => some (l.1 s), fun s => some (l.2 s))
  | none => mAxisLimits data

theorem mBase_init_all (choice : ℕ → ℕ → List ℕ) (data : List (MRow K D)) (axisLimits : Option ((Fin D → K) × (Fin D → K))) :
    MBase.init choice data (.str "all") axisLimits =
      (mLimitsOr data axisLimits).bind fun l => .ok { data := data, axisLo := l.1, axisHi := l.2 } := by
  unfold MBase.init prepNofInstances
  simp only [if_true, bind, Except.bind, pure, Except.pure, takeRows_range]
  cases axisLimits with
  | some l => rfl
  | none => rfl

/-! ### Filling in -/

theorem Spec.Fills.at {s : Fin D} {imp : MRow K D → Row K D} (h : Fills s imp) {r : MRow K D} {v : K} (hv : r s = some v) : imp r s = v := by
  have e : Function.update r s (some v) = r := by rw [← hv, Function.update_eq_self]
  have := h r v
  rw [e] at this
  rw [this, Function.update_self]

theorem withValue_col {s : Fin D} {imp : MRow K D → Row K D} (h : Fills s imp) {d : List (MRow K D)} (hd : ∀ r ∈ d, (r s).isSome) :
    mcol d s = (d.map imp).map fun r => some (r s) := by
  unfold mcol
  rw [List.map_map]
  apply List.map_congr_left
  intro r hr
  obtain ⟨v, hv⟩ := Option.isSome_iff_exists.mp (hd r hr)
  show r s = some (imp r s)
  rw [h.at hv, hv]

theorem known_some {K : Type} (l : List K) : known (l.map some) = l := by
  unfold known
  rw [List.filterMap_map]
  exact List.filterMap_some

theorem known_col {s : Fin D} {imp : MRow K D → Row K D} (h : Fills s imp) {d : List (MRow K D)} (hd : ∀ r ∈ d, (r s).isSome) :
    known (mcol d s) = col (d.map imp) s := by
  rw [withValue_col h hd, show ((d.map imp).map fun r => some (r s)) = (col (d.map imp) s).map some from by unfold col; simp, known_some]

theorem mInAxis_isSome {lo hi : Option K} {s : Fin D} {r : MRow K D} (h : mInAxis lo hi s r = true) : (r s).isSome := by
  unfold mInAxis at h
  cases hr : r s with
  | some v => rfl
  | none =>
    rw [hr] at h
    cases lo <;> simp [nanLe] at h

/-- After the mask the column has numbers only. -/
theorem mcol_filtered (data : List (MRow K D)) (lo hi : Option K) (s : Fin D) :
    mcol (data.filter (mInAxis lo hi s)) s = (known (mcol (data.filter (mInAxis lo hi s)) s)).map some := by
  have : ∀ r ∈ data.filter (mInAxis lo hi s), (r s).isSome := fun r hr => mInAxis_isSome (List.mem_filter.mp hr).2
  generalize data.filter (mInAxis lo hi s) = d at this
  induction d with
  | nil => rfl
  | cons r d ih =>
    obtain ⟨v, hv⟩ := Option.isSome_iff_exists.mp (this r List.mem_cons_self)
    show r s :: mcol d s = _
    have e : known (mcol (r :: d) s) = v :: known (mcol d s) := by
      unfold known mcol
      rw [List.map_cons, hv]
      rfl
    rw [e, hv, List.map_cons, ← ih fun q hq => this q (List.mem_cons_of_mem _ hq)]

theorem filter_fills {s : Fin D} {imp : MRow K D → Row K D} (h : Fills s imp) (data : List (MRow K D)) (a b : K) :
    (data.filter (mInAxis (some a) (some b) s)).map imp = ((withValue s data).map imp).filter (inAxis a b s) := by
  unfold withValue
  induction data with
  | nil => rfl
  | cons r data ih =>
    cases hr : r s with
    | none =>
      rw [List.filter_cons_of_neg (by simp [mInAxis, hr, nanLe]), List.filter_cons_of_neg (by simp [hr])]
      exact ih
    | some v =>
      rw [List.filter_cons_of_pos (p := fun r : MRow K D => (r s).isSome) (by simp [hr]), List.map_cons]
      have e : mInAxis (some a) (some b) s r = inAxis a b s (imp r) := by
        unfold mInAxis inAxis
        rw [h.at hr, hr]
        rfl
      cases hi : inAxis a b s (imp r) with
      | true => rw [List.filter_cons_of_pos (by rw [e, hi]), List.filter_cons_of_pos hi, List.map_cons, ih]
      | false => rw [List.filter_cons_of_neg (by rw [e, hi]; simp), List.filter_cons_of_neg (by rw [hi]; simp), ih]

theorem mSetCol_fills {s : Fin D} {imp : MRow K D → Row K D} (h : Fills s imp) (cast : K → K) (d : List (MRow K D)) (vals : List K) :
    (mSetCol cast d s vals).map imp = setCol cast (d.map imp) s vals := by
  unfold mSetCol setCol
  rw [List.map_zipWith, List.zipWith_map_left]
  congr 1
  funext r v
  exact h r _

theorem mLocalEffects_fills {s : Fin D} {imp : MRow K D → Row K D} (h : Fills s imp) (cast : K → K) {f : MRow K D → K} {f0 : Row K D → K}
    (hf : ∀ r, f r = f0 (imp r)) {d : List (MRow K D)} (hd : ∀ r ∈ d, (r s).isSome) (L : List K) :
    mLocalEffects cast d (known (mcol d s)) (List.map f) L s = computeLocalEffects cast (d.map imp) (List.map f0) L s := by
  have hm : ∀ vals, (mSetCol cast d s vals).map f = (setCol cast (d.map imp) s vals).map f0 := by
    intro vals
    rw [← mSetCol_fills h, List.map_map]
    exact List.map_congr_left fun r _ => hf r
  unfold mLocalEffects computeLocalEffects
  rw [known_col h hd]
  simp only [hm]

theorem mAleFit_fills {s : Fin D} {imp : MRow K D → Row K D} (h : Fills s imp) (cast : K → K) {f : MRow K D → K} {f0 : Row K D → K}
    (hf : ∀ r, f r = f0 (imp r)) (data : List (MRow K D)) {lo hi : Fin D → Option K} {lo' hi' : Fin D → K} (hlo : lo s = some (lo' s)) (hhi : hi s = some (hi' s))
    (bm : BinMethod K) :
    mAleFitFeature cast (List.map f) data lo hi s bm = aleFitFeature cast (List.map f0) ((withValue s data).map imp) lo' hi' s bm := by
  have hd : ∀ r ∈ data.filter (mInAxis (some (lo' s)) (some (hi' s)) s), (r s).isSome := fun r hr => mInAxis_isSome (List.mem_filter.mp hr).2
  unfold mAleFitFeature aleFitFeature
  rw [hlo, hhi, ← filter_fills h]
  have e := fun L => mLocalEffects_fills h cast hf hd L
  simp only [known_col h hd] at e ⊢
  simp only [e, Option.getD_some]
  rfl

theorem mLimits_fills {s : Fin D} {imp : MRow K D → Row K D} (h : Fills s imp) (data : List (MRow K D)) (a : Option ((Fin D → K) × (Fin D → K)))
    (ha : a = none → ∀ r ∈ data, (r s).isSome) :
    (∃ e, mLimitsOr data a = .error e ∧ limitsOr ((withValue s data).map imp) a = .error e) ∨
    ∃ l l', mLimitsOr data a = .ok l ∧ limitsOr ((withValue s data).map imp) a = .ok l' ∧ l.1 s = some (l'.1 s) ∧ l.2 s = some (l'.2 s) := by
  cases a with
  | some l => exact Or.inr ⟨_, l, rfl, rfl, rfl, rfl⟩
  | none =>
    have hall := ha rfl
    have hw : withValue s data = data := List.filter_eq_self.mpr hall
    rw [hw]
    cases data with
    | nil =>
      have hD : D ≠ 0 := by have := s.2; omega
      exact Or.inl ⟨.valueError, if_neg hD, if_neg hD⟩
    | cons r rs =>
      refine Or.inr ⟨_, _, rfl, rfl, ?_, ?_⟩
      · exact npMin_some (withValue_col h hall)
      · exact npMax_some (withValue_col h hall)

/-- **C112, ALE on a feature whose values are known.**  Data with missing values and a model that fills them in (by any rule) before it predicts: the ALE effect of a feature `s`
- axis limits given by the user, or no value of `s` missing - is that of the filled-in data, restricted to the instances in which `s` is not missing, for every binning and every history of calls on `s`. -/
theorem C112_ale_filled [PySqrt K] (choice : ℕ → ℕ → List ℕ) (cast : K → K) (s : Fin D) (imp : MRow K D → Row K D) (himp : Fills s imp)
    (f : MRow K D → K) (f0 : Row K D → K) (hf : ∀ r, f r = f0 (imp r)) (data : List (MRow K D)) (axisLimits : Option ((Fin D → K) × (Fin D → K)))
    (ha : axisLimits = none → ∀ r ∈ data, (r s).isSome) (calls : List (AleOp K D)) (hc : ∀ op ∈ calls, OnlyOn s op) (xs : List K) (het : Bool) (c : PyVal) :
    mAleSession choice cast f data axisLimits calls s xs het c =
      aleSession choice cast f0 ((withValue s data).map imp) axisLimits calls s xs het c := by
  unfold mAleSession aleSession
  rw [base_init_all, mBase_init_all]
  rcases mLimits_fills himp data axisLimits ha with ⟨e, h1, h2⟩ | ⟨l, l', h1, h2, hlo, hhi⟩
  · rw [h1, h2]; rfl
  · rw [h1, h2]
    simp only [Except.bind]
    have hcfg : CfgSame s (mAleCfg cast (List.map f) { data := data, axisLo := l.1, axisHi := l.2 })
        (aleCfg cast (List.map f0) { data := (withValue s data).map imp, indices := List.range ((withValue s data).map imp).length, axisLo := l'.1, axisHi := l'.2 }) :=
      ⟨by show (l.1 s).getD 0 = _; rw [hlo]; rfl, by show (l.2 s).getD 0 = _; rw [hhi]; rfl,
        funext fun bm => mAleFit_fills himp cast hf data hlo hhi bm, rfl, rfl⟩
    exact (aleEval_same hcfg (aleRun_same hcfg calls hc) xs het c).2

/-! ### RHALE -/

theorem mJacobian_rowwise (f : MRow K D → K) (data : List (MRow K D)) (eps : K) :
    mJacobian (List.map f) data eps = data.map fun r j => (f (Function.update r j ((r j).map (· + eps))) - f r) / eps := by
  unfold mJacobian
  apply List.ext_getElem
  · simp
  · intro i h1 h2
    funext j
    have hi : i < data.length := by simpa using h2
    rw [List.getElem_map, List.getElem_range, List.getElem_map]
    unfold mJacobianCol
    simp [List.getD_eq_getElem?_getD, hi]

theorem mEffects_fills {s : Fin D} {imp : MRow K D → Row K D} (h : Fills s imp) {f : MRow K D → K} {f0 : Row K D → K} (hf : ∀ r, f r = f0 (imp r))
    {jac : Option (MRow K D → Row K D)} {jac0 : Option (Row K D → Row K D)}
    (hj : (jac = none ∧ jac0 = none) ∨ ∃ j j0, jac = some j ∧ jac0 = some j0 ∧ ∀ r, j r s = j0 (imp r) s) :
    ∃ g : MRow K D → Row K D, ∃ g0 : Row K D → Row K D, (∀ data, mRhaleEffects (List.map f) (jac.map List.map) data = data.map g) ∧
      (∀ data, rhaleEffects (List.map f0) (jac0.map List.map) none data = data.map g0) ∧ ∀ r, (r s).isSome → g r s = g0 (imp r) s := by
  rcases hj with ⟨rfl, rfl⟩ | ⟨j, j0, rfl, rfl, hj⟩
  · refine ⟨_, _, fun data => mJacobian_rowwise f data EPS, fun data => jacobian_rowwise f0 data EPS, ?_⟩
    intro r hr
    obtain ⟨v, hv⟩ := Option.isSome_iff_exists.mp hr
    show (f (Function.update r s ((r s).map (· + EPS))) - f r) / EPS = (f0 (Function.update (imp r) s (imp r s + EPS)) - f0 (imp r)) / EPS
    rw [hf, hf, hv, h.at hv]
    show (f0 (imp (Function.update r s (some (v + EPS)))) - _) / _ = _
    rw [h]
  · exact ⟨j, j0, fun _ => rfl, fun _ => rfl, fun r _ => hj r⟩

theorem mRhaleFit_fills {s : Fin D} {imp : MRow K D → Row K D} (h : Fills s imp) {g : MRow K D → Row K D} {g0 : Row K D → Row K D}
    (hg : ∀ r, (r s).isSome → g r s = g0 (imp r) s) (data : List (MRow K D)) {lo hi : Fin D → Option K} {lo' hi' : Fin D → K}
    (hlo : lo s = some (lo' s)) (hhi : hi s = some (hi' s)) (bm : BinMethod K) :
    mRhaleFitFeature data (data.map g) lo hi s bm =
      rhaleFitFeature ((withValue s data).map imp) (((withValue s data).map imp).map g0) lo' hi' s bm := by
  have hd : ∀ r ∈ data.filter (mInAxis (some (lo' s)) (some (hi' s)) s), (r s).isSome := fun r hr => mInAxis_isSome (List.mem_filter.mp hr).2
  have e1 : ((data.zip (data.map g)).filter fun p => mInAxis (some (lo' s)) (some (hi' s)) s p.1).map (·.2) =
      (data.filter (mInAxis (some (lo' s)) (some (hi' s)) s)).map g := by
    rw [show data.zip (data.map g) = data.map fun r => (r, g r) from by
      clear hd; induction data with
      | nil => rfl
      | cons a t ih => rw [List.map_cons, List.zip_cons_cons, ih, List.map_cons]]
    rw [List.filter_map, List.map_map]
    rfl
  have e2 : ((((withValue s data).map imp).zip (((withValue s data).map imp).map g0)).filter fun p => inAxis (lo' s) (hi' s) s p.1).map (·.2) =
      (((withValue s data).map imp).filter (inAxis (lo' s) (hi' s) s)).map g0 := by
    rw [zip_self_map, List.filter_map, List.map_map]
    rfl
  have e3 : col ((data.filter (mInAxis (some (lo' s)) (some (hi' s)) s)).map g) s =
      col ((((withValue s data).map imp).filter (inAxis (lo' s) (hi' s) s)).map g0) s := by
    rw [← filter_fills h]
    unfold col
    rw [List.map_map, List.map_map, List.map_map]
    exact List.map_congr_left fun r hr => hg r (hd r hr)
  unfold mRhaleFitFeature rhaleFitFeature
  rw [if_neg (by simp), if_neg (by simp), hlo, hhi]
  simp only [e1, e2, e3]
  rw [← filter_fills h, known_col h hd]
  rfl

/-- **C112, RHALE on a feature whose values are known**, with finite differences or with a Jacobian that fills in the missing values too. -/
theorem C112_rhale_filled [PySqrt K] (choice : ℕ → ℕ → List ℕ) (s : Fin D) (imp : MRow K D → Row K D) (himp : Fills s imp)
    (f : MRow K D → K) (f0 : Row K D → K) (hf : ∀ r, f r = f0 (imp r)) (jac : Option (MRow K D → Row K D)) (jac0 : Option (Row K D → Row K D))
    (hj : (jac = none ∧ jac0 = none) ∨ ∃ j j0, jac = some j ∧ jac0 = some j0 ∧ ∀ r, j r s = j0 (imp r) s)
    (data : List (MRow K D)) (axisLimits : Option ((Fin D → K) × (Fin D → K)))
    (ha : axisLimits = none → ∀ r ∈ data, (r s).isSome) (calls : List (AleOp K D)) (hc : ∀ op ∈ calls, OnlyOn s op) (xs : List K) (het : Bool) (c : PyVal) :
    mRhaleSession choice f jac data axisLimits calls s xs het c =
      rhaleSession choice f0 jac0 ((withValue s data).map imp) none axisLimits calls s xs het c := by
  obtain ⟨g, g0, h1, h2, hg⟩ := mEffects_fills himp hf hj
  unfold mRhaleSession rhaleSession
  rw [rhaleInit_all _ _ _ _ _ (by rintro e ⟨⟩), mBase_init_all]
  rcases mLimits_fills himp data axisLimits ha with ⟨e, e1, e2⟩ | ⟨l, l', e1, e2, hlo, hhi⟩
  · rw [e1, e2]; rfl
  · rw [e1, e2]
    simp only [Except.bind]
    rw [h1, h2]
    have hcfg : CfgSame s (mRhaleCfg (data.map g) { data := data, axisLo := l.1, axisHi := l.2 })
        (rhaleCfg (((withValue s data).map imp).map g0) { data := (withValue s data).map imp, indices := List.range ((withValue s data).map imp).length, axisLo := l'.1, axisHi := l'.2 }) :=
      ⟨by show (l.1 s).getD 0 = _; rw [hlo]; rfl, by show (l.2 s).getD 0 = _; rw [hhi]; rfl,
        funext fun bm => mRhaleFit_fills himp hg data hlo hhi bm, rfl, rfl⟩
    exact (aleEval_same hcfg (aleRun_same hcfg calls hc) xs het c).2

/-! ### A feature with a missing value and inferred axis limits -/

/-- No binning method can handle an empty column: each of them raises, or gives up (`False`, which the callers turn into an `AssertionError`). -/
theorem findLimits_nil (e : Option (List K)) (a b : K) (bm : BinMethod K) :
    (∃ x, findLimits { xs := [], eff := e, xmin := a, xmax := b } bm = .error x) ∨
      findLimits { xs := [], eff := e, xmin := a, xmax := b } bm = .ok .impossible := by
  have hcat : ∀ (m : Option ℕ) (cl : ℕ), isCategorical ([] : List K) m cl = .error .indexError := fun m cl => rfl
  have hf : ∀ n m cl, ∃ x, fixedFind { xs := [], eff := e, xmin := a, xmax := b } n m cl = .error x := by
    intro n m cl
    unfold fixedFind
    cases m with
    | none => exact ⟨.typeError, rfl⟩
    | some m => exact ⟨.indexError, rfl⟩
  have hgr : ∀ n d m cl, (∃ x, greedyFind { xs := [], eff := e, xmin := a, xmax := b } n d m cl = .error x) ∨
      greedyFind { xs := [], eff := e, xmin := a, xmax := b } n d m cl = .ok .impossible := by
    intro n d m cl
    cases m with
    | none => exact Or.inl ⟨.typeError, rfl⟩
    | some m =>
      cases m with
      | zero => exact Or.inl ⟨.indexError, rfl⟩
      | succ m => exact Or.inr rfl
  have hdp : ∀ n m d cl, (∃ x, dpFind { xs := [], eff := e, xmin := a, xmax := b } n m d cl = .error x) ∨
      dpFind { xs := [], eff := e, xmin := a, xmax := b } n m d cl = .ok .impossible := by
    intro n m d cl
    cases m with
    | none => exact Or.inl ⟨.typeError, rfl⟩
    | some m =>
      cases m with
      | zero => exact Or.inl ⟨.indexError, rfl⟩
      | succ m => exact Or.inr rfl
  cases bm with
  | fixed n m cl => exact Or.inl (hf n m cl)
  | greedy n m d cl => exact hgr n d m cl
  | dp n m d cl => exact hdp n m d cl
  | str t =>
    unfold findLimits
    dsimp only
    split_ifs
    · exact Or.inl (hf _ _ _)
    · exact hgr _ _ _ _
    · exact hdp _ _ _ _
    · exact Or.inl ⟨_, rfl⟩

theorem mFilter_nan {lo hi : Option K} (h : lo = none) (data : List (MRow K D)) (s : Fin D) : data.filter (mInAxis lo hi s) = [] := by
  subst h
  rw [List.filter_eq_nil_iff]
  intro r _
  simp [mInAxis, nanLe]

theorem mAleFit_nan (cast : K → K) (model : List (MRow K D) → List K) (data : List (MRow K D)) {lo hi : Fin D → Option K} {s : Fin D} (h : lo s = none) (bm : BinMethod K) :
    ∃ e, mAleFitFeature cast model data lo hi s bm = .error e := by
  unfold mAleFitFeature
  rw [mFilter_nan h]
  simp only [bind, Except.bind, pyAssert]
  cases isFixedMethod bm with
  | false => exact ⟨_, rfl⟩
  | true =>
    simp only [if_true]
    have e : known (mcol ([] : List (MRow K D)) s) = ([] : List K) := rfl
    rw [e]
    have H := findLimits_nil (K := K) none ((lo s).getD 0) ((hi s).getD 0)
    cases bm with
    | str t => dsimp only; rcases H (.fixed 20 (some 0) 15) with ⟨x, hx⟩ | hx <;> rw [hx] <;> exact ⟨_, rfl⟩
    | dp n m d cl => dsimp only; rcases H (.dp n m d cl) with ⟨x, hx⟩ | hx <;> rw [hx] <;> exact ⟨_, rfl⟩
    | greedy n m d cl => dsimp only; rcases H (.greedy n m d cl) with ⟨x, hx⟩ | hx <;> rw [hx] <;> exact ⟨_, rfl⟩
    | fixed n m cl => dsimp only; rcases H (.fixed n m cl) with ⟨x, hx⟩ | hx <;> rw [hx] <;> exact ⟨_, rfl⟩

theorem mRhaleFit_nan (data : List (MRow K D)) (eff : List (Row K D)) {lo hi : Fin D → Option K} {s : Fin D} (h : lo s = none) (bm : BinMethod K) :
    ∃ e, mRhaleFitFeature data eff lo hi s bm = .error e := by
  unfold mRhaleFitFeature
  rw [mFilter_nan h]
  split_ifs
  · exact ⟨_, rfl⟩
  · simp only [bind, Except.bind]
    have e : known (mcol ([] : List (MRow K D)) s) = ([] : List K) := rfl
    rw [e]
    generalize some (col (((data.zip eff).filter fun p => mInAxis (lo s) (hi s) s p.1).map (·.2)) s) = E
    rcases findLimits_nil (K := K) E ((lo s).getD 0) ((hi s).getD 0) bm with ⟨x, hx⟩ | hx
    · rw [hx]; exact ⟨_, rfl⟩
    · rw [hx]; exact ⟨_, rfl⟩

/-- A feature that can never be fitted is never marked as fitted. -/
theorem fitLoop_never {cfg : AleCfg K D} {s : Fin D} (h : ∀ bm, ∃ e, cfg.fitF s bm = .error e) (bm : BinMethod K) (c : Centering) (l : List (Fin D)) :
    ∀ st : AleState K D, st.fitted s = false → (fitLoop cfg bm c st l).1.fitted s = false := by
  induction l with
  | nil => exact fun st hst => hst
  | cons t l ih =>
    intro st hst
    rw [fitLoop]
    unfold fitOne
    cases ht : cfg.fitF t bm with
    | error e => exact hst
    | ok p =>
      dsimp only
      cases hn : aleNormConst cfg p t c with
      | error e => exact hst
      | ok z =>
        dsimp only
        apply ih
        have hts : s ≠ t := by
          rintro rfl
          obtain ⟨e, he⟩ := h bm
          rw [he] at ht
          cases ht
        show Function.update st.fitted t true s = false
        rw [Function.update_of_ne hts, hst]

theorem aleEval_never [PySqrt K] {cfg : AleCfg K D} {s : Fin D} (h : ∀ bm, ∃ e, cfg.fitF s bm = .error e) {st : AleState K D} (hst : st.fitted s = false)
    (t : Fin D) (xs : List K) (het : Bool) (c : PyVal) : (aleEval cfg st t xs het c).1.fitted s = false := by
  unfold aleEval
  cases prepCentering c with
  | error e => exact hst
  | ok m =>
    dsimp only
    cases needsRefit (st.fitted t) (st.args t) m with
    | error e => exact hst
    | ok b =>
      cases b with
      | false => exact hst
      | true =>
        dsimp only
        have := fitLoop_never h cfg.defaultBin m [t] st hst
        generalize fitLoop cfg cfg.defaultBin m st [t] = q at this
        obtain ⟨st', r⟩ := q
        cases r <;> exact this

theorem aleRun_never [PySqrt K] {cfg : AleCfg K D} {s : Fin D} (h : ∀ bm, ∃ e, cfg.fitF s bm = .error e) (calls : List (AleOp K D)) :
    (aleRun cfg calls).fitted s = false := by
  unfold aleRun
  suffices ∀ st : AleState K D, st.fitted s = false → (calls.foldl (aleStep cfg) st).fitted s = false from this _ rfl
  induction calls with
  | nil => exact fun st hst => hst
  | cons op calls ih =>
    intro st hst
    rw [List.foldl_cons]
    apply ih
    cases op with
    | fit f bm c =>
      show (aleFit cfg st f bm c).1.fitted s = false
      unfold aleFit
      split_ifs
      · generalize (do let f ← prepFeatures f D
                       let c ← prepCentering c
                       let l ← resolveFeatures D f
                       return (l, c) : Py (List (Fin D) × Centering)) = q
        cases q with
        | error e => exact hst
        | ok q => exact fitLoop_never h bm q.2 q.1 st hst
      · exact hst
    | eval t xs het c => exact aleEval_never h hst t xs het c
    | plot t c =>
      show (alePlot cfg st t c).1.fitted s = false
      unfold alePlot
      have h1 := aleEval_never h hst t [cfg.axisLo t] false c
      generalize aleEval cfg st t [cfg.axisLo t] false c = q at h1
      obtain ⟨st1, r⟩ := q
      cases r with
      | error e => exact h1
      | ok y =>
        dsimp only
        cases st1.fe t with
        | none => exact h1
        | some pc =>
          dsimp only
          cases pyIndex pc.1.limits 0 with
          | error e => exact h1
          | ok a =>
            cases pyIndex pc.1.limits (pc.1.limits.length - 1) with
            | error e => exact h1
            | ok b =>
              dsimp only
              have h2 := aleEval_never h h1 t (linspace a b 1000) true c
              generalize aleEval cfg st1 t (linspace a b 1000) true c = q at h2
              obtain ⟨st2, r⟩ := q
              cases r with
              | error e => exact h2
              | ok y => exact h2

theorem aleEval_raises [PySqrt K] {cfg : AleCfg K D} {s : Fin D} (h : ∀ bm, ∃ e, cfg.fitF s bm = .error e) {st : AleState K D} (hst : st.fitted s = false)
    (xs : List K) (het : Bool) (c : PyVal) : ∃ e, (aleEval cfg st s xs het c).2 = .error e := by
  unfold aleEval
  cases prepCentering c with
  | error e => exact ⟨e, rfl⟩
  | ok m =>
    simp only [needsRefit, hst]
    obtain ⟨e, he⟩ := h cfg.defaultBin
    refine ⟨e, ?_⟩
    simp only [fitLoop, fitOne, he, Bool.not_false, if_true]

theorem mAxis_nan {data : List (MRow K D)} {s : Fin D} (h : ∃ r ∈ data, r s = none) : ∃ l, mAxisLimits data = .ok l ∧ l.1 s = none ∧ l.2 s = none := by
  obtain ⟨r, hr, hrs⟩ := h
  have hm : none ∈ mcol data s := List.mem_map.mpr ⟨r, hr, hrs⟩
  cases data with
  | nil => cases hr
  | cons a t => exact ⟨_, rfl, npMin_none hm, npMax_none hm⟩

/-- **C112, ALE on a feature with a missing value**, axis limits inferred from the data: whatever has been called before, `eval` raises (it never returns a curve). -/
theorem C112_ale_raises [PySqrt K] (choice : ℕ → ℕ → List ℕ) (cast : K → K) (f : MRow K D → K) (data : List (MRow K D)) (s : Fin D)
    (h : ∃ r ∈ data, r s = none) (calls : List (AleOp K D)) (xs : List K) (het : Bool) (c : PyVal) :
    ∃ e, mAleSession choice cast f data none calls s xs het c = .error e := by
  obtain ⟨l, hl, h1, h2⟩ := mAxis_nan h
  unfold mAleSession
  rw [mBase_init_all]
  show ∃ e, ((mAxisLimits data).bind _).bind _ = _
  rw [hl]
  have hn := fun bm => mAleFit_nan cast (List.map f) data (lo := l.1) (hi := l.2) h1 bm
  exact aleEval_raises (cfg := mAleCfg cast (List.map f) { data := data, axisLo := l.1, axisHi := l.2 }) hn (aleRun_never hn calls) xs het c

/-- **C112, RHALE on a feature with a missing value**, axis limits inferred from the data. -/
theorem C112_rhale_raises [PySqrt K] (choice : ℕ → ℕ → List ℕ) (f : MRow K D → K) (jac : Option (MRow K D → Row K D)) (data : List (MRow K D)) (s : Fin D)
    (h : ∃ r ∈ data, r s = none) (calls : List (AleOp K D)) (xs : List K) (het : Bool) (c : PyVal) :
    ∃ e, mRhaleSession choice f jac data none calls s xs het c = .error e := by
  obtain ⟨l, hl, h1, h2⟩ := mAxis_nan h
  unfold mRhaleSession
  rw [mBase_init_all]
  show ∃ e, ((mAxisLimits data).bind _).bind _ = _
  rw [hl]
  have hn := fun bm => mRhaleFit_nan data (mRhaleEffects (List.map f) (jac.map List.map) data) (lo := l.1) (hi := l.2) h1 bm
  exact aleEval_raises (cfg := mRhaleCfg (mRhaleEffects (List.map f) (jac.map List.map) data) { data := data, axisLo := l.1, axisHi := l.2 }) hn (aleRun_never hn calls) xs het c

/-! ### Splitting -/

/-- **C112, regional effects.**  A candidate split on a continuous feature with a missing value puts no instance into either subregion, whatever the subset it is applied to. -/
theorem C112_split_nan (data x : List (MRow K D)) (f : Fin D) (h : ∃ r ∈ data, r f = none) (n : ℕ) :
    ∃ ps, mFindPositionsCont data f n = .ok ps ∧ ∀ p ∈ ps, mSplitRows x f p .cont = ([], []) := by
  obtain ⟨r, hr, hrs⟩ := h
  have hm : none ∈ mcol data f := List.mem_map.mpr ⟨r, hr, hrs⟩
  cases data with
  | nil => cases hr
  | cons a t =>
    refine ⟨_, rfl, ?_⟩
    intro p hp
    obtain ⟨i, -, rfl⟩ := List.mem_map.mp hp
    rw [npMin_none hm]
    unfold mSplitRows
    have h1 : ∀ v : Option K, mGoesFirst .cont none v = false := by intro v; cases v <;> rfl
    have h2 : ∀ v : Option K, mGoesSecond .cont none v = false := by intro v; cases v <;> rfl
    simp [h1, h2]

/-- A split on a categorical feature is a partition also when values are missing: the instances without a value go to the `!=` side. -/
theorem C112_split_cat (x : List (MRow K D)) (f : Fin D) (p : Option K) :
    ((mSplitRows x f p .cat).1 ++ (mSplitRows x f p .cat).2).Perm x ∧ ∀ r ∈ (mSplitRows x f p .cat).1, (r f).isSome := by
  have h1 : ∀ v : Option K, mGoesSecond .cat p v = !mGoesFirst .cat p v := by
    intro v
    cases v with
    | none => rfl
    | some v =>
      cases p with
      | none => rfl
      | some p => simp [mGoesFirst, mGoesSecond]
  refine ⟨?_, ?_⟩
  · unfold mSplitRows
    simp only [h1]
    exact List.filter_append_perm (fun r : MRow K D => mGoesFirst .cat p (r f)) x
  · intro r hr
    have := (List.mem_filter.mp hr).2
    cases hv : r f with
    | none => rw [hv] at this; cases this
    | some v => rfl

end Effector
