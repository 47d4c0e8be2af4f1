import Verif.Props.Missing
import Verif.Props.PdpProps

/-!
# C112: missing values (NaN) in the data: PDP and DerPDP
-/

set_option linter.unusedSectionVars false

namespace Effector

variable {K : Type} [Field K] [LinearOrder K] [IsStrictOrderedRing K] {D : ℕ}

open Spec

namespace Spec

/-- PDP, DerPDP with a Jacobian, DerPDP with finite differences: a row-wise model that accepts rows with missing values. -/
inductive MPdpModel (K : Type) (D : ℕ)
  | pdp (f : MRow K D → K)
  | derJac (j : MRow K D → Row K D)
  | derNum (f : MRow K D → K)

/-- The batch version of the model. -/
def MPdpModel.kind : MPdpModel K D → MPdpKind K D
  | .pdp f => .pdp (List.map f)
  | .derJac j => .derJac (List.map j)
  | .derNum f => .derNum (List.map f)

/-- `M` fills in the missing values by `imp` and then does what `M0` does. -/
def FilledBy (s : Fin D) (imp : MRow K D → Row K D) : MPdpModel K D → PdpModel K D → Prop
  | .pdp f, .pdp f0 => ∀ r, f r = f0 (imp r)
  | .derJac j, .derJac j0 => ∀ r, j r s = j0 (imp r) s
  | .derNum f, .derNum f0 => ∀ r, f r = f0 (imp r)
  | _, _ => False

/-- `obj = PDP(data, ...)` (or `DerPDP`), data with missing values; the `calls`; then `obj.eval(s, xs, het, c, all, vec)`. -/
def mPdpSession [PySqrt K] (choice : ℕ → ℕ → List ℕ) (M : MPdpModel K D) (data : List (MRow K D)) (axisLimits : Option ((Fin D → K) × (Fin D → K)))
    (calls : List (PdpOp K D)) (s : Fin D) (xs : List K) (het : Bool) (c : PyVal) (all vec : Bool) : Py (PdpOut (Option K)) :=
  (MBase.init choice data (.str "all") axisLimits).bind fun b =>
    let cfg : MPdpCfg K D := { cast := id, kind := M.kind, axisLo := b.axisLo, axisHi := b.axisHi }
    (mPdpEval cfg (mPdpRun cfg b.data calls) s xs het c all vec).2

/-- The calls concern feature `s` only. -/
def PdpOnlyOn (s : Fin D) : PdpOp K D → Prop
  | .fit f _ _ _ => f = .int s ∨ f = .list [(s : ℤ)]
  | .eval t _ _ _ _ _ => t = s

/-- A result all of whose entries are numbers, as an array that might have had NaN entries. -/
def asNumbers : PdpOut K → PdpOut (Option K)
  | .all y => .all (y.map (List.map some))
  | .meanOnly m => .meanOnly (m.map some)
  | .meanStdErr m a b => .meanStdErr (m.map some) (a.map some) (b.map some)
  | .meanStd m a => .meanStd (m.map some) (a.map some)

/-- A result without a single number in it: all averages are NaN, and there are no ICE curves. -/
def NoNumbers : PdpOut (Option K) → Prop
  | .all y => ∀ row ∈ y, row = []
  | .meanOnly m => ∀ v ∈ m, v = none
  | .meanStdErr m a b => (∀ v ∈ m, v = none) ∧ (∀ v ∈ a, v = none) ∧ ∀ v ∈ b, v = none
  | .meanStd m a => (∀ v ∈ m, v = none) ∧ ∀ v ∈ a, v = none

end Spec

/-! ### The ICE matrix -/

theorem mSetAll_fills {s : Fin D} {imp : MRow K D → Row K D} (h : Fills s imp) (d : List (MRow K D)) (v : K) :
    (mSetAll id d s (some v)).map imp = setAll id (d.map imp) s v := by
  unfold mSetAll setAll
  rw [List.map_map, List.map_map]
  exact List.map_congr_left fun r _ => h r v

theorem mBatch_fills {s : Fin D} {imp : MRow K D → Row K D} (h : Fills s imp) (d : List (MRow K D)) (xx : List K) :
    (mPdpBatch id d (xx.map some) s).map imp = pdpBatch id (d.map imp) xx s := by
  unfold mPdpBatch pdpBatch
  rw [List.map_flatMap, List.flatMap_map]
  congr 1
  funext v
  exact mSetAll_fills h d v

theorem map_some_add (xx : List K) (a : K) : (xx.map some).map (Option.map (· + a)) = (xx.map (· + a)).map some := by simp [Function.comp_def]

theorem map_some_sub (xx : List K) (a : K) : (xx.map some).map (Option.map (· - a)) = (xx.map (· - a)).map some := by simp [Function.comp_def]

theorem mPredict_fills {s : Fin D} {imp : MRow K D → Row K D} (h : Fills s imp) {M : MPdpModel K D} {M0 : PdpModel K D} (hM : FilledBy s imp M M0)
    (d : List (MRow K D)) (xx : List K) (vec : Bool) :
    mPdpPredict id M.kind d (xx.map some) s vec = pdpPredict id M0.kind (d.map imp) xx s vec := by
  have key : ∀ {f : MRow K D → K} {f0 : Row K D → K}, (∀ r, f r = f0 (imp r)) →
      (∀ xx : List K, (mPdpBatch id d (xx.map some) s).map f = (pdpBatch id (d.map imp) xx s).map f0) ∧
      ∀ v : K, (mSetAll id d s (some v)).map f = (setAll id (d.map imp) s v).map f0 := by
    intro f f0 hf
    refine ⟨fun xx => ?_, fun v => ?_⟩
    · rw [← mBatch_fills h, List.map_map]
      exact List.map_congr_left fun r _ => hf r
    · rw [← mSetAll_fills h, List.map_map]
      exact List.map_congr_left fun r _ => hf r
  cases M with
  | pdp f =>
    cases M0 with
    | pdp f0 =>
      obtain ⟨k1, k2⟩ := key hM
      simp only [mPdpPredict, MPdpModel.kind, pdpPredict, PdpModel.kind, pdpVecY, pdpNonVecY, BlackBox.out, k1, List.map_map, List.length_map, List.map_eq_nil_iff,
        Function.comp_def, k2]
    | derJac j0 => exact hM.elim
    | derNum f0 => exact hM.elim
  | derJac j =>
    cases M0 with
    | derJac j0 =>
      obtain ⟨k1, k2⟩ := key (f := fun r => j r s) (f0 := fun r => j0 r s) hM
      simp only [mPdpPredict, MPdpModel.kind, pdpPredict, PdpModel.kind, pdpVecY, pdpNonVecY, BlackBox.out, col, List.map_map, List.length_map, List.map_eq_nil_iff,
        Function.comp_def, k1, k2]
    | pdp f0 => exact hM.elim
    | derNum f0 => exact hM.elim
  | derNum f =>
    cases M0 with
    | derNum f0 =>
      obtain ⟨k1, k2⟩ := key hM
      simp only [mPdpPredict, MPdpModel.kind, pdpPredict, PdpModel.kind, pdpVecY, pdpNonVecY, map_some_add, map_some_sub, k1, List.length_map, List.map_eq_nil_iff]
      simp only [List.map_map, Function.comp_def, Option.map_some, k2]
    | pdp f0 => exact hM.elim
    | derJac j0 => exact hM.elim

theorem mDrop_fills {s : Fin D} {imp : MRow K D → Row K D} (h : Fills s imp) (data : List (MRow K D)) (a b : K) :
    (mDropOutside data (some a) (some b) s).map imp = dropOutside ((withValue s data).map imp) a b s := by
  have e1 : mDropOutside data (some a) (some b) s = data.filter (mInAxis (some a) (some b) s) := by
    unfold mDropOutside
    rw [List.filter_filter]
    congr 1
    funext r
    unfold mInAxis
    rw [Bool.and_comm]
  have e2 : dropOutside ((withValue s data).map imp) a b s = ((withValue s data).map imp).filter (inAxis a b s) := by
    unfold dropOutside
    rw [List.filter_filter]
    congr 1
    funext r
    unfold inAxis
    rw [Bool.and_comm]
  rw [e1, e2, filter_fills h]

theorem mDrop_idem (data : List (MRow K D)) (a b : Option K) (s : Fin D) : mDropOutside (mDropOutside data a b s) a b s = mDropOutside data a b s := by
  unfold mDropOutside
  simp only [List.filter_filter]
  congr 1
  funext r
  cases nanLe a (r s) <;> cases nanLe (r s) b <;> rfl

theorem drop_idem (data : List (Row K D)) (a b : K) (s : Fin D) : dropOutside (dropOutside data a b s) a b s = dropOutside data a b s := by
  unfold dropOutside
  simp only [List.filter_filter]
  congr 1
  funext r
  cases decide (a ≤ r s) <;> cases decide (r s ≤ b) <;> rfl

/-! ### Histories of calls on one feature -/

/-- The two objects, on the data with missing values and on the filled-in data, in corresponding states. -/
structure FilledState (s : Fin D) (imp : MRow K D → Row K D) (data : List (MRow K D)) (a b : K) (st : MPdpState K D) (st0 : PdpState K D) : Prop where
  fe : st.fe s = st0.fe s
  fitted : st.fitted s = st0.fitted s
  args : st.args s = st0.args s
  drop : mDropOutside st.data (some a) (some b) s = mDropOutside data (some a) (some b) s
  drop0 : dropOutside st0.data a b s = dropOutside ((withValue s data).map imp) a b s
  isDropped : st.fitted s = true → st.data = mDropOutside data (some a) (some b) s
  isDropped0 : st.fitted s = true → st0.data = dropOutside ((withValue s data).map imp) a b s
  consts : ∀ cs, st.fe s = some (.vec cs) → mDropOutside data (some a) (some b) s ≠ [] → cs ≠ []

section Sim

variable {s : Fin D} {imp : MRow K D → Row K D} {data : List (MRow K D)} {a b : K} {M : MPdpModel K D} {M0 : PdpModel K D} {cfg : MPdpCfg K D} {cfg0 : PdpCfg K D}

theorem fitFeature_fills (h : Fills s imp) (hM : FilledBy s imp M M0) (hlo : cfg.axisLo s = some a) (hhi : cfg.axisHi s = some b) (hlo0 : cfg0.axisLo s = a)
    (hhi0 : cfg0.axisHi s = b) (hcast : cfg.cast = id) (hkind : cfg.kind = M.kind) (hcast0 : cfg0.cast = id) (hkind0 : cfg0.kind = M0.kind)
    {d : List (MRow K D)} {d0 : List (Row K D)} (hd : mDropOutside d (some a) (some b) s = mDropOutside data (some a) (some b) s)
    (hd0 : dropOutside d0 a b s = dropOutside ((withValue s data).map imp) a b s) (c : Centering) (points : ℕ) (vec : Bool) :
    (mPdpFitFeature cfg d s c points vec).1 = mDropOutside data (some a) (some b) s ∧
    (pdpFitFeature cfg0 d0 s c points vec).1 = dropOutside ((withValue s data).map imp) a b s ∧
    (mPdpFitFeature cfg d s c points vec).2 = (pdpFitFeature cfg0 d0 s c points vec).2 ∧
    ∀ cs, (mPdpFitFeature cfg d s c points vec).2 = .ok (.vec cs) → mDropOutside data (some a) (some b) s ≠ [] → cs ≠ [] := by
  unfold mPdpFitFeature pdpFitFeature
  rw [hlo, hhi, hlo0, hhi0, hd, hd0, hcast, hkind, hcast0, hkind0]
  generalize he : mDropOutside data (some a) (some b) s = e
  have he' : e.map imp = dropOutside ((withValue s data).map imp) a b s := by rw [← he, mDrop_fills h]
  rw [← he']
  dsimp only
  have p1 : ∀ n, mPdpPredict id M.kind e (mLinspace (some a) (some b) n) s vec = pdpPredict id M0.kind (e.map imp) (linspace a b n) s vec :=
    fun n => mPredict_fills h hM e (linspace a b n) vec
  have p2 : mPdpPredict id M.kind e [some a] s vec = pdpPredict id M0.kind (e.map imp) [a] s vec := mPredict_fills h hM e [a] vec
  refine ⟨rfl, rfl, ?_, ?_⟩
  · cases c with
    | off => rfl
    | zeroIntegral => simp only [p1, List.length_map]
    | zeroStart => simp only [p2]
  · intro cs hcs hne
    cases c with
    | off => cases hcs
    | zeroIntegral =>
      simp only [p1, bind, Except.bind] at hcs
      generalize pdpPredict id M0.kind (e.map imp) (linspace a b points) s vec = q at hcs
      cases q with
      | error x => cases hcs
      | ok y =>
        simp only [pure, Except.pure] at hcs
        injection hcs with hcs
        injection hcs with hcs
        rw [← hcs]
        intro hnil
        have := congrArg List.length hnil
        simp only [colMeans, List.length_map, List.length_range, List.length_nil] at this
        exact hne (List.length_eq_zero_iff.mp this)
    | zeroStart =>
      simp only [p2, bind, Except.bind, predict_rowwise] at hcs
      rw [if_neg (by simp)] at hcs
      simp only [List.map_cons, List.map_nil, pyIndex, List.getElem?_cons_zero, pure, Except.pure] at hcs
      injection hcs with hcs
      injection hcs with hcs
      rw [← hcs]
      simpa using hne

/-- One `fit` of the feature. -/
theorem fitLoop_fills (h : Fills s imp) (hM : FilledBy s imp M M0) (hlo : cfg.axisLo s = some a) (hhi : cfg.axisHi s = some b) (hlo0 : cfg0.axisLo s = a)
    (hhi0 : cfg0.axisHi s = b) (hcast : cfg.cast = id) (hkind : cfg.kind = M.kind) (hcast0 : cfg0.cast = id) (hkind0 : cfg0.kind = M0.kind)
    {st : MPdpState K D} {st0 : PdpState K D} (hs : FilledState s imp data a b st st0) (c : Centering) (points : ℕ) (vec : Bool) :
    FilledState s imp data a b (mPdpFitLoop cfg c points vec st [s]).1 (pdpFitLoop cfg0 c points vec st0 [s]).1 ∧
    (mPdpFitLoop cfg c points vec st [s]).2 = (pdpFitLoop cfg0 c points vec st0 [s]).2 ∧
    ((mPdpFitLoop cfg c points vec st [s]).2 = .ok () → (mPdpFitLoop cfg c points vec st [s]).1.fitted s = true) := by
  obtain ⟨h1, h2, h3, h4⟩ := fitFeature_fills h hM hlo hhi hlo0 hhi0 hcast hkind hcast0 hkind0 hs.drop hs.drop0 c points vec
  rw [mPdpFitLoop, pdpFitLoop]
  generalize mPdpFitFeature cfg st.data s c points vec = q at h1 h3 h4
  generalize pdpFitFeature cfg0 st0.data s c points vec = q0 at h2 h3
  obtain ⟨d, r⟩ := q
  obtain ⟨d0, r0⟩ := q0
  dsimp only at h1 h2 h3 h4
  subst h1 h2 h3
  cases r with
  | error e =>
    exact ⟨⟨hs.fe, hs.fitted, hs.args, mDrop_idem _ _ _ _, drop_idem _ _ _ _, fun _ => rfl, fun _ => rfl, hs.consts⟩, rfl, fun hh => by cases hh⟩
  | ok nc =>
    simp only [mPdpFitLoop, pdpFitLoop]
    refine ⟨⟨by simp, by simp, by simp, mDrop_idem _ _ _ _, drop_idem _ _ _ _, fun _ => rfl, fun _ => rfl, ?_⟩, trivial, fun _ => by simp⟩
    intro cs hcs hne
    simp only [Function.update_self, Option.some.injEq] at hcs
    exact h4 cs (by rw [hcs]) hne

theorem subNorm_ne_nil {nc : NormConst K} (hnc : ∀ cs, nc = .vec cs → cs ≠ []) {row row' : List K} (hrow : row ≠ []) (h : subNorm nc row = .ok row') : row' ≠ [] := by
  cases nc with
  | scalar c =>
    injection h with h
    rw [← h]
    simpa using hrow
  | vec cs =>
    have hcs := hnc cs rfl
    unfold subNorm at h
    dsimp only at h
    split_ifs at h with hl
    · injection h with h
      rw [← h]
      cases cs with
      | nil => exact absurd rfl hcs
      | cons c cs =>
        cases row with
        | nil => exact absurd rfl hrow
        | cons y row => simp
    · split at h
      · injection h with h
        rw [← h]
        simpa using hrow
      · injection h with h
        rw [← h]
        simpa using hcs
      · cases h

theorem mapM_subNorm_ne_nil {nc : NormConst K} (hnc : ∀ cs, nc = .vec cs → cs ≠ []) {yy yy' : List (List K)} (h : yy.mapM (subNorm nc) = .ok yy') (hrow : ∀ row ∈ yy, row ≠ []) :
    ∀ row ∈ yy', row ≠ [] := by
  induction yy generalizing yy' with
  | nil =>
    rw [List.mapM_nil] at h
    injection h with h
    rw [← h]
    intro row hr
    cases hr
  | cons y yy ih =>
    rw [List.mapM_cons] at h
    simp only [bind, Except.bind, pure, Except.pure] at h
    cases h1 : subNorm nc y with
    | error e => rw [h1] at h; cases h
    | ok y' =>
      rw [h1] at h
      dsimp only at h
      cases h2 : yy.mapM (subNorm nc) with
      | error e => rw [h2] at h; cases h
      | ok ys =>
        rw [h2] at h
        injection h with h
        rw [← h]
        intro row hr
        rcases List.mem_cons.mp hr with rfl | hr
        · exact subNorm_ne_nil hnc (hrow y List.mem_cons_self) h1
        · exact ih h2 (fun row hr => hrow row (List.mem_cons_of_mem _ hr)) row hr

theorem evalFitted_fills [PySqrt K] (h : Fills s imp) (hM : FilledBy s imp M M0) (hlo : cfg.axisLo s = some a) (hhi : cfg.axisHi s = some b) (hlo0 : cfg0.axisLo s = a)
    (hhi0 : cfg0.axisHi s = b) (hcast : cfg.cast = id) (hkind : cfg.kind = M.kind) (hcast0 : cfg0.cast = id) (hkind0 : cfg0.kind = M0.kind)
    {st : MPdpState K D} {st0 : PdpState K D} (hs : FilledState s imp data a b st st0) (hfit : st.fitted s = true) (hne : mDropOutside data (some a) (some b) s ≠ [])
    (xs : List K) (het : Bool) (c : Centering) (all vec : Bool) :
    mPdpEvalFitted cfg st s xs het c all vec = (pdpEvalFitted cfg0 st0 s xs het c all vec).map asNumbers := by
  unfold mPdpEvalFitted pdpEvalFitted
  rw [hlo, hhi, hlo0, hhi0, hcast, hkind, hcast0, hkind0, hs.isDropped hfit, hs.isDropped0 hfit, hs.fe, mPredict_fills h hM, mDrop_fills h]
  have hcon := hs.consts
  rw [hs.fe] at hcon
  have hlen : dropOutside ((withValue s data).map imp) a b s ≠ [] := by
    rw [← mDrop_fills h]
    simpa using hne
  generalize dropOutside ((withValue s data).map imp) a b s = d at hlen
  rw [predict_rowwise]
  simp only [bind, Except.bind, pyAssert, nanLt]
  by_cases hab : a < b
  swap
  · simp [hab, Except.map]
  simp only [hab, decide_true, if_true]
  by_cases hx : vec = false ∧ xs = []
  · rw [if_pos hx]; rfl
  · rw [if_neg hx]
    dsimp only
    have hrows : ∀ row ∈ xs.map fun v => d.map fun r => M0.at s v r, row ≠ [] := by
      intro row hr
      obtain ⟨v, -, rfl⟩ := List.mem_map.mp hr
      simpa using hlen
    generalize (xs.map fun v => d.map fun r => M0.at s v r) = yy at hrows
    have fin : ∀ yy : List (List K), (∀ row ∈ yy, row ≠ []) →
        (if all = true then PdpOut.all (yy.map (List.map some)) else if het = true then .meanStd (yy.map nanMean) (yy.map nanStd) else .meanOnly (yy.map nanMean)) =
        asNumbers (if all = true then .all yy else if het = true then .meanStd (yy.map mean) (yy.map npStd) else .meanOnly (yy.map mean)) := by
      intro yy hyy
      have m1 : yy.map nanMean = (yy.map mean).map some := by
        rw [List.map_map]
        exact List.map_congr_left fun row hr => if_neg (hyy row hr)
      have m2 : yy.map nanStd = (yy.map npStd).map some := by
        rw [List.map_map]
        exact List.map_congr_left fun row hr => if_neg (hyy row hr)
      rw [m1, m2]
      split_ifs <;> rfl
    by_cases hc : c = .off
    · rw [if_pos hc, if_pos hc]
      exact congrArg Except.ok (fin yy hrows)
    · rw [if_neg hc, if_neg hc]
      cases hfe : st0.fe s with
      | none => rfl
      | some nc =>
        dsimp only
        cases hm : yy.mapM (subNorm nc) with
        | error e => rfl
        | ok yy' =>
          dsimp only
          exact congrArg Except.ok (fin yy' (mapM_subNorm_ne_nil (fun cs hcs => hcon cs (by rw [hfe, hcs]) hne) hm hrows))

theorem eval_fills [PySqrt K] (h : Fills s imp) (hM : FilledBy s imp M M0) (hlo : cfg.axisLo s = some a) (hhi : cfg.axisHi s = some b) (hlo0 : cfg0.axisLo s = a)
    (hhi0 : cfg0.axisHi s = b) (hcast : cfg.cast = id) (hkind : cfg.kind = M.kind) (hcast0 : cfg0.cast = id) (hkind0 : cfg0.kind = M0.kind)
    {st : MPdpState K D} {st0 : PdpState K D} (hs : FilledState s imp data a b st st0)
    (xs : List K) (het : Bool) (c : PyVal) (all vec : Bool) :
    FilledState s imp data a b (mPdpEval cfg st s xs het c all vec).1 (pdpEval cfg0 st0 s xs het c all vec).1 ∧
    (mDropOutside data (some a) (some b) s ≠ [] → (mPdpEval cfg st s xs het c all vec).2 = ((pdpEval cfg0 st0 s xs het c all vec).2).map asNumbers) := by
  unfold mPdpEval pdpEval
  cases prepCentering c with
  | error e => exact ⟨hs, fun _ => rfl⟩
  | ok m =>
    dsimp only
    rw [← hs.fitted, ← hs.args]
    cases hr : needsRefit (st.fitted s) (st.args s) m with
    | error e => exact ⟨hs, fun _ => rfl⟩
    | ok r =>
      cases r with
      | false =>
        have hfit : st.fitted s = true := by
          cases hf : st.fitted s with
          | true => rfl
          | false => rw [hf] at hr; cases hr
        exact ⟨hs, fun hne => evalFitted_fills h hM hlo hhi hlo0 hhi0 hcast hkind hcast0 hkind0 hs hfit hne xs het m all vec⟩
      | true =>
        dsimp only
        obtain ⟨h1, h2, h3⟩ := fitLoop_fills h hM hlo hhi hlo0 hhi0 hcast hkind hcast0 hkind0 hs m 100 vec
        generalize mPdpFitLoop cfg m 100 vec st [s] = q at h1 h2 h3
        generalize pdpFitLoop cfg0 m 100 vec st0 [s] = q0 at h1 h2
        obtain ⟨st1, r⟩ := q
        obtain ⟨st01, r0⟩ := q0
        dsimp only at h1 h2 h3
        subst h2
        cases r with
        | error e => exact ⟨h1, fun _ => rfl⟩
        | ok u => exact ⟨h1, fun hne => evalFitted_fills h hM hlo hhi hlo0 hhi0 hcast hkind hcast0 hkind0 h1 (h3 rfl) hne xs het m all vec⟩

theorem features_only {s : Fin D} {f : PyVal} (hf : f = .int s ∨ f = .list [(s : ℤ)]) : (prepFeatures f D).bind (resolveFeatures D) = .ok [s] := by
  have : resolveFeatures D (.list [(s : ℤ)]) = .ok [s] := by
    unfold resolveFeatures
    dsimp only
    rw [List.mapM_cons, List.mapM_nil, dif_pos ⟨by omega, by simp⟩]
    simp [bind, Except.bind, pure, Except.pure]
  rcases hf with rfl | rfl <;> exact this

theorem run_fills [PySqrt K] (h : Fills s imp) (hM : FilledBy s imp M M0) (hlo : cfg.axisLo s = some a) (hhi : cfg.axisHi s = some b) (hlo0 : cfg0.axisLo s = a)
    (hhi0 : cfg0.axisHi s = b) (hcast : cfg.cast = id) (hkind : cfg.kind = M.kind) (hcast0 : cfg0.cast = id) (hkind0 : cfg0.kind = M0.kind)
    (calls : List (PdpOp K D)) (hc : ∀ op ∈ calls, PdpOnlyOn s op) :
    FilledState s imp data a b (mPdpRun cfg data calls) (pdpRun cfg0 ((withValue s data).map imp) calls) := by
  unfold mPdpRun pdpRun
  suffices ∀ st st0, FilledState s imp data a b st st0 → FilledState s imp data a b (calls.foldl (mPdpStep cfg) st) (calls.foldl (pdpStep cfg0) st0) from
    this _ _ ⟨rfl, rfl, rfl, rfl, rfl, (fun hh => by cases hh), (fun hh => by cases hh), (fun _ hh => by cases hh)⟩
  induction calls with
  | nil => exact fun _ _ hh => hh
  | cons op calls ih =>
    intro st st0 hs
    rw [List.foldl_cons, List.foldl_cons]
    apply ih fun o ho => hc o (List.mem_cons_of_mem _ ho)
    have hop := hc op List.mem_cons_self
    cases op with
    | eval t xs het c all vec =>
      cases hop
      exact (eval_fills h hM hlo hhi hlo0 hhi0 hcast hkind hcast0 hkind0 hs xs het c all vec).1
    | fit f c p v =>
      show FilledState s imp data a b (mPdpFit cfg st f c p v).1 (pdpFit cfg0 st0 f c p v).1
      have hf := features_only (D := D) hop
      unfold mPdpFit pdpFit
      cases hpc : prepCentering c with
      | error e => exact hs
      | ok m =>
        simp only [bind, Except.bind, pure, Except.pure] at hf ⊢
        cases hpf : prepFeatures f D with
        | error e => rw [hpf] at hf; cases hf
        | ok g =>
          rw [hpf] at hf
          dsimp only at hf ⊢
          rw [hf]
          exact (fitLoop_fills h hM hlo hhi hlo0 hhi0 hcast hkind hcast0 hkind0 hs m p v).1

end Sim

/-- **C112, PDP and DerPDP on a feature whose values are known.**  Data with missing values and a model that fills them in before it predicts: ICE curves, average and heterogeneity of a feature `s`
- axis limits given by the user, or no value of `s` missing; at least one instance within the limits - are those of the filled-in data, restricted to the instances in which `s` is not missing,
for every history of calls on `s`. -/
theorem C112_pdp_filled [PySqrt K] (choice : ℕ → ℕ → List ℕ) (s : Fin D) (imp : MRow K D → Row K D) (himp : Fills s imp)
    (M : MPdpModel K D) (M0 : PdpModel K D) (hM : FilledBy s imp M M0) (data : List (MRow K D)) (axisLimits : Option ((Fin D → K) × (Fin D → K)))
    (ha : axisLimits = none → ∀ r ∈ data, (r s).isSome) (lo hi : Fin D → K) (hl : limitsOr ((withValue s data).map imp) axisLimits = .ok (lo, hi))
    (hne : ∃ r ∈ data, ∃ v, r s = some v ∧ lo s ≤ v ∧ v ≤ hi s)
    (calls : List (PdpOp K D)) (hc : ∀ op ∈ calls, PdpOnlyOn s op) (xs : List K) (het : Bool) (c : PyVal) (all vec : Bool) :
    mPdpSession choice M data axisLimits calls s xs het c all vec =
      (pdpEvalAfter M0 lo hi ((withValue s data).map imp) calls s xs het c all vec).map asNumbers := by
  unfold mPdpSession pdpEvalAfter
  rw [mBase_init_all]
  rcases mLimits_fills himp data axisLimits ha with ⟨e, h1, h2⟩ | ⟨l, l', h1, h2, hlo, hhi⟩
  · rw [h2] at hl; cases hl
  · rw [h2] at hl
    cases hl
    rw [h1]
    simp only [Except.bind]
    have hs := run_fills (cfg := { cast := id, kind := M.kind, axisLo := l.1, axisHi := l.2 }) (cfg0 := pdpCfgOf M0 lo hi) (data := data) himp hM hlo hhi rfl rfl rfl rfl rfl rfl calls hc
    refine (eval_fills himp hM hlo hhi rfl rfl rfl rfl rfl rfl hs xs het c all vec).2 ?_
    obtain ⟨r, hr, v, hv, h3, h4⟩ := hne
    intro hnil
    have : r ∈ mDropOutside data (some (lo s)) (some (hi s)) s := by
      unfold mDropOutside
      refine List.mem_filter.mpr ⟨List.mem_filter.mpr ⟨hr, ?_⟩, ?_⟩
      · rw [hv]; exact decide_eq_true h3
      · rw [hv]; exact decide_eq_true h4
    replace hnil : mDropOutside data (some (lo s)) (some (hi s)) s = [] := hnil
    rw [hnil] at this
    cases this

/-! ### A feature with a missing value and inferred axis limits -/

theorem mDrop_nan {lo hi : Option K} (h : lo = none) (data : List (MRow K D)) (s : Fin D) : mDropOutside data lo hi s = [] := by
  subst h
  unfold mDropOutside
  simp [nanLe]

theorem mDrop_nil (lo hi : Option K) (s : Fin D) : mDropOutside ([] : List (MRow K D)) lo hi s = [] := rfl

theorem mPredict_empty (cast : K → K) (M : MPdpModel K D) (xx : List (Option K)) (s : Fin D) (vec : Bool) :
    mPdpPredict cast M.kind [] xx s vec = if vec = false ∧ xx = [] then .error .valueError else .ok (xx.map fun _ => []) := by
  have hb : ∀ xx : List (Option K), mPdpBatch cast ([] : List (MRow K D)) xx s = [] := by
    intro xx
    unfold mPdpBatch mSetAll
    simp
  have hr : reshape2 xx.length 0 ([] : List K) = .ok (xx.map fun _ => []) := by
    unfold reshape2
    rw [if_pos (by simp)]
    congr 1
    simp
  cases vec with
  | true =>
    rw [if_neg (by simp)]
    cases M <;> simpa [mPdpPredict, MPdpModel.kind, hb, col, centralDiff] using hr
  | false =>
    by_cases hx : xx = []
    · subst hx
      cases M <;> rfl
    · rw [if_neg (by simp [hx])]
      cases M <;> simp [mPdpPredict, MPdpModel.kind, hx, mSetAll, col, centralDiff]

theorem fitFeature_empty {cfg : MPdpCfg K D} {M : MPdpModel K D} (hk : cfg.kind = M.kind) {d : List (MRow K D)} {s : Fin D}
    (hd : mDropOutside d (cfg.axisLo s) (cfg.axisHi s) s = []) (c : Centering) {points : ℕ} {vec : Bool} (hp : vec = true ∨ points ≠ 0) :
    ∃ nc, mPdpFitFeature cfg d s c points vec = ([], .ok nc) := by
  have hgrid : vec = false → mLinspace (cfg.axisLo s) (cfg.axisHi s) points ≠ [] := by
    intro hv hnil
    have h0 : points ≠ 0 := hp.resolve_left (by simp [hv])
    have hlen := congrArg List.length hnil
    unfold mLinspace at hlen
    split at hlen <;> simp [linspace] at hlen <;> exact h0 hlen
  unfold mPdpFitFeature
  rw [hd, hk]
  cases c with
  | off => exact ⟨_, rfl⟩
  | zeroIntegral =>
    simp only [mPredict_empty, bind, Except.bind]
    rw [if_neg (by rintro ⟨h1, h2⟩; exact hgrid h1 h2)]
    exact ⟨_, rfl⟩
  | zeroStart =>
    simp only [mPredict_empty, bind, Except.bind]
    rw [if_neg (by simp)]
    exact ⟨_, rfl⟩

/-- The loop of `fit` on an object that has lost its data: no exception, and no data afterwards. -/
theorem fitLoop_empty {cfg : MPdpCfg K D} {M : MPdpModel K D} (hk : cfg.kind = M.kind) (c : Centering) {points : ℕ} {vec : Bool} (hp : vec = true ∨ points ≠ 0) (l : List (Fin D)) :
    ∀ st : MPdpState K D, st.data = [] → (mPdpFitLoop cfg c points vec st l).1.data = [] ∧ (mPdpFitLoop cfg c points vec st l).2 = .ok () := by
  induction l with
  | nil => exact fun st hst => ⟨hst, rfl⟩
  | cons t l ih =>
    intro st hst
    obtain ⟨nc, hnc⟩ := fitFeature_empty (d := st.data) (s := t) hk (by rw [hst]; rfl) c hp
    rw [mPdpFitLoop, hnc]
    exact ih _ rfl

/-- Without the assumption on `points`, data that is gone stays gone. -/
theorem fitLoop_gone {cfg : MPdpCfg K D} (c : Centering) (points : ℕ) (vec : Bool) (l : List (Fin D)) :
    ∀ st : MPdpState K D, st.data = [] → (mPdpFitLoop cfg c points vec st l).1.data = [] := by
  induction l with
  | nil => exact fun st hst => hst
  | cons t l ih =>
    intro st hst
    rw [mPdpFitLoop]
    have hd : (mPdpFitFeature cfg st.data t c points vec).1 = [] := by
      unfold mPdpFitFeature
      rw [hst]
      rfl
    generalize mPdpFitFeature cfg st.data t c points vec = q at hd
    obtain ⟨d, r⟩ := q
    dsimp only at hd
    subst hd
    cases r with
    | error e => rfl
    | ok nc => exact ih _ rfl

theorem step_gone [PySqrt K] {cfg : MPdpCfg K D} {st : MPdpState K D} (hst : st.data = []) (op : PdpOp K D) : (mPdpStep cfg st op).data = [] := by
  cases op with
  | fit f c p v =>
    show (mPdpFit cfg st f c p v).1.data = []
    unfold mPdpFit
    generalize (do let c ← prepCentering c
                   let f ← prepFeatures f D
                   let l ← resolveFeatures D f
                   return (l, c) : Py (List (Fin D) × Centering)) = q
    cases q with
    | error e => exact hst
    | ok q => exact fitLoop_gone q.2 p v q.1 st hst
  | eval s xs het c all vec =>
    show (mPdpEval cfg st s xs het c all vec).1.data = []
    unfold mPdpEval
    cases prepCentering c with
    | error e => exact hst
    | ok m =>
      dsimp only
      cases needsRefit (st.fitted s) (st.args s) m with
      | error e => exact hst
      | ok r =>
        cases r with
        | false => exact hst
        | true =>
          dsimp only
          have := fitLoop_gone (cfg := cfg) m 100 vec [s] st hst
          generalize mPdpFitLoop cfg m 100 vec st [s] = q at this
          obtain ⟨st', r⟩ := q
          cases r <;> exact this

theorem subNorm_nil {nc : NormConst K} {row : List K} (h : subNorm nc [] = .ok row) : row = [] := by
  cases nc with
  | scalar c => injection h with h; rw [← h]; rfl
  | vec cs =>
    unfold subNorm at h
    dsimp only at h
    split_ifs at h with hl
    · injection h with h
      rw [← h]
      cases cs with
      | nil => rfl
      | cons c cs => cases hl
    · split at h
      · injection h with h
        rw [← h]; rfl
      · rename_i hh; cases hh
      · cases h

theorem mapM_subNorm_nil {nc : NormConst K} {yy yy' : List (List K)} (h : yy.mapM (subNorm nc) = .ok yy') (hrow : ∀ row ∈ yy, row = []) :
    ∀ row ∈ yy', row = [] := by
  induction yy generalizing yy' with
  | nil =>
    rw [List.mapM_nil] at h
    injection h with h
    rw [← h]
    intro row hr
    cases hr
  | cons y yy ih =>
    rw [List.mapM_cons] at h
    simp only [bind, Except.bind, pure, Except.pure] at h
    cases h1 : subNorm nc y with
    | error e => rw [h1] at h; cases h
    | ok y' =>
      rw [h1] at h
      dsimp only at h
      cases h2 : yy.mapM (subNorm nc) with
      | error e => rw [h2] at h; cases h
      | ok ys =>
        rw [h2] at h
        injection h with h
        rw [← h]
        intro row hr
        rcases List.mem_cons.mp hr with rfl | hr
        · rw [hrow y List.mem_cons_self] at h1
          exact subNorm_nil h1
        · exact ih h2 (fun row hr => hrow row (List.mem_cons_of_mem _ hr)) row hr

theorem evalFitted_gone [PySqrt K] {cfg : MPdpCfg K D} {M : MPdpModel K D} (hk : cfg.kind = M.kind) {st : MPdpState K D} (hst : st.data = []) (s : Fin D) (xs : List K)
    (het : Bool) (c : Centering) (all vec : Bool) {out : PdpOut (Option K)} (h : mPdpEvalFitted cfg st s xs het c all vec = .ok out) : NoNumbers out := by
  unfold mPdpEvalFitted at h
  rw [hst, hk] at h
  simp only [mPredict_empty, bind, Except.bind, pyAssert] at h
  have fin : ∀ yy : List (List K), (∀ row ∈ yy, row = []) →
      NoNumbers (if all = true then PdpOut.all (yy.map (List.map some)) else if het = true then .meanStd (yy.map nanMean) (yy.map nanStd) else .meanOnly (yy.map nanMean)) := by
    intro yy hyy
    have m1 : ∀ v ∈ yy.map nanMean, v = none := by
      intro v hv
      obtain ⟨row, hr, rfl⟩ := List.mem_map.mp hv
      rw [hyy row hr]; rfl
    have m2 : ∀ v ∈ yy.map nanStd, v = none := by
      intro v hv
      obtain ⟨row, hr, rfl⟩ := List.mem_map.mp hv
      rw [hyy row hr]; rfl
    split_ifs
    · intro row hr
      obtain ⟨row', hr', rfl⟩ := List.mem_map.mp hr
      rw [hyy row' hr']; rfl
    · exact ⟨m1, m2⟩
    · exact m1
  generalize nanLt (cfg.axisLo s) (cfg.axisHi s) = ok at h
  cases ok with
  | false => cases h
  | true =>
    simp only [if_true] at h
    by_cases hx : vec = false ∧ xs.map some = []
    · rw [if_pos hx] at h; cases h
    · rw [if_neg hx] at h
      dsimp only at h
      have hrows : ∀ row ∈ (xs.map some).map fun _ => ([] : List K), row = [] := by
        intro row hr
        obtain ⟨v, -, rfl⟩ := List.mem_map.mp hr
        rfl
      generalize ((xs.map some).map fun _ => ([] : List K)) = yy at h hrows
      by_cases hc : c = .off
      · rw [if_pos hc] at h
        injection h with h
        rw [← h]
        exact fin yy hrows
      · rw [if_neg hc] at h
        cases hfe : st.fe s with
        | none => rw [hfe] at h; cases h
        | some nc =>
          rw [hfe] at h
          dsimp only at h
          cases hm : yy.mapM (subNorm nc) with
          | error e => rw [hm] at h; cases h
          | ok yy' =>
            rw [hm] at h
            injection h with h
            rw [← h]
            exact fin yy' (mapM_subNorm_nil hm hrows)

theorem eval_gone [PySqrt K] {cfg : MPdpCfg K D} {M : MPdpModel K D} (hk : cfg.kind = M.kind) {st : MPdpState K D} (hst : st.data = []) (s : Fin D) (xs : List K)
    (het : Bool) (c : PyVal) (all vec : Bool) {out : PdpOut (Option K)} (h : (mPdpEval cfg st s xs het c all vec).2 = .ok out) : NoNumbers out := by
  unfold mPdpEval at h
  cases hc : prepCentering c with
  | error e => rw [hc] at h; cases h
  | ok m =>
    rw [hc] at h
    dsimp only at h
    cases hr : needsRefit (st.fitted s) (st.args s) m with
    | error e => rw [hr] at h; cases h
    | ok r =>
      rw [hr] at h
      cases r with
      | false => exact evalFitted_gone hk hst s xs het m all vec h
      | true =>
        dsimp only at h
        have := fitLoop_gone (cfg := cfg) m 100 vec [s] st hst
        generalize mPdpFitLoop cfg m 100 vec st [s] = q at this h
        obtain ⟨st', r⟩ := q
        cases r with
        | error e => cases h
        | ok u => exact evalFitted_gone hk this s xs het m all vec h

/-- The object built from `data` with inferred axis limits. -/
def mPdpDefault (M : MPdpModel K D) (data : List (MRow K D)) : MPdpCfg K D :=
  { cast := id, kind := M.kind, axisLo := fun s => npMin (mcol data s), axisHi := fun s => npMax (mcol data s) }

theorem mPdpSession_default [PySqrt K] (choice : ℕ → ℕ → List ℕ) (M : MPdpModel K D) {data : List (MRow K D)} (hd : data ≠ [])
    (calls : List (PdpOp K D)) (s : Fin D) (xs : List K) (het : Bool) (c : PyVal) (all vec : Bool) :
    mPdpSession choice M data none calls s xs het c all vec =
      (mPdpEval (mPdpDefault M data) (mPdpRun (mPdpDefault M data) data calls) s xs het c all vec).2 := by
  unfold mPdpSession
  rw [mBase_init_all]
  show ((mAxisLimits data).bind _).bind _ = _
  cases data with
  | nil => exact absurd rfl hd
  | cons r t => rfl

/-- A `fit` of the feature with the missing value ends normally, and empties the object. -/
theorem fit_poisons {cfg : MPdpCfg K D} {M : MPdpModel K D} (hk : cfg.kind = M.kind) {s : Fin D} (hs : cfg.axisLo s = none) (st : MPdpState K D) (c : Centering) {points : ℕ} {vec : Bool}
    (hp : vec = true ∨ points ≠ 0) (l l' : List (Fin D)) (hl : (mPdpFitLoop cfg c points vec st l).2 = .ok ()) :
    (mPdpFitLoop cfg c points vec st (l ++ s :: l')).2 = .ok () ∧ (mPdpFitLoop cfg c points vec st (l ++ s :: l')).1.data = [] := by
  induction l generalizing st with
  | nil =>
    obtain ⟨nc, hnc⟩ := fitFeature_empty (d := st.data) (s := s) hk (mDrop_nan hs _ _) c hp
    rw [List.nil_append, mPdpFitLoop, hnc]
    obtain ⟨h1, h2⟩ := fitLoop_empty hk c hp l'
      { data := [], fe := Function.update st.fe s (some nc), fitted := Function.update st.fitted s true, args := Function.update st.args s (some c) } rfl
    exact ⟨h2, h1⟩
  | cons t l ih =>
    rw [mPdpFitLoop] at hl
    rw [List.cons_append, mPdpFitLoop]
    generalize mPdpFitFeature cfg st.data t c points vec = q at hl
    obtain ⟨d, r⟩ := q
    cases r with
    | error e => cases hl
    | ok nc => exact ih _ hl

/-- A row-wise model never fails: `fit` ends normally for every list of features. -/
theorem fitLoop_ok {cfg : MPdpCfg K D} {M : MPdpModel K D} (hcast : cfg.cast = id) (hk : cfg.kind = M.kind) (c : Centering) {points : ℕ} {vec : Bool} (hp : vec = true ∨ points ≠ 0) (l : List (Fin D)) :
    ∀ st : MPdpState K D, (mPdpFitLoop cfg c points vec st l).2 = .ok () := by
  have pred : ∀ (d : List (MRow K D)) (xx : List (Option K)) (s : Fin D), (vec = true ∨ xx ≠ []) →
      ∃ y, mPdpPredict id M.kind d xx s vec = .ok y ∧ y.length = xx.length := by
    intro d xx s hx
    have hlen : ∀ xx : List (Option K), (mPdpBatch id d xx s).length = xx.length * d.length := by
      intro xx
      unfold mPdpBatch mSetAll
      rw [List.length_flatMap]
      simp
    cases vec with
    | true =>
      cases M <;>
      · simp only [mPdpPredict, MPdpModel.kind, if_true, reshape2]
        rw [if_pos (by simp [col, centralDiff, hlen])]
        exact ⟨_, rfl, by simp⟩
    | false =>
      have hx' : xx ≠ [] := hx.resolve_left (by simp)
      cases M <;>
      · simp only [mPdpPredict, MPdpModel.kind]
        rw [if_neg (by simp), if_neg hx']
        exact ⟨_, rfl, by simp⟩
  induction l with
  | nil => exact fun st => rfl
  | cons t l ih =>
    intro st
    rw [mPdpFitLoop]
    have hfit : ∃ nc, (mPdpFitFeature cfg st.data t c points vec).2 = .ok nc := by
      unfold mPdpFitFeature
      rw [hcast, hk]
      cases c with
      | off => exact ⟨_, rfl⟩
      | zeroIntegral =>
        have hgrid : vec = true ∨ mLinspace (cfg.axisLo t) (cfg.axisHi t) points ≠ [] := by
          refine hp.imp id fun h0 hnil => ?_
          have hlen := congrArg List.length hnil
          unfold mLinspace at hlen
          split at hlen <;> simp [linspace] at hlen <;> exact h0 hlen
        obtain ⟨y, hy, -⟩ := pred (mDropOutside st.data (cfg.axisLo t) (cfg.axisHi t) t) _ t hgrid
        simp only [hy, bind, Except.bind]
        exact ⟨_, rfl⟩
      | zeroStart =>
        obtain ⟨y, hy, hlen⟩ := pred (mDropOutside st.data (cfg.axisLo t) (cfg.axisHi t) t) [cfg.axisLo t] t (Or.inr (by simp))
        simp only [hy, bind, Except.bind]
        cases y with
        | nil => cases hlen
        | cons a y => exact ⟨_, rfl⟩
    obtain ⟨nc, hnc⟩ := hfit
    generalize mPdpFitFeature cfg st.data t c points vec = q at hnc
    obtain ⟨d, r⟩ := q
    dsimp only at hnc
    subst hnc
    exact ih _

/-- **C112, the defect of PDP and DerPDP.**  Axis limits inferred from the data, and a missing value in feature `s`: for every data set, model, centring and earlier history, `fit` with `features="all"` ends
without an exception, and from then on - whatever is called - no `eval` of *any* feature returns a number: every result is NaN, or an exception. -/
theorem C112_pdp_poisoned [PySqrt K] (choice : ℕ → ℕ → List ℕ) (M : MPdpModel K D) (data : List (MRow K D)) (s : Fin D) (hs : ∃ r ∈ data, r s = none)
    (before after : List (PdpOp K D)) (c : PyVal) (m : Centering) (hc : prepCentering c = .ok m) (points : ℕ) (vec : Bool) (hp : vec = true ∨ points ≠ 0) :
    (mPdpFit (mPdpDefault M data) (mPdpRun (mPdpDefault M data) data before) (.str "all") c points vec).2 = .ok () ∧
    ∀ (t : Fin D) (xs : List K) (het : Bool) (c' : PyVal) (all vec' : Bool) (out : PdpOut (Option K)),
      mPdpSession choice M data none (before ++ .fit (.str "all") c points vec :: after) t xs het c' all vec' = .ok out → NoNumbers out := by
  have hlo : (mPdpDefault M data).axisLo s = none := by
    obtain ⟨r, hr, hrs⟩ := hs
    exact npMin_none (List.mem_map.mpr ⟨r, hr, hrs⟩)
  have hdata : data ≠ [] := by
    obtain ⟨r, hr, -⟩ := hs
    rintro rfl
    cases hr
  have hres : resolveFeatures D (.list ((List.range D).map Int.ofNat)) = .ok (List.finRange D) := by
    unfold resolveFeatures
    dsimp only
    rw [← List.map_coe_finRange_eq_range, List.map_map]
    have key : ∀ l : List (Fin D), (l.map (Int.ofNat ∘ Fin.val)).mapM (fun i => if h : 0 ≤ i ∧ i.toNat < D then (.ok ⟨i.toNat, h.2⟩ : Py (Fin D)) else .error .indexError) = .ok l := by
      intro l
      induction l with
      | nil => rfl
      | cons i l ih =>
        rw [List.map_cons, List.mapM_cons, ih]
        simp [bind, Except.bind, pure, Except.pure]
    exact key _
  have hfit : ∀ st, (mPdpFit (mPdpDefault M data) st (.str "all") c points vec) = mPdpFitLoop (mPdpDefault M data) m points vec st (List.finRange D) := by
    intro st
    unfold mPdpFit
    rw [hc]
    simp only [bind, Except.bind, pure, Except.pure, prepFeatures, if_true, hres]
  obtain ⟨l, l', hl⟩ := List.append_of_mem (List.mem_finRange s)
  have hall : ∀ st, (mPdpFitLoop (mPdpDefault M data) m points vec st (List.finRange D)).2 = .ok () ∧
      (mPdpFitLoop (mPdpDefault M data) m points vec st (List.finRange D)).1.data = [] := by
    intro st
    rw [hl]
    exact fit_poisons (M := M) rfl hlo st m hp l l' (fitLoop_ok (M := M) rfl rfl m hp l st)
  refine ⟨?_, ?_⟩
  · rw [hfit]
    exact (hall _).1
  · intro t xs het c' all vec' out hout
    rw [mPdpSession_default choice M hdata] at hout
    refine eval_gone (M := M) rfl ?_ t xs het c' all vec' hout
    clear hout
    unfold mPdpRun
    rw [List.foldl_append, List.foldl_cons]
    have h0 : (mPdpStep (mPdpDefault M data) (before.foldl (mPdpStep (mPdpDefault M data)) (MPdpState.init data)) (.fit (.str "all") c points vec)).data = [] := by
      show (mPdpFit _ _ _ _ _ _).1.data = []
      rw [hfit]
      exact (hall _).2
    generalize mPdpStep (mPdpDefault M data) (before.foldl (mPdpStep (mPdpDefault M data)) (MPdpState.init data)) (.fit (.str "all") c points vec) = st at h0
    induction after generalizing st with
    | nil => exact h0
    | cons op after ih => exact ih _ (step_gone h0 op)

/-! ### Examples -/

/-- Three instances; the second value of feature 1 is missing. -/
def missingExample : List (MRow ℚ 2) := [![some 0, some 1], ![some 2, none], ![some 4, some 3]]

/-- Missing values are replaced by 0. -/
def fillZero (r : MRow ℚ 2) : Row ℚ 2 := fun t => (r t).getD 0

theorem fillZero_fills (s : Fin 2) : Fills s fillZero := by
  intro r v
  funext t
  unfold fillZero
  by_cases h : t = s
  · subst h; simp
  · simp [Function.update_of_ne h]

/-- **Counterexample to "a missing value in one feature does no harm to the others"**: feature 0 is complete, and its PDP is computed correctly on a fresh object (also with the limits given, for feature 1);
after `fit("all")`, which raises nothing, it is NaN. -/
theorem C112_false_pdp :
    mPdpSession (fun _ _ => []) (.pdp fun r => (fillZero r) 0 + (fillZero r) 1) missingExample none [] 0 [1, 2] false (.bool false) false true =
      .ok (.meanOnly [some (1 + 4 / 3), some (2 + 4 / 3)]) ∧
    (mPdpFit (mPdpDefault (.pdp fun r => (fillZero r) 0 + (fillZero r) 1) missingExample) (MPdpState.init missingExample) (.str "all") (.bool true) 100 true).2 = .ok () ∧
    mPdpSession (fun _ _ => []) (.pdp fun r => (fillZero r) 0 + (fillZero r) 1) missingExample none [.fit (.str "all") (.bool true) 100 true] 0 [1, 2] false (.bool false) false true =
      .ok (.meanOnly [none, none]) ∧
    mPdpSession (fun _ _ => []) (.pdp fun r => (fillZero r) 0 + (fillZero r) 1) missingExample none [] 1 [1, 2] false (.bool false) false true = .error .assertionError ∧
    mPdpSession (fun _ _ => []) (.pdp fun r => (fillZero r) 0 + (fillZero r) 1) missingExample none [.eval 1 [1] false (.bool false) false true] 0 [1, 2] false (.bool false) false true =
      .ok (.meanOnly [none, none]) := by
  refine ⟨?_, ?_, ?_, ?_, ?_⟩ <;> decide +kernel

/-- The hypotheses of `C112_pdp_filled` and of `C112_ale_filled` on this data set: for feature 0 with inferred limits, for feature 1 with given limits. -/
example :
    (∀ r ∈ missingExample, (r 0).isSome) ∧ ¬(∀ r ∈ missingExample, (r 1).isSome) ∧ Fills 0 fillZero ∧ Fills 1 fillZero ∧
    FilledBy 0 fillZero (.pdp fun r => (fillZero r) 0 * (fillZero r) 1) (.pdp fun r => r 0 * r 1) ∧
    mPdpSession (fun _ _ => []) (.pdp fun r => (fillZero r) 0 * (fillZero r) 1) missingExample (some (fun _ => 0, fun _ => 4)) [] 1 [1, 2] false (.bool false) false true =
      .ok (.meanOnly [some 2, some 4]) := by
  refine ⟨by decide +kernel, by decide +kernel, fillZero_fills 0, fillZero_fills 1, fun r => rfl, by decide +kernel⟩

/-- ALE of feature 0 (complete) and of feature 1 (limits given), and the exception for feature 1 with inferred limits. -/
example :
    mAleSession (K := ℚ) (fun _ _ => []) id (fun r => (fillZero r) 0 ^ 2) [![some 0, some 5], ![some 1, none], ![some 3, some 7], ![some 4, none]] none
      [.fit (.int 0) (.fixed 2 (some 1) 0) (.bool false)] 0 [2] false (.bool false) = .ok ([4], none) ∧
    mAleSession (K := ℚ) (fun _ _ => []) id (fun r => (fillZero r) 0 ^ 2) [![some 0, some 5], ![some 1, none], ![some 3, some 7], ![some 4, none]] none
      [.fit (.int 1) (.fixed 2 (some 1) 0) (.bool false)] 1 [2] false (.bool false) = .error .indexError := by
  refine ⟨?_, ?_⟩ <;> decide +kernel

end Effector
