import Verif.Props.RegionalSwallow
import Verif.Props.RegionalApiTotal

/-!
# C111: what a regional fit may cost, whatever the user's code does

An upper bound on the number of calls of the user's code during `fit` of the regional classes, and which rows these calls are about.  Nothing is assumed of the user's
code: it may have a state, answer differently each time, with any number of values, or raise.
-/

set_option linter.unusedSectionVars false

namespace Effector

variable {K : Type} [Field K] [LinearOrder K] [IsStrictOrderedRing K] {D : ℕ} {σ S S' α β : Type}

/-! ## Specification -/

/-- From every state of the system, the program makes at most `n` calls of the user's code, and each of them is `each`. -/
def Spec.AtMost (p : RunM σ K D S α) (n : ℕ) (each : Call K D → Prop) : Prop :=
  ∀ y, ∃ evs : List (Event K D), (p y).1.trace = y.trace ++ evs ∧ evs.length ≤ n ∧ ∀ e ∈ evs, each e.call

/-- All rows of the call are rows of `data` in which only the value of feature `s` may have been changed. -/
def Spec.Variants (data : List (Row K D)) (s : Fin D) (c : Call K D) : Prop :=
  ∀ r ∈ Spec.rowsIn c, ∃ r0 ∈ data, ∃ v, r = Function.update r0 s v

/-- The number of calls that `fit` makes to centre one curve; none if it refuses the value of `centering`. -/
def Spec.centringPrice (which : PdpWhich) (centering : PyVal) (points : ℕ) (vec : Bool) : ℕ :=
  match prepCentering centering with
  | .ok c => Spec.centringCost which c points vec
  | .error _ => 0

/-- The number of calls that the heterogeneity of one region takes: the constructor asks for the average output; then ALE makes two calls, RHALE none (it has
the gradients), ShapDP one; PDP and d-PDP one curve for the centring, if there is any, and one of ten points. -/
def Spec.regionCost (methodName : String) (hasJac : Bool) (centering : PyVal) (points : ℕ) (vec : Bool) : ℕ :=
  if methodName = "rhale" then 1
  else if methodName = "ale" then 3
  else if methodName = "shap" then 2
  else if methodName = "pdp" then 1 + Spec.centringPrice .pdp centering points vec + Spec.curveCost .pdp vec 10
  else 1 + Spec.centringPrice (if hasJac then .derJac else .derNum) centering points vec + Spec.curveCost (if hasJac then .derJac else .derNum) vec 10

/-- The number of positions at which a search tries to split the data by the features `foc`: every value of a categorical feature, `n` positions of the others. -/
def Spec.positionCount (data : List (Row K D)) (types : Fin D → FeatType) (n : ℕ) (foc : List (Fin D)) : ℕ :=
  (foc.map fun f => if types f = .cat then distinct (data.map (· f)) else n).sum

/-- The number of regions a search of `L` levels over `T` positions may have to look at: all the data; and on level `l` the `2^(l+1)` regions of each position and once
more those of the best one. -/
def Spec.regionCount (T L : ℕ) : ℕ := 1 + (T + 1) * (2 ^ (L + 1) - 2)

open Spec

/-! ## Rules -/

/-- A program that, run on an object satisfying `Pre`, makes at most `n` calls, each of them `each`, and, if it returns, leaves `Post`. -/
def Asks (Pre : S → Prop) (p : RunM σ K D S α) (n : ℕ) (each : Call K D → Prop) (Post : α → S → Prop) : Prop :=
  ∀ y, Pre y.obj → ∃ evs : List (Event K D), (p y).1.trace = y.trace ++ evs ∧ evs.length ≤ n ∧ (∀ e ∈ evs, each e.call) ∧
    ∀ a, (p y).2 = .ok a → Post a (p y).1.obj

theorem Asks.bind {Pre : S → Prop} {p : RunM σ K D S α} {n m : ℕ} {each : Call K D → Prop} {Mid : α → S → Prop} {f : α → RunM σ K D S β} {Post : β → S → Prop}
    (hp : Asks Pre p n each Mid) (hf : ∀ a, Asks (Mid a) (f a) m each Post) : Asks Pre (p >>= f) (n + m) each Post := by
  intro y hy
  obtain ⟨e1, t1, l1, c1, q1⟩ := hp y hy
  rw [run_bind]
  generalize p y = r at t1 q1
  obtain ⟨y1, r⟩ := r
  cases r with
  | error e => exact ⟨e1, t1, by omega, c1, fun a h => by cases h⟩
  | ok a =>
    obtain ⟨e2, t2, l2, c2, q2⟩ := hf a y1 (q1 a rfl)
    refine ⟨e1 ++ e2, ?_, by rw [List.length_append]; omega, ?_, q2⟩
    · show ((f a) y1).1.trace = _
      rw [t2, t1, List.append_assoc]
    · intro e he
      rcases List.mem_append.mp he with h | h
      · exact c1 e h
      · exact c2 e h

theorem Asks.mono {Pre Pre' : S → Prop} {p : RunM σ K D S α} {n n' : ℕ} {each each' : Call K D → Prop} {Post Post' : α → S → Prop} (h : Asks Pre p n each Post)
    (h1 : ∀ s, Pre' s → Pre s) (h2 : n ≤ n') (h3 : ∀ c, each c → each' c) (h4 : ∀ a s, Post a s → Post' a s) : Asks Pre' p n' each' Post' := by
  intro y hy
  obtain ⟨evs, t, l, c, q⟩ := h y (h1 _ hy)
  exact ⟨evs, t, by omega, fun e he => h3 _ (c e he), fun a ha => h4 _ _ (q a ha)⟩

theorem asks_pure (Pre : S → Prop) (a : α) (n : ℕ) (each : Call K D → Prop) : Asks (σ := σ) Pre (pure a) n each (fun b s => b = a ∧ Pre s) := by
  intro y hy
  exact ⟨[], by simp [run_pure], by simp, by simp, fun b hb => by cases hb; exact ⟨rfl, hy⟩⟩

theorem asks_inert (Pre : S → Prop) (x : Py α) (n : ℕ) (each : Call K D → Prop) : Asks (σ := σ) Pre (inert x) n each (fun b s => x = .ok b ∧ Pre s) := by
  intro y hy
  exact ⟨[], by simp [inert], by simp, by simp, fun b hb => ⟨hb, hy⟩⟩

theorem Asks.le {Pre : S → Prop} {p : RunM σ K D S α} {n n' : ℕ} {each : Call K D → Prop} {Post : α → S → Prop} (h : Asks Pre p n each Post) (h2 : n ≤ n') :
    Asks Pre p n' each Post :=
  h.mono (fun _ h => h) h2 (fun _ h => h) (fun _ _ h => h)

/-- A `return` or a computation without calls at the end. -/
theorem keep_pure (Pre : S → Prop) (a : α) (each : Call K D → Prop) : Asks (σ := σ) Pre (pure a) 0 each (fun _ s => Pre s) :=
  (asks_pure Pre a 0 each).mono (fun _ h => h) le_rfl (fun _ h => h) (fun _ _ h => h.2)

theorem keep_inert (Pre : S → Prop) (x : Py α) (each : Call K D → Prop) : Asks (σ := σ) Pre (inert x) 0 each (fun _ s => Pre s) :=
  (asks_inert Pre x 0 each).mono (fun _ h => h) le_rfl (fun _ h => h) (fun _ _ h => h.2)

theorem asks_read (Pre : S → Prop) (n : ℕ) (each : Call K D → Prop) : Asks (σ := σ) Pre readObj n each (fun b s => b = s ∧ Pre s) := by
  intro y hy
  exact ⟨[], by simp [readObj], by simp, by simp, fun b hb => by cases hb; exact ⟨rfl, hy⟩⟩

theorem asks_write (Pre : S → Prop) (o : S) (n : ℕ) (each : Call K D → Prop) : Asks (σ := σ) Pre (writeObj o) n each (fun _ s => s = o) := by
  intro y hy
  exact ⟨[], by simp [writeObj], by simp, by simp, fun b hb => rfl⟩

theorem asks_model (w : World σ K D) (Pre : S → Prop) (X : List (Row K D)) (n : ℕ) (hn : 1 ≤ n) (each : Call K D → Prop) (h : each (.model X)) :
    Asks Pre (callModel w X) n each (fun _ s => Pre s) := by
  intro y hy
  exact ⟨[⟨.model X, _⟩], rfl, by simpa using hn, by simpa using h, fun b hb => hy⟩

theorem asks_jac (w : World σ K D) (Pre : S → Prop) (X : List (Row K D)) (n : ℕ) (hn : 1 ≤ n) (each : Call K D → Prop) (h : each (.jac X)) :
    Asks Pre (callJac w X) n each (fun _ s => Pre s) := by
  intro y hy
  exact ⟨[⟨.jac X, _⟩], rfl, by simpa using hn, by simpa using h, fun b hb => hy⟩

theorem asks_explain (w : World σ K D) (Pre : S → Prop) (X : List (Row K D)) (n : ℕ) (hn : 1 ≤ n) (each : Call K D → Prop) (h : each (.explain X)) :
    Asks Pre (callExplain w X) n each (fun _ s => Pre s) := by
  intro y hy
  exact ⟨[⟨.explain X, _⟩], rfl, by simpa using hn, by simpa using h, fun b hb => hy⟩

theorem Asks.attempt {Pre : S → Prop} {p : RunM σ K D S α} {n : ℕ} {each : Call K D → Prop} {Post : α → S → Prop} (h : Asks Pre p n each Post) :
    Asks Pre (attempt p) n each (fun r s => ∀ a, r = some a → Post a s) := by
  intro y hy
  obtain ⟨evs, t, l, c, q⟩ := h y hy
  unfold Effector.attempt
  generalize p y = r at t q
  obtain ⟨y1, r⟩ := r
  cases r with
  | error e => exact ⟨evs, t, l, c, fun a ha b hb => by cases ha; cases hb⟩
  | ok v => exact ⟨evs, t, l, c, fun a ha b hb => by cases ha; cases hb; exact q v rfl⟩

theorem asks_onNew {Pre : S → Prop} {o : S'} {p : RunM σ K D S' α} {n : ℕ} {each : Call K D → Prop} {Post : α → S' → Prop} (h : Asks (fun s => s = o) p n each Post) :
    Asks Pre (onNew o p : RunM σ K D S α) n each (fun _ s => Pre s) := by
  intro y hy
  obtain ⟨evs, t, l, c, q⟩ := h ⟨y.world, y.trace, o⟩ rfl
  exact ⟨evs, t, l, c, fun a ha => hy⟩

theorem asks_each {Pre : S → Prop} {f : β → RunM σ K D S α} {n : ℕ} {each : Call K D → Prop} (l : List β) (h : ∀ b ∈ l, Asks Pre (f b) n each (fun _ s => Pre s)) :
    Asks Pre (runEach f l) (l.length * n) each (fun _ s => Pre s) := by
  induction l with
  | nil => exact (keep_pure Pre [] each).le (by simp)
  | cons b t ih =>
    unfold runEach
    rw [List.length_cons, Nat.succ_mul, Nat.add_comm]
    exact (h b (by simp)).bind fun a => (ih fun b' hb' => h b' (by simp [hb'])).bind fun as => keep_pure Pre (a :: as) each

theorem atMost_iff (p : RunM σ K D S α) (n : ℕ) (each : Call K D → Prop) : AtMost p n each ↔ Asks (fun _ => True) p n each (fun _ _ => True) := by
  constructor
  · intro h y _
    obtain ⟨evs, t, l, c⟩ := h y
    exact ⟨evs, t, l, c, fun _ _ => trivial⟩
  · intro h y
    obtain ⟨evs, t, l, c, -⟩ := h y trivial
    exact ⟨evs, t, l, c⟩

theorem variants_subset {data data' : List (Row K D)} {s : Fin D} (h : ∀ r ∈ data', r ∈ data) (c : Call K D) (hc : Variants data' s c) : Variants data s c := by
  intro r hr
  obtain ⟨r0, h0, v, e⟩ := hc r hr
  exact ⟨r0, h r0 h0, v, e⟩

theorem variants_self {data X : List (Row K D)} (s : Fin D) (h : ∀ r ∈ X, r ∈ data) : ∀ r ∈ X, ∃ r0 ∈ data, ∃ v, r = Function.update r0 s v := by
  intro r hr
  exact ⟨r, h r hr, r s, (Function.update_eq_self s r).symm⟩

/-! ## Constructors -/

/-- The base constructor: one call, on rows of the data, which the object then has. -/
theorem asks_base (w : World σ K D) (choice : ℕ → ℕ → List ℕ) (data : List (Row K D)) (nof : PyVal) (axisLimits : Option ((Fin D → K) × (Fin D → K)))
    (avg : Option K) (s : Fin D) (Pre : S → Prop) :
    Asks Pre (runBase w choice data nof axisLimits avg) 1 (Variants data s) (fun r o => (∀ x ∈ r.1.data, x ∈ data) ∧ Pre o) := by
  unfold runBase
  refine Asks.mono (n := 0 + (0 + (1 + (0 + 0)))) ?_ (fun _ h => h) le_rfl (fun _ h => h) (fun _ _ h => h)
  refine (asks_inert Pre _ 0 _).bind fun p => (asks_inert _ _ 0 _).bind fun data' => ?_
  obtain ⟨k, idx⟩ := p
  by_cases hd : takeRows data idx = .ok data'
  swap
  · intro y hy
    exact absurd hy.1 hd
  have hsub := takeRows_mem hd
  have htail : ∀ a : K, Asks (σ := σ) Pre (do
      let __x ← inert (match axisLimits with
        | some l => Except.ok l
        | none => axisLimitsAll data')
      match __x with
        | (lo, hi) => pure (({ data := data', indices := idx, axisLo := lo, axisHi := hi } : Base K D), a)) 0 (Variants data s)
      (fun r o => (∀ x ∈ r.1.data, x ∈ data) ∧ Pre o) := by
    intro a
    refine Asks.le (n := 0 + 0) ((keep_inert (K := K) (D := D) Pre _ _).bind fun q => ?_) le_rfl
    obtain ⟨lo, hi⟩ := q
    refine (asks_pure Pre _ 0 _).mono (fun _ h => h) le_rfl (fun _ h => h) ?_
    rintro r o ⟨rfl, hp⟩
    exact ⟨hsub, hp⟩
  cases avg with
  | some a => exact (htail a).mono (fun _ h => h.2.2) (by omega) (fun _ h => h) (fun _ _ h => h)
  | none =>
    exact ((asks_model w Pre data' 1 le_rfl _ (variants_self s hsub)).bind fun y => htail (mean y)).mono
      (fun _ h => h.2.2) le_rfl (fun _ h => h) (fun _ _ h => h)

/-! ## PDP and d-PDP -/

theorem setAll_variants (cast : K → K) (data : List (Row K D)) (s : Fin D) (v : K) : ∀ r ∈ setAll cast data s v, ∃ r0 ∈ data, ∃ v, r = Function.update r0 s v := by
  intro r hr
  obtain ⟨r0, h0, rfl⟩ := List.mem_map.mp hr
  exact ⟨r0, h0, _, rfl⟩

theorem pdpBatch_variants (cast : K → K) (data : List (Row K D)) (s : Fin D) (xs : List K) :
    ∀ r ∈ pdpBatch cast data xs s, ∃ r0 ∈ data, ∃ v, r = Function.update r0 s v := by
  intro r hr
  obtain ⟨v, -, hv⟩ := List.mem_flatMap.mp hr
  exact setAll_variants cast data s v r hv

theorem asks_row (w : World σ K D) (cast : K → K) (which : PdpWhich) (data : List (Row K D)) (s : Fin D) (v : K) (Pre : S → Prop) :
    Asks Pre (runRow w cast which data s v) (if which = .derNum then 2 else 1) (Variants data s) (fun _ o => Pre o) := by
  cases which with
  | pdp => exact asks_model w Pre _ _ (by simp) _ (setAll_variants cast data s v)
  | derJac => exact (asks_jac w Pre _ 1 le_rfl _ (setAll_variants cast data s v)).bind fun j => keep_pure Pre (col j s) _
  | derNum =>
    exact (asks_model w Pre _ 1 le_rfl _ (setAll_variants cast data s _)).bind fun y1 => (asks_model w Pre _ 1 le_rfl _ (setAll_variants cast data s _)).bind
      fun y2 => keep_pure Pre (centralDiff y1 y2) _

theorem asks_rows (w : World σ K D) (cast : K → K) (which : PdpWhich) (data : List (Row K D)) (s : Fin D) (Pre : S → Prop) (xs : List K) :
    Asks Pre (runRows w cast which data s xs) (xs.length * (if which = .derNum then 2 else 1)) (Variants data s) (fun _ o => Pre o) := by
  induction xs with
  | nil => exact (keep_pure Pre [] _).le (by simp)
  | cons v t ih =>
    unfold runRows
    rw [List.length_cons, Nat.succ_mul, Nat.add_comm]
    exact (asks_row w cast which data s v Pre).bind fun y => ih.bind fun ys => keep_pure Pre (y :: ys) _

theorem asks_predict (w : World σ K D) (cast : K → K) (which : PdpWhich) (data : List (Row K D)) (xs : List K) (s : Fin D) (vec : Bool) (Pre : S → Prop) :
    Asks Pre (runPredict w cast which data xs s vec) (curveCost which vec xs.length) (Variants data s) (fun _ o => Pre o) := by
  unfold runPredict curveCost
  cases vec with
  | false =>
    simp only [Bool.false_eq_true, if_false]
    exact (asks_rows w cast which data s Pre xs).bind fun y => keep_inert Pre _ _
  | true =>
    simp only [if_true, one_mul]
    unfold runBatch
    cases which with
    | pdp => exact (asks_model w Pre _ 1 le_rfl _ (pdpBatch_variants cast data s xs)).bind fun y => keep_inert Pre _ _
    | derJac => exact (asks_jac w Pre _ 1 le_rfl _ (pdpBatch_variants cast data s xs)).bind fun y => keep_inert Pre _ _
    | derNum =>
      exact (asks_model w Pre _ 1 le_rfl _ (pdpBatch_variants cast data s _)).bind fun y1 => (asks_model w Pre _ 1 le_rfl _ (pdpBatch_variants cast data s _)).bind
        fun y2 => keep_inert Pre _ _

theorem dropOutside_mem {data : List (Row K D)} {lo hi : K} {s : Fin D} {r : Row K D} (h : r ∈ dropOutside data lo hi s) : r ∈ data :=
  (List.mem_filter.mp (List.mem_filter.mp h).1).1

/-- Fitting one feature of a PDP. -/
theorem asks_pdpFitFeature (w : World σ K D) (cfg : RunPdpCfg K D) (s : Fin D) (c : Centering) (points : ℕ) (vec : Bool) (data : List (Row K D)) :
    Asks (fun o => ∀ x ∈ o.data, x ∈ data) (runPdpFitFeature w cfg s c points vec) (centringCost cfg.which c points vec) (Variants data s)
      (fun _ o => ∀ x ∈ o.data, x ∈ data) := by
  unfold runPdpFitFeature
  refine Asks.mono (n := 0 + (0 + centringCost cfg.which c points vec)) ?_ (fun _ h => h) (by omega) (fun _ h => h) (fun _ _ h => h)
  refine (asks_read _ 0 _).bind fun o => ?_
  by_cases ho : ∀ x ∈ o.data, x ∈ data
  swap
  · intro y hy
    exact absurd (hy.1 ▸ hy.2) ho
  refine (asks_write _ _ 0 _).bind fun _ => ?_
  have hsub : ∀ x ∈ dropOutside o.data (cfg.axisLo s) (cfg.axisHi s) s, x ∈ data := fun x hx => ho x (dropOutside_mem hx)
  have hfin : ∀ a (o' : PdpState K D), o' = { o with data := dropOutside o.data (cfg.axisLo s) (cfg.axisHi s) s } → (fun (_ : NormConst K) (o : PdpState K D) => ∀ x ∈ o.data, x ∈ data) a o' := by
    rintro a o' rfl
    exact hsub
  cases c with
  | off => exact (keep_pure _ _ _).mono (fun _ h => h) (by omega) (fun _ h => h) hfin
  | zeroStart =>
    refine ((asks_predict w cfg.cast cfg.which _ [cfg.axisLo s] s vec _).bind fun y => (keep_inert _ _ _).bind fun y0 => keep_pure _ _ _).mono
      (fun _ h => h) ?_ (variants_subset hsub) hfin
    simp [centringCost]
  | zeroIntegral =>
    refine ((asks_predict w cfg.cast cfg.which _ (linspace (cfg.axisLo s) (cfg.axisHi s) points) s vec _).bind fun y => keep_pure _ _ _).mono
      (fun _ h => h) ?_ (variants_subset hsub) hfin
    have : (linspace (cfg.axisLo s) (cfg.axisHi s) points).length = points := by simp [linspace]
    rw [this]
    exact le_rfl

/-- `fit` of a PDP with one feature, from a new object: afterwards the feature is fitted. -/
theorem asks_pdpFit_one (w : World σ K D) (cfg : RunPdpCfg K D) (s : Fin D) (centering : PyVal) (points : ℕ) (vec : Bool) (data : List (Row K D)) :
    Asks (fun o => ∀ x ∈ o.data, x ∈ data) (runPdpFit w cfg (.int (s : ℕ)) centering points vec) (centringPrice cfg.which centering points vec) (Variants data s)
      (fun _ o => (∀ x ∈ o.data, x ∈ data) ∧ o.fitted s = true) := by
  unfold runPdpFit
  rw [show prepFeatures (.int ((s : ℕ) : ℤ)) D = .ok (.list [((s : ℕ) : ℤ)]) from rfl]
  have hres : resolveFeatures D (.list [((s : ℕ) : ℤ)]) = .ok [s] := resolve_int s
  unfold centringPrice
  cases prepCentering centering with
  | error e =>
    intro y hy
    exact ⟨[], by simp [run_bind, inert, runThen], by simp, by simp, fun a ha => by cases ha⟩
  | ok c =>
  simp only []
  rw [inert_ok, inert_ok, hres, inert_ok]
  unfold runPdpFitLoop
  refine Asks.le (n := centringCost cfg.which c points vec + (0 + (0 + 0))) ?_ (by omega)
  refine (asks_pdpFitFeature w cfg s c points vec data).bind fun nc => (asks_read _ 0 _).bind fun o => ?_
  by_cases ho : ∀ x ∈ o.data, x ∈ data
  swap
  · intro y hy
    exact absurd (hy.1 ▸ hy.2) ho
  refine (asks_write _ _ 0 _).bind fun _ => ?_
  unfold runPdpFitLoop
  refine (keep_pure _ _ _).mono (fun _ h => h) le_rfl (fun _ h => h) ?_
  rintro a o' rfl
  exact ⟨ho, by simp⟩

/-- `eval` (without centring) of a feature that is fitted. -/
theorem asks_pdpEval_fitted [PySqrt K] (w : World σ K D) (cfg : RunPdpCfg K D) (s : Fin D) (xs : List K) (het all vec : Bool) (data : List (Row K D)) :
    Asks (fun o => (∀ x ∈ o.data, x ∈ data) ∧ o.fitted s = true) (runPdpEval w cfg s xs het (.bool false) all vec) (curveCost cfg.which vec xs.length) (Variants data s)
      (fun _ _ => True) := by
  unfold runPdpEval
  rw [show prepCentering (.bool false) = .ok .off from rfl, inert_ok]
  refine Asks.le (n := 0 + curveCost cfg.which vec xs.length) ?_ (by omega)
  refine (asks_read _ 0 _).bind fun o => ?_
  by_cases ho : (∀ x ∈ o.data, x ∈ data) ∧ o.fitted s = true
  swap
  · intro y hy
    exact absurd (hy.1 ▸ hy.2) ho
  rw [show needsRefit (o.fitted s) (o.args s) .off = .ok false by rw [ho.2]; rfl, inert_ok]
  simp only [Bool.false_eq_true, if_false]
  refine Asks.le (n := 0 + (0 + (curveCost cfg.which vec xs.length + 0))) ?_ (by omega)
  refine Asks.bind (keep_inert (K := K) (D := D) _ _ _) fun _ => (asks_read _ 0 _).bind fun o' => ?_
  by_cases ho' : ∀ x ∈ o'.data, x ∈ data
  swap
  · intro y hy
    exact absurd (hy.1 ▸ hy.2.2.1) ho'
  exact ((asks_predict w cfg.cast cfg.which o'.data xs s vec _).bind fun yy => keep_inert _ _ _).mono (fun _ h => h) le_rfl (variants_subset ho')
    (fun _ _ _ => trivial)

/-- The heterogeneity of a region, PDP and d-PDP. -/
theorem asks_pdpHeter [PySqrt K] (w : World σ K D) (choice : ℕ → ℕ → List ℕ) (cast : K → K) (which : PdpWhich) (lo hi : Fin D → K) (foi : Fin D) (minPoints : ℕ)
    (centering nof : PyVal) (points : ℕ) (vec : Bool) (data : List (Row K D)) (Pre : S → Prop) :
    Asks Pre (runPdpHeter w choice cast which lo hi foi minPoints centering nof points vec data)
      (1 + centringPrice which centering points vec + curveCost which vec 10) (Variants data foi) (fun _ o => Pre o) := by
  unfold runPdpHeter
  by_cases hfew : data.length < minPoints
  · rw [if_pos hfew]
    exact (keep_pure _ _ _).le (by omega)
  · rw [if_neg hfew, Nat.add_assoc]
    refine Asks.bind (Mid := fun c o => ((∀ x ∈ c.2.data, x ∈ data) ∧ c.1.which = which) ∧ Pre o) ?_ fun c => ?_
    · unfold runPdpNew
      refine Asks.le (n := 1 + 0) ((asks_base w choice data nof (some (lo, hi)) none foi Pre).bind fun r => ?_) (by omega)
      obtain ⟨b, a⟩ := r
      by_cases hb : ∀ x ∈ b.data, x ∈ data
      · refine (asks_pure Pre _ 0 _).mono (fun _ h => h.2) le_rfl (fun _ h => h) ?_
        rintro c o ⟨rfl, hp⟩
        exact ⟨⟨hb, rfl⟩, hp⟩
      · intro y hy
        exact absurd hy.1 hb
    · by_cases hc : (∀ x ∈ c.2.data, x ∈ data) ∧ c.1.which = which
      swap
      · intro y hy
        exact absurd hy.1 hc
      obtain ⟨hc1, rfl⟩ := hc
      refine Asks.mono (asks_onNew (Pre := Pre) (n := centringPrice c.1.which centering points vec + curveCost c.1.which vec 10) (each := Variants data foi)
        (Post := fun _ _ => True) ?_) (fun _ h => h.2) le_rfl (fun _ h => h) (fun _ _ h => h)
      refine Asks.bind ((asks_pdpFit_one w c.1 foi centering points vec data).attempt.mono (Pre' := fun s => s = c.2) (by rintro s rfl; exact hc1) le_rfl
        (fun _ h => h) (fun _ _ h => h)) fun r => ?_
      cases r with
      | none => exact (keep_pure _ _ _).mono (fun _ h => h) (by omega) (fun _ h => h) (fun _ _ _ => trivial)
      | some u =>
        refine Asks.le (n := 0 + (0 + (curveCost c.1.which vec 10 + 0))) ?_ (by omega)
        refine Asks.bind (keep_inert (K := K) (D := D) _ _ _) fun mn => Asks.bind (keep_inert (K := K) (D := D) _ _ _) fun mx => ?_
        have hl : (linspace mn mx 10).length = 10 := by simp [linspace]
        have he := (asks_pdpEval_fitted w c.1 foi (linspace mn mx 10) true false vec data).attempt
        rw [hl] at he
        refine Asks.bind (he.mono (fun _ h => h () rfl) le_rfl (fun _ h => h) (fun _ _ _ => trivial)) fun out => ?_
        rcases out with - | (_ | _ | _ | _) <;> exact keep_pure (fun _ => True) _ _

/-! ## ALE and RHALE -/

theorem setCol_variants (cast : K → K) (data : List (Row K D)) (s : Fin D) (vs : List K) : ∀ r ∈ setCol cast data s vs, ∃ r0 ∈ data, ∃ v, r = Function.update r0 s v := by
  intro r hr
  unfold setCol at hr
  rw [← List.map_uncurry_zip_eq_zipWith] at hr
  obtain ⟨⟨r0, v⟩, h0, rfl⟩ := List.mem_map.mp hr
  exact ⟨r0, (List.of_mem_zip h0).1, _, rfl⟩

theorem asks_aleFitFeature (w : World σ K D) (cast : K → K) (data base : List (Row K D)) (hsub : ∀ r ∈ base, r ∈ data) (lo hi : Fin D → K) (s : Fin D) (bm : BinMethod K)
    (Pre : S → Prop) : Asks Pre (runAleFitFeature w cast base lo hi s bm) 2 (Variants data s) (fun _ o => Pre o) := by
  have hf : ∀ r ∈ base.filter (inAxis (lo s) (hi s) s), r ∈ data := fun r hr => hsub r (List.mem_filter.mp hr).1
  have hv : ∀ vs, Variants data s (.model (setCol cast (base.filter (inAxis (lo s) (hi s) s)) s vs)) := fun vs =>
    variants_subset hf _ (setCol_variants cast _ s vs)
  unfold runAleFitFeature runLocalEffects
  refine Asks.le (n := 0 + ((0 + (1 + (1 + 0))) + 0)) ?_ (by omega)
  refine Asks.bind (keep_inert (K := K) (D := D) _ _ _) fun limits => Asks.bind (Mid := fun _ o => Pre o) ?_ fun r => keep_inert (K := K) (D := D) _ _ _
  exact Asks.bind (keep_inert (K := K) (D := D) _ _ _) fun p => (asks_model w Pre _ 1 le_rfl _ (hv _)).bind fun y1 => (asks_model w Pre _ 1 le_rfl _ (hv _)).bind
    fun y2 => keep_pure _ _ _

theorem asks_rhaleFitFeature (w : World σ K D) (hasJac : Bool) (base : List (Row K D)) (lo hi : Fin D → K) (s : Fin D) (bm : BinMethod K) (each : Call K D → Prop) :
    Asks (fun o : AleObj K D => o.eff.isSome = true) (runRhaleFitFeature w hasJac base lo hi s bm) 0 each (fun _ o => o.eff.isSome = true) := by
  unfold runRhaleFitFeature
  refine Asks.le (n := 0 + (0 + 0)) ?_ (by omega)
  refine Asks.bind (Mid := fun _ (o : AleObj K D) => o.eff.isSome = true) ?_ fun _ => (asks_read _ 0 _).bind fun o => ?_
  · unfold runCompile
    refine Asks.le (n := 0 + 0) ((asks_read _ 0 _).bind fun o => ?_) (by omega)
    obtain ⟨st, eff⟩ := o
    cases eff with
    | none =>
      intro y hy
      exfalso
      have := hy.2
      rw [← hy.1] at this
      cases this
    | some e => exact (keep_pure _ _ _).mono (fun _ h => h) le_rfl (fun _ h => h) (fun _ _ h => h.2)
  · obtain ⟨st, eff⟩ := o
    cases eff with
    | none => exact (keep_inert _ _ _).mono (fun _ h => h) le_rfl (fun _ h => h) (fun _ _ h => h.2)
    | some e => exact (keep_inert _ _ _).mono (fun _ h => h) le_rfl (fun _ h => h) (fun _ _ h => h.2)

/-- `fit` of an ALE/RHALE object with one feature: one `_fit_feature`, and afterwards the feature is fitted. -/
theorem asks_aleFit_one (cfg : RunAleCfg σ K D) (s : Fin D) (bm : BinMethod K) (centering : PyVal) (P : Option (List (Row K D)) → Prop) (n : ℕ)
    (each : Call K D → Prop) (hfit : ∀ bm, Asks (fun o => P o.eff) (cfg.fitF s bm) n each (fun _ o => P o.eff)) :
    Asks (fun o => P o.eff) (runAleFit cfg (.int (s : ℕ)) bm centering) n each (fun _ o => o.st.fitted s = true) := by
  unfold runAleFit
  rw [show prepFeatures (.int ((s : ℕ) : ℤ)) D = .ok (.list [((s : ℕ) : ℤ)]) from rfl]
  have hres : resolveFeatures D (.list [((s : ℕ) : ℤ)]) = .ok [s] := resolve_int s
  refine Asks.le (n := 0 + n) ?_ (by omega)
  refine Asks.bind (keep_inert (K := K) (D := D) _ _ _) fun _ => ?_
  rw [inert_ok]
  refine Asks.le (n := 0 + n) ?_ (by omega)
  refine Asks.bind (keep_inert (K := K) (D := D) _ _ _) fun c => ?_
  rw [hres, inert_ok]
  unfold runAleFitLoop
  refine Asks.le (n := n + (0 + (0 + (0 + (0 + 0))))) ?_ (by omega)
  refine (hfit bm).bind fun p => (asks_read _ 0 _).bind fun o => (asks_write _ _ 0 _).bind fun _ => Asks.bind (keep_inert (K := K) (D := D) _ _ _) fun z =>
    (asks_write _ _ 0 _).bind fun _ => ?_
  unfold runAleFitLoop
  refine (keep_pure _ _ _).mono (fun _ h => h) le_rfl (fun _ h => h) ?_
  rintro a o' rfl
  simp

theorem asks_aleEval_fitted [PySqrt K] (cfg : RunAleCfg σ K D) (s : Fin D) (xs : List K) (het : Bool) (each : Call K D → Prop) :
    Asks (fun o => o.st.fitted s = true) (runAleEval cfg s xs het (.bool false)) 0 each (fun _ _ => True) := by
  unfold runAleEval
  rw [show prepCentering (.bool false) = .ok .off from rfl, inert_ok]
  refine Asks.le (n := 0 + 0) ((asks_read _ 0 _).bind fun o => ?_) (by omega)
  by_cases ho : o.st.fitted s = true
  swap
  · intro y hy
    exact absurd (hy.1 ▸ hy.2) ho
  rw [show needsRefit (o.st.fitted s) (o.st.args s) .off = .ok false by rw [ho]; rfl, inert_ok]
  simp only [Bool.false_eq_true, if_false]
  exact Asks.le (n := 0 + 0) ((asks_read _ 0 _).bind fun o' => (keep_inert _ _ _).mono (fun _ h => h) le_rfl (fun _ h => h) (fun _ _ _ => trivial)) (by omega)

/-- The heterogeneity of a region, ALE and RHALE, from what the constructor and `_fit_feature` cost. -/
theorem asks_aleHeter [PySqrt K] (new : List (Row K D) → Option (List (Row K D)) → RunM σ K D S (RunAleCfg σ K D × AleObj K D)) (foi : Fin D) (bm : BinMethod K)
    (minPoints : ℕ) (centering : PyVal) (data : List (Row K D)) (eff : Option (List (Row K D))) (Pre : S → Prop) (P : Option (List (Row K D)) → Prop) (k n : ℕ)
    (each : Call K D → Prop) (hnew : Asks Pre (new data eff) k each (fun c o =>
      (P c.2.eff ∧ ∀ bm, Asks (fun o => P o.eff) (c.1.fitF foi bm) n each (fun _ o => P o.eff)) ∧ Pre o)) :
    Asks Pre (runAleHeter new foi bm minPoints centering data eff) (k + n) each (fun _ o => Pre o) := by
  unfold runAleHeter
  by_cases hfew : data.length < minPoints
  · rw [if_pos hfew]
    exact (keep_pure _ _ _).le (by omega)
  · rw [if_neg hfew]
    refine hnew.bind fun c => ?_
    by_cases hc : P c.2.eff ∧ ∀ bm, Asks (fun o => P o.eff) (c.1.fitF foi bm) n each (fun _ o => P o.eff)
    swap
    · intro y hy
      exact absurd hy.1 hc
    refine Asks.mono (asks_onNew (Pre := Pre) (n := n) (each := each) (Post := fun _ _ => True) ?_) (fun _ h => h.2) le_rfl (fun _ h => h) (fun _ _ h => h)
    refine Asks.le (n := n + 0) ?_ (by omega)
    refine Asks.bind ((asks_aleFit_one c.1 foi bm centering P n each hc.2).attempt.mono (Pre' := fun s => s = c.2) (by rintro s rfl; exact hc.1) le_rfl
        (fun _ h => h) (fun _ _ h => h)) fun r => ?_
    cases r with
    | none => exact (keep_pure _ _ _).mono (fun _ h => h) (by omega) (fun _ h => h) (fun _ _ _ => trivial)
    | some u =>
      refine Asks.le (n := 0 + (0 + 0)) ?_ (by omega)
      refine Asks.bind (keep_inert (K := K) (D := D) _ _ _) fun mx => ?_
      refine Asks.bind ((asks_aleEval_fitted c.1 foi [mx] true each).mono (fun _ h => h () rfl) le_rfl (fun _ h => h) (fun _ _ _ => trivial)) fun out => ?_
      exact keep_inert (fun _ => True) _ _

theorem asks_aleNew (w : World σ K D) (choice : ℕ → ℕ → List ℕ) (cast : K → K) (data : List (Row K D)) (nof : PyVal)
    (axisLimits : Option ((Fin D → K) × (Fin D → K))) (avg : Option K) (s : Fin D) (Pre : S → Prop) :
    Asks Pre (runAleNew w choice cast data nof axisLimits avg) 1 (Variants data s) (fun c o =>
      (True ∧ ∀ bm, Asks (fun _ => True) (c.1.fitF s bm) 2 (Variants data s) (fun _ _ => True)) ∧ Pre o) := by
  unfold runAleNew
  refine Asks.le (n := 1 + 0) ((asks_base w choice data nof axisLimits avg s Pre).bind fun r => ?_) (by omega)
  obtain ⟨b, a⟩ := r
  by_cases hb : ∀ x ∈ b.data, x ∈ data
  · refine (asks_pure Pre _ 0 _).mono (fun _ h => h.2) le_rfl (fun _ h => h) ?_
    rintro c o ⟨rfl, hp⟩
    exact ⟨⟨trivial, fun bm => asks_aleFitFeature w cast data b.data hb b.axisLo b.axisHi s bm _⟩, hp⟩
  · intro y hy
    exact absurd hy.1 hb

theorem asks_rhaleNew (w : World σ K D) (choice : ℕ → ℕ → List ℕ) (hasJac : Bool) (data e : List (Row K D)) (nof : PyVal)
    (axisLimits : Option ((Fin D → K) × (Fin D → K))) (avg : Option K) (s : Fin D) (Pre : S → Prop) :
    Asks Pre (runRhaleNew w choice hasJac data (some e) nof axisLimits avg) 1 (Variants data s) (fun c o =>
      (c.2.eff.isSome = true ∧ ∀ bm, Asks (fun o => o.eff.isSome = true) (c.1.fitF s bm) 0 (Variants data s) (fun _ o => o.eff.isSome = true)) ∧ Pre o) := by
  unfold runRhaleNew
  refine Asks.le (n := 0 + (0 + (0 + (1 + 0)))) ?_ (by omega)
  refine Asks.bind (keep_inert (K := K) (D := D) _ _ _) fun p => ?_
  obtain ⟨k, idx⟩ := p
  refine Asks.bind (asks_inert (K := K) (D := D) _ _ 0 _) fun data' => ?_
  by_cases hd : takeRows data idx = .ok data'
  swap
  · intro y hy
    exact absurd hy.1 hd
  refine Asks.bind ((asks_inert (K := K) (D := D) Pre _ 0 _).mono (fun _ h => h.2) le_rfl (fun _ h => h) (fun _ _ h => h)) fun given => ?_
  by_cases hg : given.isSome = true
  swap
  · intro y hy
    exfalso
    have : (takeRows e idx).map some = .ok given := hy.1
    cases ht : takeRows e idx with
    | error er => rw [ht] at this; cases this
    | ok l => rw [ht] at this; cases this; exact hg rfl
  refine Asks.bind ((asks_base w choice data' (.str "all") axisLimits avg s Pre).mono (fun _ h => h.2) le_rfl
    (variants_subset (takeRows_mem hd)) (fun _ _ h => h.2)) fun r => ?_
  obtain ⟨b, a⟩ := r
  refine (asks_pure Pre _ 0 _).mono (fun _ h => h) le_rfl (fun _ h => h) ?_
  rintro c o ⟨rfl, hp⟩
  exact ⟨⟨hg, fun bm => asks_rhaleFitFeature w hasJac b.data b.axisLo b.axisHi s bm _⟩, hp⟩

/-! ## ShapDP -/

theorem asks_shapFit_one (w : World σ K D) (cfg : RunShapCfg K D) (s : Fin D) (centering : PyVal) (points : ℕ) (data : List (Row K D)) :
    Asks (fun o => ∀ x ∈ o.data, x ∈ data) (runShapFit w cfg (.int (s : ℕ)) centering points) 1 (Variants data s) (fun _ o => o.fitted s = true) := by
  unfold runShapFit
  rw [show prepFeatures (.int ((s : ℕ) : ℤ)) D = .ok (.list [((s : ℕ) : ℤ)]) from rfl]
  have hres : resolveFeatures D (.list [((s : ℕ) : ℤ)]) = .ok [s] := resolve_int s
  refine Asks.le (n := 0 + 1) ?_ (by omega)
  refine Asks.bind (keep_inert (K := K) (D := D) _ _ _) fun c => ?_
  rw [inert_ok, hres, inert_ok]
  unfold runShapFitLoop
  refine Asks.le (n := 1 + (0 + (0 + 0))) ?_ (by omega)
  refine Asks.bind (Mid := fun _ _ => True) ?_ fun fe => (asks_read _ 0 _).bind fun o => (asks_write _ _ 0 _).bind fun _ => ?_
  · unfold runShapFitFeature
    refine Asks.le (n := 0 + (0 + (1 + 0))) ?_ (by omega)
    refine (asks_read _ 0 _).bind fun o => ?_
    by_cases ho : ∀ x ∈ o.data, x ∈ data
    swap
    · intro y hy
      exact absurd (hy.1 ▸ hy.2) ho
    exact (asks_write _ _ 0 _).bind fun _ => (asks_explain w _ _ 1 le_rfl _ (variants_self s fun x hx => ho x (dropOutside_mem hx))).bind fun vals =>
      (keep_inert _ _ _).mono (fun _ h => h) le_rfl (fun _ h => h) (fun _ _ _ => trivial)
  · unfold runShapFitLoop
    refine (keep_pure _ _ _).mono (fun _ h => h) le_rfl (fun _ h => h) ?_
    rintro a o' rfl
    simp

theorem asks_shapEval_fitted (w : World σ K D) (cfg : RunShapCfg K D) (s : Fin D) (xs : List K) (het : Bool) (each : Call K D → Prop) :
    Asks (fun o => o.fitted s = true) (runShapEval w cfg s xs het (.bool false)) 0 each (fun _ _ => True) := by
  unfold runShapEval
  rw [show prepCentering (.bool false) = .ok .off from rfl, inert_ok]
  refine Asks.le (n := 0 + 0) ((asks_read _ 0 _).bind fun o => ?_) (by omega)
  by_cases ho : o.fitted s = true
  swap
  · intro y hy
    exact absurd (hy.1 ▸ hy.2) ho
  rw [show needsRefit (o.fitted s) (o.args s) .off = .ok false by rw [ho]; rfl, inert_ok]
  simp only [Bool.false_eq_true, if_false]
  exact Asks.le (n := 0 + 0) ((asks_read _ 0 _).bind fun o' => (keep_inert _ _ _).mono (fun _ h => h) le_rfl (fun _ h => h) (fun _ _ _ => trivial)) (by omega)

theorem asks_shapHeter (w : World σ K D) (choice : ℕ → ℕ → List ℕ) (spline : List (K × K) → Py (K → K)) (foi : Fin D) (minPoints : ℕ)
    (centering nof : PyVal) (points : ℕ) (data : List (Row K D)) (Pre : S → Prop) :
    Asks Pre (runShapHeter w choice spline foi minPoints centering nof points data) 2 (Variants data foi) (fun _ o => Pre o) := by
  unfold runShapHeter
  by_cases hfew : data.length < minPoints
  · rw [if_pos hfew]
    exact (keep_pure _ _ _).le (by omega)
  · rw [if_neg hfew]
    refine Asks.le (n := 0 + (0 + (1 + 1))) ?_ (by omega)
    refine Asks.bind (keep_inert (K := K) (D := D) _ _ _) fun mn => Asks.bind (keep_inert (K := K) (D := D) _ _ _) fun mx => ?_
    refine Asks.bind (Mid := fun c o => (∀ x ∈ c.2.data, x ∈ data) ∧ Pre o) ?_ fun c => ?_
    · unfold runShapNew
      refine Asks.le (n := 0 + (0 + (1 + 0))) ?_ (by omega)
      refine Asks.bind (keep_inert (K := K) (D := D) _ _ _) fun p => Asks.bind (asks_inert (K := K) (D := D) _ _ 0 _) fun data' => ?_
      by_cases hd : takeRows data p.2 = .ok data'
      swap
      · intro y hy
        exact absurd hy.1 hd
      refine Asks.bind ((asks_base w choice data' nof none none foi Pre).mono (fun _ h => h.2) le_rfl (variants_subset (takeRows_mem hd)) (fun _ _ h => h)) fun b => ?_
      by_cases hb : ∀ x ∈ b.1.data, x ∈ data'
      · refine (asks_pure Pre _ 0 _).mono (fun _ h => h.2) le_rfl (fun _ h => h) ?_
        rintro c o ⟨rfl, hp⟩
        exact ⟨fun x hx => takeRows_mem hd x (hb x hx), hp⟩
      · intro y hy
        exact absurd hy.1 hb
    · by_cases hc : ∀ x ∈ c.2.data, x ∈ data
      swap
      · intro y hy
        exact absurd hy.1 hc
      refine Asks.mono (asks_onNew (Pre := Pre) (n := 1) (each := Variants data foi) (Post := fun _ _ => True) ?_) (fun _ h => h.2) le_rfl (fun _ h => h) (fun _ _ h => h)
      refine Asks.le (n := 1 + (0 + 0)) ?_ (by omega)
      refine Asks.bind ((asks_shapFit_one w c.1 foi centering points data).mono (Pre' := fun s => s = c.2) (by rintro s rfl; exact hc) le_rfl
        (fun _ h => h) (fun _ _ h => h)) fun _ => ?_
      exact Asks.bind (asks_shapEval_fitted w c.1 foi (linspace mn mx 10) true _) fun out => keep_inert (fun _ => True) _ _

/-! ## The search -/

theorem splitAll_sub {data : List (Row K D)} {xs : List (List (Row K D))} (h : ∀ x ∈ xs, ∀ r ∈ x, r ∈ data) (f : Fin D) (pos : K) (typ : FeatType) :
    ∀ x ∈ splitAll xs f pos typ, ∀ r ∈ x, r ∈ data := by
  intro x hx r hr
  obtain ⟨x0, h0, hx0⟩ := List.mem_flatMap.mp hx
  simp only [splitRows, List.mem_cons, List.not_mem_nil, or_false] at hx0
  rcases hx0 with rfl | rfl <;> exact h x0 h0 r (List.mem_filter.mp hr).1

/-- A heterogeneity function that costs at most `c` for every region of the data (with or without gradients, as the data have them). -/
def HeterCosts (cfg : RegCfg K D) (h : HeterR σ K D S) (c : ℕ) (each : Call K D → Prop) (Pre : S → Prop) : Prop :=
  ∀ x e, (∀ r ∈ x, r ∈ cfg.data) → e.isSome = cfg.dataEffect.isSome → Asks Pre (h x e) c each (fun _ o => Pre o)

variable {cfg : RegCfg K D} {h : HeterR σ K D S} {c : ℕ} {each : Call K D → Prop} {Pre : S → Prop}

theorem asks_heters (hc : HeterCosts cfg h c each Pre) (xs : List (List (Row K D))) (js : Option (List (List (Row K D)))) (hx : ∀ x ∈ xs, ∀ r ∈ x, r ∈ cfg.data)
    (hj : js.isSome = cfg.dataEffect.isSome) : Asks Pre (runHeters h xs js) (xs.length * c) each (fun _ o => Pre o) := by
  unfold runHeters
  cases js with
  | none => exact asks_each xs fun x hxm => hc x none (hx x hxm) (by simpa using hj)
  | some js =>
    refine (asks_each (xs.zip js) fun p hp => hc p.1 (some p.2) (hx p.1 (List.of_mem_zip hp).1) (by simpa using hj)).le ?_
    refine Nat.mul_le_mul_right _ ?_
    rw [List.length_zip]
    exact min_le_left _ _

theorem asks_rowFrom (hc : HeterCosts cfg h c each Pre) (w : ℕ) (xs : List (List (Row K D))) (js : Option (List (List (Row K D)))) (before : List K) (f : Fin D)
    (typ : FeatType) (hx : ∀ x ∈ xs, ∀ r ∈ x, r ∈ cfg.data) (hj : js.isSome = cfg.dataEffect.isSome) (ps : List K) :
    ∀ i, Asks Pre (runRowFrom h w xs js before f typ i ps) (ps.length * (2 * xs.length * c)) each (fun _ o => Pre o) := by
  induction ps with
  | nil => exact fun i => (keep_pure _ _ _).le (by omega)
  | cons pos t ih =>
    intro i
    have hcand : Asks Pre (runCandidate h xs js before f typ pos) (2 * xs.length * c) each (fun _ o => Pre o) := by
      unfold runCandidate
      have := asks_heters hc (splitAll xs f pos typ) (js.map fun js => splitAllEff xs js f pos typ) (splitAll_sub hx f pos typ) (by simpa using hj)
      rw [length_splitAll] at this
      exact this.bind fun sub => keep_pure _ _ _
    unfold runRowFrom
    refine Asks.le (n := 2 * xs.length * c + (0 + (t.length * (2 * xs.length * c) + 0))) ?_ ?_
    · exact hcand.bind fun v => Asks.bind (keep_inert (K := K) (D := D) _ _ _) fun _ => (ih (i + 1)).bind fun vs => keep_pure _ _ _
    · rw [List.length_cons]
      apply le_of_eq
      ring

theorem asks_eachSum {f : β → RunM σ K D S α} {n : β → ℕ} (l : List β) (h : ∀ b ∈ l, Asks Pre (f b) (n b) each (fun _ s => Pre s)) :
    Asks Pre (runEach f l) (l.map n).sum each (fun _ s => Pre s) := by
  induction l with
  | nil => exact (keep_pure Pre [] each).le (by simp)
  | cons b t ih =>
    unfold runEach
    rw [List.map_cons, List.sum_cons]
    exact (h b (by simp)).bind fun a => (ih fun b' hb' => h b' (by simp [hb'])).bind fun as => keep_pure Pre (a :: as) each

theorem zip_mapM_sum {F : β → Py (List K)} {g : β → ℕ} (hF : ∀ b ps, F b = .ok ps → ps.length = g b) (n : ℕ) : ∀ (l : List β) (r : List (List K)),
    l.mapM F = .ok r → ((l.zip r).map fun p => p.2.length * n).sum = (l.map g).sum * n := by
  intro l
  induction l with
  | nil => intro r _; simp
  | cons b t ih =>
    intro r hr
    rw [List.mapM_cons] at hr
    simp only [bind, Except.bind, pure, Except.pure] at hr
    cases h1 : F b with
    | error e => rw [h1] at hr; cases hr
    | ok ps =>
      rw [h1] at hr
      simp only [] at hr
      cases h2 : t.mapM F with
      | error e => rw [h2] at hr; cases hr
      | ok r' =>
        rw [h2] at hr
        cases hr
        simp only [List.zip_cons_cons, List.map_cons, List.sum_cons]
        rw [ih r' h2, hF b ps h1]
        ring

theorem positions_sum {cands : List (List K)} (hp : candidatePositions cfg = .ok cands) (n : ℕ) :
    ((cfg.foc.zip cands).map fun p => p.2.length * n).sum = positionCount cfg.data cfg.types cfg.nofSplits cfg.foc * n := by
  unfold candidatePositions at hp
  unfold positionCount
  refine zip_mapM_sum ?_ n _ _ hp
  intro f ps hf
  cases ht : cfg.types f with
  | cat =>
    rw [ht] at hf
    cases hf
    rw [if_pos rfl]
    unfold findPositionsCat
    exact npUnique_length _
  | cont =>
    rw [ht] at hf
    simp only [findPositionsCont, bind, Except.bind, pure, Except.pure] at hf
    cases h1 : listMax (col cfg.data f) with
    | error e => rw [h1] at hf; cases hf
    | ok mx =>
      rw [h1] at hf
      simp only [] at hf
      cases h2 : listMin (col cfg.data f) with
      | error e => rw [h2] at hf; cases hf
      | ok mn =>
        rw [h2] at hf
        cases hf
        rw [if_neg (by simp)]
        simp

theorem asks_singleLevel (hc : HeterCosts cfg h c each Pre) (xs : List (List (Row K D))) (js : Option (List (List (Row K D)))) (before : List K)
    (hx : ∀ x ∈ xs, ∀ r ∈ x, r ∈ cfg.data) (hj : js.isSome = cfg.dataEffect.isSome) :
    Asks Pre (runSingleLevel cfg h xs js before) ((positionCount cfg.data cfg.types cfg.nofSplits cfg.foc + 1) * (2 * xs.length * c)) each (fun _ o => Pre o) := by
  unfold runSingleLevel
  refine Asks.le (n := 0 + (positionCount cfg.data cfg.types cfg.nofSplits cfg.foc * (2 * xs.length * c) + (0 + (0 + (0 + (0 + (2 * xs.length * c + (0 + (0 +
    (0 + (0 + 0))))))))))) ?_ ?_
  swap
  · apply le_of_eq
    ring
  refine Asks.bind (asks_inert (K := K) (D := D) _ _ 0 _) fun cands => ?_
  by_cases hp : candidatePositions cfg = .ok cands
  swap
  · intro y hy
    exact absurd hy.1 hp
  refine Asks.mono (Pre := Pre) ?_ (fun _ h => h.2) le_rfl (fun _ h => h) (fun _ _ h => h)
  refine Asks.bind (Mid := fun _ o => Pre o) ?_ fun rows => ?_
  · rw [← positions_sum hp]
    exact asks_eachSum _ fun p _ => asks_rowFrom hc (max cfg.nofSplits cfg.catLimit) xs js before p.1 (cfg.types p.1) hx hj p.2 0
  · refine Asks.bind (keep_inert (K := K) (D := D) _ _ _) fun _ => Asks.bind (keep_inert (K := K) (D := D) _ _ _) fun f =>
      Asks.bind (keep_inert (K := K) (D := D) _ _ _) fun ps => Asks.bind (keep_inert (K := K) (D := D) _ _ _) fun pos => Asks.bind (Mid := fun _ o => Pre o) ?_ fun sub =>
      Asks.bind (keep_inert (K := K) (D := D) _ _ _) fun mn => Asks.bind (keep_inert (K := K) (D := D) _ _ _) fun mx =>
      Asks.bind (keep_inert (K := K) (D := D) _ _ _) fun r => Asks.bind (keep_inert (K := K) (D := D) _ _ _) fun v => keep_pure _ _ _
    have := asks_heters hc (splitAll xs f pos (cfg.types f)) (js.map fun js => splitAllEff xs js f pos (cfg.types f)) (splitAll_sub hx f pos _) (by simpa using hj)
    rw [length_splitAll] at this
    exact this

theorem asks_levels (hc : HeterCosts cfg h c each Pre) (n : ℕ) : ∀ (xs : List (List (Row K D))) (js : Option (List (List (Row K D)))) (before : List K),
    (∀ x ∈ xs, ∀ r ∈ x, r ∈ cfg.data) → js.isSome = cfg.dataEffect.isSome →
    Asks Pre (runLevels cfg h n xs js before) (c * ((positionCount cfg.data cfg.types cfg.nofSplits cfg.foc + 1) * (xs.length * (2 ^ (n + 1) - 2)))) each (fun _ o => Pre o) := by
  induction n with
  | zero => exact fun xs js before _ _ => (keep_pure _ _ _).le (by omega)
  | succ n ih =>
    intro xs js before hx hj
    unfold runLevels
    by_cases hany : xs.any (fun x => decide (x.length < cfg.minPoints)) = true
    · rw [if_pos hany]
      exact (keep_pure _ _ _).le (by omega)
    · rw [if_neg hany]
      generalize hA : positionCount cfg.data cfg.types cfg.nofSplits cfg.foc + 1 = A
      have h1 := asks_singleLevel hc xs js before hx hj
      rw [hA] at h1 ih
      refine Asks.le (n := A * (2 * xs.length * c) + (c * (A * (2 * xs.length * (2 ^ (n + 1) - 2))) + 0)) ?_ ?_
      · refine h1.bind fun sp => ?_
        have h2 := ih (splitAll xs sp.feature sp.position sp.typ) (js.map fun js => splitAllEff xs js sp.feature sp.position sp.typ) sp.heterogeneity
          (splitAll_sub hx _ _ _) (by simpa using hj)
        rw [length_splitAll] at h2
        exact h2.bind fun rest => keep_pure _ _ _
      · obtain ⟨q, hq⟩ : ∃ q, 2 ^ (n + 1) = q + 2 := ⟨2 * (2 ^ n - 1), by
          have := Nat.one_le_two_pow (n := n)
          rw [pow_succ]
          omega⟩
        have h3 : 2 ^ (n + 1 + 1) - 2 = 2 * q + 2 := by rw [pow_succ, hq]; omega
        rw [h3, hq, Nat.add_sub_cancel]
        apply le_of_eq
        ring

/-- What a search may cost. -/
theorem asks_search (hc : HeterCosts cfg h c each Pre) : Asks Pre (runSearch cfg h)
    (c * regionCount (positionCount cfg.data cfg.types cfg.nofSplits cfg.foc) cfg.maxLevels) each (fun _ o => Pre o) := by
  unfold runSearch
  split_ifs with hcat hlen
  · exact (keep_pure _ _ _).le (by omega)
  · intro y hy
    exact ⟨[], by simp [run_bind, inert, runThen], by simp, by simp, fun a ha => by cases ha⟩
  · rw [inert_ok]
    refine Asks.le (n := c + (c * ((positionCount cfg.data cfg.types cfg.nofSplits cfg.foc + 1) * ([cfg.data].length * (2 ^ (cfg.maxLevels + 1) - 2))) + 0)) ?_ ?_
    · exact (hc cfg.data cfg.dataEffect (fun _ h => h) rfl).bind fun h0 => (asks_levels hc cfg.maxLevels [cfg.data] (cfg.dataEffect.map fun e => [e]) [h0]
        (by simp) (by simp)).bind fun levels => keep_pure _ _ _
    · unfold regionCount
      rw [List.length_singleton]
      apply le_of_eq
      ring

/-! ## `fit` -/

/-- The heterogeneity functions of the five classes. -/
theorem heterCosts_classes [PySqrt K] (w : World σ K D) (o : RegionalObj K D) (kw : FitKw K D) (f : Fin D)
    (hr : o.cfg.methodName = "rhale" → o.cfg.instanceEffects.isSome = true) (h : HeterR σ K D S) (hh : runHeter w o kw f = .ok h) (Pre : S → Prop) :
    HeterCosts (regionsOf o.cfg (kw.toArgs o) f) h (regionCost o.cfg.methodName o.cfg.bb.jac.isSome kw.centering kw.points kw.vec) (Variants o.cfg.data f) Pre := by
  intro x e hx he
  have hsub : ∀ c, Variants x f c → Variants o.cfg.data f c := variants_subset hx
  unfold runHeter at hh
  unfold regionCost
  by_cases h1 : o.cfg.methodName = "rhale"
  · rw [if_pos h1] at hh
    rw [if_pos h1]
    simp only [bind, Except.bind] at hh
    cases hb : prepBinningMethod kw.bin with
    | error er => rw [hb] at hh; cases hh
    | ok bm =>
      rw [hb] at hh
      injection hh with hh
      subst hh
      cases e with
      | none =>
        have : (none : Option (List (Row K D))).isSome = o.cfg.instanceEffects.isSome := he
        rw [hr h1] at this
        cases this
      | some e =>
        exact (asks_aleHeter _ f bm kw.minPoints kw.centering x (some e) Pre (fun e => e.isSome = true) 1 0 (Variants x f)
          (asks_rhaleNew w o.cfg.bb.choice o.cfg.bb.jac.isSome x e (.str "all") none none f Pre)).mono (fun _ h => h) le_rfl hsub (fun _ _ h => h)
  · rw [if_neg h1] at hh
    rw [if_neg h1]
    by_cases h2 : o.cfg.methodName = "ale"
    · rw [if_pos h2] at hh
      rw [if_pos h2]
      simp only [bind, Except.bind] at hh
      cases hb : prepBinningMethod kw.bin with
      | error er => rw [hb] at hh; cases hh
      | ok bm =>
        rw [hb] at hh
        injection hh with hh
        subst hh
        exact (asks_aleHeter _ f bm kw.minPoints kw.centering x e Pre (fun _ => True) 1 2 (Variants x f)
          (asks_aleNew w o.cfg.bb.choice o.cfg.bb.cast x (.str "all") none none f Pre)).mono (fun _ h => h) le_rfl hsub (fun _ _ h => h)
    · rw [if_neg h2] at hh
      rw [if_neg h2]
      by_cases h3 : o.cfg.methodName = "shap"
      · rw [if_pos h3] at hh
        rw [if_pos h3]
        injection hh with hh
        subst hh
        exact (asks_shapHeter w o.cfg.bb.choice o.cfg.bb.ext.spline f kw.minPoints kw.centering _ kw.points x Pre).mono (fun _ h => h) le_rfl hsub (fun _ _ h => h)
      · rw [if_neg h3] at hh
        rw [if_neg h3]
        by_cases h4 : o.cfg.methodName = "pdp"
        · rw [if_pos h4] at hh
          rw [if_pos h4]
          injection hh with hh
          subst hh
          exact (asks_pdpHeter w o.cfg.bb.choice o.cfg.bb.cast .pdp o.axisLo o.axisHi f kw.minPoints kw.centering kw.nof kw.points kw.vec x Pre).mono
            (fun _ h => h) le_rfl hsub (fun _ _ h => h)
        · rw [if_neg h4] at hh
          rw [if_neg h4]
          injection hh with hh
          subst hh
          exact (asks_pdpHeter w o.cfg.bb.choice o.cfg.bb.cast _ o.axisLo o.axisHi f kw.minPoints kw.centering kw.nof kw.points kw.vec x Pre).mono
            (fun _ h => h) le_rfl hsub (fun _ _ h => h)

theorem asks_regionalFitOne [PySqrt K] (w : World σ K D) (o : RegionalObj K D) (kw : FitKw K D) (f : Fin D)
    (hr : o.cfg.methodName = "rhale" → o.cfg.instanceEffects.isSome = true) :
    Asks (fun _ => True) (runRegionalFitOne w o kw f) (regionCost o.cfg.methodName o.cfg.bb.jac.isSome kw.centering kw.points kw.vec *
      regionCount (positionCount o.cfg.data o.cfg.types kw.nofCandidates (kw.foc.getD (focAll f))) kw.maxDepth) (Variants o.cfg.data f) (fun _ _ => True) := by
  unfold runRegionalFitOne
  refine Asks.le (n := 0 + (regionCost o.cfg.methodName o.cfg.bb.jac.isSome kw.centering kw.points kw.vec *
      regionCount (positionCount o.cfg.data o.cfg.types kw.nofCandidates (kw.foc.getD (focAll f))) kw.maxDepth + (0 + (0 + (0 + 0))))) ?_ (by omega)
  refine Asks.bind (asks_inert (K := K) (D := D) _ _ 0 _) fun h => ?_
  by_cases hh : runHeter w o kw f = .ok h
  swap
  · intro y hy
    exact absurd hy.1 hh
  refine Asks.bind (Mid := fun _ _ => True) ?_ fun sp => ?_
  · have := asks_search (heterCosts_classes w o kw f hr h hh (fun _ => True))
    refine this.mono (fun _ _ => trivial) ?_ (fun _ h => h) (fun _ _ h => h)
    simp only [regionsOf, FitKw.toArgs]
    exact le_rfl
  · exact Asks.bind (keep_inert (K := K) (D := D) _ _ _) fun full => Asks.bind (keep_inert (K := K) (D := D) _ _ _) fun pruned => (asks_read _ 0 _).bind fun st =>
      (asks_write _ _ 0 _).mono (fun _ h => h) le_rfl (fun _ h => h) (fun _ _ _ => trivial)

/-- **C111.**  `fit` of a regional object makes, for each feature it is asked for, at most (calls per region) × (regions) calls of the user's code, whatever that code
does, however many rows there are, and from any state of the object; and every call is about rows of the data in which only the feature that is being fitted has been
changed. -/
theorem C111_fit [PySqrt K] (w : World σ K D) (o : RegionalObj K D) (features : PyVal) (kw : FitKw K D)
    (hr : o.cfg.methodName = "rhale" → o.cfg.instanceEffects.isSome = true) :
    AtMost (runRegionalFit w o features kw) ((named D features).map fun f => regionCost o.cfg.methodName o.cfg.bb.jac.isSome kw.centering kw.points kw.vec *
      regionCount (positionCount o.cfg.data o.cfg.types kw.nofCandidates (kw.foc.getD (focAll f))) kw.maxDepth).sum
      (fun c => ∃ f ∈ named D features, Variants o.cfg.data f c) := by
  rw [atMost_iff]
  unfold runRegionalFit
  obtain ⟨B, hB⟩ : ∃ B : Fin D → ℕ, B = fun f : Fin D => regionCost o.cfg.methodName o.cfg.bb.jac.isSome kw.centering kw.points kw.vec *
      regionCount (positionCount o.cfg.data o.cfg.types kw.nofCandidates (kw.foc.getD (focAll f))) kw.maxDepth := ⟨_, rfl⟩
  have hone : ∀ f, Asks (fun _ => True) (runRegionalFitOne w o kw f) (B f) (Variants o.cfg.data f) (fun _ _ => True) := by
    intro f
    rw [hB]
    exact asks_regionalFitOne w o kw f hr
  rw [← hB]
  refine Asks.le (n := 0 + (0 + (0 + ((named D features).map B).sum))) ?_ (by omega)
  refine Asks.bind (keep_inert (K := K) (D := D) _ _ _) fun _ => Asks.bind (asks_inert (K := K) (D := D) _ _ 0 _) fun v => Asks.bind (asks_inert (K := K) (D := D) _ _ 0 _)
    fun l => ?_
  by_cases hl : named D features = l
  swap
  · intro y hy
    exfalso
    apply hl
    unfold named
    rw [hy.2.1]
    show (match resolveFeatures D v with | .ok l => l | .error _ => []) = l
    rw [hy.1]
  rw [hl]
  clear hl
  have hloop : ∀ l' : List (Fin D), (∀ f ∈ l', f ∈ l) → Asks (fun _ => True) (runRegionalFitLoop w o kw l') (l'.map B).sum
      (fun c => ∃ f ∈ l, Variants o.cfg.data f c) (fun _ _ => True) := by
    intro l'
    induction l' with
    | nil => exact fun _ => (keep_pure _ _ _).le (by omega)
    | cons f t ih =>
      intro hsub
      unfold runRegionalFitLoop
      rw [List.map_cons, List.sum_cons]
      exact ((hone f).mono (fun _ h => h) le_rfl (fun c hc => ⟨f, hsub f (by simp), hc⟩) (fun _ _ h => h)).bind fun _ => ih fun f' hf' => hsub f' (by simp [hf'])
  exact (hloop l fun _ h => h).mono (fun _ _ => trivial) le_rfl (fun _ h => h) (fun _ _ h => h)

end Effector
