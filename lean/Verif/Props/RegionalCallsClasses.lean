import Verif.Props.RegionalCallsHeter
import Verif.Model.RegionalFit

/-!
# C110: if no call raises, the regional classes with effects are the regional classes of Model/RegionalFit.lean
-/

set_option linter.unusedSectionVars false

namespace Effector

variable {K : Type} [Field K] [LinearOrder K] {D : ℕ} {σ S S' α β γ : Type}

open Spec

variable {w : World σ K D} {m : List (Row K D) → List K} {j ex : List (Row K D) → List (Row K D)}

/-! ## The constructors -/

theorem means_bindMap {p : RunM σ K D S α} {k : α → RunM σ K D S β} {B : Py γ} {f : γ → α} {g : γ → Py β} (h1 : Means p (B.map f)) (hp : Propagates p)
    (h2 : ∀ b, B = .ok b → Means (k (f b)) (g b)) : Means (p >>= k) (B.bind g) := by
  cases B with
  | error e => exact means_bind' (g := fun _ => .error e) h1 hp (fun a h => by cases h)
  | ok b =>
    have := means_bind' (x := .ok (f b)) (g := fun _ => g b) h1 hp (fun a h => by injection h with h; subst h; exact h2 b rfl)
    exact this

theorem means_base (hw : AnswersWith w m j ex) (choice : ℕ → ℕ → List ℕ) (data : List (Row K D)) (nof : PyVal) (axisLimits : Option ((Fin D → K) × (Fin D → K)))
    (avg : Option K) : Means (runBase w choice data nof axisLimits avg : RunM σ K D S _)
      ((Base.init choice data nof axisLimits).map fun b => (b, avg.getD (mean (m b.data)))) :=
  means_runs fun y => runs_base hw choice data nof axisLimits avg y rfl

theorem means_pdpNew (hw : AnswersWith w m j ex) (choice : ℕ → ℕ → List ℕ) (cast : K → K) (which : PdpWhich) (data : List (Row K D)) (nof : PyVal)
    (axisLimits : Option ((Fin D → K) × (Fin D → K))) (avg : Option K) : Means (runPdpNew w choice cast which data nof axisLimits avg : RunM σ K D S _)
      ((Base.init choice data nof axisLimits).map fun b =>
        (⟨cast, which, b.axisLo, b.axisHi, avg.getD (mean (m b.data))⟩, PdpState.init b.data)) :=
  means_bindMap (g := fun _ => .ok _) (means_base hw choice data nof axisLimits avg) (propagates_base w choice data nof axisLimits avg) fun _ _ => means_pure _

theorem means_aleNew (hw : AnswersWith w m j ex) (choice : ℕ → ℕ → List ℕ) (cast : K → K) (data : List (Row K D)) (nof : PyVal)
    (axisLimits : Option ((Fin D → K) × (Fin D → K))) (avg : Option K) : Means (runAleNew w choice cast data nof axisLimits avg : RunM σ K D S _)
      ((Base.init choice data nof axisLimits).map fun b => (runAleCfg w cast b (avg.getD (mean (m b.data))), ⟨AleState.init, none⟩)) :=
  means_bindMap (g := fun _ => .ok _) (means_base hw choice data nof axisLimits avg) (propagates_base w choice data nof axisLimits avg) fun _ _ => means_pure _

/-- What the constructor of an RHALE computes without calling anything. -/
def rhaleParts (choice : ℕ → ℕ → List ℕ) (data : List (Row K D)) (given : Option (List (Row K D))) (nof : PyVal)
    (axisLimits : Option ((Fin D → K) × (Fin D → K))) : Py (Option (List (Row K D)) × Base K D) := do
  let p ← prepNofInstances choice nof data.length
  let data' ← takeRows data p.2
  let given' ← match given with
    | some e => (takeRows e p.2).map some
    | none => .ok none
  let b ← Base.init choice data' (.str "all") axisLimits
  return (given', b)

theorem rhaleInit_parts (choice : ℕ → ℕ → List ℕ) (jac : Option (List (Row K D) → List (Row K D))) (data : List (Row K D)) (given : Option (List (Row K D)))
    (nof : PyVal) (axisLimits : Option ((Fin D → K) × (Fin D → K))) :
    rhaleInit choice m jac data given nof axisLimits = (rhaleParts choice data given nof axisLimits).map fun p =>
      (rhaleCfg (rhaleEffects m jac p.1 p.2.data) p.2, p.2) := by
  unfold rhaleInit rhaleParts
  simp only [bind, Except.bind, pure, Except.pure]
  cases prepNofInstances choice nof data.length with
  | error e => rfl
  | ok p =>
    simp only
    cases takeRows data p.2 with
    | error e => rfl
    | ok d =>
      simp only
      cases given with
      | none => cases Base.init choice d (.str "all") axisLimits <;> rfl
      | some e =>
        simp only
        cases takeRows e p.2 with
        | error e => rfl
        | ok g =>
          simp only [Except.map]
          cases Base.init choice d (.str "all") axisLimits <;> rfl

theorem means_rhaleNew (hw : AnswersWith w m j ex) (choice : ℕ → ℕ → List ℕ) (hasJac : Bool) (data : List (Row K D)) (given : Option (List (Row K D))) (nof : PyVal)
    (axisLimits : Option ((Fin D → K) × (Fin D → K))) (avg : Option K) : Means (runRhaleNew w choice hasJac data given nof axisLimits avg : RunM σ K D S _)
      ((rhaleParts choice data given nof axisLimits).map fun p => (runRhaleCfg w hasJac p.2 (avg.getD (mean (m p.2.data))), ⟨AleState.init, p.1⟩)) := by
  unfold runRhaleNew rhaleParts
  have h3 : ∀ (d : List (Row K D)) (g : Option (List (Row K D))), Means (do
      let (b, a) ← runBase w choice d (.str "all") axisLimits avg
      return (runRhaleCfg w hasJac b a, { st := AleState.init, eff := g }) : RunM σ K D S (RunAleCfg σ K D × AleObj K D))
      ((Base.init choice d (.str "all") axisLimits).bind fun b => .ok (runRhaleCfg w hasJac b (avg.getD (mean (m b.data))), ⟨AleState.init, g⟩)) := fun d g =>
    means_bindMap (means_base hw choice d (.str "all") axisLimits avg) (propagates_base w choice d (.str "all") axisLimits avg) fun b _ => means_pure _
  have := means_bind' (S := S) (means_inert (prepNofInstances choice nof data.length)) (propagates_inert _) fun p _ =>
    means_bind' (means_inert (takeRows data p.2)) (propagates_inert _) fun d _ =>
      means_bind' (means_inert (match given with
        | some e => (takeRows e p.2).map some
        | none => .ok none)) (propagates_inert _) fun g _ => h3 d g
  refine this.congr fun v => ?_
  simp only [bind, Except.bind, pure, Except.pure]
  cases prepNofInstances choice nof data.length with
  | error e => rfl
  | ok p =>
    simp only
    cases takeRows data p.2 with
    | error e => rfl
    | ok d =>
      simp only
      cases given with
      | none => cases Base.init choice d (.str "all") axisLimits <;> rfl
      | some e =>
        simp only
        cases takeRows e p.2 with
        | error e => rfl
        | ok g =>
          simp only [Except.map]
          cases Base.init choice d (.str "all") axisLimits <;> rfl

theorem means_shapNew (hw : AnswersWith w m j ex) (choice : ℕ → ℕ → List ℕ) (spline : List (K × K) → Py (K → K)) (data : List (Row K D)) (nof : PyVal)
    (axisLimits : Option ((Fin D → K) × (Fin D → K))) (avg : Option K) : Means (runShapNew w choice spline data nof axisLimits avg : RunM σ K D S _)
      ((shapInit choice data nof axisLimits).map fun b => (⟨spline, b.axisLo, b.axisHi, avg.getD (mean (m b.data))⟩, ShapState.init b.data)) := by
  unfold runShapNew shapInit
  have := means_bind' (S := S) (means_inert (prepNofInstances choice nof data.length)) (propagates_inert _) fun p _ =>
    means_bind' (means_inert (takeRows data p.2)) (propagates_inert _) fun d _ =>
      means_bindMap (k := fun b => (pure (⟨spline, b.1.axisLo, b.1.axisHi, b.2⟩, ShapState.init b.1.data) : RunM σ K D S (RunShapCfg K D × ShapState K D)))
        (g := fun b => .ok (⟨spline, b.axisLo, b.axisHi, avg.getD (mean (m b.data))⟩, ShapState.init b.data))
        (means_base hw choice d nof axisLimits avg) (propagates_base w choice d nof axisLimits avg) fun b _ => means_pure _
  refine this.congr fun v => ?_
  simp only [bind, Except.bind]
  cases prepNofInstances choice nof data.length with
  | error e => rfl
  | ok p =>
    simp only
    cases takeRows data p.2 with
    | error e => rfl
    | ok d =>
      simp only
      cases Base.init choice d nof axisLimits <;> rfl

/-! ## The heterogeneity functions -/

/-- The object with effects and the one without are the same object. -/
def Built (w : World σ K D) (c : RunAleCfg σ K D × AleObj K D) (pu : AleCfg K D) : Prop :=
  ∃ inv calls after, FitCalls w c.1 pu inv calls after ∧ inv c.2.eff ∧ c.2.st = AleState.init ∧ ∀ s bm, Propagates (c.1.fitF s bm)

theorem built_ale (hw : AnswersWith w m j ex) (cast : K → K) (b : Base K D) (avg : K) : Built w (runAleCfg w cast b avg, ⟨AleState.init, none⟩) (aleCfg cast m b) :=
  ⟨_, _, _, fitCalls_ale hw cast b avg, trivial, rfl, fun s bm => propagates_aleFitFeature w cast b.data b.axisLo b.axisHi s bm⟩

theorem built_rhale (hw : AnswersWith w m j ex) (hasJac : Bool) (given : Option (List (Row K D))) (b : Base K D) (avg : K) :
    Built w (runRhaleCfg w hasJac b avg, ⟨AleState.init, given⟩) (rhaleCfg (rhaleEffects m (if hasJac then some j else none) given b.data) b) :=
  ⟨_, _, _, fitCalls_rhale hw hasJac given b avg, by
    cases given with
    | none => exact .inl ⟨rfl, rfl⟩
    | some e => exact .inr rfl, rfl, fun s bm => propagates_rhaleFitFeature w hasJac b.data b.axisLo b.axisHi s bm⟩

theorem means_aleHeter [PySqrt K] {new : List (Row K D) → Option (List (Row K D)) → RunM σ K D S (RunAleCfg σ K D × AleObj K D)}
    {mk : List (Row K D) → Option (List (Row K D)) → Py (AleCfg K D)} (foi : Fin D) (bm : BinMethod K) (minPoints : ℕ) (centering : PyVal) (data : List (Row K D))
    (eff : Option (List (Row K D))) {B : Py γ} {f : γ → RunAleCfg σ K D × AleObj K D} {g : γ → AleCfg K D} (hnew : Means (new data eff) (B.map f))
    (hp : Propagates (new data eff)) (hmk : mk data eff = B.map g) (hb : ∀ b, Built w (f b) (g b)) :
    Means (runAleHeter new foi bm minPoints centering data eff) (aleHeter mk foi bm minPoints centering data eff) := by
  unfold runAleHeter aleHeter
  split
  · exact means_pure _
  · rw [hmk]
    have h := means_bindMap (g := fun b => ((fun cfg => match aleFit cfg AleState.init (.int (foi : ℕ)) bm centering with
        | (_, .error _) => (.ok BIG_M : Py K)
        | (st, .ok ()) => do
          let stop ← listMax (col data foi)
          let z ← (aleEval cfg st foi [stop] true (.bool false)).2
          match z.2 with
          | some z => pyIndex z 0
          | none => .error .typeError) (g b)))
      (k := fun c => (onNew c.2 (do
      match ← attempt (runAleFit c.1 (.int (foi : ℕ)) bm centering) with
      | none => pure BIG_M
      | some () => do
        let stop ← inert (listMax (col data foi))
        let r ← runAleEval c.1 foi [stop] true (.bool false)
        inert (match r.2 with
          | some z => pyIndex z 0
          | none => .error .typeError)) : RunM σ K D S K)) hnew hp (fun b _ => by
        obtain ⟨inv, calls, after, hf, hi, hs, hpr⟩ := hb b
        generalize f b = c at *
        generalize g b = pu at *
        have hgr : ∀ a : Option Unit, Grows (match a with
            | none => pure BIG_M
            | some () => do
              let stop ← inert (listMax (col data foi))
              let r ← runAleEval c.1 foi [stop] true (.bool false)
              inert (match r.2 with
                | some z => pyIndex z 0
                | none => .error .typeError) : RunM σ K D (AleObj K D) K) := by
          intro a
          refine Spec.Propagates.grows ?_
          cases a with
          | none => exact propagates_pure _
          | some u => exact propagates_bind (propagates_inert _) fun _ => propagates_bind (propagates_aleEval c.1 hpr _ _ _ _) fun _ => propagates_inert _
        refine means_onNew (Q := fun _ => True) c.2 fun y hy => ?_
        refine ifAnswered_bind (Q := fun o => o.st = (aleFit pu AleState.init (.int (foi : ℕ)) bm centering).1 ∧ inv o.eff)
          (a := okPart (aleFit pu AleState.init (.int (foi : ℕ)) bm centering).2) ?_ hgr fun y1 hq => ?_
        · have := ifAnswered_attempt (answered_aleFit hf (.int (foi : ℕ)) centering bm y (by rw [hy]; exact hi))
          rw [hy, hs] at this
          exact this
        · simp only
          generalize aleFit pu AleState.init (.int (foi : ℕ)) bm centering = q at hq ⊢
          obtain ⟨st, r⟩ := q
          cases r with
          | error e => exact ifAnswered_same rfl trivial
          | ok u =>
            simp only [okPart]
            cases listMax (col data foi) with
            | error e => exact ifAnswered_same rfl trivial
            | ok stop =>
              rw [inert_ok]
              have he := answered_aleEval hf foi [stop] true (.bool false) y1 hq.2
              rw [hq.1] at he
              change IfAnswered _ _ _ (Except.bind (aleEval pu st foi [stop] true (.bool false)).2 _)
              cases hr : (aleEval pu st foi [stop] true (.bool false)).2 with
              | error e =>
                rw [hr] at he
                exact ifAnswered_bindError he fun _ => (propagates_inert _).grows
              | ok v =>
                rw [hr] at he
                exact ifAnswered_bind he (fun _ => (propagates_inert _).grows) fun y2 _ => ifAnswered_same rfl trivial)
    refine h.congr fun v => ?_
    cases B <;> rfl

theorem means_pdpHeter [PySqrt K] (hw : AnswersWith w m j ex) (choice : ℕ → ℕ → List ℕ) (cast : K → K) (which : PdpWhich) (lo hi : Fin D → K) (foi : Fin D)
    (minPoints : ℕ) (centering nof : PyVal) (points : ℕ) (vec : Bool) (data : List (Row K D)) :
    Means (runPdpHeter w choice cast which lo hi foi minPoints centering nof points vec data : RunM σ K D S K)
      (pdpHeter choice cast (RunPdpCfg.with (⟨cast, which, lo, hi, 0⟩ : RunPdpCfg K D) m j).kind lo hi foi minPoints centering nof points vec data) := by
  unfold runPdpHeter pdpHeter
  split
  · exact means_pure _
  · refine means_bindMap (means_pdpNew hw choice cast which data nof (some (lo, hi)) none) (propagates_pdpNew w choice cast which data nof _ none) fun b _ => ?_
    simp only
    generalize hc : (⟨cast, which, b.axisLo, b.axisHi, Option.none.getD (mean (m b.data))⟩ : RunPdpCfg K D) = c
    have hcw : ({ cast := cast, kind := (RunPdpCfg.with (⟨cast, which, lo, hi, 0⟩ : RunPdpCfg K D) m j).kind, axisLo := b.axisLo, axisHi := b.axisHi } : PdpCfg K D) =
        c.with m j := by
      subst hc; rfl
    rw [hcw]
    have hgr : ∀ a : Option Unit, Grows (match a with
        | none => pure BIG_M
        | some () => do
          let mn ← inert (listMin (col data foi))
          let mx ← inert (listMax (col data foi))
          match ← attempt (runPdpEval w c foi (linspace mn mx 10) true (.bool false) false vec) with
          | some (.meanStd _ z) => pure (mean z)
          | _ => pure BIG_M : RunM σ K D (PdpState K D) K) := by
      intro a
      cases a with
      | none => exact (propagates_pure _).grows
      | some u =>
        refine grows_bind (propagates_inert _).grows fun _ => grows_bind (propagates_inert _).grows fun _ =>
          grows_bind (grows_attempt (propagates_pdpEval w c _ _ _ _ _ _).grows) fun z => ?_
        split <;> exact (propagates_pure _).grows
    refine means_onNew (Q := fun _ => True) _ fun y hy => ?_
    refine ifAnswered_bind (Q := (· = (pdpFit (c.with m j) (PdpState.init b.data) (.int (foi : ℕ)) centering points vec).1))
      (a := okPart (pdpFit (c.with m j) (PdpState.init b.data) (.int (foi : ℕ)) centering points vec).2) ?_ hgr fun y1 hq => ?_
    · have := ifAnswered_attempt (answered_pdpFit hw c (.int (foi : ℕ)) centering points vec y)
      rw [hy] at this
      exact this
    · generalize pdpFit (c.with m j) (PdpState.init b.data) (.int (foi : ℕ)) centering points vec = q at hq ⊢
      obtain ⟨st, r⟩ := q
      cases r with
      | error e => exact ifAnswered_same rfl trivial
      | ok u =>
        simp only [okPart]
        cases listMin (col data foi) with
        | error e => exact ifAnswered_same rfl trivial
        | ok mn =>
          rw [inert_ok]
          cases listMax (col data foi) with
          | error e => exact ifAnswered_same rfl trivial
          | ok mx =>
            rw [inert_ok]
            have he := ifAnswered_attempt (answered_pdpEval hw c foi (linspace mn mx 10) true (.bool false) false vec y1)
            rw [hq] at he
            refine ifAnswered_bind he (fun z => ?_) fun y2 _ => ?_
            · split <;> exact (propagates_pure _).grows
            · simp only [bind, Except.bind]
              cases (pdpEval (c.with m j) st foi (linspace mn mx 10) true (.bool false) false vec).2 with
              | error e => exact ifAnswered_same rfl trivial
              | ok o => cases o <;> exact ifAnswered_same rfl trivial

theorem means_shapHeter (hw : AnswersWith w m j ex) (choice : ℕ → ℕ → List ℕ) (spline : List (K × K) → Py (K → K)) (foi : Fin D) (minPoints : ℕ)
    (centering nof : PyVal) (points : ℕ) (data : List (Row K D)) :
    Means (runShapHeter w choice spline foi minPoints centering nof points data : RunM σ K D S K)
      (shapHeter choice { explain := fun X => .ok (ex X), spline := spline } foi minPoints centering nof points data) := by
  unfold runShapHeter shapHeter
  split
  · exact means_pure _
  · refine means_bind' (means_inert _) (propagates_inert _) fun mn _ => means_bind' (means_inert _) (propagates_inert _) fun mx _ => ?_
    refine means_bindMap (means_shapNew hw choice spline data nof none none) (propagates_shapNew w choice spline data nof none none) fun b _ => ?_
    simp only
    generalize hc : (⟨spline, b.axisLo, b.axisHi, Option.none.getD (mean (m b.data))⟩ : RunShapCfg K D) = c
    have hcw : ({ ext := { explain := fun X => .ok (ex X), spline := spline }, axisLo := b.axisLo, axisHi := b.axisHi } : ShapCfg K D) = c.with ex := by
      subst hc; rfl
    rw [hcw]
    refine means_onNew (Q := fun _ => True) _ fun y hy => ?_
    have hf := answered_shapFit hw c (.int (foi : ℕ)) centering points y
    rw [hy] at hf
    have hgr : ∀ u : Unit, Grows (do
        let r ← runShapEval w c foi (linspace mn mx 10) true (.bool false)
        inert (match r.2 with
          | some z => .ok (mean z)
          | none => .error .typeError) : RunM σ K D (ShapState K D) K) := fun _ =>
      grows_bind (propagates_shapEval w c _ _ _ _).grows fun _ => (propagates_inert _).grows
    generalize hq : shapFit (c.with ex) (ShapState.init b.data) (.int (foi : ℕ)) centering points = q at hf
    obtain ⟨st, r⟩ := q
    simp only [bind, Except.bind]
    cases r with
    | error e =>
      exact (ifAnswered_bindError hf hgr).weaken fun _ _ => trivial
    | ok u =>
      refine ifAnswered_bind hf hgr fun y1 hy1 => ?_
      have he := answered_shapEval hw c foi (linspace mn mx 10) true (.bool false) y1
      rw [hy1] at he
      simp only
      cases hr : (shapEval (c.with ex) st foi (linspace mn mx 10) true (.bool false)).2 with
      | error e =>
        rw [hr] at he
        exact (ifAnswered_bindError he fun _ => (propagates_inert _).grows).weaken fun _ _ => trivial
      | ok v =>
        rw [hr] at he
        refine ifAnswered_bind he (fun _ => (propagates_inert _).grows) fun y2 _ => ?_
        obtain ⟨v1, v2⟩ := v
        cases v2 <;> exact ifAnswered_same rfl trivial

end Effector
