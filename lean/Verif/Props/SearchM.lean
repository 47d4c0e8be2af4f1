import Verif.Model.SearchM
import Verif.Props.SearchTotal
import Verif.Props.FeatureTypes
import Verif.Props.Heterogeneity

/-!
# C71: fitting a regional effect raises no exception

The search with a heterogeneity function that may raise agrees with the search of `Model/Partitioning.lean` as soon as the heterogeneity function
returns a number on every region that the search can meet: a subset of the rows, together with as many effects.
-/

set_option linter.unusedSectionVars false

namespace Effector

open Spec

variable {K : Type} [Field K] [LinearOrder K] [IsStrictOrderedRing K] {D : ℕ}

/-- What the search hands to the heterogeneity function: some of the rows, in order; with the effects of the same rows if the object has effects, else without. -/
def Spec.RegionArg (data : List (Row K D)) (eff : Option (List (Row K D))) (x : List (Row K D)) (e : Option (List (Row K D))) : Prop :=
  x.Sublist data ∧ e.isSome = eff.isSome ∧
    ∀ e', e = some e' → e'.length = x.length ∧ ∃ E, eff = some E ∧ (x.zip e').Sublist (data.zip E)

theorem regionArg_len {data : List (Row K D)} {eff : Option (List (Row K D))} {x : List (Row K D)} {e : Option (List (Row K D))}
    (h : Spec.RegionArg data eff x e) (e' : List (Row K D)) (he : e = some e') : e'.length = x.length := (h.2.2 e' he).1

theorem mapM_congr' {α β : Type} {f g : α → Py β} {l : List α} (h : ∀ a ∈ l, f a = g a) : l.mapM f = l.mapM g := by
  induction l with
  | nil => rfl
  | cons a t ih => rw [List.mapM_cons, List.mapM_cons, h a (by simp), ih fun x hx => h x (by simp [hx])]

/-- The regions of a level and their effects. -/
def RegionArgs (data : List (Row K D)) (eff : Option (List (Row K D))) (xs : List (List (Row K D))) (js : Option (List (List (Row K D)))) : Prop :=
  js.isSome = eff.isSome ∧ (∀ x ∈ xs, x.Sublist data) ∧
    ∀ js', js = some js' → ∃ E, eff = some E ∧ List.Forall₂ (fun x j => j.length = x.length ∧ (x.zip j).Sublist (data.zip E)) xs js'

theorem splitEff_length (x : List (Row K D)) (j : List (Row K D)) (h : j.length = x.length) (f : Fin D) (pos : K) (typ : FeatType) :
    (splitEff x j f pos typ).1.length = (splitRows x f pos typ).1.length ∧ (splitEff x j f pos typ).2.length = (splitRows x f pos typ).2.length := by
  unfold splitEff splitRows
  simp only [List.length_map]
  induction x generalizing j with
  | nil => simp
  | cons a t ih =>
    cases j with
    | nil => simp at h
    | cons b u =>
      obtain ⟨h1, h2⟩ := ih u (by simpa using h)
      simp only [List.zip_cons_cons, List.filter_cons]
      constructor
      · by_cases hc : goesFirst typ pos (a f) = true <;> simp [hc, h1]
      · by_cases hc : goesSecond typ pos (a f) = true <;> simp [hc, h2]

theorem splitEff_zip (x : List (Row K D)) (j : List (Row K D)) (h : j.length = x.length) (f : Fin D) (pos : K) (typ : FeatType) :
    ((splitRows x f pos typ).1.zip (splitEff x j f pos typ).1).Sublist (x.zip j) ∧ ((splitRows x f pos typ).2.zip (splitEff x j f pos typ).2).Sublist (x.zip j) := by
  unfold splitEff splitRows
  induction x generalizing j with
  | nil => simp
  | cons a t ih =>
    cases j with
    | nil => simp at h
    | cons b u =>
      obtain ⟨h1, h2⟩ := ih u (by simpa using h)
      simp only [List.zip_cons_cons, List.filter_cons]
      constructor
      · by_cases hc : goesFirst typ pos (a f) = true
        · simpa [hc] using h1
        · simpa [hc] using h1.trans (List.sublist_cons_self _ _)
      · by_cases hc : goesSecond typ pos (a f) = true
        · simpa [hc] using h2
        · simpa [hc] using h2.trans (List.sublist_cons_self _ _)

theorem RegionArgs.split {data : List (Row K D)} {eff : Option (List (Row K D))} {xs : List (List (Row K D))} {js : Option (List (List (Row K D)))}
    (h : RegionArgs data eff xs js) (f : Fin D) (pos : K) (typ : FeatType) :
    RegionArgs data eff (splitAll xs f pos typ) (js.map fun js => splitAllEff xs js f pos typ) := by
  obtain ⟨h1, h2, h3⟩ := h
  refine ⟨by simp [h1], ?_, ?_⟩
  · intro x hx
    unfold splitAll at hx
    obtain ⟨y, hy, hxy⟩ := List.mem_flatMap.mp hx
    have hs := h2 y hy
    simp only [splitRows, List.mem_cons, List.not_mem_nil, or_false] at hxy
    rcases hxy with rfl | rfl
    · exact List.filter_sublist.trans hs
    · exact List.filter_sublist.trans hs
  · intro js' hj
    cases js with
    | none => cases hj
    | some js =>
      simp only [Option.map_some, Option.some.injEq] at hj
      subst hj
      obtain ⟨E, hE, this⟩ := h3 js rfl
      refine ⟨E, hE, ?_⟩
      clear h1 h2 h3
      unfold splitAll splitAllEff
      induction this with
      | nil => exact List.Forall₂.nil
      | cons hl _ ih =>
        simp only [List.zip_cons_cons, List.flatMap_cons]
        obtain ⟨a, b⟩ := splitEff_length _ _ hl.1 f pos typ
        obtain ⟨a', b'⟩ := splitEff_zip _ _ hl.1 f pos typ
        exact List.Forall₂.cons ⟨a, a'.trans hl.2⟩ (List.Forall₂.cons ⟨b, b'.trans hl.2⟩ ih)

theorem hetersM_ok {data : List (Row K D)} {eff : Option (List (Row K D))} {h : HeterM K D} {cfg : RegCfg K D}
    (hh : ∀ x e, RegionArg data eff x e → h x e = .ok (cfg.heter x e)) {xs : List (List (Row K D))} {js : Option (List (List (Row K D)))}
    (hR : RegionArgs data eff xs js) : hetersM h xs js = .ok (heters cfg xs js) := by
  obtain ⟨h1, h2, h3⟩ := hR
  cases js with
  | none =>
    exact mapM_ok fun x hx => hh x none ⟨h2 x hx, h1, by rintro e' ⟨⟩⟩
  | some js =>
    obtain ⟨E, hE, h3⟩ := h3 js rfl
    unfold hetersM heters
    refine mapM_ok fun p hp => hh p.1 (some p.2) ⟨h2 _ (List.of_mem_zip hp).1, h1, ?_⟩
    rintro e' ⟨⟩
    have := List.forall₂_iff_zip.mp h3
    exact ⟨(this.2 hp).1, E, hE, (this.2 hp).2⟩

theorem evalCandidateM_ok {data : List (Row K D)} {eff : Option (List (Row K D))} {h : HeterM K D} {cfg : RegCfg K D}
    (hh : ∀ x e, RegionArg data eff x e → h x e = .ok (cfg.heter x e)) {xs : List (List (Row K D))} {js : Option (List (List (Row K D)))}
    (hR : RegionArgs data eff xs js) (before : List K) (f : Fin D) (pos : K) (typ : FeatType) :
    evalCandidateM h xs js before f pos typ = .ok (evalCandidate cfg xs js before f pos typ) := by
  unfold evalCandidateM evalCandidate
  simp only [hetersM_ok hh (hR.split f pos typ)]
  rfl

theorem singleLevelSplitsM_eq {data : List (Row K D)} {eff : Option (List (Row K D))} {h : HeterM K D} {cfg : RegCfg K D}
    (hh : ∀ x e, RegionArg data eff x e → h x e = .ok (cfg.heter x e)) {xs : List (List (Row K D))} {js : Option (List (List (Row K D)))}
    (hR : RegionArgs data eff xs js) (before : List K) : singleLevelSplitsM cfg h xs js before = singleLevelSplits cfg xs js before := by
  unfold singleLevelSplitsM singleLevelSplits
  have hrow : ∀ (f : Fin D) (ps : List K), matrixRowM h (max cfg.nofSplits cfg.catLimit) xs js before f (cfg.types f) ps =
      padRow (max cfg.nofSplits cfg.catLimit) (ps.map fun pos => (evalCandidate cfg xs js before f pos (cfg.types f)).1) := by
    intro f ps
    unfold matrixRowM
    rw [mapM_ok (g := fun pos => evalCandidate cfg xs js before f pos (cfg.types f)) fun pos _ => evalCandidateM_ok hh hR before f pos (cfg.types f)]
    simp only [bind, Except.bind, List.map_map, Function.comp_def]
  have hs := fun (f : Fin D) (pos : K) => hetersM_ok hh (hR.split f pos (cfg.types f))
  simp only [hrow, hs, evalCandidateM_ok hh hR]
  rfl

theorem searchLoopM_eq {data : List (Row K D)} {eff : Option (List (Row K D))} {h : HeterM K D} {cfg : RegCfg K D}
    (hh : ∀ x e, RegionArg data eff x e → h x e = .ok (cfg.heter x e)) (n : ℕ) : ∀ {xs : List (List (Row K D))} {js : Option (List (List (Row K D)))},
    RegionArgs data eff xs js → ∀ before, searchLoopM cfg h n xs js before = searchLoop cfg n xs js before := by
  induction n with
  | zero => intro xs js _ before; rfl
  | succ n ih =>
    intro xs js hR before
    unfold searchLoopM searchLoop
    rw [singleLevelSplitsM_eq hh hR]
    by_cases hc : xs.any (fun x => decide (x.length < cfg.minPoints)) = true
    · rw [if_pos hc, if_pos hc]
    · rw [if_neg hc, if_neg hc]
      cases singleLevelSplits cfg xs js before with
      | error e => rfl
      | ok sp =>
        simp only [bind, Except.bind]
        rw [ih (hR.split sp.feature sp.position sp.typ)]

/-- **The search with a heterogeneity function that returns a number on every region it can meet.** -/
theorem searchAllSplitsM_eq (cfg : RegCfg K D) (heff : EffAligned cfg) (h : HeterM K D)
    (hh : ∀ x e, RegionArg cfg.data cfg.dataEffect x e → h x e = .ok (cfg.heter x e)) : searchAllSplitsM cfg h = searchAllSplits cfg := by
  unfold searchAllSplitsM searchAllSplits
  have h0 : RegionArg cfg.data cfg.dataEffect cfg.data cfg.dataEffect := ⟨List.Sublist.refl _, rfl, fun e' he => ⟨(heff e' he).symm, e', he, List.Sublist.refl _⟩⟩
  rw [hh _ _ h0]
  by_cases h1 : cfg.types cfg.feature = .cat ∧ cfg.splitCat = false
  · rw [if_pos h1, if_pos h1]
  · rw [if_neg h1, if_neg h1]
    by_cases h2 : cfg.foc.length < cfg.maxLevels
    · rw [if_pos h2, if_pos h2]
    · rw [if_neg h2, if_neg h2]
      simp only [bind, Except.bind]
      have hR : RegionArgs cfg.data cfg.dataEffect [cfg.data] (cfg.dataEffect.map fun e => [e]) := by
        refine ⟨by simp, by simp, ?_⟩
        intro js' hj
        cases he : cfg.dataEffect with
        | none => rw [he] at hj; cases hj
        | some e =>
          rw [he] at hj
          simp only [Option.map_some, Option.some.injEq] at hj
          subst hj
          exact ⟨e, rfl, List.Forall₂.cons ⟨(heff e he).symm, List.Sublist.refl _⟩ List.Forall₂.nil⟩
      rw [searchLoopM_eq hh cfg.maxLevels hR]

/-- **C71, in general.**  If the heterogeneity function returns a number between 0 and 1e8 on every region the search can meet, the search returns a result
(no exception), and it is the one of the search with that function. -/
theorem C71_search_never_raises (cfg : RegCfg K D) (heff : EffAligned cfg) (hne : cfg.data ≠ []) (hspl : 0 < cfg.nofSplits)
    (hcat : ∀ f ∈ cfg.foc, cfg.types f = .cat → distinct (cfg.data.map (· f)) ≤ max cfg.nofSplits cfg.catLimit)
    (hdep : cfg.maxLevels ≤ cfg.foc.length) (h : HeterM K D)
    (hh : ∀ x e, RegionArg cfg.data cfg.dataEffect x e → ∃ v, h x e = .ok v ∧ 0 ≤ v ∧ v ≤ 100000000) :
    ∃ r, searchAllSplitsM cfg h = .ok r := by
  classical
  let cfg' : RegCfg K D := { cfg with heter := fun x e => if RegionArg cfg.data cfg.dataEffect x e then (match h x e with | .ok v => v | .error _ => 0) else 0 }
  have hval : ∀ x e, RegionArg cfg'.data cfg'.dataEffect x e → h x e = .ok (cfg'.heter x e) := by
    intro x e hx
    obtain ⟨v, hv, -⟩ := hh x e hx
    show h x e = .ok (if RegionArg cfg.data cfg.dataEffect x e then (match h x e with | .ok v => v | .error _ => 0) else 0)
    rw [if_pos hx, hv]
  have hA : SearchArgsOk cfg' := by
    refine ⟨hne, hspl, hcat, ?_, heff⟩
    intro x e hx
    show 0 ≤ (if RegionArg cfg.data cfg.dataEffect x e then (match h x e with | .ok v => v | .error _ => 0) else 0) ∧
      (if RegionArg cfg.data cfg.dataEffect x e then (match h x e with | .ok v => v | .error _ => 0) else 0) ≤ 100000000
    by_cases hx : RegionArg cfg.data cfg.dataEffect x e
    · obtain ⟨v, hv, h1, h2⟩ := hh x e hx
      rw [if_pos hx, hv]
      exact ⟨h1, h2⟩
    · rw [if_neg hx]
      norm_num
  have h1 := searchAllSplitsM_eq cfg' heff h hval
  obtain ⟨r, hr⟩ := C61_search_never_raises cfg' hA hdep
  refine ⟨r, ?_⟩
  rw [← hr, ← h1]
  have hs : ∀ n xs js before, searchLoopM cfg' h n xs js before = searchLoopM cfg h n xs js before := by
    intro n
    induction n with
    | zero => intros; rfl
    | succ n ih =>
      intro xs js before
      unfold searchLoopM
      simp only [ih]
      rfl
  unfold searchAllSplitsM
  simp only [hs]
  rfl

/-- Binning methods for which RHALE can always be evaluated after a successful fit: Greedy with any parameters, and Fixed with at least one bin and
`cat_limit ≥ 1`. -/
def Spec.PlainMethod : BinMethod K → Prop
  | .greedy _ _ _ _ => True
  | .fixed n _ cl => 1 ≤ n ∧ 1 ≤ cl
  | _ => False

theorem plain_safe {bm : BinMethod K} (h : PlainMethod bm) (c : BinCtx K) : SafeMethod c bm ∧ ∀ n m, bm ≠ .fixed n m 0 := by
  cases bm with
  | greedy n m d cl => exact ⟨trivial, fun _ _ => by simp⟩
  | fixed n m cl =>
    refine ⟨h.1, fun n' m' he => ?_⟩
    simp only [BinMethod.fixed.injEq] at he
    have := h.2
    omega
  | dp n m d cl => exact h.elim
  | str s => exact h.elim

theorem axisLimits_ok {data : List (Row K D)} (h : data ≠ []) : ∃ lo hi, axisLimitsAll data = .ok (lo, hi) := by
  cases data with
  | nil => exact absurd rfl h
  | cons r rs => exact ⟨_, _, rfl⟩

/-- **C71, RegionalRHALE.**  With the greedy binning method (the default) or a fixed one, any model, any Jacobian, any centring argument (even an invalid one):
`fit` raises nothing, if no heterogeneity exceeds 1e8. -/
theorem C71_rhale_fit_never_raises_partial [PySqrt K] [LawfulSqrt K] (cfg : RegCfg K D) (heff : EffAligned cfg) (hne : cfg.data ≠ []) (hspl : 0 < cfg.nofSplits)
    (hcat : ∀ f ∈ cfg.foc, cfg.types f = .cat → distinct (cfg.data.map (· f)) ≤ max cfg.nofSplits cfg.catLimit)
    (hdep : cfg.maxLevels ≤ cfg.foc.length) (hmin : 1 ≤ cfg.minPoints) (choice : ℕ → ℕ → List ℕ) (model : List (Row K D) → List K)
    (jac : Option (List (Row K D) → List (Row K D))) (bm : BinMethod K) (hbm : PlainMethod bm) (centering : PyVal)
    (hbig : ∀ x e v, RegionArg cfg.data cfg.dataEffect x e →
      aleHeter (mkRhale choice model jac) cfg.feature bm cfg.minPoints centering x e = .ok v → v ≤ 100000000) :
    ∃ r, searchAllSplitsM cfg (aleHeter (mkRhale choice model jac) cfg.feature bm cfg.minPoints centering) = .ok r := by
  refine C71_search_never_raises cfg heff hne hspl hcat hdep _ fun x e hx => ?_
  have : ∃ v, aleHeter (mkRhale choice model jac) cfg.feature bm cfg.minPoints centering x e = .ok v ∧ 0 ≤ v := by
    by_cases hxe : x = []
    · refine ⟨_, aleHeter_few _ _ _ _ _ _ _ ?_, big_pos.le⟩
      rw [hxe]; exact hmin
    · obtain ⟨lo, hi, hlim⟩ := axisLimits_ok hxe
      obtain ⟨v, h1, h2, -⟩ := C68_rhale_heterogeneity choice model jac cfg.feature bm cfg.minPoints centering x e lo hi hlim (regionArg_len hx)
        (fun _ _ _ => (plain_safe hbm _).1) (plain_safe hbm (rhaleCtx x [] lo hi cfg.feature)).2
      exact ⟨v, h1, h2⟩
  obtain ⟨v, h1, h2⟩ := this
  exact ⟨v, h1, h2, hbig x e v hx h1⟩

/-- **C71, RegionalALE**, for a model that works row by row. -/
theorem C71_ale_fit_never_raises_partial [PySqrt K] [LawfulSqrt K] (cfg : RegCfg K D) (heff : EffAligned cfg) (hne : cfg.data ≠ []) (hspl : 0 < cfg.nofSplits)
    (hcat : ∀ f ∈ cfg.foc, cfg.types f = .cat → distinct (cfg.data.map (· f)) ≤ max cfg.nofSplits cfg.catLimit)
    (hdep : cfg.maxLevels ≤ cfg.foc.length) (hmin : 1 ≤ cfg.minPoints) (choice : ℕ → ℕ → List ℕ) (cast : K → K) (f : Row K D → K)
    (bm : BinMethod K) (hbm : PlainMethod bm) (centering : PyVal)
    (hbig : ∀ x e v, RegionArg cfg.data cfg.dataEffect x e →
      aleHeter (mkAle choice cast (List.map f)) cfg.feature bm cfg.minPoints centering x e = .ok v → v ≤ 100000000) :
    ∃ r, searchAllSplitsM cfg (aleHeter (mkAle choice cast (List.map f)) cfg.feature bm cfg.minPoints centering) = .ok r := by
  refine C71_search_never_raises cfg heff hne hspl hcat hdep _ fun x e hx => ?_
  have : ∃ v, aleHeter (mkAle choice cast (List.map f)) cfg.feature bm cfg.minPoints centering x e = .ok v ∧ 0 ≤ v := by
    by_cases hxe : x = []
    · refine ⟨_, aleHeter_few _ _ _ _ _ _ _ ?_, big_pos.le⟩
      rw [hxe]; exact hmin
    · obtain ⟨lo, hi, hlim⟩ := axisLimits_ok hxe
      have hb : ∀ m cl, bm ≠ .fixed 0 m cl := by
        rintro m cl rfl
        have := hbm.1
        omega
      obtain ⟨v, h1, h2, -⟩ := C68_ale_heterogeneity choice cast f cfg.feature bm cfg.minPoints centering x e lo hi hlim hb
        (plain_safe hbm (rhaleCtx x [] lo hi cfg.feature)).2
      exact ⟨v, h1, h2⟩
  obtain ⟨v, h1, h2⟩ := this
  exact ⟨v, h1, h2, hbig x e v hx h1⟩

/-- **C71, RegionalPDP / RegionalDerPDP** (row-wise model, axis limits that contain the data, `nof_instances="all"` in `fit`, the default). -/
theorem C71_pdp_fit_never_raises_partial [PySqrt K] [LawfulSqrt K] (cfg : RegCfg K D) (heff : EffAligned cfg) (hne : cfg.data ≠ []) (hspl : 0 < cfg.nofSplits)
    (hcat : ∀ f ∈ cfg.foc, cfg.types f = .cat → distinct (cfg.data.map (· f)) ≤ max cfg.nofSplits cfg.catLimit)
    (hdep : cfg.maxLevels ≤ cfg.foc.length) (hmin : 1 ≤ cfg.minPoints) (choice : ℕ → ℕ → List ℕ) (M : PdpModel K D) (lo hi : Fin D → K)
    (_hw : AllWithin cfg.data lo hi) (centering : PyVal) (points : ℕ) (hp : 1 ≤ points) (vec : Bool)
    (hbig : ∀ x e v, RegionArg cfg.data cfg.dataEffect x e →
      pdpHeter choice id M.kind lo hi cfg.feature cfg.minPoints centering (.str "all") points vec x = .ok v → v ≤ 100000000) :
    ∃ r, searchAllSplitsM cfg (fun x _ => pdpHeter choice id M.kind lo hi cfg.feature cfg.minPoints centering (.str "all") points vec x) = .ok r := by
  refine C71_search_never_raises cfg heff hne hspl hcat hdep _ fun x e hx => ?_
  have : ∃ v, pdpHeter choice id M.kind lo hi cfg.feature cfg.minPoints centering (.str "all") points vec x = .ok v ∧ 0 ≤ v := by
    by_cases hxe : x = []
    · refine ⟨BIG_M, ?_, big_pos.le⟩
      unfold pdpHeter
      rw [if_pos]
      rw [hxe]; exact hmin
    · obtain ⟨r, hr⟩ := List.exists_mem_of_ne_nil _ hxe
      have hb := base_init_all choice x (some (lo, hi))
      simp only [limitsOr, Except.bind] at hb
      have hc : col x cfg.feature ≠ [] := by simpa [col] using hxe
      obtain ⟨mn, hmn⟩ := listMin_ne hc
      obtain ⟨mx, hmx⟩ := listMax_ne hc
      obtain ⟨v, h1, h2, -⟩ := pdp_heter_value choice M lo hi cfg.feature cfg.minPoints centering (.str "all") points hp vec x _ hb mn mx hmn hmx
      exact ⟨v, h1, h2⟩
  obtain ⟨v, h1, h2⟩ := this
  exact ⟨v, h1, h2, hbig x e v hx h1⟩

/-! ### Where the property fails -/

/-- Feature 0 is constant where feature 1 is 0. -/
def shapCrash : RegCfg ℚ 2 :=
  { feature := 0, heter := fun _ _ => 0, data := [![5, 0], ![5, 0], ![1, 1], ![2, 1]], dataEffect := none,
    types := ![.cont, .cat], names := fun _ => "", catLimit := 3, foc := [1], minPoints := 2, nofSplits := 2, maxLevels := 1, dropThres := 0,
    smallEnough := 0, splitCat := false }

/-- An explainer and a spline that never fail. -/
def calmExt : ShapExt ℚ 2 := { explain := fun d => .ok d, spline := fun _ => .ok fun _ => 1 }

/-- **C71 is false for RegionalShapDP**: whatever the external libraries do (here they never fail), `fit` raises `AssertionError` as soon as some candidate region
with enough rows has a constant value of the feature of interest. -/
theorem C71_false_shap :
    (∀ x : List (Row ℚ 2), x.length < 2 → shapHeter firstRows calmExt 0 2 (.bool false) (.str "all") 100 x = .ok (10 ^ 8)) ∧
    (match searchAllSplitsM shapCrash (fun x _ => shapHeter firstRows calmExt 0 2 (.bool false) (.str "all") 100 x) with
      | .error .assertionError => true | _ => false) = true := by
  simp only [BIG_M_lit] at *
  refine ⟨fun x hx => ?_, by decide +kernel⟩
  unfold shapHeter
  rw [if_pos hx]

/-- The hypotheses of C71 are met, and the result is not trivial: RHALE, where the effects depend on the conditioning feature. -/
example :
    let cfg : RegCfg ℚ 2 := { shapCrash with data := [![0, 0], ![1, 0], ![0, 1], ![1, 1]], dataEffect := some [![1, 0], ![1, 0], ![3, 0], ![3, 0]] }
    (match searchAllSplitsM cfg (aleHeter (mkRhale firstRows (List.map fun r => r 0) none) 0 (.fixed 1 (some 1) 1) 2 (.bool false)) with
      | .ok (some s) => decide (s.heterInit = 1) && s.levels.map (·.heterogeneity) == [[0, 0]]
      | _ => false) = true := by
  decide +kernel

end Effector
