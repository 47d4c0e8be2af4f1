import Verif.Model.Extras
import Verif.Props.Integrate
import Mathlib.MeasureTheory.Integral.IntervalIntegral.FundThmCalculus
import Mathlib.Analysis.SpecialFunctions.Integrals.Basic
import Mathlib.Data.Fin.VecNotation

/-!
# C100, C101: the parameter dictionaries and the expectation helpers
-/

set_option linter.unusedSectionVars false

namespace Effector

open Spec

/-! ### C100: dictionaries of fit parameters -/

namespace Spec

/-- The documented default of each parameter of `prep_dale_fit_params`. -/
def daleDefault (k : String) : Option ParVal :=
  if k = "bin_method" then some (.str "fixed")
  else if k = "nof_bins" then some (.int 100)
  else if k = "max_nof_bins" then some (.int 20)
  else if k = "min_points_per_bin" then some .none
  else none

/-- An absent entry, or an integer. -/
def IntOrAbsent (v : Option ParVal) : Prop := ∀ w, v = some w → ∃ i, w = .int i

/-- An absent entry, or one of the three names. -/
def MethodOrAbsent (v : Option ParVal) : Prop := ∀ w, v = some w → w = .str "fixed" ∨ w = .str "greedy" ∨ w = .str "dp"

end Spec

theorem has_iff (d : ParDict) (k : String) : d.has k = (d.lookup k).isSome := by
  unfold ParDict.has
  induction d with
  | nil => rfl
  | cons e t ih =>
    obtain ⟨a, v⟩ := e
    rw [List.any_cons, ih, List.lookup_cons]
    by_cases h : a = k
    · subst h; simp
    · have h' : ¬ k = a := fun hc => h hc.symm
      rw [beq_eq_false_iff_ne.mpr h, beq_eq_false_iff_ne.mpr h', Bool.false_or]

theorem lookup_add (d : ParDict) (k : String) (v : ParVal) (j : String) :
    (d.add k v).lookup j = (d.lookup j).or (if j = k then some v else none) := by
  unfold ParDict.add
  rw [List.lookup_append, List.lookup_cons, List.lookup_nil]
  by_cases h : j = k
  · subst h; simp
  · rw [beq_eq_false_iff_ne.mpr h, if_neg h]

theorem assertInt_ok (d : ParDict) (k : String) (v : ParVal) (h : d.lookup k = some v) : assertInt d k = .ok () ↔ ∃ i, v = .int i := by
  unfold assertInt ParDict.get
  rw [h]
  cases v <;> simp [bind, Except.bind]

theorem prepIntParam_spec (k : String) (n : ℤ) (d : ParDict) :
    (∀ j, (prepIntParam k n d).1.lookup j = (d.lookup j).or (if j = k then some (.int n) else none)) ∧
      ((prepIntParam k n d).2 = .ok () ↔ IntOrAbsent (d.lookup k)) := by
  unfold prepIntParam
  rw [has_iff]
  cases h : d.lookup k with
  | none =>
    simp only [Option.isSome_none, Bool.false_eq_true, if_false, true_iff]
    exact ⟨fun j => lookup_add d k _ j, fun w hw => by cases hw⟩
  | some v =>
    simp only [Option.isSome_some, if_true]
    refine ⟨fun j => ?_, ?_⟩
    · by_cases hj : j = k
      · subst hj; rw [h]; rfl
      · rw [if_neg hj, Option.or_none]
    · rw [assertInt_ok d k v h]
      unfold IntOrAbsent
      simp

theorem prepBinMethod_spec (d : ParDict) :
    (∀ j, (prepBinMethod d).1.lookup j = (d.lookup j).or (if j = "bin_method" then some (.str "fixed") else none)) ∧
      ((prepBinMethod d).2 = .ok () ↔ MethodOrAbsent (d.lookup "bin_method")) := by
  unfold prepBinMethod
  rw [has_iff]
  cases h : d.lookup "bin_method" with
  | none =>
    simp only [Option.isSome_none, Bool.false_eq_true, if_false, true_iff]
    exact ⟨fun j => lookup_add d _ _ j, fun w hw => by cases hw⟩
  | some v =>
    simp only [Option.isSome_some, if_true]
    refine ⟨fun j => ?_, ?_⟩
    · by_cases hj : j = "bin_method"
      · subst hj; rw [h]; rfl
      · rw [if_neg hj, Option.or_none]
    · unfold ParDict.get MethodOrAbsent
      rw [h]
      cases v with
      | str s =>
        simp only [bind, Except.bind, Option.some.injEq, forall_eq', ParVal.str.injEq]
        by_cases hs : s = "fixed" ∨ s = "greedy" ∨ s = "dp"
        · simp [hs]
        · simp only [hs, if_false, reduceCtorEq]
      | int i => simp [bind, Except.bind]
      | none => simp [bind, Except.bind]
      | other => simp [bind, Except.bind]

theorem prepMinPoints_spec (d : ParDict) (hm : ∃ i, d.lookup "max_nof_bins" = some (.int i)) :
    (∀ j, (prepMinPoints d).1.lookup j = (d.lookup j).or (if j = "min_points_per_bin" then some .none else none)) ∧ (prepMinPoints d).2 = .ok () := by
  unfold prepMinPoints
  rw [has_iff]
  cases h : d.lookup "min_points_per_bin" with
  | none =>
    simp only [Option.isSome_none, Bool.false_eq_true, if_false, and_true]
    exact fun j => lookup_add d _ _ j
  | some v =>
    simp only [Option.isSome_some, if_true]
    refine ⟨fun j => ?_, ?_⟩
    · by_cases hj : j = "min_points_per_bin"
      · subst hj; rw [h]; rfl
      · rw [if_neg hj, Option.or_none]
    · obtain ⟨i, hi⟩ := hm
      exact (assertInt_ok d _ _ hi).mpr ⟨i, rfl⟩

theorem thenDo_ok (r : ParDict × Py Unit) (f : ParDict → ParDict × Py Unit) : (thenDo r f).2 = .ok () ↔ r.2 = .ok () ∧ (f r.1).2 = .ok () := by
  unfold thenDo
  rcases h : r.2 with e | u
  · simp
  · simp

theorem thenDo_fst (r : ParDict × Py Unit) (f : ParDict → ParDict × Py Unit) (h : r.2 = .ok ()) : (thenDo r f).1 = (f r.1).1 := by
  unfold thenDo
  rw [h]

/-- **C100.**  `prep_dale_fit_params` accepts a dictionary exactly when the entries given for `bin_method`, `nof_bins` and `max_nof_bins` are valid, whatever the other entries
(also the one for `min_points_per_bin`); the resulting dictionary — the caller's own — has every entry that was given, unchanged, the documented default for each of the four
parameters that was not, and nothing else. -/
theorem C100_dale (par : Option ParDict) :
    ((prepDaleFitParams par).2 = .ok () ↔ MethodOrAbsent ((par.getD []).lookup "bin_method") ∧ IntOrAbsent ((par.getD []).lookup "nof_bins") ∧
      IntOrAbsent ((par.getD []).lookup "max_nof_bins")) ∧
    ((prepDaleFitParams par).2 = .ok () → ∀ k, (prepDaleFitParams par).1.lookup k = ((par.getD []).lookup k).or (daleDefault k)) := by
  generalize hd : par.getD [] = d
  unfold prepDaleFitParams
  rw [hd]
  obtain ⟨b1, b2⟩ := prepBinMethod_spec d
  generalize prepBinMethod d = r1 at *
  obtain ⟨n1, n2⟩ := prepIntParam_spec "nof_bins" 100 r1.1
  obtain ⟨x1, x2⟩ := prepIntParam_spec "max_nof_bins" 20 (prepIntParam "nof_bins" 100 r1.1).1
  have e1 : r1.1.lookup "nof_bins" = d.lookup "nof_bins" := by rw [b1]; simp
  have e2 : (prepIntParam "nof_bins" 100 r1.1).1.lookup "max_nof_bins" = d.lookup "max_nof_bins" := by rw [n1, b1]; simp
  rw [e1] at n2
  rw [e2] at x2
  generalize hr2 : prepIntParam "nof_bins" 100 r1.1 = r2 at *
  have hmax : (thenDo (thenDo r1 (prepIntParam "nof_bins" 100)) (prepIntParam "max_nof_bins" 20)).2 = .ok () →
      ∃ i, (thenDo (thenDo r1 (prepIntParam "nof_bins" 100)) (prepIntParam "max_nof_bins" 20)).1.lookup "max_nof_bins" = some (.int i) := by
    intro h
    obtain ⟨h1, h2⟩ := (thenDo_ok _ _).mp h
    obtain ⟨h3, h4⟩ := (thenDo_ok _ _).mp h1
    rw [thenDo_fst _ _ h1, thenDo_fst _ _ h3, hr2, x1, e2, if_pos rfl]
    rw [thenDo_fst _ _ h3, hr2] at h2
    have := x2.mp h2
    cases hm : d.lookup "max_nof_bins" with
    | none => exact ⟨20, rfl⟩
    | some v => obtain ⟨i, rfl⟩ := this v hm; exact ⟨i, rfl⟩
  constructor
  · constructor
    · intro h
      obtain ⟨h1, -⟩ := (thenDo_ok _ _).mp h
      obtain ⟨h2, h3⟩ := (thenDo_ok _ _).mp h1
      obtain ⟨h4, h5⟩ := (thenDo_ok _ _).mp h2
      rw [thenDo_fst _ _ h4, hr2] at h3
      rw [hr2] at h5
      exact ⟨b2.mp h4, n2.mp h5, x2.mp h3⟩
    · rintro ⟨h1, h2, h3⟩
      have g1 := b2.mpr h1
      have g2 : (thenDo r1 (prepIntParam "nof_bins" 100)).2 = .ok () := (thenDo_ok _ _).mpr ⟨g1, by rw [hr2]; exact n2.mpr h2⟩
      have g3 : (thenDo (thenDo r1 (prepIntParam "nof_bins" 100)) (prepIntParam "max_nof_bins" 20)).2 = .ok () :=
        (thenDo_ok _ _).mpr ⟨g2, by rw [thenDo_fst _ _ g1, hr2]; exact x2.mpr h3⟩
      exact (thenDo_ok _ _).mpr ⟨g3, (prepMinPoints_spec _ (hmax g3)).2⟩
  · intro h k
    obtain ⟨h1, -⟩ := (thenDo_ok _ _).mp h
    obtain ⟨h2, h3⟩ := (thenDo_ok _ _).mp h1
    obtain ⟨h4, h5⟩ := (thenDo_ok _ _).mp h2
    rw [thenDo_fst _ _ h1, (prepMinPoints_spec _ (hmax h1)).1, thenDo_fst _ _ h2, thenDo_fst _ _ h4, hr2, x1, n1, b1]
    unfold daleDefault
    cases d.lookup k with
    | some v => simp
    | none =>
      by_cases hk1 : k = "bin_method"
      · subst hk1; simp
      · by_cases hk2 : k = "nof_bins"
        · subst hk2; simp
        · by_cases hk3 : k = "max_nof_bins"
          · subst hk3; simp
          · by_cases hk4 : k = "min_points_per_bin"
            · subst hk4; simp
            · simp [hk1, hk2, hk3, hk4]

/-- **C100.**  `prep_ale_fit_params`: the same for its one parameter; `None` raises AttributeError although the sibling function accepts it. -/
theorem C100_ale (d : ParDict) :
    ((prepAleFitParams (some d)).2 = .ok () ↔ IntOrAbsent (d.lookup "nof_bins")) ∧
    (∀ k, (prepAleFitParams (some d)).1.lookup k = (d.lookup k).or (if k = "nof_bins" then some (.int 100) else none)) ∧
    (prepAleFitParams none).2 = .error .attributeError ∧ (prepDaleFitParams none).2 = .ok () := by
  obtain ⟨h1, h2⟩ := prepIntParam_spec "nof_bins" 100 d
  exact ⟨h2, h1, rfl, by decide +kernel⟩

/-- **C100, completing twice.**  Passing the completed dictionary again changes nothing. -/
theorem C100_again (par : Option ParDict) (h : (prepDaleFitParams par).2 = .ok ()) :
    (prepDaleFitParams (some (prepDaleFitParams par).1)).2 = .ok () ∧
      ∀ k, (prepDaleFitParams (some (prepDaleFitParams par).1)).1.lookup k = (prepDaleFitParams par).1.lookup k := by
  have hl := (C100_dale par).2 h
  have ha := (C100_dale par).1.mp h
  generalize hd : par.getD [] = d at *
  generalize prepDaleFitParams par = r at *
  have e : (some r.1).getD [] = r.1 := rfl
  have hok : (prepDaleFitParams (some r.1)).2 = .ok () := by
    rw [(C100_dale (some r.1)).1, e, hl, hl, hl]
    refine ⟨fun w hw => ?_, fun w hw => ?_, fun w hw => ?_⟩
    · cases hx : d.lookup "bin_method" with
      | some v => rw [hx] at hw; cases hw; exact ha.1 _ hx
      | none => rw [hx] at hw; cases hw; exact Or.inl rfl
    · cases hx : d.lookup "nof_bins" with
      | some v => rw [hx] at hw; cases hw; exact ha.2.1 _ hx
      | none => rw [hx] at hw; cases hw; exact ⟨100, rfl⟩
    · cases hx : d.lookup "max_nof_bins" with
      | some v => rw [hx] at hw; cases hw; exact ha.2.2 _ hx
      | none => rw [hx] at hw; cases hw; exact ⟨20, rfl⟩
  refine ⟨hok, fun k => ?_⟩
  rw [(C100_dale (some r.1)).2 hok, e, hl]
  cases d.lookup k with
  | some v => rfl
  | none => cases daleDefault k <;> rfl

/-- **C100 is false of `min_points_per_bin`**: any value is accepted, because line 70 of helpers.py tests the type of `max_nof_bins` again. -/
theorem C100_false (v : ParVal) : (prepDaleFitParams (some [("min_points_per_bin", v)])).2 = .ok () ∧
    (prepDaleFitParams (some [("min_points_per_bin", v)])).1.lookup "min_points_per_bin" = some v := by
  have h : (prepDaleFitParams (some [("min_points_per_bin", v)])).2 = .ok () :=
    (C100_dale _).1.mpr ⟨fun w hw => by simp [List.lookup] at hw, fun w hw => by simp [List.lookup] at hw, fun w hw => by simp [List.lookup] at hw⟩
  refine ⟨h, ?_⟩
  rw [(C100_dale _).2 h]
  simp

/-- A rejected dictionary and a completed one. -/
example : (prepDaleFitParams (some [("nof_bins", .str "5")])).2 = .error .assertionError ∧
    (prepDaleFitParams (some [("nof_bins", .str "5")])).1 = [("nof_bins", .str "5"), ("bin_method", .str "fixed")] ∧
    (prepDaleFitParams (some [("bin_method", .str "dp"), ("my_key", .other)])).1 =
      [("bin_method", .str "dp"), ("my_key", .other), ("nof_bins", .int 100), ("max_nof_bins", .int 20), ("min_points_per_bin", .none)] := by
  decide +kernel

/-! ### C101: expectations over the other features -/

noncomputable section

/-- An exact quadrature. -/
def exactQuad : Quadrature ℝ := fun f a b => ∫ x in a..b, f x

/-- The model as passed to the library: row by row. -/
def rowModel {D : ℕ} (f : Row ℝ D → ℝ) : List (Row ℝ D) → List ℝ := List.map f

/-- **C101, two features.**  `expectation_1D(xs, func, p, s, a, b)` is the integral over the *other* feature of the model with feature `s` at `xs`, weighted with `p`. -/
theorem C101_two (f : Row ℝ 2 → ℝ) (p : ℝ → ℝ) (xs a b : ℝ) (s t : Fin 2) (hst : s ≠ t) :
    expectation1D exactQuad xs (rowModel f) p (s : ℕ) a b = ∫ x in a..b, f (Function.update (fun _ => xs) t x) * p x := by
  unfold expectation1D exactQuad rowModel
  congr 1
  funext x
  simp only [List.map_cons, List.map_nil, List.headD_cons]
  congr 2
  fin_cases s <;> fin_cases t <;> first | exact absurd rfl hst | skip
  · funext i; fin_cases i <;> rfl
  · funext i; fin_cases i <;> rfl

/-- **C101, three features, what the code integrates.**  The first of the other features runs over the limits of feature 1 and the second over those of feature 2, whatever `s`. -/
theorem C101_three (f : Row ℝ 3 → ℝ) (p : ℝ → ℝ → ℝ) (xs : ℝ) (lo hi : Fin 3 → ℝ) (s t u : Fin 3) (htu : t < u) (hs : s ≠ t ∧ s ≠ u) :
    expectation2D exactQuad xs (rowModel f) p s lo hi =
      ∫ z in (lo 2)..(hi 2), ∫ y in (lo 1)..(hi 1), f (Function.update (Function.update (fun _ => xs) t y) u z) * p y z := by
  unfold expectation2D dblquad exactQuad rowModel
  refine intervalIntegral.integral_congr fun z _ => ?_
  simp only []
  refine intervalIntegral.integral_congr fun y _ => ?_
  simp only [List.map_cons, List.map_nil, List.headD_cons]
  congr 2
  obtain ⟨h1, h2⟩ := hs
  fin_cases s <;> fin_cases t <;> fin_cases u <;> first | exact absurd rfl h1 | exact absurd rfl h2 | exact absurd htu (by decide) | skip
  all_goals funext i; fin_cases i <;> rfl

/-- **C101, partial.**  For the first feature these are the right ranges: the other two features over their own limits.  Missing: `s = 1` and `s = 2`, for which
the claim is false (`C101_false`). -/
theorem C101_three_partial (f : Row ℝ 3 → ℝ) (p : ℝ → ℝ → ℝ) (xs : ℝ) (lo hi : Fin 3 → ℝ) (t u : Fin 3) (htu : t < u) (ht : t ≠ 0) :
    expectation2D exactQuad xs (rowModel f) p 0 lo hi =
      ∫ z in (lo u)..(hi u), ∫ y in (lo t)..(hi t), f (Function.update (Function.update (fun _ => xs) t y) u z) * p y z := by
  have h : t = 1 ∧ u = 2 := by
    fin_cases t <;> fin_cases u <;> first | exact absurd rfl ht | exact absurd htu (by decide) | exact ⟨rfl, rfl⟩
  obtain ⟨rfl, rfl⟩ := h
  exact C101_three f p xs lo hi 0 1 2 (by decide) ⟨by decide, by decide⟩

/-- **C101 is false for the second and the third feature**: with features on [0,1], [0,2], [0,3], the constant model 1 and weight 1, both integrals should be the area of the ranges of
the other two features (3 and 2); `expecation_2D` returns 6 for both. -/
theorem C101_false :
    expectation2D exactQuad 0 (rowModel fun _ => 1) (fun _ _ => 1) 1 (fun _ => 0) ![1, 2, 3] = 6 ∧
    expectation2D exactQuad 0 (rowModel fun _ => 1) (fun _ _ => 1) 2 (fun _ => 0) ![1, 2, 3] = 6 ∧
    (∫ _z in (0 : ℝ)..3, ∫ _y in (0 : ℝ)..1, (1 : ℝ) * 1) = 3 ∧ (∫ _z in (0 : ℝ)..2, ∫ _y in (0 : ℝ)..1, (1 : ℝ) * 1) = 2 := by
  refine ⟨?_, ?_, ?_, ?_⟩
  · rw [C101_three _ _ _ _ _ 1 0 2 (by decide) ⟨by decide, by decide⟩]
    simp
    norm_num
  · rw [C101_three _ _ _ _ _ 2 0 1 (by decide) ⟨by decide, by decide⟩]
    simp
    norm_num
  · simp
  · simp

/-- **C101, the two integrators.**  `integrate_1d_quad` of a pointwise function is its integral; on every non-zero constant and proper interval `integrate_1d_linspace` returns
something else (999/1000 of it). -/
theorem C101_integrators (g : ℝ → ℝ) (a b c : ℝ) :
    integrate1dQuad exactQuad (List.map g) a b = ∫ x in a..b, g x ∧
    integrate1dQuad exactQuad (List.map fun _ => c) a b = c * (b - a) ∧
    integrate1dLinspace (fun xs => .ok (xs.map fun _ => c)) a b = .ok (999 / 1000 * (c * (b - a))) := by
  refine ⟨rfl, ?_, ?_⟩
  · show (∫ _x in a..b, c) = _
    simp [mul_comm]
  · have := C58_integral_partial (0 : ℝ) c a b
    simpa only [zero_mul, zero_add] using this

end

end Effector
