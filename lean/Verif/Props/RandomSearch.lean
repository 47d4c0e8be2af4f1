import Verif.Model.RandomFit
import Verif.Lemmas.Calls
import Verif.Props.TreeData
import Verif.Props.MissingSearch

/-!
# C117: a search whose heterogeneity function has a state (a random draw, a model that does not answer the same twice)

The theorems about the search (C40, C41, C47, ...) take the heterogeneity of a region as a function of the region.  Here it is any program: it may answer differently each time it is
asked, raise, and change a state.
-/

set_option linter.unusedSectionVars false

namespace Effector

variable {K : Type} [Field K] [LinearOrder K] [IsStrictOrderedRing K] {D : ℕ} {σ S α β : Type}

open Spec

namespace Spec

/-- Ask for the heterogeneities of regions, one after the other. -/
def ask (h : HeterR σ K D S) (Rs : List (Region K D)) : RunM σ K D S (List K) := runEach (fun R => h R.1 R.2) Rs

/-- The average of the values, weighted with the size of their regions plus one. -/
def measuredHeter (Rs : List (Region K D)) (vs : List K) : K := ((Rs.zip vs).map fun p => p.2 * mass p.1).sum / (Rs.map mass).sum

/-- The drop of the heterogeneity at a split, for the values `vs` that were measured for the sides: the average of the value of the region before the split minus that of the
side, weighted with the size of the side plus one. -/
def measuredDrop (Rs : List (Region K D)) (before : List K) (vs : List K) : K :=
  ((Rs.zip ((before.flatMap fun b => [b, b]).zip vs)).map fun p => (p.2.1 - p.2.2) * mass p.1).sum / (Rs.map mass).sum

/-- One level of the search, of the regions `Rs` whose stored heterogeneities are `before`: every candidate split (and nothing else) was measured, the sides of all regions one
after the other; the split that was chosen has the largest drop of the values measured for it; then the sides of the chosen split were measured once more, and it is these new
values that are stored. -/
def BestMeasured (cfg : RegCfg K D) (h : HeterR σ K D S) (Rs : List (Region K D)) (before : List K) (y y' : Sys σ K D S) (sp : Split K D) : Prop :=
  ∃ (table : List ((Fin D × K) × List K)) (y1 : Sys σ K D S),
    (∀ f pos, (f, pos) ∈ table.map (·.1) ↔ f ∈ cfg.foc ∧ Candidate cfg.data cfg.types cfg.nofSplits f pos) ∧
    (∀ c ∈ table, c.2.length = 2 * Rs.length) ∧
    ask h (table.flatMap fun c => parts c.1.1 c.1.2 (cfg.types c.1.1) Rs) y = (y1, .ok (table.flatMap (·.2))) ∧
    (∃ c ∈ table, c.1 = (sp.feature, sp.position) ∧ sp.wHeterDrop = measuredDrop (parts c.1.1 c.1.2 (cfg.types c.1.1) Rs) before c.2 ∧
      sp.wHeter = measuredHeter (parts c.1.1 c.1.2 (cfg.types c.1.1) Rs) c.2) ∧
    (∀ c ∈ table, measuredDrop (parts c.1.1 c.1.2 (cfg.types c.1.1) Rs) before c.2 ≤ sp.wHeterDrop) ∧
    sp.typ = cfg.types sp.feature ∧
    ask h (parts sp.feature sp.position sp.typ Rs) y1 = (y', .ok sp.heterogeneity)

end Spec

/-! ### Sequences of programs -/

theorem runBind_ok {p : RunM σ K D S α} {f : α → RunM σ K D S β} {y y' : Sys σ K D S} {b : β} (h : (p >>= f) y = (y', .ok b)) :
    ∃ y1 a, p y = (y1, .ok a) ∧ f a y1 = (y', .ok b) := by
  rw [run_bind] at h
  generalize p y = q at h
  obtain ⟨y1, r⟩ := q
  cases r with
  | error e => cases h
  | ok a => exact ⟨y1, a, rfl, h⟩

theorem runBind_of {p : RunM σ K D S α} {f : α → RunM σ K D S β} {y y1 : Sys σ K D S} {a : α} (h : p y = (y1, .ok a)) : (p >>= f) y = f a y1 := by
  rw [run_bind, h]; rfl

theorem runInert_ok {x : Py α} {y y' : Sys σ K D S} {a : α} (h : inert x y = (y', .ok a)) : y = y' ∧ x = .ok a := by
  obtain ⟨h1, h2⟩ := Prod.mk.inj h
  exact ⟨h1, h2⟩

theorem runPure_ok {a b : α} {y y' : Sys σ K D S} (h : (pure a : RunM σ K D S α) y = (y', .ok b)) : y = y' ∧ a = b := by
  obtain ⟨h1, h2⟩ := Prod.mk.inj h
  exact ⟨h1, Except.ok.inj h2⟩

theorem runEach_length {f : β → RunM σ K D S α} {l : List β} {y y' : Sys σ K D S} {r : List α} (h : runEach f l y = (y', .ok r)) : r.length = l.length := by
  induction l generalizing y r with
  | nil =>
    obtain ⟨-, rfl⟩ := runPure_ok h
    rfl
  | cons b t ih =>
    obtain ⟨y1, a, -, h⟩ := runBind_ok h
    obtain ⟨y2, as, h2, h⟩ := runBind_ok h
    obtain ⟨rfl, rfl⟩ := runPure_ok h
    rw [List.length_cons, List.length_cons, ih h2]

theorem runEach_append {f : β → RunM σ K D S α} {l l' : List β} {y y1 y2 : Sys σ K D S} {r r' : List α} (h : runEach f l y = (y1, .ok r)) (h' : runEach f l' y1 = (y2, .ok r')) :
    runEach f (l ++ l') y = (y2, .ok (r ++ r')) := by
  induction l generalizing y r with
  | nil =>
    obtain ⟨rfl, rfl⟩ := runPure_ok h
    exact h'
  | cons b t ih =>
    obtain ⟨y3, a, h1, h⟩ := runBind_ok h
    obtain ⟨y4, as, h2, h⟩ := runBind_ok h
    obtain ⟨rfl, rfl⟩ := runPure_ok h
    rw [List.cons_append]
    show (f b >>= fun a => runEach f (t ++ l') >>= fun as => pure (a :: as)) y = _
    rw [runBind_of h1, runBind_of (ih h2)]
    rfl

/-! ### One candidate -/

theorem runHeters_ask (h : HeterR σ K D S) (xs : List (List (Row K D))) (js : Option (List (List (Row K D)))) : runHeters h xs js = ask h (pairUp xs js) := by
  unfold runHeters ask pairUp
  cases js with
  | none =>
    induction xs with
    | nil => rfl
    | cons a t ih =>
      rw [List.map_cons]
      dsimp only at ih ⊢
      unfold runEach
      rw [ih]
  | some js =>
    dsimp only
    induction xs.zip js with
    | nil => rfl
    | cons a t ih =>
      rw [List.map_cons]
      unfold runEach
      rw [ih]

theorem measured_values (Rs : List (Region K D)) (before vs : List K) :
    (List.zipWith (· * ·) (heterDrops before vs) (splitWeights (Rs.map (·.1)))).sum = measuredDrop Rs before vs ∧
      (List.zipWith (· * ·) (splitWeights (Rs.map (·.1))) vs).sum = measuredHeter Rs vs := by
  rw [splitWeights_eq]
  unfold measuredDrop measuredHeter heterDrops
  generalize (Rs.map mass).sum = T
  constructor
  · generalize (before.flatMap fun b => [b, b]) = bs
    induction Rs generalizing bs vs with
    | nil => simp
    | cons R t ih =>
      cases bs with
      | nil => simp
      | cons b bs =>
        cases vs with
        | nil => simp
        | cons v vs =>
          have := ih vs bs
          simp only [List.zipWith_cons_cons, List.map_cons, List.sum_cons, List.zip_cons_cons] at this ⊢
          rw [this]
          ring
  · induction Rs generalizing vs with
    | nil => simp
    | cons R t ih =>
      cases vs with
      | nil => simp
      | cons v vs =>
        have := ih vs
        simp only [List.zipWith_cons_cons, List.map_cons, List.sum_cons, List.zip_cons_cons] at this ⊢
        rw [this]
        ring

theorem splitAll_parts (xs : List (List (Row K D))) (js : Option (List (List (Row K D)))) (hj : ∀ l, js = some l → xs.length = l.length) (f : Fin D) (pos : K) (typ : FeatType) :
    splitAll xs f pos typ = (parts f pos typ (pairUp xs js)).map (·.1) := by
  rw [← pairUp_splitAll xs js hj f pos typ, pairUp_fst]
  intro l hl
  cases js with
  | none => simp at hl
  | some l' =>
    simp only [Option.map_some, Option.some.injEq] at hl
    rw [← hl, length_splitAll, length_splitAllEff _ _ (hj l' rfl)]

theorem pairUp_length (xs : List (List (Row K D))) (js : Option (List (List (Row K D)))) (hj : ∀ l, js = some l → xs.length = l.length) : (pairUp xs js).length = xs.length := by
  rw [← List.length_map (f := (·.1)), pairUp_fst xs js hj]

theorem length_parts (f : Fin D) (pos : K) (typ : FeatType) (Rs : List (Region K D)) : (parts f pos typ Rs).length = 2 * Rs.length := by
  unfold parts
  simp [List.length_flatMap]
  ring

section

variable {cfg : RegCfg K D} {h : HeterR σ K D S} {xs : List (List (Row K D))} {js : Option (List (List (Row K D)))} (hj : ∀ l, js = some l → xs.length = l.length)
  {before : List K}

include hj

theorem runCandidate_ok {f : Fin D} {typ : FeatType} {pos : K} {y y' : Sys σ K D S} {v : K × K} (hr : runCandidate h xs js before f typ pos y = (y', .ok v)) :
    ∃ vs, ask h (parts f pos typ (pairUp xs js)) y = (y', .ok vs) ∧ vs.length = 2 * xs.length ∧
      v = (measuredDrop (parts f pos typ (pairUp xs js)) before vs, measuredHeter (parts f pos typ (pairUp xs js)) vs) := by
  unfold runCandidate at hr
  obtain ⟨y1, sub, h1, hr⟩ := runBind_ok hr
  obtain ⟨rfl, rfl⟩ := runPure_ok hr
  rw [runHeters_ask, pairUp_splitAll xs js hj] at h1
  refine ⟨sub, h1, ?_, ?_⟩
  · rw [runEach_length h1, length_parts, pairUp_length xs js hj]
  · obtain ⟨e1, e2⟩ := measured_values (parts f pos typ (pairUp xs js)) before sub
    rw [splitAll_parts xs js hj, e1, e2]

/-- One feature: a table of its positions with the values measured for them. -/
theorem runRowFrom_ok {w : ℕ} {f : Fin D} {typ : FeatType} {ps : List K} {i : ℕ} {y y' : Sys σ K D S} {r : List (K × K)}
    (hr : runRowFrom h w xs js before f typ i ps y = (y', .ok r)) :
    ∃ T : List (K × List K), T.map (·.1) = ps ∧ (∀ c ∈ T, c.2.length = 2 * xs.length) ∧
      ask h (T.flatMap fun c => parts f c.1 typ (pairUp xs js)) y = (y', .ok (T.flatMap (·.2))) ∧
      r = T.map (fun c => (measuredDrop (parts f c.1 typ (pairUp xs js)) before c.2, measuredHeter (parts f c.1 typ (pairUp xs js)) c.2)) ∧
      (ps ≠ [] → i + ps.length ≤ w) := by
  induction ps generalizing i y r with
  | nil =>
    unfold runRowFrom at hr
    obtain ⟨rfl, rfl⟩ := runPure_ok hr
    exact ⟨[], rfl, by simp, rfl, rfl, fun h => absurd rfl h⟩
  | cons pos t ih =>
    unfold runRowFrom at hr
    obtain ⟨y1, v, h1, hr⟩ := runBind_ok hr
    obtain ⟨y2, u, h2, hr⟩ := runBind_ok hr
    obtain ⟨y3, vs, h3, hr⟩ := runBind_ok hr
    obtain ⟨rfl, rfl⟩ := runPure_ok hr
    obtain ⟨rfl, h2⟩ := runInert_ok h2
    obtain ⟨sub, h4, h5, rfl⟩ := runCandidate_ok hj h1
    obtain ⟨T, e1, e2, e3, e4, e5⟩ := ih h3
    refine ⟨(pos, sub) :: T, by rw [List.map_cons, e1], ?_, ?_, ?_, ?_⟩
    · intro c hc
      rcases List.mem_cons.mp hc with rfl | hc
      · exact h5
      · exact e2 c hc
    · rw [List.flatMap_cons, List.flatMap_cons]
      exact runEach_append h4 e3
    · rw [List.map_cons, e4]
    · intro _
      have hi : i < w := by
        by_contra hn
        rw [if_neg hn] at h2
        cases h2
      rw [List.length_cons]
      cases t with
      | nil => exact hi
      | cons a t =>
        have := e5 (by simp)
        omega

/-- All features. -/
theorem runRows_ok {w : ℕ} {l : List (Fin D × List K)} {y y' : Sys σ K D S} {rows : List (List (K × K))}
    (hr : runEach (fun p => runRowFrom h w xs js before p.1 (cfg.types p.1) 0 p.2) l y = (y', .ok rows)) :
    ∃ T : List (List (K × List K)), List.Forall₂ (fun p (t : List (K × List K)) => t.map (·.1) = p.2 ∧ (∀ c ∈ t, c.2.length = 2 * xs.length) ∧ p.2.length ≤ w) l T ∧
      ask h ((l.zip T).flatMap fun q => q.2.flatMap fun c => parts q.1.1 c.1 (cfg.types q.1.1) (pairUp xs js)) y = (y', .ok (T.flatMap fun t => t.flatMap (·.2))) ∧
      rows = (l.zip T).map fun q => q.2.map fun c => (measuredDrop (parts q.1.1 c.1 (cfg.types q.1.1) (pairUp xs js)) before c.2,
        measuredHeter (parts q.1.1 c.1 (cfg.types q.1.1) (pairUp xs js)) c.2) := by
  induction l generalizing y rows with
  | nil =>
    obtain ⟨rfl, rfl⟩ := runPure_ok hr
    exact ⟨[], .nil, rfl, rfl⟩
  | cons p t ih =>
    obtain ⟨y1, r, h1, hr⟩ := runBind_ok hr
    obtain ⟨y2, rs, h2, hr⟩ := runBind_ok hr
    obtain ⟨rfl, rfl⟩ := runPure_ok hr
    obtain ⟨T0, e1, e2, e3, e4, e5⟩ := runRowFrom_ok hj h1
    obtain ⟨T, g1, g2, g3⟩ := ih h2
    refine ⟨T0 :: T, .cons ⟨e1, e2, ?_⟩ g1, ?_, ?_⟩
    · by_cases hp : p.2 = []
      · rw [hp]; simp
      · have := e5 hp
        omega
    · rw [List.zip_cons_cons, List.flatMap_cons, List.flatMap_cons]
      exact runEach_append e3 g2
    · rw [List.zip_cons_cons, List.map_cons, e4, g3]

/-- **C117, one level.**  What a level of the search has measured, what it chose and what it stored, for a heterogeneity that may be another one each time it is asked for. -/
theorem runSingleLevel_best {y y' : Sys σ K D S} {sp : Split K D} (hr : runSingleLevel cfg h xs js before y = (y', .ok sp)) :
    BestMeasured cfg h (pairUp xs js) before y y' sp ∧ sp.feature ∈ cfg.foc ∧ Candidate cfg.data cfg.types cfg.nofSplits sp.feature sp.position ∧
      sp.nofInstances = (splitAll xs sp.feature sp.position sp.typ).map List.length ∧ sp.heterogeneity.length = 2 * xs.length := by
  unfold runSingleLevel at hr
  obtain ⟨y0, cands, h1, hr⟩ := runBind_ok hr
  obtain ⟨rfl, hc⟩ := runInert_ok h1
  clear h1
  obtain ⟨y1, rows, h2, hr⟩ := runBind_ok hr
  obtain ⟨y2, u, i3, hr⟩ := runBind_ok hr
  obtain ⟨rfl, h3⟩ := runInert_ok i3
  clear i3
  obtain ⟨y3, f, i4, hr⟩ := runBind_ok hr
  obtain ⟨rfl, h4⟩ := runInert_ok i4
  clear i4
  obtain ⟨y4, ps, i5, hr⟩ := runBind_ok hr
  obtain ⟨rfl, h5⟩ := runInert_ok i5
  clear i5
  obtain ⟨y5, pos, i6, hr⟩ := runBind_ok hr
  obtain ⟨rfl, h6⟩ := runInert_ok i6
  clear i6
  obtain ⟨y6, sub, h7, hr⟩ := runBind_ok hr
  obtain ⟨y7, mn, i8, hr⟩ := runBind_ok hr
  obtain ⟨rfl, h8⟩ := runInert_ok i8
  clear i8
  obtain ⟨y8, mx, i9, hr⟩ := runBind_ok hr
  obtain ⟨rfl, h9⟩ := runInert_ok i9
  clear i9
  obtain ⟨y9, r, i10, hr⟩ := runBind_ok hr
  obtain ⟨rfl, h10⟩ := runInert_ok i10
  clear i10
  obtain ⟨y10, v, i11, hr⟩ := runBind_ok hr
  obtain ⟨rfl, h11⟩ := runInert_ok i11
  clear i11
  obtain ⟨rfl, rfl⟩ := runPure_ok hr
  have pi : ∀ {α : Type} {l : List α} {i : ℕ} {a : α}, pyIndex l i = .ok a → l[i]? = some a := by
    intro α l i a h
    unfold pyIndex at h
    rcases he : l[i]? with _ | b
    · rw [he] at h; simp at h
    · rw [he] at h; simpa using h
  replace h4 := pi h4
  replace h5 := pi h5
  replace h6 := pi h6
  replace h10 := pi h10
  replace h11 := pi h11
  have hlc : cands.length = cfg.foc.length := mapM_len hc
  obtain ⟨T, g1, g2, g3⟩ := runRows_ok hj h2
  generalize hw : max cfg.nofSplits cfg.catLimit = w at *
  generalize hflat : (rows.flatMap fun r => r.map (·.1) ++ List.replicate (w - r.length) (-BIG_M)) = flat at *
  have hne : flat ≠ [] := by
    intro hn
    rw [if_pos hn] at h3
    cases h3
  obtain ⟨top, v1, v2, -⟩ := npArgmax_spec flat hne
  have hlT : T.length = cfg.foc.length := by
    rw [← g1.length_eq, List.length_zip, hlc, Nat.min_self]
  -- a cell of the table is in the matrix
  have hcell : ∀ (a : ℕ) g qs t, cfg.foc[a]? = some g → cands[a]? = some qs → T[a]? = some t → t.map (·.1) = qs ∧ (∀ c ∈ t, c.2.length = 2 * xs.length) ∧ qs.length ≤ w ∧
      rows[a]? = some (t.map fun c => (measuredDrop (parts g c.1 (cfg.types g) (pairUp xs js)) before c.2, measuredHeter (parts g c.1 (cfg.types g) (pairUp xs js)) c.2)) := by
    intro a g qs t ha hq ht
    have hz : (cfg.foc.zip cands)[a]? = some (g, qs) := by rw [List.getElem?_zip_eq_some]; exact ⟨ha, hq⟩
    have := forall2_get g1 hz ht
    obtain ⟨t1, t2, t3⟩ := this
    refine ⟨t1, t2, t3, ?_⟩
    have hz2 : ((cfg.foc.zip cands).zip T)[a]? = some ((g, qs), t) := by rw [List.getElem?_zip_eq_some]; exact ⟨hz, ht⟩
    rw [g3, List.getElem?_map, hz2]
    rfl
  have hlr : rows.length = cfg.foc.length := by rw [g3, List.length_map, List.length_zip, List.length_zip, hlc, hlT, Nat.min_self, Nat.min_self]
  have hrl : ∀ r ∈ rows, r.length ≤ w := by
    intro r hrm
    obtain ⟨a, ha⟩ := List.getElem?_of_mem hrm
    have hlt := (List.getElem?_eq_some_iff.mp ha).1
    obtain ⟨t1, t2, t3, t4⟩ := hcell a (cfg.foc[a]'(by omega)) (cands[a]'(by omega)) (T[a]'(by omega)) (List.getElem?_eq_getElem _) (List.getElem?_eq_getElem _)
      (List.getElem?_eq_getElem _)
    rw [ha] at t4
    rw [Option.some.inj t4, List.length_map, ← List.length_map (f := (·.1)), t1]
    exact t3
  have hmat : ∀ (a : ℕ) r (j : ℕ) x, rows[a]? = some r → r[j]? = some x → flat[a * w + j]? = some x.1 ∧ j < w := by
    intro a r j x ha hx
    have hjr := (List.getElem?_eq_some_iff.mp hx).1
    have hle := hrl r (List.mem_of_getElem? ha)
    rw [← hflat, List.flatMap_def]
    rw [flatten_get w _ ?_ a j (r.map (·.1) ++ List.replicate (w - r.length) (-BIG_M)) (by rw [List.getElem?_map, ha]; rfl) (by omega)]
    · rw [List.getElem?_append_left (by simpa using hjr), List.getElem?_map, hx]
      exact ⟨rfl, by omega⟩
    · intro q hq
      obtain ⟨r', hr', rfl⟩ := List.mem_map.mp hq
      have := hrl r' hr'
      simp
      omega
  have hi4 := (List.getElem?_eq_some_iff.mp h4).1
  obtain ⟨t, ht⟩ : ∃ t, T[npArgmax flat / w]? = some t := ⟨T[npArgmax flat / w]'(by omega), List.getElem?_eq_getElem _⟩
  obtain ⟨c1, c2, c3, c4⟩ := hcell _ f ps t h4 h5 ht
  rw [h10] at c4
  obtain rfl := Option.some.inj c4
  have hv : v.1 = top := by
    have := (hmat _ _ _ _ h10 h11).1
    rw [Nat.div_add_mod', v1] at this
    exact (Option.some.inj this).symm
  rw [List.getElem?_map] at h11
  obtain ⟨c, hct, hcv⟩ : ∃ c, t[npArgmax flat % w]? = some c ∧ (measuredDrop (parts f c.1 (cfg.types f) (pairUp xs js)) before c.2, measuredHeter (parts f c.1 (cfg.types f) (pairUp xs js)) c.2) = v := by
    cases e : t[npArgmax flat % w]? with
    | none => rw [e] at h11; cases h11
    | some c => rw [e] at h11; exact ⟨c, rfl, Option.some.inj h11⟩
  have hcp : c.1 = pos := by
    have : (t.map (·.1))[npArgmax flat % w]? = some c.1 := by rw [List.getElem?_map, hct]; rfl
    rw [c1, h6] at this
    exact (Option.some.inj this).symm
  have hcand : Candidate cfg.data cfg.types cfg.nofSplits f pos := by
    obtain ⟨ps', k1, k2, -⟩ := candidates_spec cfg cands hc _ f h4
    rw [h5] at k1
    obtain rfl := Option.some.inj k1
    exact (k2 pos).mp (List.mem_of_getElem? h6)
  rw [runHeters_ask, pairUp_splitAll xs js hj] at h7
  refine ⟨⟨((cfg.foc.zip cands).zip T).flatMap fun q => q.2.map fun c => ((q.1.1, c.1), c.2), y1, ?_, ?_, ?_, ?_, ?_, rfl, h7⟩, List.mem_of_getElem? h4, hcand, rfl, ?_⟩
  · intro g p
    constructor
    · intro hm
      obtain ⟨e, he, hep⟩ := List.mem_map.mp hm
      obtain ⟨q, hq, hqe⟩ := List.mem_flatMap.mp he
      obtain ⟨c', hc', rfl⟩ := List.mem_map.mp hqe
      obtain ⟨a, ha⟩ := List.getElem?_of_mem hq
      rw [List.getElem?_zip_eq_some, List.getElem?_zip_eq_some] at ha
      obtain ⟨d1, -⟩ := hcell a _ _ _ ha.1.1 ha.1.2 ha.2
      obtain ⟨ps', k1, k2, -⟩ := candidates_spec cfg cands hc a _ ha.1.1
      rw [ha.1.2] at k1
      obtain ⟨rfl, rfl⟩ := Prod.mk.inj hep
      refine ⟨List.mem_of_getElem? ha.1.1, (k2 _).mp ?_⟩
      rw [← Option.some.inj k1, ← d1]
      exact List.mem_map_of_mem hc'
    · rintro ⟨hg, hp⟩
      obtain ⟨a, ha⟩ := List.getElem?_of_mem hg
      have hlt := (List.getElem?_eq_some_iff.mp ha).1
      obtain ⟨ps', k1, k2, -⟩ := candidates_spec cfg cands hc a g ha
      obtain ⟨t', ht'⟩ : ∃ t', T[a]? = some t' := ⟨T[a]'(by omega), List.getElem?_eq_getElem _⟩
      obtain ⟨d1, -⟩ := hcell a _ _ _ ha k1 ht'
      have hp' := (k2 p).mpr hp
      rw [← d1] at hp'
      obtain ⟨c', hc', rfl⟩ := List.mem_map.mp hp'
      refine List.mem_map.mpr ⟨((g, c'.1), c'.2), List.mem_flatMap.mpr ⟨((g, ps'), t'), ?_, List.mem_map_of_mem hc'⟩, rfl⟩
      refine List.mem_of_getElem? (i := a) ?_
      rw [List.getElem?_zip_eq_some, List.getElem?_zip_eq_some]
      exact ⟨⟨ha, k1⟩, ht'⟩
  · intro e he
    obtain ⟨q, hq, hqe⟩ := List.mem_flatMap.mp he
    obtain ⟨c', hc', rfl⟩ := List.mem_map.mp hqe
    obtain ⟨a, ha⟩ := List.getElem?_of_mem hq
    rw [List.getElem?_zip_eq_some, List.getElem?_zip_eq_some] at ha
    obtain ⟨-, d2, -⟩ := hcell a _ _ _ ha.1.1 ha.1.2 ha.2
    rw [pairUp_length xs js hj]
    exact d2 c' hc'
  · rw [List.flatMap_assoc, List.flatMap_assoc]
    simp only [List.flatMap_map]
    have hT : (((cfg.foc.zip cands).zip T).flatMap fun q => q.2.flatMap fun c => c.2) = T.flatMap fun t => t.flatMap (·.2) := by
      conv_rhs => rw [← List.map_snd_zip (l₁ := cfg.foc.zip cands) (l₂ := T) (by rw [g1.length_eq]), List.flatMap_map]
    rw [hT]
    exact g2
  · refine ⟨((f, c.1), c.2), List.mem_flatMap.mpr ⟨((f, ps), t), ?_, List.mem_map_of_mem (List.mem_of_getElem? hct)⟩, by rw [hcp], ?_, ?_⟩
    · refine List.mem_of_getElem? (i := npArgmax flat / w) ?_
      rw [List.getElem?_zip_eq_some, List.getElem?_zip_eq_some]
      exact ⟨⟨h4, h5⟩, ht⟩
    · rw [← hcv]
    · rw [← hcv]
  · intro e he
    obtain ⟨q, hq, hqe⟩ := List.mem_flatMap.mp he
    obtain ⟨c', hc', rfl⟩ := List.mem_map.mp hqe
    obtain ⟨a, ha⟩ := List.getElem?_of_mem hq
    rw [List.getElem?_zip_eq_some, List.getElem?_zip_eq_some] at ha
    obtain ⟨-, -, -, d4⟩ := hcell a _ _ _ ha.1.1 ha.1.2 ha.2
    obtain ⟨j, hjj⟩ := List.getElem?_of_mem hc'
    have := (hmat a _ j _ d4 (by rw [List.getElem?_map, hjj]; rfl)).1
    have := v2 _ (List.mem_of_getElem? this)
    show _ ≤ v.1
    rw [hv]
    exact this
  · show sub.length = _
    rw [runEach_length h7, length_parts, pairUp_length xs js hj]

end

/-! ### The levels -/

namespace Spec

/-- The heterogeneities that are stored for the regions before split number `i`. -/
def storedBefore (s : Splits K D) : ℕ → List K
  | 0 => [s.heterInit]
  | i + 1 => (s.levels[i]?.map (·.heterogeneity)).getD []

/-- What a search leaves, whatever the heterogeneities were: the number of instances, at most `max_depth` splits, each at a candidate position of a conditioning feature, each of
regions that have `min_points` instances, with the right numbers of instances, and one heterogeneity for every region. -/
structure SoundSplits (cfg : RegCfg K D) (s : Splits K D) : Prop where
  nofInit : s.nofInit = cfg.data.length
  nonempty : s.levels ≠ []
  depth : s.levels.length ≤ cfg.maxLevels
  stopped : s.levels.length < cfg.maxLevels → ∃ x ∈ regions cfg.data s.levels, x.length < cfg.minPoints
  level : ∀ (i : ℕ) (sp : Split K D), s.levels[i]? = some sp → sp.feature ∈ cfg.foc ∧ sp.typ = cfg.types sp.feature ∧
    Candidate cfg.data cfg.types cfg.nofSplits sp.feature sp.position ∧ sp.nofInstances = (regions cfg.data (s.levels.take (i + 1))).map List.length ∧
    sp.heterogeneity.length = 2 ^ (i + 1) ∧ ∀ x ∈ regions cfg.data (s.levels.take i), cfg.minPoints ≤ x.length

end Spec

theorem runLevels_ok (cfg : RegCfg K D) (h : HeterR σ K D S) (data : List (Row K D)) (eff : Option (List (Row K D))) (heff : ∀ e, eff = some e → data.length = e.length)
    (n : ℕ) (done : List (Split K D)) (before : List K) (levels : List (Split K D)) (y y' : Sys σ K D S)
    (hr : runLevels cfg h n (regions data done) (eff.map fun e => effRegions data e done) before y = (y', .ok levels)) :
    levels.length ≤ n ∧ (levels.length < n → ∃ x ∈ regions data (done ++ levels), x.length < cfg.minPoints) ∧
    ∃ ys : ℕ → Sys σ K D S, ys 0 = y ∧ ys levels.length = y' ∧ ∀ (i : ℕ) (sp : Split K D), levels[i]? = some sp →
      runSingleLevel cfg h (regions data (done ++ levels.take i)) (eff.map fun e => effRegions data e (done ++ levels.take i)) (heterAt before levels i) (ys i) = (ys (i + 1), .ok sp) ∧
      ∀ x ∈ regions data (done ++ levels.take i), cfg.minPoints ≤ x.length := by
  induction n generalizing done before levels y with
  | zero =>
    unfold runLevels at hr
    obtain ⟨rfl, rfl⟩ := runPure_ok hr
    exact ⟨le_rfl, fun h => absurd h (by simp), fun _ => y, rfl, rfl, by intro i sp hi; simp at hi⟩
  | succ n ih =>
    unfold runLevels at hr
    by_cases hsm : (regions data done).any (fun x => decide (x.length < cfg.minPoints)) = true
    · rw [if_pos hsm] at hr
      obtain ⟨rfl, rfl⟩ := runPure_ok hr
      refine ⟨by simp, ?_, fun _ => y, rfl, rfl, by intro i sp hi; simp at hi⟩
      intro _
      obtain ⟨x, hx, hx2⟩ := List.any_eq_true.mp hsm
      exact ⟨x, by simpa using hx, by simpa using hx2⟩
    · rw [if_neg hsm] at hr
      have hbig : ∀ x ∈ regions data done, cfg.minPoints ≤ x.length := by
        intro x hx
        by_contra hlt
        exact hsm (List.any_eq_true.mpr ⟨x, hx, by simpa using hlt⟩)
      obtain ⟨y1, sp, h1, hr⟩ := runBind_ok hr
      obtain ⟨y2, rest, h2, hr⟩ := runBind_ok hr
      obtain ⟨rfl, rfl⟩ := runPure_ok hr
      have hjs : (Option.map (fun js => splitAllEff (regions data done) js sp.feature sp.position sp.typ)
          (eff.map fun e => effRegions data e done)) = eff.map fun e => effRegions data e (done ++ [sp]) := by
        rw [Option.map_map]
        cases he : eff with
        | none => rfl
        | some e =>
          simp only [Option.map_some, Function.comp, Option.some.injEq]
          rw [effRegions_snoc data e (heff e he)]
      rw [hjs, ← regions_snoc] at h2
      obtain ⟨i1, i2, ys, i3, i4, i5⟩ := ih (done ++ [sp]) sp.heterogeneity rest y1 h2
      refine ⟨by simpa using i1, ?_, fun i => if i = 0 then y else ys (i - 1), rfl, ?_, ?_⟩
      · intro hl
        have := i2 (by simpa using hl)
        simpa using this
      · simpa using i4
      · intro i sp' hi
        cases i with
        | zero =>
          simp only [List.getElem?_cons_zero, Option.some.injEq] at hi
          subst hi
          simpa [heterAt, i3] using ⟨h1, hbig⟩
        | succ i =>
          simp only [List.getElem?_cons_succ] at hi
          have := i5 i sp' hi
          have hh : heterAt before (sp :: rest) (i + 1) = heterAt sp.heterogeneity rest i := by
            cases i <;> simp [heterAt]
          rw [hh]
          simpa using this

theorem heterAt_stored (s : Splits K D) (i : ℕ) : heterAt [s.heterInit] s.levels i = storedBefore s i := by
  cases i with
  | zero => rfl
  | succ i =>
    simp only [heterAt, storedBefore]
    cases s.levels[i]? <;> simp

theorem heterAt_length {cfg : RegCfg K D} {s : Splits K D} (hS : SoundSplits cfg s) (i : ℕ) (hi : i ≤ s.levels.length) : (heterAt [s.heterInit] s.levels i).length = 2 ^ i := by
  cases i with
  | zero => rfl
  | succ i =>
    obtain ⟨sp, hsp⟩ : ∃ sp, s.levels[i]? = some sp := ⟨s.levels[i]'(by omega), List.getElem?_eq_getElem _⟩
    simp only [heterAt, hsp]
    exact (hS.level i sp hsp).2.2.2.2.1

/-- **C117, the search.**  Whatever program the heterogeneity function is: a search that returns subregions returns sound ones.  The whole data set was measured first; then, level by
level, the split was chosen that is the best one by the values measured for the candidates at that level, against the values stored for the level before. -/
theorem C117_search (cfg : RegCfg K D) (heff : EffAligned cfg) (h : HeterR σ K D S) (y y' : Sys σ K D S) (s : Splits K D) (hr : runSearch cfg h y = (y', .ok (some s))) :
    SoundSplits cfg s ∧ ∃ ys : ℕ → Sys σ K D S, h cfg.data cfg.dataEffect y = (ys 0, .ok s.heterInit) ∧ ys s.levels.length = y' ∧
      ∀ (i : ℕ) (sp : Split K D), s.levels[i]? = some sp → BestMeasured cfg h (levelRegions cfg.data cfg.dataEffect (s.levels.take i))
        (storedBefore s i) (ys i) (ys (i + 1)) sp := by
  unfold runSearch at hr
  by_cases hcat : cfg.types cfg.feature = .cat ∧ cfg.splitCat = false
  · rw [if_pos hcat] at hr
    obtain ⟨-, hr⟩ := runPure_ok hr
    cases hr
  rw [if_neg hcat] at hr
  obtain ⟨y0, u, h0, hr⟩ := runBind_ok hr
  obtain ⟨rfl, -⟩ := runInert_ok h0
  clear h0
  obtain ⟨y1, v, h1, hr⟩ := runBind_ok hr
  obtain ⟨y2, levels, h2, hr⟩ := runBind_ok hr
  obtain ⟨rfl, hs⟩ := runPure_ok hr
  clear hr
  by_cases hn : levels = []
  · rw [if_pos hn] at hs
    cases hs
  rw [if_neg hn] at hs
  obtain rfl := Option.some.inj hs
  have e1 : (cfg.dataEffect.map fun e => [e]) = cfg.dataEffect.map fun e => effRegions cfg.data e ([] : List (Split K D)) := by
    cases he : cfg.dataEffect with
    | none => rfl
    | some e => simp only [Option.map_some]; rw [effRegions_nil _ _ (heff e he)]
  rw [e1, ← regions_nil cfg.data] at h2
  obtain ⟨i1, i2, ys, i3, i4, i5⟩ := runLevels_ok cfg h cfg.data cfg.dataEffect heff cfg.maxLevels [] _ levels _ _ h2
  simp only [List.nil_append] at i2 i5
  have hjl : ∀ i l, (cfg.dataEffect.map fun e => effRegions cfg.data e (levels.take i)) = some l → (regions cfg.data (levels.take i)).length = l.length := by
    intro i l hl
    cases he : cfg.dataEffect with
    | none => rw [he] at hl; cases hl
    | some e =>
      rw [he] at hl
      simp only [Option.map_some, Option.some.injEq] at hl
      rw [← hl, length_regions, length_effRegions]
  refine ⟨⟨rfl, hn, i1, i2, ?_⟩, ys, ?_, i4, ?_⟩
  · intro i sp hi
    obtain ⟨k1, k2⟩ := i5 i sp hi
    obtain ⟨b1, b2, b3, b4, b5⟩ := runSingleLevel_best (hjl i) k1
    obtain ⟨-, -, -, -, -, -, -, b6, -⟩ := b1
    have ht : levels.take (i + 1) = levels.take i ++ [sp] := by rw [List.take_add_one, hi]; rfl
    have hlt := (List.getElem?_eq_some_iff.mp hi).1
    refine ⟨b2, b6, b3, ?_, ?_, k2⟩
    · rw [ht, regions_snoc]
      exact b4
    · rw [b5, length_regions, List.length_take, Nat.min_eq_left hlt.le, pow_succ]
      ring
  · rw [i3]
    exact h1
  · intro i sp hi
    obtain ⟨k1, -⟩ := i5 i sp hi
    obtain ⟨b1, -⟩ := runSingleLevel_best (hjl i) k1
    rw [← pairUp_regions] at *
    have hb := heterAt_stored { heterInit := v, nofInit := cfg.data.length, levels := levels } i
    dsimp only at hb
    rw [hb] at b1
    exact b1

end Effector
