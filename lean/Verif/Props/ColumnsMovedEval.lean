import Verif.Props.ColumnsMovedApi

/-!
# C128 for `eval` at a node of the tree
-/

namespace Effector

set_option linter.unusedSectionVars false

open Spec

variable {K : Type} [Field K] [LinearOrder K] [IsStrictOrderedRing K] {D D' : ℕ}

section

variable {ι : Fin D → Fin D'} {s : Fin D}

theorem aleOnce_session [PySqrt K] (choice : ℕ → ℕ → List ℕ) (cast : K → K) (f : Row K D → K) (data : List (Row K D)) (e : Option (List (Row K D))) (s : Fin D) (xs : List K) (het : Bool) (c : PyVal) :
    aleOnce choice cast (List.map f) data e s xs het c = aleSession choice cast f data none [] s xs het c := rfl

theorem rhaleOnce_session [PySqrt K] (choice : ℕ → ℕ → List ℕ) (f : Row K D → K) (jac : Option (Row K D → Row K D)) (data : List (Row K D)) (e : Option (List (Row K D))) (s : Fin D) (xs : List K) (het : Bool)
    (c : PyVal) : rhaleOnce choice (List.map f) (jac.map List.map) data e s xs het c = rhaleSession choice f jac data e none [] s xs het c := rfl

theorem pdpOnce_moved [PySqrt K] (choice : ℕ → ℕ → List ℕ) (hι : Function.Injective ι) (M : PdpModel K D) (M' : PdpModel K D') (hM : PdpRewritten (ι s) s (onlyColumns ι) M' M)
    (rows : List (Row K D')) (e : Option (List (Row K D))) (e' : Option (List (Row K D'))) (xs : List K) (het : Bool) (c : PyVal) :
    pdpOnce choice id M.kind (rows.map (onlyColumns ι)) e s xs het c = pdpOnce choice id M'.kind rows e' (ι s) xs het c := by
  unfold pdpOnce
  rcases base_init_moved (s := s) choice hι rows (.int 300) with ⟨er, h1, h2⟩ | ⟨B', B, h1, h2, h3, h4, h5⟩
  · rw [h1, h2]; rfl
  · rw [h1, h2]
    simp only [bind, Except.bind]
    have := C85_pdp_other_columns (rewrites_onlyColumns (K := K) hι s) M' M hM B'.data B'.axisLo B'.axisHi B.axisLo B.axisHi h4 h5 [] [] (by simp) (by simp) xs het c false true
    rw [← h3] at this
    unfold pdpEvalAfter at this
    have e1 : ∀ {d : ℕ} (N : PdpModel K d) (lo hi : Fin d → K), ({ cast := id, kind := N.kind, axisLo := lo, axisHi := hi } : PdpCfg K d) = pdpCfgOf N lo hi := fun _ _ _ => rfl
    rw [e1, e1]
    rw [show pdpRun (pdpCfgOf M B.axisLo B.axisHi) B.data [] = PdpState.init B.data from rfl, show pdpRun (pdpCfgOf M' B'.axisLo B'.axisHi) B'.data [] = PdpState.init B'.data from rfl] at this
    rw [this]

theorem shapOnce_moved (choice : ℕ → ℕ → List ℕ) (hι : Function.Injective ι) {ext : ShapExt K D} {ext' : ShapExt K D'} (hx : ShapMoved ι ext ext')
    (rows : List (Row K D')) (e : Option (List (Row K D))) (e' : Option (List (Row K D'))) (xs : List K) (het : Bool) (c : PyVal) :
    shapOnce choice ext (rows.map (onlyColumns ι)) e s xs het c = shapOnce choice ext' rows e' (ι s) xs het c := by
  unfold shapOnce
  rcases shapInit_moved (s := s) choice hι rows (.int 100) with ⟨er, h1, h2⟩ | ⟨B', B, h1, h2, h3, h4, h5⟩
  · rw [h1, h2]; rfl
  · rw [h1, h2]
    simp only [bind, Except.bind]
    exact shapEval_moved (cfg := { ext := ext, axisLo := B.axisLo, axisHi := B.axisHi }) (cfg' := { ext := ext', axisLo := B'.axisLo, axisHi := B'.axisHi }) hx h4 h5 ⟨h3, rfl, rfl, rfl⟩ xs het c

theorem createAndEval_moved [PySqrt K] (choice : ℕ → ℕ → List ℕ) (cast : K → K) (ext : ShapExt K D) (ext' : ShapExt K D') (hι : Function.Injective ι) {f : Row K D → K} {f' : Row K D' → K} {jac : Option (Row K D → Row K D)} {jac' : Option (Row K D' → Row K D')}
    {given : Option (List (Row K D))} {given' : Option (List (Row K D'))} (h : ModelMoved ι f f' jac jac' given given') {meth : String} (hmeth : meth ∈ ["rhale", "ale", "shap", "pdp", "d-pdp"])
    (hcast : meth = "pdp" ∨ meth = "d-pdp" → cast = id) (hshap : meth = "shap" → ShapMoved ι ext ext') {nd : Node K D} {nd' : Node K D'} (hn : NodeMoved ι nd nd') (xs : List K) (het : Bool) (c : PyVal) :
    createAndEval (rowBoxes choice cast f jac ext) meth nd.rows nd.effects s xs het c = createAndEval (rowBoxes choice cast f' jac' ext') meth nd'.rows nd'.effects (ι s) xs het c := by
  unfold createAndEval
  by_cases h1 : meth = "rhale"
  · rw [if_pos h1, if_pos h1]
    show rhaleOnce choice (List.map f) (jac.map List.map) _ _ _ _ _ _ = rhaleOnce choice (List.map f') (jac'.map List.map) _ _ _ _ _ _
    rw [rhaleOnce_session, rhaleOnce_session, hn.rows]
    refine C85_rhale_other_columns (rewrites_onlyColumns hι s) choice choice f' f h.model jac' jac nd'.rows nd'.effects nd.effects ?_ none none trivial [] (by simp) xs het c
    rw [hn.effects]
    cases he : nd'.effects with
    | some e => exact .inl ⟨e, _, rfl, rfl, hn.aligned e he, by rw [List.map_map]; rfl⟩
    | none =>
      rcases h.jac with ⟨a, b⟩ | ⟨j, j', a, b, hj⟩
      · exact .inr (.inr ⟨rfl, rfl, b, a⟩)
      · exact .inr (.inl ⟨rfl, rfl, j', j, b, a, fun r => by rw [hj]; rfl⟩)
  rw [if_neg h1, if_neg h1]
  by_cases h2 : meth = "ale"
  · rw [if_pos h2, if_pos h2]
    show aleOnce choice cast (List.map f) _ _ _ _ _ _ = aleOnce choice cast (List.map f') _ _ _ _ _ _
    rw [aleOnce_session, aleOnce_session, hn.rows]
    exact C85_ale_other_columns (rewrites_onlyColumns hι s) choice choice cast f' f h.model nd'.rows none none trivial [] (by simp) xs het c
  rw [if_neg h2, if_neg h2]
  by_cases h3 : meth = "shap"
  · rw [if_pos h3, if_pos h3, hn.rows]
    exact shapOnce_moved choice hι (hshap h3) nd'.rows _ _ xs het c
  rw [if_neg h3, if_neg h3]
  have hc : cast = id := by
    apply hcast
    simpa [h1, h2, h3] using hmeth
  subst hc
  rw [hn.rows]
  by_cases h4 : meth = "pdp"
  · rw [if_pos h4, if_pos h4]
    exact pdpOnce_moved choice hι (.pdp f) (.pdp f') h.model nd'.rows _ _ xs het c
  rw [if_neg h4, if_neg h4]
  have h5 : meth = "d-pdp" := by simpa [h1, h2, h3, h4] using hmeth
  rw [if_pos h5, if_pos h5]
  rcases h.jac with ⟨rfl, rfl⟩ | ⟨j, j', rfl, rfl, hj⟩
  · exact pdpOnce_moved choice hι (.derNum f) (.derNum f') h.model nd'.rows _ _ xs het c
  · exact pdpOnce_moved choice hι (.derJac j) (.derJac j') (fun r => by rw [hj]; rfl) nd'.rows _ _ xs het c

/-- **C128, `eval` at a node.**  With objects and histories as in `C128_regional_trees`, and no scaled plot of the feature: `eval` at any node of the pruned tree gives the same values, or raises the
same exception. -/
theorem C128_eval [PySqrt K] [LawfulSqrt K] (choice : ℕ → ℕ → List ℕ) (cast : K → K) (ext : ShapExt K D) (ext' : ShapExt K D') (hι : Function.Injective ι) {f : Row K D → K} {f' : Row K D' → K} {jac : Option (Row K D → Row K D)} {jac' : Option (Row K D' → Row K D')}
    {given : Option (List (Row K D))} {given' : Option (List (Row K D'))} (h : ModelMoved ι f f' jac jac' given given') (meth : String) (hmeth : meth ∈ ["rhale", "ale", "shap", "pdp", "d-pdp"])
    (hcast : meth = "pdp" ∨ meth = "d-pdp" → cast = id) (hshap : meth = "shap" → ShapMoved ι ext ext') (hsrc : meth = "rhale" → jac'.isSome ∨ given'.isSome) (data : List (Row K D')) (hlen : ∀ e, given' = some e → e.length = data.length) (nof : PyVal)
    {l : Option ((Fin D → K) × (Fin D → K))} {l' : Option ((Fin D' → K) × (Fin D' → K))} (hl : SameLimits (ι s) s l' l) {types : Option (Fin D → FeatType)} {types' : Option (Fin D' → FeatType)} (ht : SameColumns ι types types') (catLimit : ℕ)
    {names : Option (Fin D → String)} {names' : Option (Fin D' → String)} (hnm : ∀ j, namesOr names' (ι j) = namesOr names j) (fmt : K → String) (o : RegionalObj K D) (o' : RegionalObj K D')
    (ho : regionalNew (rowBoxes choice cast f jac ext) meth (data.map (onlyColumns ι)) given nof l types catLimit names fmt = .ok o)
    (ho' : regionalNew (rowBoxes choice cast f' jac' ext') meth data given' nof l' types' catLimit names' fmt = .ok o') (calls : List (RegCall K D)) (calls' : List (RegCall K D'))
    (hns : ∀ sc, RegCall.plot s (some sc) ∉ calls) (hns' : ∀ sc, RegCall.plot (ι s) (some sc) ∉ calls')
    (kw : FitKw K D) (q : List (Fin D)) (hq : kw.foc = some q)
    (hkw : lastKw o s calls = some kw) (hkw' : lastKw o' (ι s) calls' = some (fitMoved ι kw)) (hp : 1 ≤ kw.points)
    (tree : List (Node K D)) (htree : (regRunM o calls).treePruned s = some (some tree)) (nd : Node K D) (hnd : nd ∈ tree) (xs : List K) (het : Bool) (c : PyVal) (m : Centering) (hcen : prepCentering c = .ok m) :
    (regionalEvalM o' (regRunM o' calls') (ι s) nd.idx xs het c).2 = (regionalEvalM o (regRunM o calls) s nd.idx xs het c).2 := by
  obtain ⟨t, t', u, u', -, -, -, hu, hu', hm⟩ := C128_regional_trees choice cast ext ext' hι h meth hmeth hcast hshap hsrc data hlen nof hl ht catLimit hnm fmt o o' ho ho' calls calls' kw q hq hkw hkw' hp
  rw [htree] at hu
  cases hu
  cases u' with
  | none => exact hm.elim
  | some tree' =>
    have el' : (rhaleEffects (List.map f') (jac'.map List.map) given' data).length = data.length := by
      cases given' with
      | some e => exact hlen e rfl
      | none =>
        cases jac' with
        | some j => show (List.map j data).length = _; rw [List.length_map]
        | none => show (computeJacobianNumerically (List.map f') data EPS).length = _; rw [jacobian_rowwise, List.length_map]
    have el : (rhaleEffects (List.map f) (jac.map List.map) given (data.map (onlyColumns ι))).length = (data.map (onlyColumns ι)).length := by
      rw [h.given]
      cases given' with
      | some e => show (e.map (onlyColumns ι)).length = _; rw [List.length_map, List.length_map]; exact hlen e rfl
      | none =>
        cases jac with
        | some j => show (List.map j _).length = _; rw [List.length_map]
        | none => show (computeJacobianNumerically (List.map f) _ EPS).length = _; rw [jacobian_rowwise, List.length_map]
    have hst : ∀ {d' : ℕ} {bb : BlackBoxes K d'} {d : List (Row K d')} {g : Option (List (Row K d'))}, (rhaleEffects bb.model bb.jac g d).length = d.length →
        ∀ e, startEffects bb meth d g = some e → e.length = d.length := by
      intro d' bb d g hl e he
      unfold startEffects at he
      split at he
      · cases he; exact hl
      · cases he
    obtain ⟨c1, c2, c3, -⟩ := C81_constructor _ _ _ _ _ _ _ _ _ _ (hst el) o ho
    obtain ⟨d1, d2, d3, -⟩ := C81_constructor _ _ _ _ _ _ _ _ _ _ (hst el') o' ho'
    obtain ⟨sp, -, u1, e1, -, e3, -, e5⟩ := (C81_trees_of_own_search o c1 calls s).2.1 kw hkw
    obtain ⟨sp', -, u2, e1', -, e3', -, e5'⟩ := (C81_trees_of_own_search o' d1 calls' (ι s)).2.1 _ hkw'
    rw [htree] at e5
    cases e5
    rw [hu'] at e5'
    cases e5'
    obtain ⟨i, hi⟩ := List.getElem?_of_mem hnd
    have hlen2 : tree.length = tree'.length := List.Forall₂.length_eq hm
    have hi1 : i < tree.length := (List.getElem?_eq_some_iff.mp hi).1
    have hmv : NodeMoved ι nd (tree'[i]'(by omega)) := by
      have := List.Forall₂.get hm hi1 (by omega)
      rw [List.getElem?_eq_getElem hi1] at hi
      cases hi
      exact this
    rw [C81_eval o c1 calls s hns kw hkw sp e1 tree e3 nd hnd xs het c m hcen, ← hmv.idx,
      C81_eval o' d1 calls' (ι s) hns' _ hkw' sp' e1' tree' e3' _ (List.getElem_mem _) xs het c m hcen, c2, d2, c3, d3]
    exact (createAndEval_moved choice cast ext ext' hι h hmeth hcast hshap hmv xs het c).symm

end

end Effector
