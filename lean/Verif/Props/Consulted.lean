import Verif.Props.OtherTerms
import Verif.Props.Plot

/-!
# C102: where the model is consulted

Two models that agree at the rows an effect method may consult give the same results.  Hence every result about feature `s` is determined by the model at
the instances within the axis limits of `s`, with (for PDP and ALE) nothing but feature `s` moved.
-/

set_option linter.unusedSectionVars false

namespace Effector

variable {K : Type} [Field K] [LinearOrder K] [IsStrictOrderedRing K] {D : ℕ}

open Spec

namespace Spec

/-- The models agree when feature `s` of any instance within the axis limits is replaced by a value from `a` to `b` (as stored in the data array). -/
def AgreeBetween (cast : K → K) (f f' : Row K D → K) (data : List (Row K D)) (s : Fin D) (lo hi a b : K) : Prop :=
  ∀ r ∈ data, lo ≤ r s → r s ≤ hi → ∀ v, a ≤ v → v ≤ b → f (Function.update r s (cast v)) = f' (Function.update r s (cast v))

/-- The largest number of different values for which the feature counts as categorical. -/
def categoricalUpTo : BinMethod K → ℕ
  | .fixed _ _ cl => cl
  | .greedy _ _ _ cl => cl
  | .dp _ _ _ cl => cl
  | .str _ => 15

/-- The values of feature `s` within the limits. -/
def valuesWithin (data : List (Row K D)) (s : Fin D) (lo hi : K) : List K := (data.map fun r => r s).filter fun x => lo ≤ x ∧ x ≤ hi

end Spec

/-! ### The limits -/

theorem linspace_mem_ge {a b : K} (hab : a ≤ b) {x : K} {n : ℕ} (hx : x ∈ linspace a b n) : a ≤ x := by
  unfold linspace at hx
  obtain ⟨i, hi, rfl⟩ := List.mem_map.mp hx
  unfold linspaceAt
  have : (0 : K) ≤ (i : K) * ((b - a) / ((n - 1 : ℕ) : K)) :=
    mul_nonneg (Nat.cast_nonneg _) (div_nonneg (by linarith) (Nat.cast_nonneg _))
  linarith

theorem catLimitsTail_mem {lo hi : K} (last : K) (hlast : last ≤ hi - lo) (u : List K) (hu : ∀ x ∈ u, lo ≤ x ∧ x ≤ hi) (hinc : Increasing u) (h0 : 0 ≤ last) :
    ∀ l ∈ catLimitsTail last u, lo ≤ l ∧ l ≤ hi + (hi - lo) / 2 := by
  induction u generalizing last with
  | nil => intro l hl; cases hl
  | cons a t ih =>
    cases t with
    | nil =>
      intro l hl
      have ha := hu a (by simp)
      simp only [catLimitsTail, List.mem_cons, List.not_mem_nil, or_false] at hl
      subst hl
      exact ⟨by linarith [ha.1], by linarith [ha.2]⟩
    | cons b t =>
      intro l hl
      have ha := hu a (by simp)
      have hb := hu b (by simp)
      have hab : a < b := (List.pairwise_cons.mp hinc).1 b (by simp)
      simp only [catLimitsTail, List.mem_cons] at hl
      rcases hl with rfl | hl
      · exact ⟨by linarith [ha.1], by linarith [hb.2, ha.1]⟩
      · exact ih (b - a) (by linarith [ha.1, hb.2]) (fun x hx => hu x (List.mem_cons_of_mem _ hx)) (List.pairwise_cons.mp hinc).2 (by linarith) l hl

/-- The limits around categories stay within half of the range of the limits. -/
theorem isCategorical_mem {xs L : List K} {mo : Option ℕ} {cl : ℕ} {lo hi : K} (h : isCategorical xs mo cl = .ok (some (.arr L)))
    (hin : ∀ x ∈ xs, lo ≤ x ∧ x ≤ hi) : ∀ l ∈ L, lo - (hi - lo) / 2 ≤ l ∧ l ≤ hi + (hi - lo) / 2 := by
  unfold isCategorical at h
  split_ifs at h with hcl
  · match hu : npUnique xs with
    | [] => rw [hu] at h; cases h
    | [a] => rw [hu] at h; cases h
    | a :: b :: t =>
      have hinc := npUnique_sorted xs
      have hmem : ∀ x ∈ a :: b :: t, lo ≤ x ∧ x ≤ hi := fun x hx => hin x ((mem_npUnique x xs).mp (by rw [hu]; exact hx))
      rw [hu] at h hinc
      simp only [catLimits, bind, Except.bind, pure, Except.pure, Except.ok.injEq, Option.some.injEq] at h
      split_ifs at h
      cases h
      have ha := hmem a (by simp)
      have hb := hmem b (by simp)
      have hab : a < b := (List.pairwise_cons.mp hinc).1 b (by simp)
      intro l hl
      simp only [List.mem_cons] at hl
      rcases hl with rfl | hl
      · exact ⟨by linarith [ha.1, ha.2, hb.1, hb.2], by linarith [ha.1, ha.2, hb.1, hb.2]⟩
      · have := catLimitsTail_mem (lo := lo) (hi := hi) (b - a) (by linarith [ha.1, hb.2]) _ hmem hinc (by linarith) l hl
        exact ⟨by linarith [this.1, ha.1, ha.2], this.2⟩
  · cases h

theorem fixedFind_mem {c : BinCtx K} {n cl : ℕ} {mo : Option ℕ} {L : List K} (hin : ∀ x ∈ c.xs, c.xmin ≤ x ∧ x ≤ c.xmax) (hle : c.xmin ≤ c.xmax)
    (h : fixedFind c n mo cl = .ok (.arr L)) :
    (∀ l ∈ L, c.xmin - (c.xmax - c.xmin) / 2 ≤ l ∧ l ≤ c.xmax + (c.xmax - c.xmin) / 2) ∧
    (cl < distinct c.xs → ∀ l ∈ L, c.xmin ≤ l ∧ l ≤ c.xmax) := by
  unfold fixedFind at h
  simp only [bind, Except.bind, pure, Except.pure] at h
  cases mo with
  | none => cases h
  | some m =>
    simp only [noneValidBinning] at h
    have hlin : ∀ l ∈ linspace c.xmin c.xmax (n + 1), c.xmin ≤ l ∧ l ≤ c.xmax := fun l hl => ⟨linspace_mem_ge hle hl, linspace_mem_le hle hl⟩
    cases hc : isCategorical c.xs (some m) cl with
    | error e => rw [hc] at h; cases h
    | ok o =>
      rw [hc] at h
      cases o with
      | some q =>
        simp only [Except.ok.injEq] at h
        subst h
        refine ⟨isCategorical_mem hc hin, fun hcl => ?_⟩
        rw [isCategorical_not _ _ _ hcl] at hc
        cases hc
      | none =>
        simp only [Except.ok.injEq] at h
        split_ifs at h
        cases h
        exact ⟨fun l hl => ⟨by linarith [(hlin l hl).1], by linarith [(hlin l hl).2]⟩, fun _ => hlin⟩

theorem bumpLast_mem {e : K} (he : 0 ≤ e) {L : List K} {a b : K} (h : ∀ l ∈ L, a ≤ l ∧ l ≤ b) : ∀ l ∈ bumpLast e L, a ≤ l ∧ l ≤ b + e := by
  induction L with
  | nil => intro l hl; cases hl
  | cons x t ih =>
    have hx := h x (by simp)
    cases t with
    | nil =>
      intro l hl
      simp only [bumpLast, List.mem_cons, List.not_mem_nil, or_false] at hl
      subst hl
      exact ⟨by linarith [hx.1], by linarith [hx.2]⟩
    | cons y t =>
      intro l hl
      simp only [bumpLast, List.mem_cons] at hl
      rcases hl with rfl | hl
      · exact ⟨hx.1, by linarith [hx.2]⟩
      · exact ih (fun l hl => h l (List.mem_cons_of_mem _ hl)) l hl

/-! ### ALE -/

section

variable {s : Fin D}

theorem mapM_pyIndex_mem {L : List K} {ind : List ℕ} {g : ℕ → ℕ} {r : List K} (h : ind.mapM (fun i => pyIndex L (g i)) = .ok r) : ∀ v ∈ r, v ∈ L := by
  induction ind generalizing r with
  | nil => cases h; intro v hv; cases hv
  | cons i t ih =>
    simp only [List.mapM_cons, bind, Except.bind, pure, Except.pure] at h
    cases hi : pyIndex L (g i) with
    | error e => rw [hi] at h; cases h
    | ok x =>
      rw [hi] at h
      cases ht : t.mapM (fun i => pyIndex L (g i)) with
      | error e => rw [ht] at h; cases h
      | ok q =>
        rw [ht] at h
        cases h
        intro v hv
        rcases List.mem_cons.mp hv with rfl | hv
        · unfold pyIndex at hi
          cases hg : L[g i]? with
          | none => simp [hg] at hi
          | some w =>
            simp only [hg, Except.ok.injEq] at hi
            subst hi
            exact List.mem_of_getElem? hg
        · exact ih ht v hv

theorem map_setCol_congr {cast : K → K} {f f' : Row K D → K} {d : List (Row K D)} {P : K → Prop}
    (h : ∀ r ∈ d, ∀ v, P v → f (Function.update r s (cast v)) = f' (Function.update r s (cast v))) {vs : List K} (hv : ∀ v ∈ vs, P v) :
    (setCol cast d s vs).map f = (setCol cast d s vs).map f' := by
  unfold setCol
  induction d generalizing vs with
  | nil => rfl
  | cons r t ih =>
    cases vs with
    | nil => rfl
    | cons v vs =>
      simp only [List.zipWith_cons_cons, List.map_cons]
      rw [h r (by simp) v (hv v (by simp)), ih (fun r hr => h r (List.mem_cons_of_mem _ hr)) (fun v h => hv v (List.mem_cons_of_mem _ h))]

theorem computeLocalEffects_agree {cast : K → K} {f f' : Row K D → K} {d : List (Row K D)} {L : List K}
    (h : ∀ r ∈ d, ∀ v, v ∈ bumpLast EPS L → f (Function.update r s (cast v)) = f' (Function.update r s (cast v))) :
    computeLocalEffects cast d (List.map f) L s = computeLocalEffects cast d (List.map f') L s := by
  unfold computeLocalEffects
  simp only [bind, Except.bind, pure, Except.pure]
  cases pyIndex L 0 with
  | error e => rfl
  | ok l0 =>
    simp only []
    cases listMin (col d s) with
    | error e => rfl
    | ok mn =>
      simp only []
      cases pyAssert (decide (l0 ≤ mn)) with
      | error e => rfl
      | ok u =>
        simp only []
        cases pyIndex L (L.length - 1) with
        | error e => rfl
        | ok l1 =>
          simp only []
          cases listMax (col d s) with
          | error e => rfl
          | ok mx =>
            simp only []
            cases pyAssert (decide (mx ≤ l1)) with
            | error e => rfl
            | ok u =>
              simp only []
              cases digitize (col d s) (bumpLast EPS L) with
              | error e => rfl
              | ok ind =>
                simp only []
                cases pyAssert (ind.all (0 < ·)) with
                | error e => rfl
                | ok u =>
                  simp only []
                  cases hr : ind.mapM (fun i => pyIndex (bumpLast EPS L) i) with
                  | error e => rfl
                  | ok right =>
                    simp only []
                    cases hl : ind.mapM (fun i => pyIndex (bumpLast EPS L) (i - 1)) with
                    | error e => rfl
                    | ok left =>
                      simp only []
                      rw [map_setCol_congr (P := fun v => v ∈ bumpLast EPS L) h (mapM_pyIndex_mem (g := id) hr),
                        map_setCol_congr (P := fun v => v ∈ bumpLast EPS L) h (mapM_pyIndex_mem (g := fun i => i - 1) hl)]

theorem valuesWithin_eq (data : List (Row K D)) (lo hi : Fin D → K) : (aleCtx data lo hi s).xs = valuesWithin data s (lo s) (hi s) := by
  unfold aleCtx valuesWithin col
  simp only [List.filter_map]
  congr 2
  funext r
  simp [inAxis]

theorem aleFitFeature_agree {cast : K → K} {f f' : Row K D → K} {data : List (Row K D)} {lo hi : Fin D → K} (bm : BinMethod K) (a b : K)
    (hab : (a = lo s - (hi s - lo s) / 2 ∧ b = hi s + (hi s - lo s) / 2) ∨
      (categoricalUpTo bm < distinct (valuesWithin data s (lo s) (hi s)) ∧ a = lo s ∧ b = hi s))
    (h : AgreeBetween cast f f' data s (lo s) (hi s) a (b + 1 / 10 ^ 8)) :
    aleFitFeature cast (List.map f) data lo hi s bm = aleFitFeature cast (List.map f') data lo hi s bm := by
  rw [aleFitFeature_eq, aleFitFeature_eq]
  split_ifs with hfix
  · cases hL : findLimits (aleCtx data lo hi s) (aleMethod bm) with
    | error e => rfl
    | ok q =>
      cases q with
      | impossible => rfl
      | arr L =>
        have key : computeLocalEffects cast (data.filter (inAxis (lo s) (hi s) s)) (List.map f) L s =
            computeLocalEffects cast (data.filter (inAxis (lo s) (hi s) s)) (List.map f') L s := by
          apply computeLocalEffects_agree
          intro r hr v hv
          obtain ⟨hrd, hri⟩ := List.mem_filter.mp hr
          simp only [inAxis, Bool.and_eq_true, decide_eq_true_eq] at hri
          have hle : lo s ≤ hi s := hri.1.trans hri.2
          have hfixed : ∃ n mo cl, aleMethod bm = .fixed n mo cl ∧ categoricalUpTo bm = cl := by
            cases bm with
            | fixed n mo cl => exact ⟨n, mo, cl, rfl, rfl⟩
            | str q => exact ⟨20, some 0, 15, rfl, rfl⟩
            | greedy n mo d cl => simp [isFixedMethod] at hfix
            | dp n mo d cl => simp [isFixedMethod] at hfix
          obtain ⟨n, mo, cl, hm, hcl⟩ := hfixed
          rw [hm] at hL
          have hmem := fixedFind_mem (c := aleCtx data lo hi s) (aleCtx_in data lo hi s) hle hL
          rw [valuesWithin_eq] at hmem
          have hb : ∀ l ∈ L, a ≤ l ∧ l ≤ b := by
            rcases hab with ⟨rfl, rfl⟩ | ⟨hc, rfl, rfl⟩
            · exact hmem.1
            · exact hmem.2 (by omega)
          have := bumpLast_mem (EPS_pos (K := K)).le hb v hv
          exact h r hrd hri.1 hri.2 v this.1 (by simpa [EPS] using this.2)
        simp only [Except.bind, key]
  · rfl

theorem aleCfg_agree {cast : K → K} {f f' : Row K D → K} {b : Base K D}
    (h : AgreeBetween cast f f' b.data s (b.axisLo s) (b.axisHi s) (b.axisLo s - (b.axisHi s - b.axisLo s) / 2)
      (b.axisHi s + (b.axisHi s - b.axisLo s) / 2 + 1 / 10 ^ 8)) :
    CfgSame s (aleCfg cast (List.map f) b) (aleCfg cast (List.map f') b) :=
  ⟨rfl, rfl, funext fun bm => aleFitFeature_agree bm _ _ (.inl ⟨rfl, rfl⟩) h, rfl, rfl⟩

/-- **C102, ALE.**  Whatever the binning methods and calls: results about feature `s` depend on the model only at the instances within the axis limits, with
`x_s` replaced by values that exceed the limits by at most half of their distance plus 1e-8. -/
theorem C102_ale [PySqrt K] (choice : ℕ → ℕ → List ℕ) (cast : K → K) (f f' : Row K D → K) (data : List (Row K D))
    (axisLimits : Option ((Fin D → K) × (Fin D → K)))
    (h : ∀ lo hi, limitsOr data axisLimits = .ok (lo, hi) →
      AgreeBetween cast f f' data s (lo s) (hi s) (lo s - (hi s - lo s) / 2) (hi s + (hi s - lo s) / 2 + 1 / 10 ^ 8))
    (calls : List (AleOp K D)) (hc : ∀ op ∈ calls, OnlyOn s op) (xs : List K) (het : Bool) (c : PyVal) :
    aleSession choice cast f data axisLimits calls s xs het c = aleSession choice cast f' data axisLimits calls s xs het c := by
  unfold aleSession
  rw [base_init_all]
  cases hl : limitsOr data axisLimits with
  | error e => simp only [Except.bind]
  | ok l =>
    simp only [Except.bind]
    have h := h l.1 l.2 hl
    generalize hb : ({ data := data, indices := List.range data.length, axisLo := l.1, axisHi := l.2 } : Base K D) = b
    have hcfg : CfgSame s (aleCfg cast (List.map f) b) (aleCfg cast (List.map f') b) := by
      apply aleCfg_agree
      subst hb
      exact h
    exact (aleEval_same hcfg (aleRun_same hcfg calls hc) xs het c).2

/-! ### ALE of features with many values -/

/-- The same object, refusing other binning methods than `P`. -/
def onlyMethods (P : BinMethod K → Prop) [DecidablePred P] (cfg : AleCfg K D) : AleCfg K D :=
  { cfg with fitF := fun t bm => if P bm then cfg.fitF t bm else .error .typeError }

theorem fitLoop_only {P : BinMethod K → Prop} [DecidablePred P] (cfg : AleCfg K D) {bm : BinMethod K} (hb : P bm) (c : Centering) (st : AleState K D)
    (l : List (Fin D)) : fitLoop (onlyMethods P cfg) bm c st l = fitLoop cfg bm c st l := by
  have hone : ∀ st t, fitOne (onlyMethods P cfg) st t bm c = fitOne cfg st t bm c := fun st t => by
    have : (onlyMethods P cfg).fitF t bm = cfg.fitF t bm := if_pos hb
    unfold fitOne
    rw [this]
    rfl
  induction l generalizing st with
  | nil => rfl
  | cons t l ih =>
    simp only [fitLoop, hone]
    rcases fitOne cfg st t bm c with ⟨q, r⟩
    cases r with
    | error e => rfl
    | ok u => exact ih q

theorem aleEval_only [PySqrt K] {P : BinMethod K → Prop} [DecidablePred P] (cfg : AleCfg K D) (hd : P cfg.defaultBin) (st : AleState K D) (t : Fin D) (xs : List K)
    (het : Bool) (c : PyVal) : aleEval (onlyMethods P cfg) st t xs het c = aleEval cfg st t xs het c := by
  unfold aleEval
  have hd' : (onlyMethods P cfg).defaultBin = cfg.defaultBin := rfl
  simp only [hd', fitLoop_only cfg hd]
  rfl

theorem aleRun_only [PySqrt K] {P : BinMethod K → Prop} [DecidablePred P] (cfg : AleCfg K D) (hd : P cfg.defaultBin) (calls : List (AleOp K D))
    (hc : ∀ t bm c, AleOp.fit t bm c ∈ calls → P bm) : aleRun (onlyMethods P cfg) calls = aleRun cfg calls := by
  unfold aleRun
  generalize (AleState.init : AleState K D) = st
  induction calls generalizing st with
  | nil => rfl
  | cons op t ih =>
    simp only [List.foldl_cons]
    have : aleStep (onlyMethods P cfg) st op = aleStep cfg st op := by
      cases op with
      | fit q bm c =>
        have hP := hc q bm c (by simp)
        simp only [aleStep, aleFit]
        have ha : (onlyMethods P cfg).allowed = cfg.allowed := rfl
        simp only [ha, fitLoop_only cfg hP]
      | eval q xs het c => simp only [aleStep, aleEval_only cfg hd]
      | plot q c =>
        simp only [aleStep, alePlot, aleEval_only cfg hd]
        rfl
    rw [this]
    exact ih (fun t bm c h => hc t bm c (List.mem_cons_of_mem _ h)) _

open Classical in
/-- **C102, ALE, features with many values**: if the feature counts as categorical for none of the binning methods used (nor for the default one, which takes
up to 15 values), the model is consulted within the axis limits (plus 1e-8) only. -/
theorem C102_ale_numeric_partial [PySqrt K] (choice : ℕ → ℕ → List ℕ) (cast : K → K) (f f' : Row K D → K) (data : List (Row K D))
    (axisLimits : Option ((Fin D → K) × (Fin D → K))) (calls : List (AleOp K D)) (hc : ∀ op ∈ calls, OnlyOn s op)
    (hmany : ∀ lo hi, limitsOr data axisLimits = .ok (lo, hi) →
      15 < distinct (valuesWithin data s (lo s) (hi s)) ∧
      ∀ t bm c, AleOp.fit t bm c ∈ calls → categoricalUpTo bm < distinct (valuesWithin data s (lo s) (hi s)))
    (h : ∀ lo hi, limitsOr data axisLimits = .ok (lo, hi) → AgreeBetween cast f f' data s (lo s) (hi s) (lo s) (hi s + 1 / 10 ^ 8))
    (xs : List K) (het : Bool) (c : PyVal) :
    aleSession choice cast f data axisLimits calls s xs het c = aleSession choice cast f' data axisLimits calls s xs het c := by
  unfold aleSession
  rw [base_init_all]
  cases hl : limitsOr data axisLimits with
  | error e => simp only [Except.bind]
  | ok l =>
    simp only [Except.bind]
    obtain ⟨h15, hm⟩ := hmany l.1 l.2 hl
    have h := h l.1 l.2 hl
    let P : BinMethod K → Prop := fun bm => categoricalUpTo bm < distinct (valuesWithin data s (l.1 s) (l.2 s))
    generalize hb : ({ data := data, indices := List.range data.length, axisLo := l.1, axisHi := l.2 } : Base K D) = b
    have hcfg : CfgSame s (onlyMethods P (aleCfg cast (List.map f) b)) (onlyMethods P (aleCfg cast (List.map f') b)) := by
      refine ⟨rfl, rfl, funext fun bm => ?_, rfl, rfl⟩
      by_cases hP : P bm
      · simp only [onlyMethods, if_pos hP]
        subst hb
        exact aleFitFeature_agree bm _ _ (.inr ⟨hP, rfl, rfl⟩) h
      · simp only [onlyMethods, if_neg hP]
    have hd : ∀ f : Row K D → K, P (aleCfg cast (List.map f) b).defaultBin := fun _ => h15
    have := (aleEval_same hcfg (aleRun_same hcfg calls hc) xs het c).2
    rw [aleEval_only _ (hd f), aleEval_only _ (hd f'), aleRun_only _ (hd f) calls hm, aleRun_only _ (hd f') calls hm] at this
    exact this

/-! ### RHALE -/

/-- Effects that agree at the rows within the limits. -/
theorem rhaleFitFeature_agree {φ φ' : Row K D → Row K D} {d : List (Row K D)} {lo hi : Fin D → K} (h : ∀ r ∈ d, lo s ≤ r s → r s ≤ hi s → φ r s = φ' r s)
    (bm : BinMethod K) : rhaleFitFeature d (d.map φ) lo hi s bm = rhaleFitFeature d (d.map φ') lo hi s bm := by
  have hc : col (((d.zip (d.map φ)).filter fun p => inAxis (lo s) (hi s) s p.1).map (·.2)) s =
      col (((d.zip (d.map φ')).filter fun p => inAxis (lo s) (hi s) s p.1).map (·.2)) s := by
    unfold col
    induction d with
    | nil => rfl
    | cons r t ih =>
      have ih := ih fun r hr => h r (List.mem_cons_of_mem _ hr)
      simp only [List.map_cons, List.zip_cons_cons, List.filter_cons]
      split_ifs with hr
      · simp only [inAxis, Bool.and_eq_true, decide_eq_true_eq] at hr
        simp only [List.map_cons, h r (by simp) hr.1 hr.2, ih]
      · exact ih
  unfold rhaleFitFeature
  simp only [List.length_map, hc]

theorem numerical_rowwise (f : Row K D → K) (d : List (Row K D)) :
    computeJacobianNumerically (List.map f) d EPS = d.map fun r t => (f (Function.update r t (r t + EPS)) - f r) / EPS := by
  obtain ⟨φ, hφ⟩ := rhaleEffects_rowwise f (none : Option (Row K D → Row K D))
  have h0 : ∀ r, φ r = fun t => (f (Function.update r t (r t + EPS)) - f r) / EPS := fun r => by
    have := hφ [r]
    simp only [rhaleEffects, Option.map_none, computeJacobianNumerically, jacobianCol, List.map_cons, List.map_nil, List.zipWith_cons_cons, List.zipWith_nil_left,
      List.length_cons, List.length_nil, List.range_succ, List.range_zero, List.nil_append, List.cons.injEq, and_true] at this
    rw [← this]
    funext t
    simp
  have := hφ d
  simp only [rhaleEffects, Option.map_none] at this
  rw [this]
  exact List.map_congr_left fun r _ => h0 r

namespace Spec

/-- The gradient functions agree at the rows within the limits, as far as feature `s` is concerned; without them, the models agree at these rows and when `x_s` is
increased by 1e-8. -/
def AgreeAtRows (f f' : Row K D → K) (data : List (Row K D)) (s : Fin D) (lo hi : K) : Option (Row K D → Row K D) → Option (Row K D → Row K D) → Prop
  | some j, some j' => ∀ r ∈ data, lo ≤ r s → r s ≤ hi → j r s = j' r s
  | none, none => ∀ r ∈ data, lo ≤ r s → r s ≤ hi → f r = f' r ∧ f (Function.update r s (r s + 1 / 10 ^ 8)) = f' (Function.update r s (r s + 1 / 10 ^ 8))
  | _, _ => False

end Spec

/-- **C102, RHALE.**  With a gradient function, the model is not consulted at all, and the gradient at the instances within the axis limits only; without one, the model at these
instances, as they are and with `x_s` increased by 1e-8. -/
theorem C102_rhale [PySqrt K] (choice : ℕ → ℕ → List ℕ) (f f' : Row K D → K) (jac jac' : Option (Row K D → Row K D)) (data : List (Row K D))
    (axisLimits : Option ((Fin D → K) × (Fin D → K)))
    (h : ∀ lo hi, limitsOr data axisLimits = .ok (lo, hi) → AgreeAtRows f f' data s (lo s) (hi s) jac jac')
    (calls : List (AleOp K D)) (hc : ∀ op ∈ calls, OnlyOn s op) (xs : List K) (het : Bool) (c : PyVal) :
    rhaleSession choice f jac data none axisLimits calls s xs het c = rhaleSession choice f' jac' data none axisLimits calls s xs het c := by
  unfold rhaleSession
  rw [rhaleInit_all _ _ _ _ _ (by rintro e ⟨⟩), rhaleInit_all _ _ _ _ _ (by rintro e ⟨⟩)]
  cases hl : limitsOr data axisLimits with
  | error e => simp only [Except.bind]
  | ok l =>
    simp only [Except.bind]
    have h := h l.1 l.2 hl
    have hcfg : CfgSame s (rhaleCfg (rhaleEffects (List.map f) (jac.map List.map) none data) { data := data, indices := List.range data.length, axisLo := l.1, axisHi := l.2 })
        (rhaleCfg (rhaleEffects (List.map f') (jac'.map List.map) none data) { data := data, indices := List.range data.length, axisLo := l.1, axisHi := l.2 }) := by
      refine ⟨rfl, rfl, funext fun bm => ?_, rfl, rfl⟩
      simp only [rhaleCfg]
      cases jac with
      | none =>
        cases jac' with
        | some j' => exact h.elim
        | none =>
          simp only [rhaleEffects, Option.map_none, numerical_rowwise]
          refine rhaleFitFeature_agree (fun r hr h1 h2 => ?_) bm
          obtain ⟨e1, e2⟩ := h r hr h1 h2
          rw [show (EPS : K) = 1 / 10 ^ 8 by norm_num [EPS], e1, e2]
      | some j =>
        cases jac' with
        | none => exact h.elim
        | some j' => exact rhaleFitFeature_agree h bm
    exact (aleEval_same hcfg (aleRun_same hcfg calls hc) xs het c).2

/-- **C102, RHALE with given effects**: neither the model nor the gradient function is consulted. -/
theorem C102_rhale_given [PySqrt K] (choice : ℕ → ℕ → List ℕ) (f f' : Row K D → K) (jac jac' : Option (Row K D → Row K D)) (data given : List (Row K D))
    (axisLimits : Option ((Fin D → K) × (Fin D → K))) (calls : List (AleOp K D)) (xs : List K) (het : Bool) (c : PyVal) :
    rhaleSession choice f jac data (some given) axisLimits calls s xs het c = rhaleSession choice f' jac' data (some given) axisLimits calls s xs het c := by
  unfold rhaleSession
  have : rhaleInit choice (List.map f) (jac.map List.map) data (some given) (.str "all") axisLimits =
      rhaleInit choice (List.map f') (jac'.map List.map) data (some given) (.str "all") axisLimits := by
    unfold rhaleInit
    simp only [bind, Except.bind, pure, Except.pure]
    cases prepNofInstances choice (.str "all") data.length with
    | error e => rfl
    | ok p =>
      simp only []
      cases takeRows data p.2 with
      | error e => rfl
      | ok d =>
        simp only []
        cases takeRows given p.2 with
        | error e => rfl
        | ok g =>
          simp only [Except.map]
          cases Base.init choice d (.str "all") axisLimits <;> rfl
  rw [this]

/-! ### PDP and d-PDP -/

namespace Spec

/-- The models agree at the rows of `Q`; for d-PDP with a gradient function, the derivative with respect to `s` does; for d-PDP without one, the models agree with `x_s` moved by ±1e-6. -/
def AgreeWhere (s : Fin D) (Q : Row K D → Prop) : PdpModel K D → PdpModel K D → Prop
  | .pdp f, .pdp f' => ∀ r, Q r → f r = f' r
  | .derJac j, .derJac j' => ∀ r, Q r → j r s = j' r s
  | .derNum f, .derNum f' => ∀ r, Q r → ∀ d, (d = 1 / 10 ^ 6 ∨ d = -(1 / 10 ^ 6)) → f (Function.update r s (r s + d)) = f' (Function.update r s (r s + d))
  | _, _ => False

/-- An instance within the limits with `x_s` set to a requested position or, if the result is to be centred, to a value within the limits. -/
def Consulted (data : List (Row K D)) (lo hi : Fin D → K) (s : Fin D) (xs : List K) (m : Centering) (q : Row K D) : Prop :=
  ∃ r ∈ data, lo s ≤ r s ∧ r s ≤ hi s ∧ ∃ v, q = Function.update r s v ∧ (v ∈ xs ∨ m ≠ .off ∧ lo s ≤ v ∧ v ≤ hi s)

end Spec

theorem at_where {Q : Row K D → Prop} {M M' : PdpModel K D} (h : AgreeWhere s Q M M') {r : Row K D} {v : K} (hq : Q (Function.update r s v)) : M.at s v r = M'.at s v r := by
  cases M with
  | pdp f =>
    cases M' with
    | pdp f' => exact h _ hq
    | derJac j => exact h.elim
    | derNum f => exact h.elim
  | derJac j =>
    cases M' with
    | pdp f' => exact h.elim
    | derJac j => exact h _ hq
    | derNum f => exact h.elim
  | derNum f =>
    cases M' with
    | pdp f' => exact h.elim
    | derJac j => exact h.elim
    | derNum f' =>
      have h1 := h _ hq _ (.inl rfl)
      have h2 := h _ hq _ (.inr rfl)
      simp only [Function.update_idem, Function.update_self] at h1 h2
      simp only [PdpModel.at, sub_eq_add_neg] at h1 h2 ⊢
      rw [h1, h2]

/-- **C102, PDP and d-PDP.** -/
theorem C102_pdp [PySqrt K] (M M' : PdpModel K D) (lo hi : Fin D → K) (data : List (Row K D)) (calls calls' : List (PdpOp K D))
    (hcalls : ∀ op ∈ calls, PdpCallOk data lo hi s op) (hcalls' : ∀ op ∈ calls', PdpCallOk data lo hi s op) (xs : List K) (het : Bool) (c : PyVal) (all vec : Bool)
    (h : ∀ m, prepCentering c = .ok m → AgreeWhere s (Consulted data lo hi s xs m) M M') :
    pdpEvalAfter M lo hi data calls s xs het c all vec = pdpEvalAfter M' lo hi data calls' s xs het c all vec := by
  unfold pdpEvalAfter
  rw [pdp_eval_spec M' lo hi data s calls' hcalls', pdp_eval_spec M lo hi data s calls hcalls]
  cases hm : prepCentering c with
  | error e => rfl
  | ok m =>
    have h := h m hm
    have hice : M.ice lo hi (inLimits data lo hi s) s m xs = M'.ice lo hi (inLimits data lo hi s) s m xs := by
      unfold PdpModel.ice
      refine List.map_congr_left fun v hv => List.map_congr_left fun r hr => ?_
      obtain ⟨hrd, hri⟩ := List.mem_filter.mp hr
      simp only [decide_eq_true_eq] at hri
      have hle := hri.1.trans hri.2
      rw [at_where h ⟨r, hrd, hri.1, hri.2, v, rfl, .inl hv⟩]
      have hs : M.shift lo hi s r m = M'.shift lo hi s r m := by
        cases m with
        | off => rfl
        | zeroStart => exact at_where h ⟨r, hrd, hri.1, hri.2, lo s, rfl, .inr ⟨by simp, le_refl _, hle⟩⟩
        | zeroIntegral =>
          simp only [PdpModel.shift]
          congr 1
          refine List.map_congr_left fun v hv => ?_
          rw [← linspace_evenly] at hv
          exact at_where h ⟨r, hrd, hri.1, hri.2, v, rfl, .inr ⟨by simp, linspace_mem_ge hle hv, linspace_mem_le hle hv⟩⟩
      rw [hs]
    simp only [PdpModel.value, hice]

end

/-! ### The stronger statements are false -/

/-- A binary feature. -/
def binaryRows : List (Row ℚ 1) := [fun _ => 0, fun _ => 1, fun _ => 0, fun _ => 1]

/-- A feature with three values (numerical for a method with categorical limit 1). -/
def gradedRows : List (Row ℚ 1) := [fun _ => 0, fun _ => 1 / 2, fun _ => 1, fun _ => 1]

/-- One fit with two equal bins. -/
def twoBins : List (AleOp ℚ 1) := [.fit (.int 0) (.fixed 2 (some 0) 1) (.bool false)]

/-- **C102 is false for categorical features without the margin**: for a binary feature ALE consults the model at x = -1/2, so that two models that agree on all rows with 0 ≤ x ≤ 1 + 1e-8 have
different ALE curves. -/
theorem C102_false : ∃ f f' : Row ℚ 1 → ℚ,
    (limitsOr binaryRows none).map (fun l => (l.1 0, l.2 0)) = .ok (0, 1) ∧ (∀ r : Row ℚ 1, 0 ≤ r 0 → r 0 ≤ 1 + 1 / 10 ^ 8 → f r = f' r) ∧
    aleSession (fun _ _ => []) id f binaryRows none [] 0 [0] false (.bool false) = .ok ([1 / 2], none) ∧
    aleSession (fun _ _ => []) id f' binaryRows none [] 0 [0] false (.bool false) = .ok ([1], none) := by
  refine ⟨fun r => r 0, fun r => if r 0 < 0 then r 0 - 1 else r 0, by decide +kernel, ?_, by decide +kernel, by decide +kernel⟩
  intro r h0 _
  simp only [not_lt.mpr h0, if_false]

/-- **C102 is false without the 1e-8**: models that agree within the axis limits, but not just above, have different ALE curves, and completely different RHALE curves. -/
theorem C102_false_excess : ∃ f f' : Row ℚ 1 → ℚ, (∀ r : Row ℚ 1, r 0 ≤ 1 → f r = f' r) ∧
    aleSession (fun _ _ => []) id f gradedRows none twoBins 0 [1] false (.bool false) = .ok ([100000001 / 100000000], none) ∧
    aleSession (fun _ _ => []) id f' gradedRows none twoBins 0 [1] false (.bool false) = .ok ([100], none) ∧
    rhaleSession (fun _ _ => []) f none gradedRows none none twoBins 0 [1] false (.bool false) = .ok ([1], none) ∧
    rhaleSession (fun _ _ => []) f' none gradedRows none none twoBins 0 [1] false (.bool false) = .ok ([9900000002 / 3], none) := by
  refine ⟨fun r => r 0, fun r => if 1 < r 0 then 100 else r 0, ?_, by decide +kernel, by decide +kernel, by decide +kernel, by decide +kernel⟩
  intro r h
  simp only [not_lt.mpr h, if_false]

/-- The hypotheses of `C102_ale` are met by models that differ from 2 on ... -/
example : aleSession (fun _ _ => []) id (fun r : Row ℚ 1 => if 2 ≤ r 0 then 9 else r 0) binaryRows (some (fun _ => 0, fun _ => 1)) [] 0 [0] false (.bool false) = .ok ([1 / 2], none) := by
  rw [C102_ale (fun _ _ => []) id _ (fun r : Row ℚ 1 => r 0)]
  · decide +kernel
  · intro lo hi hl
    simp only [limitsOr, Except.ok.injEq, Prod.mk.injEq] at hl
    obtain ⟨rfl, rfl⟩ := hl
    intro r _ _ _ v _ hv
    have hv : v < 2 := lt_of_le_of_lt hv (by norm_num)
    simp only [Function.update_self, id_eq, not_le.mpr hv, if_false]
  · simp

/-- ... and those of `C102_ale_numeric_partial` need a feature with more than 15 values. -/
example : (limitsOr ((List.range 16).map fun (i : ℕ) (_ : Fin 1) => (i : ℚ)) none).map (fun l => (l.1 0, l.2 0)) = .ok (0, 15) ∧
    15 < distinct (valuesWithin ((List.range 16).map fun (i : ℕ) (_ : Fin 1) => (i : ℚ)) 0 0 15) := by decide +kernel

/-- The model of a d-PDP with gradient may be anything at other rows. -/
example : pdpEvalAfter (.derJac fun (r : Row ℚ 1) _ => if r 0 = 7 then 5 else 2 * r 0) (fun _ => 0) (fun _ => 1) binaryRows [] 0 [1 / 2] false (.str "zero_start") false true = .ok (.meanOnly [1]) := by
  rw [C102_pdp _ (.derJac fun (r : Row ℚ 1) _ => 2 * r 0) _ _ _ [] []]
  · decide +kernel
  · simp
  · simp
  · rintro m - q ⟨r, -, -, -, v, rfl, hv⟩
    have : v ≠ 7 := by
      rcases hv with hv | ⟨-, -, hv⟩
      · simp only [List.mem_singleton] at hv
        rw [hv]; norm_num
      · rintro rfl
        norm_num at hv
    simp [this]

end Effector
