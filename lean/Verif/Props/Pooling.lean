import Verif.Props.Locality
import Verif.Props.Levels

/-!
# C126: pooling data sets in ALE and RHALE

Within a bin, the curve of the pooled data is the average of the curves of the parts, weighted by their numbers of instances in the bin (C93 is the same for PDP, without bins).
-/

namespace Effector

set_option linter.unusedSectionVars false

open Spec

variable {K : Type} [Field K] [LinearOrder K] [IsStrictOrderedRing K] {D : ℕ}

namespace Spec

/-- Some RHALE object for these data and derivatives, after some calls, shows for feature `s` the curve `y` and the heterogeneities `v` at `xs` and stores the bin limits `limits`. -/
def RhaleShows [PySqrt K] (b : Base K D) (eff : List (Row K D)) (s : Fin D) (limits xs y v : List K) : Prop :=
  (∀ t, b.axisLo t < b.axisHi t) ∧ ∃ calls c st p nc, (∀ f bm c, AleOp.fit f bm c ∈ calls → ∀ t, SafeMethod (rhaleCtx b.data eff b.axisLo b.axisHi t) bm) ∧
    aleEval (rhaleCfg eff b) (aleRun (rhaleCfg eff b) calls) s xs true c = (st, .ok (y, some v)) ∧ st.fe s = some (p, nc) ∧ p.limits = limits

/-- The same for an ALE object of the model `f`. -/
def AleShows [PySqrt K] (cast : K → K) (f : Row K D → K) (b : Base K D) (s : Fin D) (limits xs y v : List K) : Prop :=
  (∀ t, b.axisLo t < b.axisHi t) ∧ ∃ calls c st p nc, (∀ g bm c, AleOp.fit g bm c ∈ calls → ∀ m cl, bm ≠ .fixed 0 m cl) ∧
    aleEval (aleCfg cast (List.map f) b) (aleRun (aleCfg cast (List.map f) b) calls) s xs true c = (st, .ok (y, some v)) ∧ st.fe s = some (p, nc) ∧ p.limits = limits

/-- The derivatives of the instances in use whose value of `s` is in bin `k`. -/
def derivativesInBin (b : Base K D) (eff : List (Row K D)) (s : Fin D) (limits : List K) (k : ℕ) : List K :=
  (((b.data.zip eff).filter fun q => inAxis (b.axisLo s) (b.axisHi s) s q.1).filter fun q => InBin limits k (q.1 s)).map fun q => q.2 s

/-- The instances in use whose value of `s` is in bin `k`. -/
def instancesInBin (b : Base K D) (s : Fin D) (limits : List K) (k : ℕ) : List (Row K D) :=
  (b.data.filter (inAxis (b.axisLo s) (b.axisHi s) s)).filter fun r => InBin limits k (r s)

/-- The law of pooling, for the changes `dy`, `dv` of curve and heterogeneity of the whole and those of the parts, with `N` instances in the whole and `n i` in part `i`. -/
def PooledChange {ι : Type} (parts : List ι) (N : ℕ) (n : ι → ℕ) (dy dv : K) (dyp dvp : ι → K) : Prop :=
  dy = (parts.map fun i => (n i : K) / (N : K) * dyp i).sum ∧
    ((∀ i ∈ parts, n i ≠ 1) → dv ^ 2 = (parts.map fun i => (n i : K) / (N : K) * (dvp i ^ 2 + (dyp i - dy) ^ 2)).sum)

end Spec

/-- The change of curve and heterogeneity within a bin, from stored parameters. -/
theorem shown_change [PySqrt K] {α : Type} {limits : List K} (used : List α) (value effect : α → K) {p : AleParams K} (hp : GoodParams p) (hl : p.limits = limits) (hin : Within limits (used.map value))
    (h : computeAleParams (used.map value) (used.map effect) limits = .ok p) {k : ℕ} {a e : K} (ha : limits[k]? = some a) (hb : limits[k + 1]? = some e) {xs y v u : List K} {z : K}
    (hu : evalUnnorm p xs = .ok u) (hy : y = u.map (· - z)) (hv : evalHet p xs = .ok v) {i j : ℕ} {x x' y1 y2 v1 v2 : K} (hi : xs[i]? = some x) (hj : xs[j]? = some x')
    (h1 : a ≤ x) (h2 : x ≤ min e (10 ^ 8)) (h3 : a ≤ x') (h4 : x' ≤ min e (10 ^ 8)) (hy1 : y[i]? = some y1) (hy2 : y[j]? = some y2) (hv1 : v[i]? = some v1) (hv2 : v[j]? = some v2) :
    ((used.filter fun q => InBin limits k (value q)) ≠ [] → y2 - y1 = avg ((used.filter fun q => InBin limits k (value q)).map effect) * (x' - x)) ∧
      (2 ≤ (used.filter fun q => InBin limits k (value q)).length → v2 - v1 = PySqrt.sqrt (popVar ((used.filter fun q => InBin limits k (value q)).map effect)) * (x' - x)) := by
  have hk : k < limits.length - 1 := by
    have := (List.getElem?_eq_some_iff.mp hb).1
    omega
  have hlen : (used.map effect).length = (used.map value).length := by simp
  have hbin := binEffects_map limits used value effect k
  have hinc : Increasing limits := hl ▸ hp.inc
  have htwo : 2 ≤ limits.length := hl ▸ hp.two
  constructor
  · intro hne
    obtain ⟨-, -, -, -, he⟩ := computeAleParams_good hinc htwo hin hlen h
    have e1 := he k hk (by rw [hbin]; simpa using hne)
    rw [hbin] at e1
    subst hy
    simp only [List.getElem?_map, Option.map_eq_some_iff] at hy1 hy2
    obtain ⟨u1, hu1, rfl⟩ := hy1
    obtain ⟨u2, hu2, rfl⟩ := hy2
    have := hp.change (by rw [hp.be]) hu (hl ▸ ha) (hl ▸ hb) e1 hi hj hu1 hu2 h1 h2 h3 h4
    linarith
  · intro h2'
    have e1 := computeAleParams_kept hinc htwo hin hlen h k hk (by rw [hbin, List.length_map]; exact h2')
    rw [hbin] at e1
    exact hp.change (es := p.binVariance.map PySqrt.sqrt) (by rw [List.length_map, hp.bv]) hv (hl ▸ ha) (hl ▸ hb) (by rw [List.getElem?_map, e1]; rfl) hi hj hv1 hv2 h1 h2 h3 h4

theorem Spec.RhaleShows.parts [PySqrt K] {b : Base K D} {eff : List (Row K D)} {s : Fin D} {limits xs y v : List K} (h : RhaleShows b eff s limits xs y v) :
    ∃ p u z, GoodParams p ∧ p.limits = limits ∧ Within limits (((b.data.zip eff).filter fun q => inAxis (b.axisLo s) (b.axisHi s) s q.1).map fun q => q.1 s) ∧
      computeAleParams (((b.data.zip eff).filter fun q => inAxis (b.axisLo s) (b.axisHi s) s q.1).map fun q => q.1 s) (((b.data.zip eff).filter fun q => inAxis (b.axisLo s) (b.axisHi s) s q.1).map fun q => q.2 s) limits = .ok p ∧
      evalUnnorm p xs = .ok u ∧ y = u.map (· - z) ∧ evalHet p xs = .ok v := by
  obtain ⟨hlt, calls, c, st, p, nc, hcalls, h, hfe, rfl⟩ := h
  have hdefs : ∀ t, SafeMethod (rhaleCtx b.data eff b.axisLo b.axisHi t) (rhaleCfg eff b).defaultBin := fun t hc => absurd hc (by decide)
  obtain ⟨bm, q, nc', u, z, hsafe, hp, hq, hu, hy, hcase⟩ := eval_origin (fun bm => ∀ t, SafeMethod (rhaleCtx b.data eff b.axisLo b.axisHi t) bm) hdefs
    (fun bm hbm => (rhale_goodFor eff b hlt bm hbm).evaluable) hcalls h
  rw [hfe] at hq
  cases hq
  obtain ⟨hgp, hwith, hpp⟩ := rhale_good (hlt s) (hsafe s) hp
  obtain ⟨hlen, -⟩ := rhaleFitFeature_ok hp
  have e1 : (rhaleCtx b.data eff b.axisLo b.axisHi s).xs = ((b.data.zip eff).filter fun q => inAxis (b.axisLo s) (b.axisHi s) s q.1).map fun q => q.1 s := by
    show col (b.data.filter (inAxis (b.axisLo s) (b.axisHi s) s)) s = _
    rw [← filter_zip_fst' b.data eff hlen.symm (inAxis (b.axisLo s) (b.axisHi s) s)]
    simp [col]
  have e2 : col (((b.data.zip eff).filter fun p => inAxis (b.axisLo s) (b.axisHi s) s p.1).map (·.2)) s =
      ((b.data.zip eff).filter fun q => inAxis (b.axisLo s) (b.axisHi s) s q.1).map fun q => q.2 s := by
    simp [col]
  rw [e1, e2] at hpp
  rw [e1] at hwith
  rcases hcase with ⟨hc, -⟩ | ⟨-, v', hv', hc⟩
  · cases hc
  · cases hc
    exact ⟨p, u, z, hgp, rfl, hwith, hpp, hu, hy, hv'⟩

theorem Spec.AleShows.parts [PySqrt K] {cast : K → K} {f : Row K D → K} {b : Base K D} {s : Fin D} {limits xs y v : List K} (h : AleShows cast f b s limits xs y v) :
    ∃ p u z l0 l1, GoodParams p ∧ p.limits = limits ∧ Within limits ((b.data.filter (inAxis (b.axisLo s) (b.axisHi s) s)).map fun r => r s) ∧ limits[0]? = some l0 ∧ limits[1]? = some l1 ∧
      ∃ g : Row K D → K, (∀ r ∈ b.data.filter (inAxis (b.axisLo s) (b.axisHi s) s), ∀ k, InBin limits k (r s) →
        g r = (f (Function.update r s (cast (limits.getD (k + 1) 0))) - f (Function.update r s (cast (limits.getD k 0)))) / (l1 - l0)) ∧
      computeAleParams ((b.data.filter (inAxis (b.axisLo s) (b.axisHi s) s)).map fun r => r s) ((b.data.filter (inAxis (b.axisLo s) (b.axisHi s) s)).map g) limits = .ok p ∧
      evalUnnorm p xs = .ok u ∧ y = u.map (· - z) ∧ evalHet p xs = .ok v := by
  obtain ⟨hlt, calls, c, st, p, nc, hcalls, h, hfe, rfl⟩ := h
  have hdef : ∀ m cl, (aleCfg cast (List.map f) b).defaultBin ≠ .fixed 0 m cl := by intro m cl hc; cases hc
  obtain ⟨bm, q, nc', u, z, hbm, hp, hq, hu, hy, hcase⟩ := eval_origin (fun bm => ∀ m cl, bm ≠ .fixed 0 m cl) hdef
    (fun bm hbm => (ale_goodFor cast f b hlt bm hbm).evaluable) hcalls h
  rw [hfe] at hq
  cases hq
  obtain ⟨L, l0, l1, -, hinc, htwo, hwith, h0, h1, hl, hpp, hgp, hpl⟩ := ale_fit_cases (hlt s) (ale_safe (aleFitFeature_ok hp).1 hbm) hp
  have hwb := within_bump htwo hwith
  rcases hcase with ⟨hc, -⟩ | ⟨-, v', hv', hc⟩
  · cases hc
  cases hc
  refine ⟨p, u, z, l0, l1, hgp, rfl, hpl ▸ hwb, hpl ▸ h0, hpl ▸ h1, _, ?_, hpl ▸ hpp, hu, hy, hv'⟩
  intro r hr k hk
  rw [hpl] at hk ⊢
  obtain ⟨a, a', ha, ha', hall⟩ := hwith
  have hb := hall (r s) (List.mem_map.mpr ⟨r, hr, rfl⟩)
  rw [inBin_bump ha' hb.2 k, inBin_iff hinc htwo ha ha' hb.1 hb.2 k] at hk
  rw [hk, Nat.add_sub_cancel]

/-- The law for numbers: averages and standard deviations of lists that are poured together. -/
theorem pooled_law [PySqrt K] [LawfulSqrt K] {ι : Type} (parts : List ι) (L : ι → List K) (M : List K) (hperm : (parts.map L).flatten.Perm M) (d dy dv : K) (dyp dvp : ι → K)
    (hM : M ≠ []) (h1 : dy = avg M * d) (h2 : 2 ≤ M.length → dv = PySqrt.sqrt (popVar M) * d) (h3 : ∀ i ∈ parts, L i ≠ [] → dyp i = avg (L i) * d) (h4 : ∀ i ∈ parts, 2 ≤ (L i).length → dvp i = PySqrt.sqrt (popVar (L i)) * d) :
    PooledChange parts M.length (fun i => (L i).length) dy dv dyp dvp := by
  have key : ∀ (A B : ι → K), (∀ i ∈ parts, A i = B i) → (parts.map A).sum = (parts.map B).sum := fun A B h => by rw [List.map_congr_left h]
  constructor
  · have := avg_parts (parts.map L) M hperm id
    rw [List.map_id, List.map_map] at this
    rw [h1, this, ← List.sum_map_mul_right]
    refine key _ _ fun i hi => ?_
    simp only [Function.comp, List.map_id]
    by_cases hn : L i = []
    · simp [hn]
    · rw [h3 i hi hn]; ring
  · intro hone
    have := popVar_parts (parts.map L) M hperm id
    simp only [List.map_id, List.map_map] at this
    have h2 : dv = PySqrt.sqrt (popVar M) * d := by
      refine h2 ?_
      rw [← hperm.length_eq]
      have hne : (parts.map L).flatten ≠ [] := fun hc => hM (by rw [hc] at hperm; exact hperm.symm.eq_nil)
      obtain ⟨y, hy⟩ := List.exists_mem_of_ne_nil _ hne
      obtain ⟨l, hl, hyl⟩ := List.mem_flatten.mp hy
      obtain ⟨i, hi, rfl⟩ := List.mem_map.mp hl
      have a1 := hone i hi
      have a2 := List.length_pos_of_mem hyl
      have a3 : (L i).length ≤ ((parts.map L).flatten).length := (List.sublist_flatten_of_mem hl).length_le
      dsimp only at a1
      omega
    rw [h2, mul_pow, pow_two (PySqrt.sqrt _), LawfulSqrt.sqrt_mul_self _ (popVar_nonneg _), this, ← List.sum_map_mul_right]
    refine key _ _ fun i hi => ?_
    simp only [Function.comp]
    by_cases hn : L i = []
    · simp [hn]
    · have h2' : 2 ≤ (L i).length := by
        have := List.length_pos_of_ne_nil hn
        have := hone i hi
        dsimp only at this
        omega
      rw [h3 i hi hn, h4 i hi h2', h1, mul_pow, pow_two (PySqrt.sqrt _), LawfulSqrt.sqrt_mul_self _ (popVar_nonneg _)]
      ring

/-- **C126, RHALE.**  Objects for any number of data sets and one for all of them together (any calls before, any centring), storing the same bin limits.  Between two positions in bin `k` (up to 1e8), if it is not empty,
the curve of the whole changes by the average of the changes of the parts, weighted by their numbers of instances in the bin; and, if no part has exactly one instance there, the square of the change of the heterogeneity is the
weighted average of those of the parts plus the weighted average of the squared differences of the changes. -/
theorem C126_rhale [PySqrt K] [LawfulSqrt K] {ι : Type} (parts : List ι) (b : Base K D) (eff : List (Row K D)) (bp : ι → Base K D) (effp : ι → List (Row K D)) (s : Fin D) (limits xs y v : List K) (yp vp : ι → List K)
    (h : RhaleShows b eff s limits xs y v) (hparts : ∀ i ∈ parts, RhaleShows (bp i) (effp i) s limits xs (yp i) (vp i)) (k : ℕ) (a e : K) (ha : limits[k]? = some a) (hb : limits[k + 1]? = some e)
    (hpool : (parts.map fun i => derivativesInBin (bp i) (effp i) s limits k).flatten.Perm (derivativesInBin b eff s limits k)) (hne : derivativesInBin b eff s limits k ≠ [])
    (i j : ℕ) (x x' y1 y2 v1 v2 : K) (yp1 yp2 vp1 vp2 : ι → K) (hi : xs[i]? = some x) (hj : xs[j]? = some x') (h1 : a ≤ x) (h2 : x ≤ min e (10 ^ 8)) (h3 : a ≤ x') (h4 : x' ≤ min e (10 ^ 8))
    (hy1 : y[i]? = some y1) (hy2 : y[j]? = some y2) (hv1 : v[i]? = some v1) (hv2 : v[j]? = some v2)
    (hp : ∀ q ∈ parts, (yp q)[i]? = some (yp1 q) ∧ (yp q)[j]? = some (yp2 q) ∧ (vp q)[i]? = some (vp1 q) ∧ (vp q)[j]? = some (vp2 q)) :
    PooledChange parts (derivativesInBin b eff s limits k).length (fun q => (derivativesInBin (bp q) (effp q) s limits k).length) (y2 - y1) (v2 - v1) (fun q => yp2 q - yp1 q) (fun q => vp2 q - vp1 q) := by
  have key : ∀ (b : Base K D) (eff : List (Row K D)) (y v : List K) (y1 y2 v1 v2 : K), RhaleShows b eff s limits xs y v → y[i]? = some y1 → y[j]? = some y2 → v[i]? = some v1 → v[j]? = some v2 →
      (derivativesInBin b eff s limits k ≠ [] → y2 - y1 = avg (derivativesInBin b eff s limits k) * (x' - x)) ∧
      (2 ≤ (derivativesInBin b eff s limits k).length → v2 - v1 = PySqrt.sqrt (popVar (derivativesInBin b eff s limits k)) * (x' - x)) := by
    intro b eff y v y1 y2 v1 v2 h hy1 hy2 hv1 hv2
    obtain ⟨p, u, z, hgp, hl, hw, hpp, hu, hy, hv⟩ := h.parts
    obtain ⟨r1, r2⟩ := shown_change _ _ _ hgp hl hw hpp ha hb hu hy hv hi hj h1 h2 h3 h4 hy1 hy2 hv1 hv2
    unfold derivativesInBin
    rw [List.length_map]
    exact ⟨fun hne => r1 (by simpa using hne), r2⟩
  obtain ⟨r1, r2⟩ := key b eff y v y1 y2 v1 v2 h hy1 hy2 hv1 hv2
  exact pooled_law parts _ _ hpool (x' - x) _ _ _ _ hne (r1 hne) r2
    (fun q hq => (key _ _ _ _ _ _ _ _ (hparts q hq) (hp q hq).1 (hp q hq).2.1 (hp q hq).2.2.1 (hp q hq).2.2.2).1) (fun q hq => (key _ _ _ _ _ _ _ _ (hparts q hq) (hp q hq).1 (hp q hq).2.1 (hp q hq).2.2.1 (hp q hq).2.2.2).2)

/-- **C126, ALE.**  The same for ALE objects of one model. -/
theorem C126_ale [PySqrt K] [LawfulSqrt K] {ι : Type} (parts : List ι) (cast : K → K) (f : Row K D → K) (b : Base K D) (bp : ι → Base K D) (s : Fin D) (limits xs y v : List K) (yp vp : ι → List K)
    (h : AleShows cast f b s limits xs y v) (hparts : ∀ i ∈ parts, AleShows cast f (bp i) s limits xs (yp i) (vp i)) (k : ℕ) (a e : K) (ha : limits[k]? = some a) (hb : limits[k + 1]? = some e)
    (hpool : (parts.map fun i => instancesInBin (bp i) s limits k).flatten.Perm (instancesInBin b s limits k)) (hne : instancesInBin b s limits k ≠ [])
    (i j : ℕ) (x x' y1 y2 v1 v2 : K) (yp1 yp2 vp1 vp2 : ι → K) (hi : xs[i]? = some x) (hj : xs[j]? = some x') (h1 : a ≤ x) (h2 : x ≤ min e (10 ^ 8)) (h3 : a ≤ x') (h4 : x' ≤ min e (10 ^ 8))
    (hy1 : y[i]? = some y1) (hy2 : y[j]? = some y2) (hv1 : v[i]? = some v1) (hv2 : v[j]? = some v2)
    (hp : ∀ q ∈ parts, (yp q)[i]? = some (yp1 q) ∧ (yp q)[j]? = some (yp2 q) ∧ (vp q)[i]? = some (vp1 q) ∧ (vp q)[j]? = some (vp2 q)) :
    PooledChange parts (instancesInBin b s limits k).length (fun q => (instancesInBin (bp q) s limits k).length) (y2 - y1) (v2 - v1) (fun q => yp2 q - yp1 q) (fun q => vp2 q - vp1 q) := by
  have hL : ∃ l0 l1, limits[0]? = some l0 ∧ limits[1]? = some l1 := by
    obtain ⟨p, u, z, l0, l1, -, -, -, e0, e1, -⟩ := h.parts
    exact ⟨l0, l1, e0, e1⟩
  obtain ⟨l0, l1, e0, e1⟩ := hL
  let G : Row K D → K := fun r => (f (Function.update r s (cast (limits.getD (k + 1) 0))) - f (Function.update r s (cast (limits.getD k 0)))) / (l1 - l0)
  have key : ∀ (b : Base K D) (y v : List K) (y1 y2 v1 v2 : K), AleShows cast f b s limits xs y v → y[i]? = some y1 → y[j]? = some y2 → v[i]? = some v1 → v[j]? = some v2 →
      (instancesInBin b s limits k ≠ [] → y2 - y1 = avg ((instancesInBin b s limits k).map G) * (x' - x)) ∧
      (2 ≤ (instancesInBin b s limits k).length → v2 - v1 = PySqrt.sqrt (popVar ((instancesInBin b s limits k).map G)) * (x' - x)) := by
    intro b y v y1 y2 v1 v2 h hy1 hy2 hv1 hv2
    obtain ⟨p, u, z, m0, m1, hgp, hl, hw, f0, f1, g, hg, hpp, hu, hy, hv⟩ := h.parts
    rw [e0] at f0
    rw [e1] at f1
    cases f0
    cases f1
    obtain ⟨r1, r2⟩ := shown_change _ _ _ hgp hl hw hpp ha hb hu hy hv hi hj h1 h2 h3 h4 hy1 hy2 hv1 hv2
    have : (instancesInBin b s limits k).map g = (instancesInBin b s limits k).map G := by
      refine List.map_congr_left fun r hr => ?_
      have hr := List.mem_filter.mp hr
      exact hg r hr.1 k (by simpa using hr.2)
    rw [← this]
    exact ⟨r1, r2⟩
  obtain ⟨r1, r2⟩ := key b y v y1 y2 v1 v2 h hy1 hy2 hv1 hv2
  have hp2 : (parts.map fun i => (instancesInBin (bp i) s limits k).map G).flatten.Perm ((instancesInBin b s limits k).map G) := by
    have := hpool.map G
    rw [List.map_flatten, List.map_map] at this
    exact this
  have := pooled_law parts _ _ hp2 (x' - x) (y2 - y1) (v2 - v1) (fun q => yp2 q - yp1 q) (fun q => vp2 q - vp1 q) (by simpa using hne) (r1 hne) (by simpa using r2)
    (fun q hq hne => (key _ _ _ _ _ _ _ (hparts q hq) (hp q hq).1 (hp q hq).2.1 (hp q hq).2.2.1 (hp q hq).2.2.2).1 (by simpa using hne))
    (fun q hq hne => (key _ _ _ _ _ _ _ (hparts q hq) (hp q hq).1 (hp q hq).2.1 (hp q hq).2.2.1 (hp q hq).2.2.2).2 (by simpa using hne))
  simpa using this

/-! ### A concrete case -/

/-- Two parts with derivatives 0, 8 and 6, 14 in one bin, and the whole: between the positions 0 and 2 the curves change by 8, 20 and 14 = (8 + 20) / 2, the heterogeneities by 8, 8 and 10: 100 = (64 + 36) / 2 + (64 + 36) / 2. -/
theorem C126_example :
    (aleEval (K := ℚ) (D := 1) (rhaleCfg [![0], ![8]] { data := [![0], ![1]], indices := [0, 1], axisLo := ![0], axisHi := ![4] })
      (aleRun (rhaleCfg [![0], ![8]] { data := [![0], ![1]], indices := [0, 1], axisLo := ![0], axisHi := ![4] }) [.fit (.int 0) (.fixed 1 (some 0) 0) (.bool false)]) 0 [0, 2] true (.bool false)).2 = .ok ([0, 8], some [0, 8]) ∧
    (aleEval (K := ℚ) (D := 1) (rhaleCfg [![6], ![14]] { data := [![2], ![3]], indices := [0, 1], axisLo := ![0], axisHi := ![4] })
      (aleRun (rhaleCfg [![6], ![14]] { data := [![2], ![3]], indices := [0, 1], axisLo := ![0], axisHi := ![4] }) [.fit (.int 0) (.fixed 1 (some 0) 0) (.bool false)]) 0 [0, 2] true (.bool false)).2 = .ok ([0, 20], some [0, 8]) ∧
    (aleEval (K := ℚ) (D := 1) (rhaleCfg [![8], ![6], ![0], ![14]] { data := [![1], ![2], ![0], ![3]], indices := [0, 1, 2, 3], axisLo := ![0], axisHi := ![4] })
      (aleRun (rhaleCfg [![8], ![6], ![0], ![14]] { data := [![1], ![2], ![0], ![3]], indices := [0, 1, 2, 3], axisLo := ![0], axisHi := ![4] }) [.fit (.int 0) (.fixed 1 (some 0) 0) (.bool false)]) 0 [0, 2] true
        (.bool false)).2 = .ok ([0, 14], some [0, 10]) ∧
    derivativesInBin (K := ℚ) (D := 1) { data := [![1], ![2], ![0], ![3]], indices := [0, 1, 2, 3], axisLo := ![0], axisHi := ![4] } [![8], ![6], ![0], ![14]] 0 [0, 4] 0 = [8, 6, 0, 14] ∧
    derivativesInBin (K := ℚ) (D := 1) { data := [![0], ![1]], indices := [0, 1], axisLo := ![0], axisHi := ![4] } [![0], ![8]] 0 [0, 4] 0 = [0, 8] ∧
    PooledChange (K := ℚ) [0, 1] 4 (fun _ : ℕ => 2) 14 10 (fun i => if i = 0 then 8 else 20) (fun _ => 8) := by
  refine ⟨?_, ?_, ?_, ?_, ?_, ?_⟩
  · decide +kernel
  · decide +kernel
  · decide +kernel
  · decide +kernel
  · decide +kernel
  · unfold PooledChange
    norm_num

end Effector
