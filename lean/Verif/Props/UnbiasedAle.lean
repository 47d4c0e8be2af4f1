import Verif.Props.Unbiased
import Verif.Props.FitSucceeds

/-!
# C119: sub-sampling is right on average for ALE and RHALE with fixed bins that no draw can empty
-/

set_option linter.unusedSectionVars false

namespace Effector

variable {K : Type} [Field K] [LinearOrder K] [IsStrictOrderedRing K] {D : ℕ}

open Spec

namespace Spec

/-- The curves `(res e).1` for the outcomes `e` of a draw of `n` out of `N` are, at each of the `len` points and on average, the curve `all.1` for all instances. -/
structure CurveRightOnAverage {N n : ℕ} (len : ℕ) (res : (Fin n ↪ Fin N) → EvalOut K) (all : EvalOut K) : Prop where
  lengths : (∀ e, (res e).1.length = len) ∧ all.1.length = len
  curve : ∀ j < len, ∃ (v : (Fin n ↪ Fin N) → K) (v0 : K), (∀ e, (res e).1[j]? = some (v e)) ∧ all.1[j]? = some v0 ∧ expected N n v = v0

/-- `fit(s, binning_method=Fixed(nb, mo, cl), centering=c)`, then `eval(s, xs, heterogeneity=het, centering=c)`, on a fresh ALE or RHALE object. -/
def fixedFitEval [PySqrt K] (cfg : AleCfg K D) (s : Fin D) (nb : ℕ) (mo : Option ℕ) (cl : ℕ) (xs : List K) (het : Bool) (c : PyVal) : Py (EvalOut K) :=
  match aleFit cfg AleState.init (.int s) (.fixed nb mo cl) c with
  | (_, .error e) => .error e
  | (st, .ok ()) => (aleEval cfg st s xs het c).2

/-- `ALE(data, model, nof_instances=nof, axis_limits=[lo, hi])`, `fit` with fixed bins, `eval`. -/
def aleSampled [PySqrt K] (cast : K → K) (f : Row K D → K) (choice : ℕ → ℕ → List ℕ) (data : List (Row K D)) (nof : PyVal) (lo hi : Fin D → K) (s : Fin D) (nb : ℕ)
    (mo : Option ℕ) (cl : ℕ) (xs : List K) (het : Bool) (c : PyVal) : Py (EvalOut K) :=
  (Base.init choice data nof (some (lo, hi))).bind fun b => fixedFitEval (aleCfg cast (List.map f) b) s nb mo cl xs het c

/-- `RHALE(data, model, model_jac=jac, data_effect=given, nof_instances=nof, axis_limits=[lo, hi])`, `fit` with fixed bins, `eval`. -/
def rhaleSampled [PySqrt K] (f : Row K D → K) (jac : Option (Row K D → Row K D)) (given : Option (List (Row K D))) (choice : ℕ → ℕ → List ℕ) (data : List (Row K D)) (nof : PyVal)
    (lo hi : Fin D → K) (s : Fin D) (nb : ℕ) (mo : Option ℕ) (cl : ℕ) (xs : List K) (het : Bool) (c : PyVal) : Py (EvalOut K) :=
  (rhaleInit choice (List.map f) (jac.map List.map) data given nof (some (lo, hi))).bind fun q => fixedFitEval q.1 s nb mo cl xs het c

/-- A draw of `n` instances cannot leave one of the `nb` equal bins between `lo s` and `hi s` empty, nor leave `cl` values of feature `s` or less; all instances are in the range. -/
structure NoBinLost (data : List (Row K D)) (n : ℕ) (lo hi : Fin D → K) (s : Fin D) (nb cl : ℕ) : Prop where
  range : ∀ t, lo t < hi t
  inside : ∀ r ∈ data, lo s ≤ r s ∧ r s ≤ hi s
  some_bin : 1 ≤ nb
  many : ∀ k < nb, data.length - n < data.countP fun r => InBin (evenly (lo s) (hi s) (nb + 1)) k (r s)
  values : ∀ d : List (Row K D), d.Subperm data → n ≤ d.length → cl < distinct (d.map (· s))

end Spec

/-! ### The mean over the drawn members of a group -/

theorem expected_mul {N n : ℕ} (c : K) (v : (Fin n ↪ Fin N) → K) : expected N n (fun e => c * v e) = c * expected N n v := by
  unfold expected
  rw [← Finset.mul_sum, mul_div_assoc]

theorem expected_relabel {N n : ℕ} (π : Equiv.Perm (Fin N)) (v : (Fin n ↪ Fin N) → K) : expected N n (fun e => v (e.trans π.toEmbedding)) = expected N n v := by
  unfold expected
  congr 1
  exact Fintype.sum_equiv (Equiv.embeddingCongr (Equiv.refl _) π) _ _ fun e => by congr 1

/-- The number of drawn members of a group. -/
def hits {N n : ℕ} (B : Finset (Fin N)) (e : Fin n ↪ Fin N) : ℕ := (Finset.univ.filter fun k => e k ∈ B).card

theorem hits_pos {N n : ℕ} {B : Finset (Fin N)} (hB : N - n < B.card) (e : Fin n ↪ Fin N) : 0 < hits B e := by
  classical
  unfold hits
  rw [Finset.card_pos]
  by_contra hc
  rw [Finset.not_nonempty_iff_eq_empty] at hc
  have h1 : Disjoint (Finset.univ.map e) B := by
    rw [Finset.disjoint_left]
    intro i hi hiB
    obtain ⟨k, -, rfl⟩ := Finset.mem_map.mp hi
    have : k ∈ Finset.univ.filter fun k => e k ∈ B := Finset.mem_filter.mpr ⟨Finset.mem_univ _, hiB⟩
    rw [hc] at this
    simp at this
  have h2 := Finset.card_le_univ (Finset.univ.map e ∪ B)
  rw [Finset.card_union_of_disjoint h1, Finset.card_map, Finset.card_univ, Fintype.card_fin, Fintype.card_fin] at h2
  omega

/-- The mean over the drawn members of a group that no draw misses is, on average, the mean over the group. -/
theorem expected_group_mean {N n : ℕ} (h : n ≤ N) {B : Finset (Fin N)} (hB : ∀ e : Fin n ↪ Fin N, 0 < hits B e) (g : Fin N → K) :
    expected N n (fun e => (∑ k ∈ Finset.univ.filter (fun k => e k ∈ B), g (e k)) / (hits B e : K)) = (∑ i ∈ B, g i) / (B.card : K) := by
  classical
  let w : Fin N → K := fun i => expected N n fun e => ∑ k : Fin n, if e k = i then 1 / (hits B e : K) else 0
  have e1 : ∀ g : Fin N → K, expected N n (fun e => (∑ k ∈ Finset.univ.filter (fun k => e k ∈ B), g (e k)) / (hits B e : K)) = ∑ i ∈ B, g i * w i := by
    intro g
    have : ∀ e : Fin n ↪ Fin N, (∑ k ∈ Finset.univ.filter (fun k => e k ∈ B), g (e k)) / (hits B e : K) = ∑ i ∈ B, g i * ∑ k : Fin n, if e k = i then 1 / (hits B e : K) else 0 := by
      intro e
      simp only [Finset.mul_sum, mul_ite, mul_zero]
      rw [Finset.sum_comm, Finset.sum_div, Finset.sum_filter]
      refine Finset.sum_congr rfl fun k _ => ?_
      rw [Finset.sum_ite_eq]
      split_ifs
      · rw [mul_one_div]
      · rfl
    simp only [this]
    rw [expected_sum]
    exact Finset.sum_congr rfl fun i _ => expected_mul (g i) _
  have hsame : ∀ i ∈ B, ∀ j ∈ B, w i = w j := by
    intro i hi j hj
    have := expected_relabel (Equiv.swap i j) fun e : Fin n ↪ Fin N => ∑ k : Fin n, if e k = j then 1 / (hits B e : K) else 0
    show w i = w j
    simp only [w]
    rw [← this]
    congr 1
    funext e
    have hmem : ∀ a, Equiv.swap i j a ∈ B ↔ a ∈ B := by
      intro a
      by_cases ha : a = i
      · subst ha; simp [hi, hj]
      · by_cases hb : a = j
        · subst hb; simp [hi, hj]
        · rw [Equiv.swap_apply_of_ne_of_ne ha hb]
    have hh : hits B (e.trans (Equiv.swap i j).toEmbedding) = hits B e := by
      unfold hits
      congr 1
      ext k
      simp [hmem]
    rw [hh]
    refine Finset.sum_congr rfl fun k _ => ?_
    have : (e.trans (Equiv.swap i j).toEmbedding) k = j ↔ e k = i := by
      simp only [Function.Embedding.trans_apply, Equiv.coe_toEmbedding]
      rw [Equiv.swap_apply_eq_iff, Equiv.swap_apply_right]
    by_cases hk : e k = i
    · rw [if_pos hk, if_pos (this.mpr hk)]
    · rw [if_neg hk, if_neg fun h => hk (this.mp h)]
  have hone : ∑ i ∈ B, w i = 1 := by
    have h1 := e1 fun _ => 1
    simp only [one_mul] at h1
    rw [← h1, show (fun e : Fin n ↪ Fin N => (∑ k ∈ Finset.univ.filter (fun k => e k ∈ B), (1 : K)) / (hits B e : K)) = fun _ => 1 from funext fun e => ?_, expected_const h]
    have hne : (hits B e : K) ≠ 0 := by exact_mod_cast (hB e).ne'
    rw [Finset.sum_const, nsmul_eq_mul, mul_one]
    exact div_self hne
  rw [e1 g]
  rcases B.eq_empty_or_nonempty with rfl | ⟨i, hi⟩
  · simp
  · have hc : ∀ j ∈ B, w j = w i := fun j hj => hsame j hj i hi
    rw [Finset.sum_congr rfl hc, Finset.sum_const, nsmul_eq_mul] at hone
    have hB0 : (B.card : K) ≠ 0 := by exact_mod_cast (Finset.card_pos.mpr ⟨i, hi⟩).ne'
    rw [Finset.sum_congr rfl fun j hj => by rw [hc j hj], ← Finset.sum_mul, eq_div_iff hB0, mul_assoc, mul_comm (w i), hone, mul_one]

/-! ### Bin effects of the drawn instances -/

theorem binEffects_ofFn {m : ℕ} (L : List K) (k : ℕ) (a b : Fin m → K) : binEffects L (List.ofFn a) (List.ofFn b) k = ((List.finRange m).filter fun i => InBin L k (a i)).map b := by
  unfold binEffects
  rw [List.ofFn_eq_map, List.ofFn_eq_map, List.zip_map', List.filter_map, List.map_map]
  rfl

theorem avg_filter {m : ℕ} (P : Fin m → Prop) [DecidablePred P] (b : Fin m → K) :
    avg (((List.finRange m).filter fun i => P i).map b) = (∑ i ∈ Finset.univ.filter P, b i) / ((Finset.univ.filter P).card : K) := by
  have hn : ((List.finRange m).filter fun i => P i).Nodup := (List.nodup_finRange m).filter _
  have h1 : ((List.finRange m).filter fun i => P i).toFinset = Finset.univ.filter P := by
    ext i
    simp
  unfold avg
  rw [← h1, List.sum_toFinset _ hn, List.toFinset_card_of_nodup hn, List.length_map]

/-- The members of bin `k`. -/
def members {N : ℕ} (L : List K) (k : ℕ) (x : Fin N → K) : Finset (Fin N) := Finset.univ.filter fun i => InBin L k (x i)

theorem avg_bin_drawn {N n : ℕ} (L : List K) (k : ℕ) (x y : Fin N → K) (e : Fin n ↪ Fin N) :
    avg (binEffects L (List.ofFn fun j => x (e j)) (List.ofFn fun j => y (e j)) k) =
      (∑ j ∈ Finset.univ.filter (fun j => e j ∈ members L k x), y (e j)) / (hits (members L k x) e : K) := by
  rw [binEffects_ofFn, avg_filter]
  have : (Finset.univ.filter fun j => e j ∈ members L k x) = Finset.univ.filter fun j => InBin L k (x (e j)) := by
    ext j
    simp [members]
  unfold hits
  rw [this]

theorem bin_drawn_ne {N n : ℕ} (L : List K) (k : ℕ) (x y : Fin N → K) (e : Fin n ↪ Fin N) (h : 0 < hits (members L k x) e) :
    binEffects L (List.ofFn fun j => x (e j)) (List.ofFn fun j => y (e j)) k ≠ [] := by
  rw [binEffects_ofFn]
  obtain ⟨j, hj⟩ := Finset.card_pos.mp h
  have hj2 : InBin L k (x (e j)) := by simpa [members] using hj
  apply List.ne_nil_of_mem (a := y (e j))
  exact List.mem_map.mpr ⟨j, List.mem_filter.mpr ⟨List.mem_finRange j, by simpa using hj2⟩, rfl⟩

theorem binEffect_drawn {N n : ℕ} {L : List K} (hinc : Increasing L) (htwo : 2 ≤ L.length) (x y : Fin N → K) {lo hi : K} (hlo : L.head? = some lo) (hhi : L.getLast? = some hi)
    (hx : ∀ i, lo ≤ x i ∧ x i ≤ hi) (e : Fin n ↪ Fin N) (hne : ∀ k < L.length - 1, 0 < hits (members L k x) e) {m : ℕ} (hm : L.length = m + 1) {p : AleParams K}
    (hp : computeAleParams (List.ofFn fun j => x (e j)) (List.ofFn fun j => y (e j)) L = .ok p) :
    GoodParams p ∧ p.limits = L ∧ p.binEffect = List.ofFn fun k : Fin m =>
      (∑ j ∈ Finset.univ.filter (fun j => e j ∈ members L k x), y (e j)) / (hits (members L k x) e : K) := by
  have hw : Within L (List.ofFn fun j => x (e j)) := by
    refine ⟨lo, hi, hlo, hhi, fun v hv => ?_⟩
    obtain ⟨j, rfl⟩ := List.mem_ofFn.mp hv
    exact hx _
  obtain ⟨hg, hl, -, -, hb⟩ := computeAleParams_good hinc htwo hw (by simp) hp
  refine ⟨hg, hl, List.ext_getElem? fun k => ?_⟩
  by_cases hk : k < m
  · rw [hb k (by omega) (bin_drawn_ne L k x y e (hne k (by omega))), avg_bin_drawn]
    simp [hk]
  · rw [List.getElem?_eq_none (by rw [hg.be, hl]; omega), List.getElem?_eq_none (by simp; omega)]

/-! ### The curve is linear in the bin effects -/

theorem stepIntegral_coefficients (m : ℕ) (L : List K) (h : L.length = m + 1) : ∃ a : K → Fin m → K, ∀ (b : Fin m → K) x, stepIntegral L (List.ofFn b) x = ∑ k, a x k * b k := by
  induction m generalizing L with
  | zero =>
    refine ⟨fun _ _ => 0, fun b x => ?_⟩
    match L, h with
    | [l], _ => simp [stepIntegral]
  | succ m ih =>
    match L, h with
    | l0 :: l1 :: ls, h =>
      obtain ⟨a, ha⟩ := ih (l1 :: ls) (by simpa using h)
      refine ⟨fun x => Fin.cons (min x l1 - min x l0) (a x), fun b x => ?_⟩
      rw [List.ofFn_succ, Fin.sum_univ_succ]
      simp only [stepIntegral, Fin.cons_zero, Fin.cons_succ]
      rw [ha fun k => b k.succ]
      ring

theorem evalUnnorm_coefficients (m : ℕ) (L : List K) (h : L.length = m + 1) : ∃ a : K → Fin m → K, ∀ (p : AleParams K) (b : Fin m → K), GoodParams p → p.limits = L →
    p.binEffect = List.ofFn b → ∀ xs, evalUnnorm p xs = .ok (xs.map fun x => ∑ k, a x k * b k) := by
  obtain ⟨a, ha⟩ := stepIntegral_coefficients m L h
  refine ⟨fun x k => a x k + if ((∀ l ∈ L, l ≤ x) ∧ BIG_M < x) ∧ (k : ℕ) + 1 = m then x - BIG_M else 0, fun p b hg hl hb xs => ?_⟩
  obtain ⟨el, hel, hacc⟩ := hg.acc p.binEffect xs hg.be
  have h2 := hg.two
  rw [hl] at h2
  have hm : 0 < m := by omega
  have hel2 : el = b ⟨m - 1, by omega⟩ := by
    rw [hb, List.getLast?_eq_getElem?, List.length_ofFn, List.getElem?_ofFn] at hel
    simp only [show m - 1 < m by omega, dite_true, Option.some.injEq] at hel
    exact hel.symm
  unfold evalUnnorm
  rw [hacc]
  congr 1
  apply List.map_congr_left
  intro x _
  rw [hl, hb, ha b x, hel2]
  simp only [add_mul, Finset.sum_add_distrib]
  congr 1
  by_cases hx : (∀ l ∈ L, l ≤ x) ∧ BIG_M < x
  · rw [if_pos hx, Finset.sum_eq_single (⟨m - 1, by omega⟩ : Fin m)]
    · rw [if_pos ⟨hx, by simp; omega⟩]
    · intro k _ hk
      rw [if_neg, zero_mul]
      rintro ⟨-, hk2⟩
      exact hk (Fin.ext (by simp; omega))
    · intro hk
      exact absurd (Finset.mem_univ _) hk
  · rw [if_neg hx]
    symm
    apply Finset.sum_eq_zero
    intro k _
    rw [if_neg (fun hc => hx hc.1), zero_mul]

theorem avg_coefficients {m : ℕ} (a : K → Fin m → K) (b : Fin m → K) (l : List K) : avg (l.map fun x => ∑ k, a x k * b k) = ∑ k, avg (l.map fun x => a x k) * b k := by
  have h : (l.map fun x => ∑ k, a x k * b k).sum = ∑ k, (l.map fun x => a x k).sum * b k := by
    induction l with
    | nil => simp
    | cons x t ih => simp only [List.map_cons, List.sum_cons, ih, add_mul, Finset.sum_add_distrib]
  unfold avg
  rw [h, Finset.sum_div]
  refine Finset.sum_congr rfl fun k _ => ?_
  simp only [List.length_map]
  ring

theorem centred_coefficients (m : ℕ) (L : List K) (h : L.length = m + 1) (lo hi : K) (mode : Centering) : ∃ A : K → Fin m → K, ∀ (cfg : AleCfg K D) (s : Fin D) (p : AleParams K)
    (b : Fin m → K), cfg.axisLo s = lo → cfg.axisHi s = hi → GoodParams p → p.limits = L → p.binEffect = List.ofFn b → ∀ (xs u : List K) (z : K), evalUnnorm p xs = .ok u →
    shift cfg p s mode = .ok z → u.map (· - z) = xs.map fun x => ∑ k, A x k * b k := by
  obtain ⟨a, ha⟩ := evalUnnorm_coefficients m L h
  have fin : ∀ (c : Fin m → K) (b : Fin m → K) (xs : List K), (xs.map fun x => ∑ k, a x k * b k).map (· - ∑ k, c k * b k) = xs.map fun x => ∑ k, (a x k - c k) * b k := by
    intro c b xs
    rw [List.map_map]
    apply List.map_congr_left
    intro x _
    simp only [Function.comp, sub_mul, Finset.sum_sub_distrib]
  cases mode with
  | off =>
    refine ⟨a, fun cfg s p b _ _ hg hl hb xs u z hu hz => ?_⟩
    rw [ha p b hg hl hb] at hu
    cases hu
    cases hz
    simp
  | zeroStart =>
    refine ⟨fun x k => a x k - a lo k, fun cfg s p b hlo _ hg hl hb xs u z hu hz => ?_⟩
    rw [ha p b hg hl hb] at hu
    cases hu
    unfold shift at hz
    rw [ha p b hg hl hb, hlo] at hz
    cases hz
    exact fin (a lo) b xs
  | zeroIntegral =>
    refine ⟨fun x k => a x k - avg ((centres lo hi 99).map fun x => a x k), fun cfg s p b hlo hhi hg hl hb xs u z hu hz => ?_⟩
    rw [ha p b hg hl hb] at hu
    cases hu
    replace hz : (evalUnnorm p (centres (cfg.axisLo s) (cfg.axisHi s) 99)).map avg = .ok z := hz
    rw [ha p b hg hl hb, hlo, hhi] at hz
    have hz2 : z = ∑ k, avg ((centres lo hi 99).map fun x => a x k) * b k := by
      rw [← avg_coefficients]
      exact (Except.ok.inj hz).symm
    rw [hz2]
    exact fin _ b xs

/-! ### A session -/

theorem fixedFitEval_ok [PySqrt K] {cfg : AleCfg K D} {s : Fin D} {nb : ℕ} {mo : Option ℕ} {cl : ℕ} (hg : GoodFor cfg (.fixed nb mo cl)) (hd : Evaluable cfg cfg.defaultBin) {xs : List K}
    {het : Bool} {c : PyVal} {r : EvalOut K} (h : fixedFitEval cfg s nb mo cl xs het c = .ok r) :
    ∃ m p u z, prepCentering c = .ok m ∧ cfg.fitF s (.fixed nb mo cl) = .ok p ∧ evalUnnorm p xs = .ok u ∧ shift cfg p s m = .ok z ∧ r.1 = u.map (· - z) := by
  unfold fixedFitEval at h
  cases hf : aleFit cfg AleState.init (.int s) (.fixed nb mo cl) c with
  | mk st res =>
    rw [hf] at h
    cases res with
    | error e => cases h
    | ok u0 =>
      simp only at h
      have hst : st = aleRun cfg [.fit (.int s) (.fixed nb mo cl) c] := by
        show st = (aleFit cfg AleState.init (.int s) (.fixed nb mo cl) c).1
        rw [hf]
      obtain ⟨y, o⟩ := r
      rw [hst] at h
      obtain ⟨m, p, u, z, hm, hp, hu, hz, hy, -⟩ := eval_from_fit hd (usesEvaluable_of cfg _ (by
        intro f bm c' hmem
        simp only [List.mem_singleton, AleOp.fit.injEq] at hmem
        rw [hmem.2.1]
        exact hg.evaluable)) h
      refine ⟨m, p, u, z, hm, ?_, hu, hz, hy⟩
      have hlast : lastFit cfg [.fit (.int s) (.fixed nb mo cl) c] s = some (.fixed nb mo cl, m) := by
        have hfeat : (prepFeatures (.int s) D).bind (resolveFeatures D) = .ok [s] := by
          show resolveFeatures D (.list [(s : ℤ)]) = .ok [s]
          simp [resolveFeatures, pure, Except.pure]
          rfl
        have hal : cfg.allowed (.fixed nb mo cl) = true := by
          by_contra hc
          unfold aleFit at hf
          rw [if_neg hc] at hf
          cases hf
        have hok : ∃ q, cfg.fitF s (.fixed nb mo cl) = .ok q := by
          unfold aleFit at hf
          rw [if_pos hal, hm, show prepFeatures (.int s) D = .ok (.list [(s : ℤ)]) from rfl] at hf
          have h2 : resolveFeatures D (.list [(s : ℤ)]) = .ok [s] := hfeat
          simp only [bind, Except.bind, h2, pure, Except.pure, fitLoop, fitOne] at hf
          cases hq : cfg.fitF s (.fixed nb mo cl) with
          | ok q => exact ⟨q, rfl⟩
          | error x => rw [hq] at hf; cases hf
        obtain ⟨q, hq⟩ := hok
        show afterCall cfg (fun _ => none) (.fit (.int s) (.fixed nb mo cl) c) s = _
        unfold afterCall
        dsimp only
        rw [if_pos hal, hfeat, hm]
        simp only [afterFit, hq, Function.update_self]
      rw [hlast] at hp
      simpa [effectiveBin] using hp


/-! ### One drawn sample -/

theorem bumpLast_inj {e : K} {l l' : List K} (h : bumpLast e l = bumpLast e l') : l = l' := by
  have hlen : l.length = l'.length := by rw [← length_bumpLast e l, h, length_bumpLast]
  apply List.ext_getElem? 
  intro k
  have hk := congrArg (fun q => q[k]?) h
  simp only [getElem?_bumpLast, hlen] at hk
  refine Option.map_injective ?_ hk
  intro a b hab
  by_cases hc : k + 1 = l'.length
  · simpa [hc] using hab
  · simpa [hc] using hab

theorem linspace_bump {lo hi : K} (hlt : lo < hi) {nb : ℕ} (hnb : 1 ≤ nb) : Increasing (bumpLast EPS (linspace lo hi (nb + 1))) ∧ (bumpLast EPS (linspace lo hi (nb + 1))).length = nb + 1 ∧
    (bumpLast EPS (linspace lo hi (nb + 1))).head? = some lo ∧ (bumpLast EPS (linspace lo hi (nb + 1))).getLast? = some (hi + EPS) := by
  refine ⟨increasing_bumpLast EPS_pos.le (linspace_increasing lo hi nb hlt), by rw [length_bumpLast, length_linspace], ?_, ?_⟩
  · rw [List.head?_eq_getElem?, getElem?_bumpLast, ← List.head?_eq_getElem?, linspace_head, Option.map_some, if_neg (by rw [length_linspace]; omega)]
  · rw [List.getLast?_eq_getElem?, length_bumpLast, getElem?_bumpLast, ← List.getLast?_eq_getElem?, linspace_last _ _ _ hnb, Option.map_some, if_pos (by rw [length_linspace]; omega)]

theorem members_bump {N : ℕ} {lo hi : K} {nb : ℕ} (hnb : 1 ≤ nb) (x : Fin N → K) (hx : ∀ i, x i ≤ hi) (k : ℕ) :
    members (bumpLast EPS (linspace lo hi (nb + 1))) k x = members (linspace lo hi (nb + 1)) k x := by
  unfold members
  apply Finset.filter_congr
  intro i _
  exact inBin_bump (linspace_last _ _ _ hnb) (hx i) k

theorem inAxis_all {d : List (Row K D)} {lo hi : K} {s : Fin D} (h : ∀ r ∈ d, lo ≤ r s ∧ r s ≤ hi) : d.filter (inAxis lo hi s) = d := by
  rw [List.filter_eq_self]
  intro r hr
  simpa [inAxis] using h r hr

theorem drawn_inside {data : List (Row K D)} {lo hi : K} {s : Fin D} (h : ∀ r ∈ data, lo ≤ r s ∧ r s ≤ hi) {n : ℕ} (e : Fin n ↪ Fin data.length) :
    ∀ r ∈ drawnRows data e, lo ≤ r s ∧ r s ≤ hi := by
  intro r hr
  obtain ⟨k, rfl⟩ := List.mem_ofFn.mp hr
  exact h _ (List.get_mem _ _)

/-- The mean of `y` over the drawn members of bin `k`. -/
noncomputable def drawnMean {N n : ℕ} (B : Finset (Fin N)) (y : Fin N → K) (e : Fin n ↪ Fin N) : K :=
  (∑ j ∈ Finset.univ.filter (fun j => e j ∈ B), y (e j)) / (hits B e : K)

/-- Where ALE reads the model for an instance of bin `k`. -/
def aleSlope (cast : K → K) (f : Row K D → K) (lo hi : K) (nb : ℕ) (s : Fin D) (r : Row K D) : K :=
  (f (Function.update r s (cast ((bumpLast EPS (linspace lo hi (nb + 1))).getD (binIdx (linspace lo hi (nb + 1)) (r s)) 0))) -
    f (Function.update r s (cast ((bumpLast EPS (linspace lo hi (nb + 1))).getD (binIdx (linspace lo hi (nb + 1)) (r s) - 1) 0)))) /
      ((bumpLast EPS (linspace lo hi (nb + 1))).getD 1 0 - (bumpLast EPS (linspace lo hi (nb + 1))).getD 0 0)

theorem ale_drawn {cast : K → K} {f : Row K D → K} {data : List (Row K D)} {lo hi : Fin D → K} {s : Fin D} {nb cl : ℕ} {mo : Option ℕ} (hlt : lo s < hi s) (hnb : 1 ≤ nb)
    (hin : ∀ r ∈ data, lo s ≤ r s ∧ r s ≤ hi s) {n : ℕ} (e : Fin n ↪ Fin data.length) (hcat : cl < distinct ((drawnRows data e).map (· s)))
    (hne : ∀ k < nb, 0 < hits (members (linspace (lo s) (hi s) (nb + 1)) k fun i => data.get i s) e) {p : AleParams K}
    (h : aleFitFeature cast (List.map f) (drawnRows data e) lo hi s (.fixed nb mo cl) = .ok p) :
    GoodParams p ∧ p.limits = bumpLast EPS (linspace (lo s) (hi s) (nb + 1)) ∧ p.binEffect = List.ofFn fun k : Fin nb =>
      drawnMean (members (linspace (lo s) (hi s) (nb + 1)) k fun i => data.get i s) (fun i => aleSlope cast f (lo s) (hi s) nb s (data.get i)) e := by
  have hf := inAxis_all (drawn_inside hin e)
  have hlim := ale_fixed_limits (by rw [hf]; exact hcat) h
  obtain ⟨L, l0, l1, -, hinc, htwo, -, h0, h1, -, hp, -, hpl⟩ := ale_fit_cases hlt (ale_safe (aleFitFeature_ok h).1 (by
    intro m' cl' hc
    simp only [BinMethod.fixed.injEq] at hc
    omega)) h
  have hL : L = linspace (lo s) (hi s) (nb + 1) := by
    have hb : bumpLast EPS L = bumpLast EPS (linspace (lo s) (hi s) (nb + 1)) := by rw [← hpl, hlim]
    exact bumpLast_inj hb
  subst hL
  obtain ⟨b1, b2, b3, b4⟩ := linspace_bump hlt hnb
  have hx : (aleCtx (drawnRows data e) lo hi s).xs = List.ofFn fun j => (fun i => data.get i s) (e j) := by
    show col _ s = _
    rw [hf]
    simp [col, drawnRows, List.map_ofFn, Function.comp_def]
  have hy : ((drawnRows data e).filter (inAxis (lo s) (hi s) s)).map (fun r =>
          (f (Function.update r s (cast ((bumpLast EPS (linspace (lo s) (hi s) (nb + 1))).getD (binIdx (linspace (lo s) (hi s) (nb + 1)) (r s)) 0))) -
            f (Function.update r s (cast ((bumpLast EPS (linspace (lo s) (hi s) (nb + 1))).getD (binIdx (linspace (lo s) (hi s) (nb + 1)) (r s) - 1) 0)))) / (l1 - l0)) =
      List.ofFn fun j => (fun i => aleSlope cast f (lo s) (hi s) nb s (data.get i)) (e j) := by
    rw [hf]
    simp only [drawnRows, List.map_ofFn, Function.comp_def, aleSlope, List.getD_eq_getElem?_getD, h0, h1, Option.getD_some]
  rw [hx, hy] at hp
  have hmem : ∀ k, members (bumpLast EPS (linspace (lo s) (hi s) (nb + 1))) k (fun i => data.get i s) = members (linspace (lo s) (hi s) (nb + 1)) k fun i => data.get i s :=
    members_bump hnb _ fun i => (hin _ (List.get_mem _ _)).2
  have := binEffect_drawn b1 (by omega) (fun i => data.get i s) (fun i => aleSlope cast f (lo s) (hi s) nb s (data.get i)) b3 b4 (fun i => by
      have h1 := hin _ (List.get_mem data i)
      exact ⟨h1.1, h1.2.trans (by have := EPS_pos (K := K); linarith)⟩) e (fun k hk => by
      rw [hmem]
      exact hne k (by omega)) b2 hp
  simp only [hmem] at this
  exact this

theorem rhale_fixed_limits {data eff : List (Row K D)} {lo hi : Fin D → K} {s : Fin D} {n : ℕ} {mo : Option ℕ} {cl : ℕ} {L : List K}
    (hcat : cl < distinct (col (data.filter (inAxis (lo s) (hi s) s)) s)) (hL : findLimits (rhaleCtx data eff lo hi s) (.fixed n mo cl) = .ok (.arr L)) :
    L = linspace (lo s) (hi s) (n + 1) := by
  simp only [findLimits] at hL
  unfold fixedFind at hL
  rw [show (rhaleCtx data eff lo hi s).xs = col (data.filter (inAxis (lo s) (hi s) s)) s from rfl, isCategorical_not _ _ _ hcat] at hL
  cases mo with
  | none => simp [noneValidBinning, bind, Except.bind] at hL
  | some m =>
    rw [noneValid_eq] at hL
    simp only [bind, Except.bind, pure, Except.pure] at hL
    split_ifs at hL
    · cases hL; rfl
    · cases hL

theorem rhale_drawn {data eff : List (Row K D)} {lo hi : Fin D → K} {s : Fin D} {nb cl : ℕ} {mo : Option ℕ} (hlt : lo s < hi s) (hnb : 1 ≤ nb)
    (hin : ∀ r ∈ data, lo s ≤ r s ∧ r s ≤ hi s) {n : ℕ} (e : Fin n ↪ Fin data.length) (φ : Fin data.length → Row K D) (heff : eff = List.ofFn fun j => φ (e j))
    (hcat : cl < distinct ((drawnRows data e).map (· s)))
    (hne : ∀ k < nb, 0 < hits (members (linspace (lo s) (hi s) (nb + 1)) k fun i => data.get i s) e) {p : AleParams K}
    (h : rhaleFitFeature (drawnRows data e) eff lo hi s (.fixed nb mo cl) = .ok p) :
    GoodParams p ∧ p.limits = linspace (lo s) (hi s) (nb + 1) ∧ p.binEffect = List.ofFn fun k : Fin nb =>
      drawnMean (members (linspace (lo s) (hi s) (nb + 1)) k fun i => data.get i s) (fun i => φ i s) e := by
  have hf := inAxis_all (drawn_inside hin e)
  obtain ⟨hlen, L, hL, hp⟩ := rhaleFitFeature_ok h
  have hLL := rhale_fixed_limits (by rw [hf]; exact hcat) hL
  subst hLL
  have hx : (rhaleCtx (drawnRows data e) eff lo hi s).xs = List.ofFn fun j => (fun i => data.get i s) (e j) := by
    show col _ s = _
    rw [hf]
    simp [col, drawnRows, List.map_ofFn, Function.comp_def]
  have hz : ((drawnRows data e).zip eff).filter (fun p => inAxis (lo s) (hi s) s p.1) = (drawnRows data e).zip eff := by
    rw [List.filter_eq_self]
    intro q hq
    have := drawn_inside hin e q.1 (List.of_mem_zip hq).1
    simpa [inAxis] using this
  have hy : col ((((drawnRows data e).zip eff).filter fun p => inAxis (lo s) (hi s) s p.1).map (·.2)) s = List.ofFn fun j => (fun i => φ i s) (e j) := by
    rw [hz]
    have : ((drawnRows data e).zip eff).map (·.2) = eff := List.map_snd_zip (by omega)
    rw [show ((drawnRows data e).zip eff).map (fun x => x.2) = eff from this, heff]
    simp [col, List.map_ofFn, Function.comp_def]
  rw [hx, hy] at hp
  exact binEffect_drawn (linspace_increasing _ _ _ hlt) (by rw [length_linspace]; omega) (fun i => data.get i s) (fun i => φ i s) (linspace_head _ _ _) (linspace_last _ _ _ hnb)
    (fun i => hin _ (List.get_mem data i)) e (fun k hk => hne k (by rw [length_linspace] at hk; omega)) (length_linspace _ _ _) hp

/-! ### From bins to curves -/

theorem card_members (data : List (Row K D)) (L : List K) (k : ℕ) (s : Fin D) :
    (members L k fun i : Fin data.length => data.get i s).card = data.countP fun r => InBin L k (r s) := by
  have hn : ((List.finRange data.length).filter fun i => InBin L k (data.get i s)).Nodup := (List.nodup_finRange _).filter _
  have h1 : ((List.finRange data.length).filter fun i => InBin L k (data.get i s)).toFinset = members L k fun i : Fin data.length => data.get i s := by
    ext i
    simp [members]
  rw [← h1, List.toFinset_card_of_nodup hn]
  have h3 : (List.finRange data.length).map data.get = data := by
    rw [← List.ofFn_eq_map, List.ofFn_get]
  conv_rhs => rw [← h3]
  rw [List.countP_map, List.countP_eq_length_filter]
  rfl

/-- All instances, as a draw. -/
def everyone (N : ℕ) : Fin N ↪ Fin N := Function.Embedding.refl _

theorem drawnRows_everyone (data : List (Row K D)) : drawnRows data (everyone data.length) = data := by
  unfold drawnRows everyone
  exact List.ofFn_get data

theorem drawnMean_everyone {N : ℕ} (B : Finset (Fin N)) (y : Fin N → K) : drawnMean B y (everyone N) = (∑ i ∈ B, y i) / (B.card : K) := by
  unfold drawnMean hits everyone
  simp

theorem curve_of_bins {N n nb : ℕ} (h : n ≤ N) (B : Fin nb → Finset (Fin N)) (hB : ∀ k, ∀ e : Fin n ↪ Fin N, 0 < hits (B k) e) (y : Fin N → K) (A : K → Fin nb → K) (xs : List K)
    (res : (Fin n ↪ Fin N) → EvalOut K) (all : EvalOut K) (hres : ∀ e, (res e).1 = xs.map fun x => ∑ k, A x k * drawnMean (B k) y e)
    (hall : all.1 = xs.map fun x => ∑ k, A x k * drawnMean (B k) y (everyone N)) : CurveRightOnAverage xs.length res all := by
  refine ⟨⟨fun e => by rw [hres, List.length_map], by rw [hall, List.length_map]⟩, fun j hj => ?_⟩
  refine ⟨fun e => ∑ k, A xs[j] k * drawnMean (B k) y e, ∑ k, A xs[j] k * drawnMean (B k) y (everyone N), fun e => ?_, ?_, ?_⟩
  · rw [hres]
    simp [hj]
  · rw [hall]
    simp [hj]
  · rw [expected_sum]
    refine Finset.sum_congr rfl fun k _ => ?_
    rw [expected_mul, drawnMean_everyone]
    congr 1
    exact expected_group_mean h (hB k) y

theorem Spec.NoBinLost.hit {data : List (Row K D)} {n : ℕ} {lo hi : Fin D → K} {s : Fin D} {nb cl : ℕ} (h : NoBinLost data n lo hi s nb cl) {n' : ℕ} (hn : n ≤ n')
    (e : Fin n' ↪ Fin data.length) : ∀ k < nb, 0 < hits (members (linspace (lo s) (hi s) (nb + 1)) k fun i => data.get i s) e := by
  intro k hk
  apply hits_pos
  rw [card_members]
  exact (Nat.sub_le_sub_left hn _).trans_lt (h.many k hk)

theorem Spec.NoBinLost.cat {data : List (Row K D)} {n : ℕ} {lo hi : Fin D → K} {s : Fin D} {nb cl : ℕ} (h : NoBinLost data n lo hi s nb cl) {n' : ℕ} (hn : n ≤ n')
    (e : Fin n' ↪ Fin data.length) : cl < distinct ((drawnRows data e).map (· s)) :=
  h.values _ (drawn_subperm data e) (by simpa [drawnRows] using hn)

theorem ale_session [PySqrt K] {cast : K → K} {f : Row K D → K} {data : List (Row K D)} {n : ℕ} {lo hi : Fin D → K} {s : Fin D} {nb cl : ℕ} {mo : Option ℕ}
    (hb : NoBinLost data n lo hi s nb cl) (xs : List K) (het : Bool) (c : PyVal) :
    ∃ A : K → Fin nb → K, ∀ (n' : ℕ) (e : Fin n' ↪ Fin data.length) (b : Base K D) (r : EvalOut K), n ≤ n' → b.data = drawnRows data e → b.axisLo = lo → b.axisHi = hi →
      fixedFitEval (aleCfg cast (List.map f) b) s nb mo cl xs het c = .ok r → r.1 = xs.map fun x => ∑ k : Fin nb, A x k *
        drawnMean (members (linspace (lo s) (hi s) (nb + 1)) k fun i => data.get i s) (fun i => aleSlope cast f (lo s) (hi s) nb s (data.get i)) e := by
  obtain ⟨b1, b2, b3, b4⟩ := linspace_bump (hb.range s) hb.some_bin
  cases hm : prepCentering c with
  | error x =>
    refine ⟨fun _ _ => 0, fun n' e b r _ _ h1 h2 h => ?_⟩
    have hlt : ∀ t, b.axisLo t < b.axisHi t := by rw [h1, h2]; exact hb.range
    obtain ⟨m, -, -, -, hm', -⟩ := fixedFitEval_ok (ale_goodFor cast f b hlt _ (by
      intro m' cl' hc
      simp only [BinMethod.fixed.injEq] at hc
      have := hb.some_bin
      omega)) (ale_goodFor cast f b hlt _ (by intro m cl h; cases h)).evaluable h
    rw [hm] at hm'
    cases hm'
  | ok m =>
    obtain ⟨A, hA⟩ := centred_coefficients (D := D) nb (bumpLast EPS (linspace (lo s) (hi s) (nb + 1))) b2 (lo s) (hi s) m
    refine ⟨A, fun n' e b r hn hd h1 h2 h => ?_⟩
    have hlt : ∀ t, b.axisLo t < b.axisHi t := by rw [h1, h2]; exact hb.range
    obtain ⟨m', p, u, z, hm', hp, hu, hz, hr⟩ := fixedFitEval_ok (ale_goodFor cast f b hlt _ (by
      intro m' cl' hc
      simp only [BinMethod.fixed.injEq] at hc
      have := hb.some_bin
      omega)) (ale_goodFor cast f b hlt _ (by intro m cl h; cases h)).evaluable h
    rw [hm] at hm'
    cases hm'
    replace hp : aleFitFeature cast (List.map f) b.data b.axisLo b.axisHi s (.fixed nb mo cl) = .ok p := hp
    rw [hd, h1, h2] at hp
    obtain ⟨g1, g2, g3⟩ := ale_drawn (hb.range s) hb.some_bin hb.inside e (hb.cat hn e) (hb.hit hn e) hp
    rw [hr]
    exact hA (aleCfg cast (List.map f) b) s p _ (by rw [← h1]; rfl) (by rw [← h2]; rfl) g1 g2 g3 xs u z hu hz

theorem rhale_session [PySqrt K] {data : List (Row K D)} {n : ℕ} {lo hi : Fin D → K} {s : Fin D} {nb cl : ℕ} {mo : Option ℕ} (φ : Fin data.length → Row K D)
    (hb : NoBinLost data n lo hi s nb cl) (xs : List K) (het : Bool) (c : PyVal) :
    ∃ A : K → Fin nb → K, ∀ (n' : ℕ) (e : Fin n' ↪ Fin data.length) (b : Base K D) (r : EvalOut K), n ≤ n' → b.data = drawnRows data e → b.axisLo = lo → b.axisHi = hi →
      fixedFitEval (rhaleCfg (List.ofFn fun j => φ (e j)) b) s nb mo cl xs het c = .ok r → r.1 = xs.map fun x => ∑ k : Fin nb, A x k *
        drawnMean (members (linspace (lo s) (hi s) (nb + 1)) k fun i => data.get i s) (fun i => φ i s) e := by
  have good : ∀ (eff : List (Row K D)) (b : Base K D), b.axisLo = lo → b.axisHi = hi → GoodFor (rhaleCfg eff b) (.fixed nb mo cl) ∧ Evaluable (rhaleCfg eff b) (rhaleCfg eff b).defaultBin := by
    intro eff b h1 h2
    have hlt : ∀ t, b.axisLo t < b.axisHi t := by rw [h1, h2]; exact hb.range
    refine ⟨rhale_goodFor _ b hlt _ fun t => hb.some_bin, (rhale_goodFor _ b hlt (.str "greedy") fun t => ?_).evaluable⟩
    intro hc
    exact absurd hc (by decide)
  cases hm : prepCentering c with
  | error x =>
    refine ⟨fun _ _ => 0, fun n' e b r _ _ h1 h2 h => ?_⟩
    obtain ⟨m, -, -, -, hm', -⟩ := fixedFitEval_ok (good _ b h1 h2).1 (good _ b h1 h2).2 h
    rw [hm] at hm'
    cases hm'
  | ok m =>
    obtain ⟨A, hA⟩ := centred_coefficients (D := D) nb (linspace (lo s) (hi s) (nb + 1)) (length_linspace _ _ _) (lo s) (hi s) m
    refine ⟨A, fun n' e b r hn hd h1 h2 h => ?_⟩
    obtain ⟨m', p, u, z, hm', hp, hu, hz, hr⟩ := fixedFitEval_ok (good _ b h1 h2).1 (good _ b h1 h2).2 h
    rw [hm] at hm'
    cases hm'
    replace hp : rhaleFitFeature b.data (List.ofFn fun j => φ (e j)) b.axisLo b.axisHi s (.fixed nb mo cl) = .ok p := hp
    rw [hd, h1, h2] at hp
    obtain ⟨g1, g2, g3⟩ := rhale_drawn (hb.range s) hb.some_bin hb.inside e φ rfl (hb.cat hn e) (hb.hit hn e) hp
    rw [hr]
    exact hA (rhaleCfg (List.ofFn fun j => φ (e j)) b) s p _ (by rw [← h1]; rfl) (by rw [← h2]; rfl) g1 g2 g3 xs u z hu hz

theorem take_outcome {α : Type} (l : List α) {n : ℕ} (e : Fin n ↪ Fin l.length) : takeRows l (List.ofFn fun k => (e k : ℕ)) = .ok (List.ofFn fun k => l.get (e k)) := by
  obtain ⟨d, hd⟩ := takeRows_ok l (List.ofFn fun k => (e k : ℕ)) (by
    intro i hi
    obtain ⟨k, rfl⟩ := List.mem_ofFn.mp hi
    exact (e k).2)
  rw [hd]
  congr 1
  have h1 := takeRows_spec hd
  have h2 : (List.ofFn fun k => (e k : ℕ)).map (fun i => l[i]?) = (List.ofFn fun k => l.get (e k)).map some := by
    simp only [List.map_ofFn]
    congr 1
    funext k
    simp
  rw [h2] at h1
  exact List.map_injective_iff.mpr (Option.some_injective _) h1

/-- The constructor of RHALE with a draw, and with all instances, has one row of effects per instance. -/
theorem rhale_effects_drawn (f : Row K D → K) (jac : Option (Row K D → Row K D)) (data : List (Row K D)) (given : Option (List (Row K D)))
    (hgiven : ∀ g, given = some g → g.length = data.length) : ∃ φ : Fin data.length → Row K D,
    (∀ n, n < data.length → ∀ (e : Fin n ↪ Fin data.length) (lo hi : Fin D → K), rhaleInit (outcome e) (List.map f) (jac.map List.map) data given (.int n) (some (lo, hi)) =
      .ok (rhaleCfg (List.ofFn fun j => φ (e j)) { data := drawnRows data e, indices := List.range (drawnRows data e).length, axisLo := lo, axisHi := hi },
        { data := drawnRows data e, indices := List.range (drawnRows data e).length, axisLo := lo, axisHi := hi })) ∧
    ∀ choice (lo hi : Fin D → K), rhaleInit choice (List.map f) (jac.map List.map) data given (.str "all") (some (lo, hi)) =
      .ok (rhaleCfg (List.ofFn fun j => φ (everyone data.length j)) { data := data, indices := List.range data.length, axisLo := lo, axisHi := hi },
        { data := data, indices := List.range data.length, axisLo := lo, axisHi := hi }) := by
  have draw : ∀ n, n < data.length → ∀ (e : Fin n ↪ Fin data.length) (lo hi : Fin D → K), rhaleInit (outcome e) (List.map f) (jac.map List.map) data given (.int n) (some (lo, hi)) =
      (match given with
        | some g => (takeRows g (List.ofFn fun k => (e k : ℕ))).map some
        | none => .ok none).bind fun given' =>
      .ok (rhaleCfg (rhaleEffects (List.map f) (jac.map List.map) given' (drawnRows data e)) { data := drawnRows data e, indices := List.range (drawnRows data e).length, axisLo := lo, axisHi := hi },
        { data := drawnRows data e, indices := List.range (drawnRows data e).length, axisLo := lo, axisHi := hi }) := by
    intro n h e lo hi
    unfold rhaleInit prepNofInstances
    simp only [if_pos (by exact_mod_cast h : ((n : ℤ) < (data.length : ℤ))), if_neg (by omega : ¬ ((n : ℤ) < 0)), bind, Except.bind, pure, Except.pure, outcome, Int.toNat_natCast, and_self, if_true, take_outcome,
      base_init_all, limitsOr]
    cases given with
    | none => rfl
    | some g => cases takeRows g (List.ofFn fun k => (e k : ℕ)) <;> rfl
  cases given with
  | none =>
    obtain ⟨φ, hφ⟩ := rhaleEffects_rowwise f jac
    refine ⟨fun i => φ (data.get i), fun n h e lo hi => ?_, fun choice lo hi => ?_⟩
    · rw [draw n h e lo hi]
      simp only [Except.bind, hφ]
      unfold drawnRows
      rw [List.map_ofFn]
      rfl
    · rw [rhaleInit_all _ _ _ _ _ (by intro e he; cases he)]
      simp only [limitsOr, Except.bind, hφ]
      have : data.map φ = List.ofFn fun j => φ (data.get (everyone data.length j)) := by
        conv_lhs => rw [← drawnRows_everyone data]
        unfold drawnRows
        rw [List.map_ofFn]
        rfl
      rw [this]
  | some g =>
    have hg := hgiven g rfl
    refine ⟨fun i => g.get (Fin.cast hg.symm i), fun n h e lo hi => ?_, fun choice lo hi => ?_⟩
    · rw [draw n h e lo hi]
      have ht := take_outcome g (e.trans (finCongr hg.symm).toEmbedding)
      simp only [Function.Embedding.trans_apply, Equiv.coe_toEmbedding, finCongr_apply, Fin.val_cast] at ht
      dsimp only
      simp only [ht]
      rfl
    · rw [rhaleInit_all _ _ _ _ _ hgiven]
      simp only [limitsOr, Except.bind, rhaleEffects]
      have : g = List.ofFn fun j => g.get (Fin.cast hg.symm (everyone data.length j)) := by
        apply List.ext_getElem
        · simp [hg]
        · intro i h1 h2
          simp [everyone]
      rw [← this]

/-! ### C119 -/

/-- **C119, ALE.**  `ALE` with `nof_instances=n`, `0 < n < N`, and `fit` with fixed bins none of which a draw of `n` instances can empty: on average over the draws, the curve is that of
all instances, at every point, with every centring. -/
theorem C119_ale [PySqrt K] (cast : K → K) (f : Row K D → K) (data : List (Row K D)) (n : ℕ) (h : n < data.length) (lo hi : Fin D → K) (s : Fin D) (nb : ℕ) (mo : Option ℕ) (cl : ℕ)
    (hb : NoBinLost data n lo hi s nb cl) (xs : List K) (het : Bool) (c : PyVal) (choice : ℕ → ℕ → List ℕ) (res : (Fin n ↪ Fin data.length) → EvalOut K) (all : EvalOut K)
    (hres : ∀ e, aleSampled cast f (outcome e) data (.int n) lo hi s nb mo cl xs het c = .ok (res e))
    (hall : aleSampled cast f choice data (.str "all") lo hi s nb mo cl xs het c = .ok all) : CurveRightOnAverage xs.length res all := by
  obtain ⟨A, hA⟩ := ale_session (cast := cast) (f := f) (mo := mo) hb xs het c
  refine curve_of_bins h.le (fun k : Fin nb => members (linspace (lo s) (hi s) (nb + 1)) k fun i => data.get i s) (fun k e => hb.hit le_rfl e k k.2)
    (fun i => aleSlope cast f (lo s) (hi s) nb s (data.get i)) A xs res all (fun e => ?_) ?_
  · have he := hres e
    unfold aleSampled at he
    obtain ⟨idx, hi0⟩ := base_init_outcome h e (some (lo, hi))
    rw [hi0] at he
    exact hA n e _ (res e) le_rfl rfl rfl rfl he
  · unfold aleSampled at hall
    rw [base_init_all] at hall
    exact hA data.length (everyone data.length) _ all h.le (drawnRows_everyone data).symm rfl rfl hall

/-- **C119, RHALE.**  The same for `RHALE`, with a row-wise `model_jac`, without one, or with given effects `data_effect` (of which the drawn rows are used). -/
theorem C119_rhale [PySqrt K] (f : Row K D → K) (jac : Option (Row K D → Row K D)) (data : List (Row K D)) (given : Option (List (Row K D)))
    (hgiven : ∀ g, given = some g → g.length = data.length) (n : ℕ) (h : n < data.length) (lo hi : Fin D → K) (s : Fin D) (nb : ℕ) (mo : Option ℕ) (cl : ℕ)
    (hb : NoBinLost data n lo hi s nb cl) (xs : List K) (het : Bool) (c : PyVal) (choice : ℕ → ℕ → List ℕ) (res : (Fin n ↪ Fin data.length) → EvalOut K) (all : EvalOut K)
    (hres : ∀ e, rhaleSampled f jac given (outcome e) data (.int n) lo hi s nb mo cl xs het c = .ok (res e))
    (hall : rhaleSampled f jac given choice data (.str "all") lo hi s nb mo cl xs het c = .ok all) : CurveRightOnAverage xs.length res all := by
  obtain ⟨φ, hφ, hφall⟩ := rhale_effects_drawn f jac data given hgiven
  obtain ⟨A, hA⟩ := rhale_session (mo := mo) φ hb xs het c
  refine curve_of_bins h.le (fun k : Fin nb => members (linspace (lo s) (hi s) (nb + 1)) k fun i => data.get i s) (fun k e => hb.hit le_rfl e k k.2) (fun i => φ i s) A xs res all
    (fun e => ?_) ?_
  · have he := hres e
    unfold rhaleSampled at he
    rw [hφ n h e lo hi] at he
    exact hA n e _ (res e) le_rfl rfl rfl rfl he
  · unfold rhaleSampled at hall
    rw [hφall choice lo hi] at hall
    exact hA data.length (everyone data.length) _ all h.le (drawnRows_everyone data).symm rfl rfl hall

/-! ### When there is an answer for every draw -/

theorem fixedFitEval_answers [PySqrt K] {cfg : AleCfg K D} {s : Fin D} {nb : ℕ} {mo : Option ℕ} {cl : ℕ} (hg : GoodFor cfg (.fixed nb mo cl)) (hd : Evaluable cfg cfg.defaultBin)
    (hal : cfg.allowed (.fixed nb mo cl) = true) (hax : cfg.axisLo s < cfg.axisHi s) {p : AleParams K} (hp : cfg.fitF s (.fixed nb mo cl) = .ok p) (xs : List K) (het : Bool) {c : PyVal}
    {m : Centering} (hm : prepCentering c = .ok m) : ∃ r, fixedFitEval cfg s nb mo cl xs het c = .ok r := by
  have hfeat : resolveFeatures D (.list [(s : ℤ)]) = .ok [s] := by
    simp [resolveFeatures, pure, Except.pure]
    rfl
  obtain ⟨z, hz⟩ := hg.evaluable s p hp m
  obtain ⟨z', hz', -⟩ := normConst_of_shift hz
  have hfit : aleFit cfg AleState.init (.int s) (.fixed nb mo cl) c = (aleRun cfg [.fit (.int s) (.fixed nb mo cl) c], .ok ()) := by
    refine Prod.ext rfl ?_
    unfold aleFit
    rw [if_pos hal, hm, show prepFeatures (.int s) D = .ok (.list [(s : ℤ)]) from rfl]
    simp only [bind, Except.bind, hfeat, pure, Except.pure, fitLoop, fitOne, hp, hz']
  have hlast : lastFit cfg [.fit (.int s) (.fixed nb mo cl) c] s = some (.fixed nb mo cl, m) := by
    show afterCall cfg (fun _ => none) (.fit (.int s) (.fixed nb mo cl) c) s = _
    unfold afterCall
    dsimp only
    rw [if_pos hal, show (prepFeatures (.int s) D).bind (resolveFeatures D) = .ok [s] from hfeat, hm]
    simp only [afterFit, hp, Function.update_self]
  unfold fixedFitEval
  rw [hfit]
  dsimp only
  rw [C29_eval_is_function_of_last_fit cfg hd _ (usesEvaluable_of cfg _ (by
    intro f bm c' hmem
    simp only [List.mem_singleton, AleOp.fit.injEq] at hmem
    rw [hmem.2.1]
    exact hg.evaluable)), hm, hlast]
  have hgp := hg s p hp
  obtain ⟨el, -, hu⟩ := hgp.acc p.binEffect xs hgp.be
  obtain ⟨el2, -, hv⟩ := hgp.acc (p.binVariance.map PySqrt.sqrt) xs (by rw [List.length_map, hgp.bv])
  have he : effectiveBin cfg (some (BinMethod.fixed nb mo cl, m)) m = .fixed nb mo cl := by simp [effectiveBin]
  dsimp only
  rw [he]
  unfold valueOf evalUnnorm evalHet
  simp only [bind, Except.bind, pure, Except.pure, hp, hax, hu, hv, hz, decide_true, pyAssert, if_true]
  cases het
  · exact ⟨_, rfl⟩
  · exact ⟨_, rfl⟩

theorem fixed_zero_limits (c : BinCtx K) (nb cl : ℕ) (hcat : cl < distinct c.xs) : findLimits c (.fixed nb (some 0) cl) = .ok (.arr (linspace c.xmin c.xmax (nb + 1))) := by
  simp only [findLimits]
  unfold fixedFind
  rw [isCategorical_not _ _ _ hcat, noneValid_eq]
  simp only [bind, Except.bind, pure, Except.pure]
  rw [if_pos]
  rw [minPoints_iff]
  intro k a b _ _
  exact Nat.zero_le _

/-- **C119, when there is an answer.**  With `min_points_per_bin=0` (the default) and fewer bins than drawn instances, ALE answers for every draw. -/
theorem C119_ale_answers [PySqrt K] (cast : K → K) (f : Row K D → K) (data : List (Row K D)) (n : ℕ) (h : n < data.length) (lo hi : Fin D → K) (s : Fin D) (nb : ℕ) (cl : ℕ)
    (hb : NoBinLost data n lo hi s nb cl) (hnb : nb < n) (xs : List K) (het : Bool) (c : PyVal) (m : Centering) (hm : prepCentering c = .ok m) (choice : ℕ → ℕ → List ℕ) :
    (∀ e : Fin n ↪ Fin data.length, ∃ r, aleSampled cast f (outcome e) data (.int n) lo hi s nb (some 0) cl xs het c = .ok r) ∧
    ∃ all, aleSampled cast f choice data (.str "all") lo hi s nb (some 0) cl xs het c = .ok all := by
  have hn0 : ∀ m' cl', (BinMethod.fixed nb (some 0) cl : BinMethod K) ≠ .fixed 0 m' cl' := by
    intro m' cl' hc
    simp only [BinMethod.fixed.injEq] at hc
    have := hb.some_bin
    omega
  have key : ∀ (n' : ℕ) (e : Fin n' ↪ Fin data.length) (b : Base K D), n ≤ n' → b.data = drawnRows data e → b.axisLo = lo → b.axisHi = hi →
      ∃ r, fixedFitEval (aleCfg cast (List.map f) b) s nb (some 0) cl xs het c = .ok r := by
    intro n' e b hn hd h1 h2
    have hlt : ∀ t, b.axisLo t < b.axisHi t := by rw [h1, h2]; exact hb.range
    have hxs : (aleCtx (drawnRows data e) lo hi s).xs = (drawnRows data e).map (· s) := by
      show col _ s = _
      rw [inAxis_all (drawn_inside hb.inside e)]
      rfl
    have hp : ∃ p, aleFitFeature cast (List.map f) (drawnRows data e) lo hi s (.fixed nb (some 0) cl) = .ok p := by
      rw [aleFit_iff (hb.range s) rfl hn0]
      refine ⟨_, fixed_zero_limits (aleCtx (drawnRows data e) lo hi s) nb cl (by rw [hxs]; exact hb.cat hn e), ?_⟩
      refine pigeonhole_bin (linspace_increasing _ _ _ (hb.range s)) (by rw [length_linspace]; have := hb.some_bin; omega)
        ⟨_, _, linspace_head _ _ _, linspace_last _ _ _ hb.some_bin, aleCtx_in _ _ _ _⟩ ?_
      rw [length_linspace, hxs]
      simp [drawnRows]
      omega
    obtain ⟨p, hp⟩ := hp
    rw [← hd, ← h1, ← h2] at hp
    exact fixedFitEval_answers (ale_goodFor cast f b hlt _ hn0) (ale_goodFor cast f b hlt _ (by intro m cl h; cases h)).evaluable rfl (hlt s) hp xs het hm
  refine ⟨fun e => ?_, ?_⟩
  · unfold aleSampled
    obtain ⟨idx, hi0⟩ := base_init_outcome h e (some (lo, hi))
    rw [hi0]
    exact key n e _ le_rfl rfl rfl rfl
  · unfold aleSampled
    rw [base_init_all]
    exact key data.length (everyone data.length) _ h.le (drawnRows_everyone data).symm rfl rfl

/-- The same for RHALE. -/
theorem C119_rhale_answers [PySqrt K] (f : Row K D → K) (jac : Option (Row K D → Row K D)) (data : List (Row K D)) (given : Option (List (Row K D)))
    (hgiven : ∀ g, given = some g → g.length = data.length) (n : ℕ) (h : n < data.length) (lo hi : Fin D → K) (s : Fin D) (nb : ℕ) (cl : ℕ)
    (hb : NoBinLost data n lo hi s nb cl) (hnb : nb < n) (xs : List K) (het : Bool) (c : PyVal) (m : Centering) (hm : prepCentering c = .ok m) (choice : ℕ → ℕ → List ℕ) :
    (∀ e : Fin n ↪ Fin data.length, ∃ r, rhaleSampled f jac given (outcome e) data (.int n) lo hi s nb (some 0) cl xs het c = .ok r) ∧
    ∃ all, rhaleSampled f jac given choice data (.str "all") lo hi s nb (some 0) cl xs het c = .ok all := by
  obtain ⟨φ, hφ, hφall⟩ := rhale_effects_drawn f jac data given hgiven
  have key : ∀ (n' : ℕ) (e : Fin n' ↪ Fin data.length) (b : Base K D), n ≤ n' → b.data = drawnRows data e → b.axisLo = lo → b.axisHi = hi →
      ∃ r, fixedFitEval (rhaleCfg (List.ofFn fun j => φ (e j)) b) s nb (some 0) cl xs het c = .ok r := by
    intro n' e b hn hd h1 h2
    have hlt : ∀ t, b.axisLo t < b.axisHi t := by rw [h1, h2]; exact hb.range
    have hlen : (List.ofFn fun j => φ (e j)).length = (drawnRows data e).length := by simp [drawnRows]
    have hxs : (rhaleCtx (drawnRows data e) (List.ofFn fun j => φ (e j)) lo hi s).xs = (drawnRows data e).map (· s) := by
      show col _ s = _
      rw [inAxis_all (drawn_inside hb.inside e)]
      rfl
    have hp : ∃ p, rhaleFitFeature (drawnRows data e) (List.ofFn fun j => φ (e j)) lo hi s (.fixed nb (some 0) cl) = .ok p := by
      rw [rhaleFit_iff hlen]
      refine ⟨_, fixed_zero_limits (rhaleCtx (drawnRows data e) _ lo hi s) nb cl (by rw [hxs]; exact hb.cat hn e), ?_⟩
      have hw : Within (linspace (lo s) (hi s) (nb + 1)) (rhaleCtx (drawnRows data e) (List.ofFn fun j => φ (e j)) lo hi s).xs :=
        ⟨_, _, linspace_head _ _ _, linspace_last _ _ _ hb.some_bin, rhaleCtx_in _ _ _ _ _⟩
      have h2 : 2 ≤ (linspace (lo s) (hi s) (nb + 1)).length := by rw [length_linspace]; have := hb.some_bin; omega
      have hlen2 : (rhaleCtx (drawnRows data e) (List.ofFn fun j => φ (e j)) lo hi s).xs.length = n' := by
        rw [hxs]
        simp [drawnRows]
      obtain ⟨p, hp, -⟩ := (C06_ale_params _ _ (col ((((drawnRows data e).zip (List.ofFn fun j => φ (e j))).filter fun p => inAxis (lo s) (hi s) s p.1).map (·.2)) s)
        (linspace_increasing _ _ _ (hb.range s)) h2 hw (rhaleCtx_len _ _ lo hi s hlen)).2 (pigeonhole_bin (linspace_increasing _ _ _ (hb.range s)) h2 hw (by
          rw [length_linspace, hlen2]
          omega))
      exact ⟨p, hp⟩
    obtain ⟨p, hp⟩ := hp
    rw [← hd, ← h1, ← h2] at hp
    exact fixedFitEval_answers (rhale_goodFor _ b hlt _ fun t => hb.some_bin) (rhale_goodFor _ b hlt (.str "greedy") fun t => by
      intro hc
      exact absurd hc (by decide)).evaluable rfl (hlt s) hp xs het hm
  refine ⟨fun e => ?_, ?_⟩
  · unfold rhaleSampled
    rw [hφ n h e lo hi]
    exact key n e _ le_rfl rfl rfl rfl
  · unfold rhaleSampled
    rw [hφall choice lo hi]
    exact key data.length (everyone data.length) _ h.le (drawnRows_everyone data).symm rfl rfl

end Effector
