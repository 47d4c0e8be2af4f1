import Verif.Props.Envelope
import Verif.Props.UnbiasedAle
import Verif.Lemmas.RealSqrt

/-!
# C120: how far the curve of a sub-sampled PDP or d-PDP is from the curve of all instances
-/

set_option linter.unusedSectionVars false

namespace Effector

variable {K : Type} [Field K] [LinearOrder K] [IsStrictOrderedRing K] {D : ℕ}

open Spec

namespace Spec

/-- The share of the outcomes of `np.random.choice(N, n, replace=False)` for which `p` holds: the probability of `p`. -/
noncomputable def share (K : Type) [Field K] (N n : ℕ) (p : (Fin n ↪ Fin N) → Prop) [DecidablePred p] : K :=
  ((Finset.univ.filter p).card : K) / (Fintype.card (Fin n ↪ Fin N) : K)

/-- The curves `(res e).1` for the outcomes `e` of a draw of `n` out of `N`, against the curve `mu` for all instances.  At every position, with `var` there: the square of the error is on
average `(N - n) / (n * (N - 1)) * var`, and an error of `t` or more is at most that `/ t ^ 2` likely. -/
def ErrorIs {N n : ℕ} (res : (Fin n ↪ Fin N) → EvalOut K) (mu var : List K) : Prop :=
  (∀ e, (res e).1.length = mu.length) ∧ var.length = mu.length ∧
  ∀ j < mu.length, ∃ (v : (Fin n ↪ Fin N) → K) (v0 z : K), (∀ e, (res e).1[j]? = some (v e)) ∧ mu[j]? = some v0 ∧ var[j]? = some z ∧
    expected N n (fun e => (v e - v0) ^ 2) = ((N : K) - n) / (n * ((N : K) - 1)) * z ∧
    ∀ t > 0, share K N n (fun e => t ≤ |v e - v0|) ≤ ((N : K) - n) / (n * ((N : K) - 1)) * z / t ^ 2

/-- No curve `(res e).1` is at any position further than `d` from the curve `mu`. -/
def ErrorAtMost {N n : ℕ} (d : K) (res : (Fin n ↪ Fin N) → EvalOut K) (mu : List K) : Prop :=
  ∀ e, (res e).1.length = mu.length ∧ ∀ (j : ℕ) (y y0 : K), (res e).1[j]? = some y → mu[j]? = some y0 → |y - y0| ≤ d

end Spec

theorem expected_sub {N n : ℕ} (v w : (Fin n ↪ Fin N) → K) : expected N n (fun e => v e - w e) = expected N n v - expected N n w := by
  unfold expected
  rw [Finset.sum_sub_distrib, sub_div]

/-- Chebyshev's inequality. -/
theorem share_le {N n : ℕ} (h : n ≤ N) (v : (Fin n ↪ Fin N) → K) (t : K) (ht : 0 < t) : share K N n (fun e => t ≤ |v e|) ≤ expected N n (fun e => v e ^ 2) / t ^ 2 := by
  have c1 : (0 : K) < Fintype.card (Fin n ↪ Fin N) := by exact_mod_cast card_draws_pos h
  unfold share expected
  rw [div_div, mul_comm, ← div_div, div_le_div_iff_of_pos_right c1, le_div_iff₀ (by positivity)]
  calc ((Finset.univ.filter fun e : Fin n ↪ Fin N => t ≤ |v e|).card : K) * t ^ 2 = ∑ e ∈ Finset.univ.filter fun e : Fin n ↪ Fin N => t ≤ |v e|, t ^ 2 := by
        rw [Finset.sum_const, nsmul_eq_mul]
    _ ≤ ∑ e ∈ Finset.univ.filter fun e : Fin n ↪ Fin N => t ≤ |v e|, v e ^ 2 := by
        refine Finset.sum_le_sum fun e he => ?_
        have := (Finset.mem_filter.mp he).2
        rw [← sq_abs (v e)]
        gcongr
    _ ≤ ∑ e, v e ^ 2 := Finset.sum_le_sum_of_subset_of_nonneg (Finset.filter_subset _ _) fun e _ _ => sq_nonneg _

theorem avg_sq_dev {α : Type} (l : List α) (h : l ≠ []) (g : α → K) (m : K) : avg (l.map fun r => (g r - m) ^ 2) = popVar (l.map g) + (avg (l.map g) - m) ^ 2 := by
  have h1 := sum_sq_dev (l.map g) m
  have h2 : ((l.length : ℕ) : K) ≠ 0 := by exact_mod_cast (List.length_pos_of_ne_nil h).ne'
  rw [List.map_map, List.length_map] at h1
  unfold avg at h1 ⊢
  rw [List.length_map]
  rw [show (fun r => (g r - m) ^ 2) = (fun y => (y - m) ^ 2) ∘ g from rfl, h1, mul_div_cancel_left₀ _ h2]

/-- The mean squared error of the mean of the drawn values. -/
theorem mean_squared_error {data : List (Row K D)} {n : ℕ} (h0 : 0 < n) (h : n < data.length) (g : Row K D → K) :
    expected data.length n (fun e => (avg ((drawnRows data e).map g) - avg (data.map g)) ^ 2) =
      ((data.length : K) - n) / (n * ((data.length : K) - 1)) * popVar (data.map g) := by
  set m := avg (data.map g) with hm
  have e1 : ∀ e : Fin n ↪ Fin data.length, (avg ((drawnRows data e).map g) - m) ^ 2 =
      avg ((drawnRows data e).map fun r => (g r - m) ^ 2) - popVar ((drawnRows data e).map g) := by
    intro e
    have hne : drawnRows data e ≠ [] := by
      intro hc
      have := congrArg List.length hc
      simp [drawnRows] at this
      omega
    rw [avg_sq_dev _ hne]
    ring
  rw [show (fun e : Fin n ↪ Fin data.length => (avg ((drawnRows data e).map g) - m) ^ 2) = fun e =>
      avg ((drawnRows data e).map fun r => (g r - m) ^ 2) - popVar ((drawnRows data e).map g) from funext e1]
  rw [expected_sub, (drawn_average h0 h fun r => (g r - m) ^ 2).1, (drawn_average h0 h g).2]
  rw [avg_sq_dev data (by intro hc; rw [hc] at h; simp at h), ← hm, sub_self]
  have hn : (n : K) ≠ 0 := by exact_mod_cast h0.ne'
  have hN1 : (data.length : K) - 1 ≠ 0 := by
    rw [sub_ne_zero]
    exact_mod_cast (by omega : data.length ≠ 1)
  field_simp
  ring

theorem errorIs [PySqrt K] {data : List (Row K D)} {n : ℕ} (h0 : 0 < n) (h : n < data.length) (het : Bool) (xs : List K) (g : K → Row K D → K) :
    ErrorIs (fun e : Fin n ↪ Fin data.length => outOf het xs fun v => (drawnRows data e).map (g v)) (xs.map fun v => avg (data.map (g v))) (xs.map fun v => popVar (data.map (g v))) := by
  refine ⟨fun e => by simp [outOf], by simp, fun j hj => ?_⟩
  rw [List.length_map] at hj
  refine ⟨fun e => avg ((drawnRows data e).map (g xs[j])), avg (data.map (g xs[j])), popVar (data.map (g xs[j])), fun e => by simp [outOf, hj], by simp [hj], by simp [hj], ?_, fun t ht => ?_⟩
  · exact mean_squared_error h0 h (g xs[j])
  · rw [← mean_squared_error h0 h (g xs[j])]
    exact share_le h.le _ t ht

theorem squares_of_sd [PySqrt K] [LawfulSqrt K] (xs : List K) (values : K → List K) :
    (xs.map fun v => PySqrt.sqrt (popVar (values v))).map (· ^ 2) = xs.map fun v => popVar (values v) := by
  rw [List.map_map]
  apply List.map_congr_left
  intro v _
  simp only [Function.comp]
  rw [sq, LawfulSqrt.sqrt_mul_self _ (popVar_nonneg _)]

/-- No draw of `n` out of `N` values between `a` and `b` has a mean further than `(1 - n / N) * (b - a)` from the mean of all. -/
theorem worst_draw {N n : ℕ} (h0 : 0 < n) (h : n ≤ N) (F : Fin N → K) (a b : K) (hF : ∀ i, a ≤ F i ∧ F i ≤ b) (e : Fin n ↪ Fin N) :
    |(∑ k, F (e k)) / (n : K) - (∑ i, F i) / (N : K)| ≤ (1 - (n : K) / N) * (b - a) := by
  classical
  have hn : (0 : K) < n := by exact_mod_cast h0
  have hN : (0 : K) < N := by exact_mod_cast lt_of_lt_of_le h0 h
  have hnN : (n : K) ≤ N := by exact_mod_cast h
  have e1 : ∑ i, F i = ∑ k, F (e k) + ∑ i ∈ Finset.univ \ Finset.univ.map e, F i := by
    rw [← Finset.sum_map Finset.univ e F, add_comm, Finset.sum_sdiff (Finset.subset_univ _)]
  have hcard : (Finset.univ \ Finset.univ.map e).card = N - n := by
    rw [Finset.card_sdiff_of_subset (Finset.subset_univ _), Finset.card_map, Finset.card_univ, Finset.card_univ, Fintype.card_fin, Fintype.card_fin]
  have hA : (n : K) * a ≤ ∑ k, F (e k) ∧ ∑ k, F (e k) ≤ (n : K) * b := by
    constructor
    · have := Finset.card_nsmul_le_sum Finset.univ (fun k => F (e k)) a fun k _ => (hF (e k)).1
      simpa [nsmul_eq_mul] using this
    · have := Finset.sum_le_card_nsmul Finset.univ (fun k => F (e k)) b fun k _ => (hF (e k)).2
      simpa [nsmul_eq_mul] using this
  have hB : ((N : K) - n) * a ≤ ∑ i ∈ Finset.univ \ Finset.univ.map e, F i ∧ ∑ i ∈ Finset.univ \ Finset.univ.map e, F i ≤ ((N : K) - n) * b := by
    constructor
    · have := Finset.card_nsmul_le_sum (Finset.univ \ Finset.univ.map e) F a fun i _ => (hF i).1
      rwa [hcard, nsmul_eq_mul, Nat.cast_sub h] at this
    · have := Finset.sum_le_card_nsmul (Finset.univ \ Finset.univ.map e) F b fun i _ => (hF i).2
      rwa [hcard, nsmul_eq_mul, Nat.cast_sub h] at this
  rw [e1]
  generalize ∑ k, F (e k) = A at *
  generalize ∑ i ∈ Finset.univ \ Finset.univ.map e, F i = B at *
  have e2 : A / (n : K) - (A + B) / N = (((N : K) - n) * A - n * B) / (n * N) := by
    field_simp
    ring
  have e3 : (1 - (n : K) / N) * (b - a) = (n * ((N : K) - n) * (b - a)) / (n * N) := by
    field_simp
  rw [e2, e3, abs_div, abs_of_pos (mul_pos hn hN), div_le_div_iff_of_pos_right (mul_pos hn hN), abs_le]
  have hd : (0 : K) ≤ (N : K) - n := by linarith
  constructor <;> nlinarith [mul_le_mul_of_nonneg_left hA.1 hd, mul_le_mul_of_nonneg_left hA.2 hd, mul_le_mul_of_nonneg_left hB.1 hn.le, mul_le_mul_of_nonneg_left hB.2 hn.le]

theorem worst_average {data : List (Row K D)} {n : ℕ} (h0 : 0 < n) (h : n ≤ data.length) (g : Row K D → K) (a b : K) (hg : ∀ r ∈ data, a ≤ g r ∧ g r ≤ b)
    (e : Fin n ↪ Fin data.length) : |avg ((drawnRows data e).map g) - avg (data.map g)| ≤ (1 - (n : K) / data.length) * (b - a) := by
  have e1 : (drawnRows data e).map g = List.ofFn fun k => g (data.get (e k)) := by
    unfold drawnRows
    rw [List.map_ofFn]
    rfl
  have e2 : data.map g = List.ofFn fun k : Fin data.length => g (data.get k) := by
    conv_lhs => rw [← List.ofFn_get data, List.map_ofFn]
    rfl
  rw [e1, e2, avg_ofFn, avg_ofFn]
  exact worst_draw h0 h (fun i => g (data.get i)) a b (fun i => hg _ (List.get_mem _ _)) e

theorem errorAtMost [PySqrt K] {data : List (Row K D)} {n : ℕ} (h0 : 0 < n) (h : n ≤ data.length) (het : Bool) (xs : List K) (g : K → Row K D → K) (a b : K)
    (hg : ∀ v, ∀ r ∈ data, a ≤ g v r ∧ g v r ≤ b) :
    ErrorAtMost ((1 - (n : K) / data.length) * (b - a)) (fun e : Fin n ↪ Fin data.length => outOf het xs fun v => (drawnRows data e).map (g v)) (xs.map fun v => avg (data.map (g v))) := by
  refine fun e => ⟨by simp [outOf], fun j y y0 hy hy0 => ?_⟩
  simp only [outOf, List.getElem?_map, Option.map_eq_some_iff] at hy hy0
  obtain ⟨x, hx, rfl⟩ := hy
  obtain ⟨x', hx', rfl⟩ := hy0
  obtain rfl : x = x' := Option.some.inj (hx.symm.trans hx')
  exact worst_average h0 h (g x) a b (hg x) e

/-! ### C120 -/

/-- With `axis_limits` that contain all instances: what the object with `n` instances and the object with all return. -/
theorem sampled_given [PySqrt K] (M : PdpModel K D) {data : List (Row K D)} {n : ℕ} (h : n < data.length) {lo hi : Fin D → K}
    (hw : AllWithin data lo hi) {calls : List (PdpOp K D)} {s : Fin D} (hlim : lo s < hi s) (hp : DefaultPoints s calls) {xs : List K} (hxs : xs ≠ []) (het : Bool) {c : PyVal}
    {m : Centering} (hc : prepCentering c = .ok m) (vec : Bool) :
    (∀ e : Fin n ↪ Fin data.length, pdpSampled M (outcome e) data (.int n) (some (lo, hi)) calls s xs het c vec =
      .ok (outOf het xs fun v => (drawnRows data e).map fun r => M.at s v r - M.shift lo hi s r m)) ∧
    ∀ ch, pdpSampled M ch data (.str "all") (some (lo, hi)) calls s xs het c vec = .ok (outOf het xs fun v => data.map fun r => M.at s v r - M.shift lo hi s r m) := by
  constructor
  · intro e
    obtain ⟨idx, hb⟩ := base_init_outcome h e (some (lo, hi))
    unfold pdpSampled
    rw [hb]
    simp only [limitsOr, Except.bind]
    have := evalAfter_all M (drawn_within hw e) hp xs het c vec
    simp only [hc, hlim, hxs, not_true_eq_false, if_false, and_false] at this
    exact this
  · intro ch
    unfold pdpSampled
    rw [base_init_all]
    simp only [limitsOr, Except.bind]
    have := evalAfter_all M hw hp xs het c vec
    simp only [hc, hlim, hxs, not_true_eq_false, if_false, and_false] at this
    exact this

/-- **C120, given limits.**  `PDP` or `DerPDP` with `axis_limits` that contain all `N` instances and `nof_instances=n`, `0 < n < N`; any calls before on either object (that do not change
the number of points for centring); any centring.  At every position, over the outcomes of the draw, the curve is off by a squared error of `(N - n) / (n * (N - 1)) * h ^ 2` on average,
where `h` is the heterogeneity the object with all instances reports there, and an error of `t` or more is at most `(N - n) / (n * (N - 1)) * h ^ 2 / t ^ 2` likely. -/
theorem C120_given_limits [PySqrt K] [LawfulSqrt K] (M : PdpModel K D) (data : List (Row K D)) (n : ℕ) (h0 : 0 < n) (h : n < data.length) (lo hi : Fin D → K)
    (hw : AllWithin data lo hi) (calls calls0 : List (PdpOp K D)) (s : Fin D) (hlim : lo s < hi s) (hp : DefaultPoints s calls) (hp0 : DefaultPoints s calls0) (xs : List K) (hxs : xs ≠ [])
    (het : Bool) (c : PyVal) (m : Centering) (hc : prepCentering c = .ok m) (vec vec0 : Bool) (ch : ℕ → ℕ → List ℕ) :
    ∃ (res : (Fin n ↪ Fin data.length) → EvalOut K) (mu sd : List K),
      (∀ e, pdpSampled M (outcome e) data (.int n) (some (lo, hi)) calls s xs het c vec = .ok (res e)) ∧
      pdpSampled M ch data (.str "all") (some (lo, hi)) calls0 s xs true c vec0 = .ok (mu, some sd) ∧ mu.length = xs.length ∧ ErrorIs res mu (sd.map (· ^ 2)) := by
  refine ⟨_, _, _, (sampled_given M h hw hlim hp hxs het hc vec).1, (sampled_given M h hw hlim hp0 hxs true hc vec0).2 ch, by simp, ?_⟩
  rw [squares_of_sd]
  exact errorIs h0 h het xs fun v r => M.at s v r - M.shift lo hi s r m

/-- **C120, worst case.**  If what is averaged (the model's output, or its derivative) always lies between `a` and `b`, then for every outcome of the draw the curve is at no position further
than `(1 - n / N) * (b - a)` from that of all instances (twice that when centred). -/
theorem C120_worst_case [PySqrt K] (M : PdpModel K D) (data : List (Row K D)) (n : ℕ) (h0 : 0 < n) (h : n < data.length) (lo hi : Fin D → K)
    (hw : AllWithin data lo hi) (calls calls0 : List (PdpOp K D)) (s : Fin D) (hlim : lo s < hi s) (hp : DefaultPoints s calls) (hp0 : DefaultPoints s calls0) (xs : List K) (hxs : xs ≠ [])
    (het het0 : Bool) (c : PyVal) (m : Centering) (hc : prepCentering c = .ok m) (vec vec0 : Bool) (ch : ℕ → ℕ → List ℕ) (a b : K) (hM : RangeIn M s a b) :
    ∃ (res : (Fin n ↪ Fin data.length) → EvalOut K) (all : EvalOut K),
      (∀ e, pdpSampled M (outcome e) data (.int n) (some (lo, hi)) calls s xs het c vec = .ok (res e)) ∧
      pdpSampled M ch data (.str "all") (some (lo, hi)) calls0 s xs het0 c vec0 = .ok all ∧ all.1.length = xs.length ∧
      ErrorAtMost ((1 - (n : K) / data.length) * (if m = .off then b - a else 2 * (b - a))) res all.1 := by
  refine ⟨_, _, (sampled_given M h hw hlim hp hxs het hc vec).1, (sampled_given M h hw hlim hp0 hxs het0 hc vec0).2 ch, by simp [outOf], ?_⟩
  by_cases hm : m = .off
  · rw [if_pos hm]
    subst hm
    refine errorAtMost h0 h.le het xs (fun v r => M.at s v r - M.shift lo hi s r .off) a b fun v r _ => ?_
    simpa [PdpModel.shift] using hM r v
  · rw [if_neg hm, show 2 * (b - a) = (b - a) - (a - b) by ring]
    refine errorAtMost h0 h.le het xs (fun v r => M.at s v r - M.shift lo hi s r m) (a - b) (b - a) fun v r _ => ?_
    have h1 := hM r v
    have h2 := shift_in hM lo hi r m hm
    constructor <;> linarith

theorem all_default [PySqrt K] (M : PdpModel K D) {data : List (Row K D)} {calls : List (PdpOp K D)} {s : Fin D} (hp : DefaultPoints s calls)
    {xs : List K} {het vec : Bool} {ch : ℕ → ℕ → List ℕ} {r : EvalOut K}
    (hr : pdpSampled M ch data (.str "all") none calls s xs het (.bool false) vec = .ok r) : r = outOf het xs fun v => data.map fun r => M.at s v r := by
  have hb := base_init_all ch data (none : Option ((Fin D → K) × (Fin D → K)))
  unfold pdpSampled at hr
  cases hl : limitsOr data none with
  | error x => rw [hb, hl] at hr; cases hr
  | ok l =>
    rw [hl] at hb
    rw [hb] at hr
    have hw := (C53_default_limits _ _ _ _ hb).1
    have := evalAfter_all M hw hp xs het (.bool false) vec
    simp only [show prepCentering (.bool false) = .ok Centering.off from rfl, PdpModel.shift, sub_zero] at this
    have h2 := this.symm.trans hr
    split_ifs at h2
    exact (Except.ok.inj h2).symm

/-- **C120, default limits.**  Without `axis_limits` (they are then those of the drawn instances), uncentred: the same, whenever `eval` answers for every outcome (`C118_answers`). -/
theorem C120_default_limits [PySqrt K] [LawfulSqrt K] (M : PdpModel K D) (data : List (Row K D)) (n : ℕ) (h0 : 0 < n) (h : n < data.length)
    (calls calls0 : List (PdpOp K D)) (s : Fin D) (hp : DefaultPoints s calls) (hp0 : DefaultPoints s calls0) (xs : List K) (het vec vec0 : Bool) (ch : ℕ → ℕ → List ℕ)
    (res : (Fin n ↪ Fin data.length) → EvalOut K) (mu sd : List K)
    (hres : ∀ e, pdpSampled M (outcome e) data (.int n) none calls s xs het (.bool false) vec = .ok (res e))
    (hall : pdpSampled M ch data (.str "all") none calls0 s xs true (.bool false) vec0 = .ok (mu, some sd)) :
    ErrorIs res mu (sd.map (· ^ 2)) ∧ ∀ a b, RangeIn M s a b → ErrorAtMost ((1 - (n : K) / data.length) * (b - a)) res mu := by
  have h1 : res = fun e => outOf het xs fun v => (drawnRows data e).map fun r => M.at s v r := by
    funext e
    exact sampled_default M h hp e rfl (hres e)
  have h2 := all_default M hp0 hall
  simp only [outOf, if_true, Prod.mk.injEq, Option.some.injEq] at h2
  rw [h1, h2.1, h2.2, squares_of_sd]
  exact ⟨errorIs h0 h het xs fun v r => M.at s v r, fun a b hM => errorAtMost h0 h.le het xs (fun v r => M.at s v r) a b fun v r _ => hM r v⟩

/-- **C120, regional.**  A `RegionalPDP` or `RegionalDerPDP` object, in any state in which the feature is fitted, and a region of `N > 300` instances, of which `eval` draws 300.  Uncentred, at
every position, the curve is off by a squared error of `(N - 300) / (300 * (N - 1)) * V` on average, where `V` is the variance of the (derivative of the) model over all instances of
the region, an error of `t` or more is at most that `/ t ^ 2` likely, and no error exceeds `(1 - 300 / N) * (b - a)` if the model ranges from `a` to `b`. -/
theorem C120_regional [PySqrt K] (o : RegionalObj K D) (M : PdpModel K D) (hM : RegionalPdpOf o M) (hcast : o.cfg.bb.cast = id) (st : RegionalState K D) (f : Fin D)
    (hf : st.fitted f = true) (node : ℕ) (nd : Node K D) (hn : getNodeInfo st f node = .ok nd) (hbig : 300 < nd.rows.length) (xs : List K) (het : Bool)
    (res : (Fin 300 ↪ Fin nd.rows.length) → EvalOut K)
    (hres : ∀ e, (regionalEvalM (reseed o (outcome e)) st f node xs het (.bool false)).2 = .ok (res e)) :
    ErrorIs res (xs.map fun v => avg (nd.rows.map fun r => M.at f v r)) (xs.map fun v => popVar (nd.rows.map fun r => M.at f v r)) ∧
    ∀ a b, RangeIn M f a b → ErrorAtMost ((1 - 300 / (nd.rows.length : K)) * (b - a)) res (xs.map fun v => avg (nd.rows.map fun r => M.at f v r)) := by
  have h1 : res = fun e => outOf het xs fun v => (drawnRows nd.rows e).map fun r => M.at f v r := by
    funext e
    have h2 := hres e
    unfold regionalEvalM regionalRefitM at h2
    rw [if_pos hf] at h2
    simp only [] at h2
    unfold regionalEval at h2
    rw [refit_idle _ _ _ hf] at h2
    simp only [bind, Except.bind, show prepCentering (.bool false) = .ok Centering.off from rfl, hn] at h2
    rw [createAndEval_pdp (regionalPdpOf_reseed hM (outcome e)) hcast, pdpOnce_sampled] at h2
    have hz : (300 : ℤ) = ((300 : ℕ) : ℤ) := by norm_num
    rw [reseed_choice, show Centering.off.toVal = .bool false from rfl] at h2
    exact sampled_default M hbig (calls := []) (by intro _ _ _ _ h; cases h) e hz h2
  rw [h1]
  refine ⟨errorIs (by norm_num) hbig het xs fun v r => M.at f v r, fun a b hR => ?_⟩
  have := errorAtMost (n := 300) (by norm_num) hbig.le het xs (fun v r => M.at f v r) a b fun v r _ => hR r v
  rw [show ((300 : ℕ) : K) = 300 by norm_num] at this
  exact this

end Effector
