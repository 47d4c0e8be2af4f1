import Mathlib.Data.Fintype.CardEmbedding
import Mathlib.Data.Fintype.Perm
import Mathlib.Logic.Equiv.Fintype
import Mathlib.Algebra.BigOperators.Field
import Mathlib.Data.Fin.VecNotation
import Verif.Props.Levels
import Verif.Props.Randomness
import Verif.Props.PlotPdp

/-!
# C118: sub-sampling is unbiased for PDP and d-PDP, and not for their heterogeneity
-/

set_option linter.unusedSectionVars false

namespace Effector

variable {K : Type} [Field K] [LinearOrder K] [IsStrictOrderedRing K] {D : ℕ}

open Spec

namespace Spec

/-- An outcome of `np.random.choice(N, n, replace=False)`: `n` different indices below `N`, in some order.  (It is the answer to this request only.) -/
def outcome {N n : ℕ} (e : Fin n ↪ Fin N) : ℕ → ℕ → List ℕ := fun N' n' => if N' = N ∧ n' = n then List.ofFn fun k => (e k : ℕ) else []

/-- The mean of a quantity over all outcomes of `np.random.choice(N, n, replace=False)`, which are equally likely. -/
noncomputable def expected (N n : ℕ) (v : (Fin n ↪ Fin N) → K) : K := (∑ e, v e) / (Fintype.card (Fin n ↪ Fin N) : K)

/-- `PDP(data, model, axis_limits=limits, nof_instances=nof)` (or `DerPDP`), the `calls`, then `eval(s, xs, heterogeneity=het, centering=c, use_vectorized=vec)`. -/
def pdpSampled [PySqrt K] (M : PdpModel K D) (choice : ℕ → ℕ → List ℕ) (data : List (Row K D)) (nof : PyVal) (limits : Option ((Fin D → K) × (Fin D → K)))
    (calls : List (PdpOp K D)) (s : Fin D) (xs : List K) (het : Bool) (c : PyVal) (vec : Bool) : Py (EvalOut K) :=
  (Base.init choice data nof limits).bind fun b => (pdpEvalAfter M b.axisLo b.axisHi b.data calls s xs het c false vec).bind PdpOut.toPair

/-- Nobody fitted feature `s` with another number of points for centring than the default. -/
def DefaultPoints (s : Fin D) (calls : List (PdpOp K D)) : Prop := ∀ f c points vec, PdpOp.fit f c points vec ∈ calls → s ∈ named D f → points = 100

/-- The results `mu e`, `sd e` for the outcomes `e` of a draw of `n` out of `N`, against the result `mu0`, `sd0` for all instances: the curve is right on average, the square of
the heterogeneity is on average too small, by the factor `(n - 1) / n * (N / (N - 1))`. -/
structure RightOnAverage {N n : ℕ} (len : ℕ) (res : (Fin n ↪ Fin N) → EvalOut K) (all : EvalOut K) : Prop where
  lengths : (∀ e, (res e).1.length = len) ∧ all.1.length = len
  curve : ∀ j < len, ∃ (v : (Fin n ↪ Fin N) → K) (v0 : K), (∀ e, (res e).1[j]? = some (v e)) ∧ all.1[j]? = some v0 ∧ expected N n v = v0
  spread : ∀ (sd : (Fin n ↪ Fin N) → List K) (sd0 : List K), (∀ e, (res e).2 = some (sd e)) → all.2 = some sd0 → ∀ j < len,
    ∃ (z : (Fin n ↪ Fin N) → K) (z0 : K), (∀ e, (sd e)[j]? = some (z e)) ∧ sd0[j]? = some z0 ∧
      expected N n (fun e => z e ^ 2) = ((n : K) - 1) / n * ((N : K) / ((N : K) - 1)) * z0 ^ 2

end Spec

/-! ### Averages over all draws -/

theorem exists_perm {N m : ℕ} (x y : Fin m ↪ Fin N) : ∃ π : Equiv.Perm (Fin N), y = x.trans π.toEmbedding := by
  classical
  let e : {a // a ∈ Set.range x} ≃ {a // a ∈ Set.range y} := (Equiv.ofInjective x x.injective).symm.trans (Equiv.ofInjective y y.injective)
  refine ⟨e.extendSubtype, ?_⟩
  ext k
  have h := e.extendSubtype_apply_of_mem (x k) ⟨k, rfl⟩
  have h2 : (Equiv.ofInjective x x.injective).symm ⟨x k, ⟨k, rfl⟩⟩ = k := by
    rw [Equiv.symm_apply_eq]; rfl
  simp only [Function.Embedding.trans_apply, Equiv.coe_toEmbedding]
  rw [h]
  show _ = ((e ⟨x k, _⟩ : Fin N) : ℕ)
  simp only [e, Equiv.trans_apply, h2, Equiv.ofInjective_apply]

theorem card_draws_pos {N n : ℕ} (h : n ≤ N) : 0 < Fintype.card (Fin n ↪ Fin N) := Fintype.card_pos_iff.mpr ⟨Fin.castLEEmb h⟩

/-- The indices drawn at `m` given places are, on average, like `m` indices drawn. -/
theorem expected_places {N n m : ℕ} (h : n ≤ N) (hm : m ≤ N) (p : Fin m ↪ Fin n) (G : (Fin m ↪ Fin N) → K) : expected N n (fun e => G (p.trans e)) = expected N m G := by
  classical
  -- the sum over all permutations does not depend on where one starts
  have key : ∀ {n : ℕ} (p : Fin m ↪ Fin n) (a0 : Fin m ↪ Fin N), (Fintype.card (Equiv.Perm (Fin N)) : K) * ∑ e : Fin n ↪ Fin N, G (p.trans e) =
      (Fintype.card (Fin n ↪ Fin N) : K) * ∑ π : Equiv.Perm (Fin N), G (a0.trans π.toEmbedding) := by
    intro n p a0
    have h1 : ∀ π : Equiv.Perm (Fin N), ∑ e : Fin n ↪ Fin N, G (p.trans e) = ∑ e : Fin n ↪ Fin N, G (p.trans (e.trans π.toEmbedding)) := by
      intro π
      refine (Fintype.sum_equiv (Equiv.embeddingCongr (Equiv.refl _) π) _ _ fun e => ?_).symm
      congr 1
    have h2 : ∀ a : Fin m ↪ Fin N, ∑ π : Equiv.Perm (Fin N), G (a.trans π.toEmbedding) = ∑ π : Equiv.Perm (Fin N), G (a0.trans π.toEmbedding) := by
      intro a
      obtain ⟨ρ, hρ⟩ := exists_perm a0 a
      refine Fintype.sum_equiv (Equiv.mulRight ρ) _ _ fun π => ?_
      rw [hρ]
      congr 1
    calc (Fintype.card (Equiv.Perm (Fin N)) : K) * ∑ e : Fin n ↪ Fin N, G (p.trans e)
        = ∑ π : Equiv.Perm (Fin N), ∑ e : Fin n ↪ Fin N, G (p.trans (e.trans π.toEmbedding)) := by
          rw [← Finset.card_univ, ← nsmul_eq_mul, ← Finset.sum_const]
          exact Finset.sum_congr rfl fun π _ => h1 π
      _ = ∑ e : Fin n ↪ Fin N, ∑ π : Equiv.Perm (Fin N), G ((p.trans e).trans π.toEmbedding) := by
          rw [Finset.sum_comm]
          rfl
      _ = _ := by
          rw [Finset.sum_congr rfl fun e _ => h2 (p.trans e), Finset.sum_const, Finset.card_univ, nsmul_eq_mul]
  let a0 : Fin m ↪ Fin N := Fin.castLEEmb hm
  have k1 := key p a0
  have k2 := key (Function.Embedding.refl (Fin m)) a0
  have e2 : ∀ e : Fin m ↪ Fin N, (Function.Embedding.refl (Fin m)).trans e = e := fun e => rfl
  simp only [e2] at k2
  have c1 : (Fintype.card (Fin n ↪ Fin N) : K) ≠ 0 := by exact_mod_cast (card_draws_pos h).ne'
  have c2 : (Fintype.card (Fin m ↪ Fin N) : K) ≠ 0 := by exact_mod_cast (card_draws_pos hm).ne'
  have c3 : (Fintype.card (Equiv.Perm (Fin N)) : K) ≠ 0 := by exact_mod_cast (Fintype.card_pos (α := Equiv.Perm (Fin N))).ne'
  unfold expected
  rw [div_eq_div_iff c1 c2]
  apply mul_left_cancel₀ c3
  rw [← mul_assoc, ← mul_assoc, k1, k2]
  ring

theorem expected_const {N n : ℕ} (h : n ≤ N) (c : K) : expected N n (fun _ => c) = c := by
  have c1 : (Fintype.card (Fin n ↪ Fin N) : K) ≠ 0 := by exact_mod_cast (card_draws_pos h).ne'
  unfold expected
  rw [Finset.sum_const, Finset.card_univ, nsmul_eq_mul, mul_div_cancel_left₀ _ c1]

theorem expected_sum {N n : ℕ} {ι : Type} (s : Finset ι) (v : ι → (Fin n ↪ Fin N) → K) : expected N n (fun e => ∑ k ∈ s, v k e) = ∑ k ∈ s, expected N n (v k) := by
  unfold expected
  rw [Finset.sum_comm, Finset.sum_div]

theorem expected_div {N n : ℕ} (v : (Fin n ↪ Fin N) → K) (c : K) : expected N n (fun e => v e / c) = expected N n v / c := by
  unfold expected
  rw [← Finset.sum_div, div_right_comm]

/-- The place `k`. -/
def onePlace {n : ℕ} (k : Fin n) : Fin 1 ↪ Fin n := ⟨fun _ => k, fun _ _ _ => Subsingleton.elim _ _⟩

/-- The places `k` and `l`. -/
def twoPlaces {n : ℕ} (k l : Fin n) (h : k ≠ l) : Fin 2 ↪ Fin n := ⟨![k, l], by
  intro a b hab
  fin_cases a <;> fin_cases b
  · rfl
  · exact absurd hab h
  · exact absurd hab.symm h
  · rfl⟩

theorem sum_injective {N : ℕ} (e : Fin N ↪ Fin N) (F : Fin N → K) : ∑ k, F (e k) = ∑ i, F i :=
  Function.Bijective.sum_comp (Finite.injective_iff_bijective.mp e.injective) F

/-- The mean of the drawn values is, on average, the mean of all values. -/
theorem expected_mean {N n : ℕ} (h0 : 0 < n) (h : n ≤ N) (F : Fin N → K) : expected N n (fun e => (∑ k, F (e k)) / (n : K)) = (∑ i, F i) / (N : K) := by
  have key : ∀ {n : ℕ}, 0 < n → n ≤ N → expected N n (fun e => (∑ k, F (e k)) / (n : K)) = expected N 1 (fun a => F (a 0)) := by
    intro n h0 h
    have hn : (n : K) ≠ 0 := by exact_mod_cast h0.ne'
    rw [expected_div, expected_sum]
    have e1 : ∀ k : Fin n, expected N n (fun e => F (e k)) = expected N 1 (fun a => F (a 0)) := fun k => expected_places h (by omega) (onePlace k) fun a => F (a 0)
    rw [Finset.sum_congr rfl fun k _ => e1 k, Finset.sum_const, Finset.card_univ, Fintype.card_fin, nsmul_eq_mul, mul_div_cancel_left₀ _ hn]
  rw [key h0 h, ← key (lt_of_lt_of_le h0 h) le_rfl]
  rw [show (fun e : Fin N ↪ Fin N => (∑ k, F (e k)) / (N : K)) = fun _ => (∑ i, F i) / (N : K) from funext fun e => by rw [sum_injective]]
  exact expected_const le_rfl _

/-- The variance, from the squared differences of all pairs. -/
theorem variance_pairs {n : ℕ} (h0 : 0 < n) (x : Fin n → K) : (∑ k, (x k - (∑ l, x l) / n) ^ 2) / (n : K) = (∑ k, ∑ l, (x k - x l) ^ 2) / (2 * (n : K) ^ 2) := by
  have hn : (n : K) ≠ 0 := by exact_mod_cast h0.ne'
  have e1 : ∀ k, ∑ l, (x k - x l) ^ 2 = (n : K) * x k ^ 2 - 2 * x k * (∑ l, x l) + ∑ l, x l ^ 2 := by
    intro k
    have : ∀ l, (x k - x l) ^ 2 = x k ^ 2 - 2 * x k * x l + x l ^ 2 := fun l => by ring
    simp only [this, Finset.sum_add_distrib, Finset.sum_sub_distrib, Finset.sum_const, Finset.card_univ, Fintype.card_fin, nsmul_eq_mul, ← Finset.mul_sum]
  have e2 : ∑ k, ∑ l, (x k - x l) ^ 2 = 2 * (n : K) * (∑ l, x l ^ 2) - 2 * (∑ l, x l) ^ 2 := by
    simp only [e1, Finset.sum_add_distrib, Finset.sum_sub_distrib, Finset.sum_const, Finset.card_univ, Fintype.card_fin, nsmul_eq_mul, ← Finset.mul_sum, ← Finset.sum_mul]
    ring
  have e3 : ∑ k, (x k - (∑ l, x l) / n) ^ 2 = (∑ l, x l ^ 2) - (∑ l, x l) ^ 2 / n := by
    have : ∀ k, (x k - (∑ l, x l) / n) ^ 2 = x k ^ 2 - 2 * ((∑ l, x l) / n) * x k + ((∑ l, x l) / n) ^ 2 := fun k => by ring
    simp only [this, Finset.sum_add_distrib, Finset.sum_sub_distrib, Finset.sum_const, Finset.card_univ, Fintype.card_fin, nsmul_eq_mul, ← Finset.mul_sum]
    field_simp
    ring
  rw [e2, e3]
  field_simp

/-- The variance of the drawn values is, on average, too small by the factor `(n - 1) / n * (N / (N - 1))`. -/
theorem expected_variance {N n : ℕ} (h0 : 0 < n) (h : n ≤ N) (hN : 2 ≤ N) (F : Fin N → K) :
    expected N n (fun e => (∑ k, (F (e k) - (∑ l, F (e l)) / n) ^ 2) / (n : K)) =
      ((n : K) - 1) / n * ((N : K) / ((N : K) - 1)) * ((∑ i, (F i - (∑ l, F l) / N) ^ 2) / (N : K)) := by
  have key : ∀ {n : ℕ}, 0 < n → n ≤ N → expected N n (fun e => (∑ k, (F (e k) - (∑ l, F (e l)) / n) ^ 2) / (n : K)) =
      ((n : K) - 1) / n * (expected N 2 (fun a => (F (a 0) - F (a 1)) ^ 2) / 2) := by
    intro n h0 h
    have hn : (n : K) ≠ 0 := by exact_mod_cast h0.ne'
    rw [show (fun e : Fin n ↪ Fin N => (∑ k, (F (e k) - (∑ l, F (e l)) / n) ^ 2) / (n : K)) = fun e => (∑ k, ∑ l, (F (e k) - F (e l)) ^ 2) / (2 * (n : K) ^ 2) from
      funext fun e => variance_pairs h0 fun k => F (e k)]
    rw [expected_div, expected_sum]
    have e1 : ∀ k : Fin n, expected N n (fun e => ∑ l, (F (e k) - F (e l)) ^ 2) = ((n : K) - 1) * expected N 2 (fun a => (F (a 0) - F (a 1)) ^ 2) := by
      intro k
      rw [expected_sum, ← Finset.add_sum_erase _ _ (Finset.mem_univ k)]
      have z : expected N n (fun e => (F (e k) - F (e k)) ^ 2) = 0 := by
        simp only [sub_self, ne_eq, OfNat.ofNat_ne_zero, not_false_eq_true, zero_pow]
        exact expected_const h 0
      rw [z, zero_add]
      have e2 : ∀ l ∈ Finset.univ.erase k, expected N n (fun e => (F (e k) - F (e l)) ^ 2) = expected N 2 (fun a => (F (a 0) - F (a 1)) ^ 2) := by
        intro l hl
        exact expected_places h hN (twoPlaces k l (Finset.ne_of_mem_erase hl).symm) fun a => (F (a 0) - F (a 1)) ^ 2
      rw [Finset.sum_congr rfl e2, Finset.sum_const, Finset.card_erase_of_mem (Finset.mem_univ k), Finset.card_univ, Fintype.card_fin, nsmul_eq_mul, Nat.cast_sub h0, Nat.cast_one]
    rw [Finset.sum_congr rfl fun k _ => e1 k, Finset.sum_const, Finset.card_univ, Fintype.card_fin, nsmul_eq_mul]
    field_simp
  rw [key h0 h]
  have hfull := key (lt_of_lt_of_le h0 h) (le_refl N)
  rw [show (fun e : Fin N ↪ Fin N => (∑ k, (F (e k) - (∑ l, F (e l)) / N) ^ 2) / (N : K)) = fun _ => (∑ i, (F i - (∑ l, F l) / N) ^ 2) / (N : K) from
    funext fun e => by rw [sum_injective e F, sum_injective e fun i => (F i - (∑ l, F l) / N) ^ 2], expected_const le_rfl] at hfull
  rw [hfull]
  have hN0 : (N : K) ≠ 0 := by exact_mod_cast (by omega : N ≠ 0)
  have hN1 : (N : K) - 1 ≠ 0 := by
    rw [sub_ne_zero]
    exact_mod_cast (by omega : N ≠ 1)
  field_simp

/-! ### The drawn data -/

/-- The instances drawn. -/
def drawnRows (data : List (Row K D)) {n : ℕ} (e : Fin n ↪ Fin data.length) : List (Row K D) := List.ofFn fun k => data.get (e k)

theorem base_init_outcome {data : List (Row K D)} {n : ℕ} (h : n < data.length) (e : Fin n ↪ Fin data.length) (limits : Option ((Fin D → K) × (Fin D → K))) :
    ∃ idx, Base.init (outcome e) data (.int n) limits =
      (limitsOr (drawnRows data e) limits).bind fun l => .ok { data := drawnRows data e, indices := idx, axisLo := l.1, axisHi := l.2 } := by
  have hi : ∀ i ∈ List.ofFn (fun k => (e k : ℕ)), i < data.length := by
    intro i hi
    obtain ⟨k, rfl⟩ := List.mem_ofFn.mp hi
    exact (e k).2
  obtain ⟨d, hd⟩ := takeRows_ok data _ hi
  have hd2 : d = drawnRows data e := by
    have h1 := takeRows_spec hd
    have h2 : (List.ofFn fun k => (e k : ℕ)).map (fun i => data[i]?) = (drawnRows data e).map some := by
      unfold drawnRows
      simp only [List.map_ofFn]
      congr 1
      funext k
      simp
    rw [h2] at h1
    exact List.map_injective_iff.mpr (Option.some_injective _) h1
  refine ⟨List.ofFn fun k => (e k : ℕ), ?_⟩
  unfold Base.init prepNofInstances
  simp only [if_pos (by exact_mod_cast h : ((n : ℤ) < (data.length : ℤ))), if_neg (by omega : ¬ ((n : ℤ) < 0)), bind, Except.bind, pure, Except.pure, outcome, Int.toNat_natCast, and_self, if_true, hd]
  rw [hd2]
  cases limits <;> rfl

theorem avg_ofFn {n : ℕ} (x : Fin n → K) : avg (List.ofFn x) = (∑ k, x k) / (n : K) := by
  unfold avg
  rw [List.sum_ofFn, List.length_ofFn]

theorem popVar_ofFn {n : ℕ} (x : Fin n → K) : popVar (List.ofFn x) = (∑ k, (x k - (∑ l, x l) / n) ^ 2) / (n : K) := by
  unfold popVar
  rw [avg_ofFn, List.map_ofFn, List.sum_ofFn, List.length_ofFn]
  rfl

/-- The values of a quantity on the drawn instances: mean and variance, on average. -/
theorem drawn_average {data : List (Row K D)} {n : ℕ} (h0 : 0 < n) (h : n < data.length) (g : Row K D → K) :
    expected data.length n (fun e => avg ((drawnRows data e).map g)) = avg (data.map g) ∧
    expected data.length n (fun e => popVar ((drawnRows data e).map g)) =
      ((n : K) - 1) / n * ((data.length : K) / ((data.length : K) - 1)) * popVar (data.map g) := by
  have e1 : ∀ e : Fin n ↪ Fin data.length, (drawnRows data e).map g = List.ofFn fun k => g (data.get (e k)) := by
    intro e
    unfold drawnRows
    rw [List.map_ofFn]
    rfl
  have e2 : data.map g = List.ofFn fun k : Fin data.length => g (data.get k) := by
    conv_lhs => rw [← List.ofFn_get data, List.map_ofFn]
    rfl
  constructor
  · simp only [e1, e2, avg_ofFn]
    exact expected_mean h0 h.le fun i => g (data.get i)
  · simp only [e1, e2, popVar_ofFn]
    exact expected_variance h0 h.le (by omega) fun i => g (data.get i)

/-- What `eval` returns when `values v` are the values of the instances at the position `v`. -/
def outOf [PySqrt K] (het : Bool) (xs : List K) (values : K → List K) : EvalOut K :=
  (xs.map fun v => avg (values v), if het then some (xs.map fun v => PySqrt.sqrt (popVar (values v))) else none)

theorem report_outOf [PySqrt K] (het : Bool) (xs : List K) (values : K → List K) : (report het false (xs.map values)).toPair = .ok (outOf het xs values) := by
  unfold report outOf
  cases het <;> simp [PdpOut.toPair, Function.comp_def]

theorem rightOnAverage [PySqrt K] {data : List (Row K D)} {n : ℕ} (h0 : 0 < n) (h : n < data.length) (het : Bool) (hs : het = true → LawfulSqrt K) (xs : List K) (g : K → Row K D → K) :
    RightOnAverage xs.length (fun e : Fin n ↪ Fin data.length => outOf het xs fun v => (drawnRows data e).map (g v)) (outOf het xs fun v => data.map (g v)) where
  lengths := ⟨fun e => by simp [outOf], by simp [outOf]⟩
  curve := by
    intro j hj
    refine ⟨fun e => avg ((drawnRows data e).map (g xs[j])), avg (data.map (g xs[j])), fun e => ?_, ?_, (drawn_average h0 h (g xs[j])).1⟩
    · simp [outOf, hj]
    · simp [outOf, hj]
  spread := by
    intro sd sd0 h1 h2 j hj
    unfold outOf at h1 h2
    cases het with
    | false => simp at h2
    | true =>
      have := hs rfl
      simp only [if_true, Option.some.injEq] at h1 h2
      refine ⟨fun e => PySqrt.sqrt (popVar ((drawnRows data e).map (g xs[j]))), PySqrt.sqrt (popVar (data.map (g xs[j]))), fun e => ?_, ?_, ?_⟩
      · rw [← h1 e]; simp [hj]
      · rw [← h2]; simp [hj]
      · have e1 : ∀ l : List K, PySqrt.sqrt (popVar l) ^ 2 = popVar l := fun l => by rw [sq, LawfulSqrt.sqrt_mul_self _ (popVar_nonneg l)]
        simp only [e1]
        exact (drawn_average h0 h (g xs[j])).2

theorem inLimits_all {d : List (Row K D)} {lo hi : Fin D → K} (h : AllWithin d lo hi) (s : Fin D) : inLimits d lo hi s = d := by
  unfold inLimits
  rw [List.filter_eq_self]
  intro r hr
  simpa using h r hr s

theorem callsOk_all {d : List (Row K D)} {lo hi : Fin D → K} (h : AllWithin d lo hi) {s : Fin D} {calls : List (PdpOp K D)} (hc : DefaultPoints s calls) :
    ∀ op ∈ calls, PdpCallOk d lo hi s op := by
  intro op hop
  cases op with
  | fit f c points vec => exact ⟨fun hs => hc f c points vec hop hs, fun t _ r hr _ => h r hr t⟩
  | eval t xs het c all vec => exact fun r hr _ => h r hr t

theorem evalAfter_all [PySqrt K] (M : PdpModel K D) {d : List (Row K D)} {lo hi : Fin D → K} (h : AllWithin d lo hi) {s : Fin D} {calls : List (PdpOp K D)}
    (hc : DefaultPoints s calls) (xs : List K) (het : Bool) (c : PyVal) (vec : Bool) :
    (pdpEvalAfter M lo hi d calls s xs het c false vec).bind PdpOut.toPair =
      match prepCentering c with
      | .error e => .error e
      | .ok m => if ¬ lo s < hi s then .error .assertionError else if vec = false ∧ xs = [] then .error .valueError
        else .ok (outOf het xs fun v => d.map fun r => M.at s v r - M.shift lo hi s r m) := by
  unfold pdpEvalAfter
  rw [pdp_eval_spec M lo hi d s calls (callsOk_all h hc)]
  cases prepCentering c with
  | error e => rfl
  | ok m =>
    simp only [PdpModel.value]
    rw [inLimits_all h]
    by_cases h1 : lo s < hi s
    · by_cases h2 : vec = false ∧ xs = []
      · simp only [h1, not_true_eq_false, if_false, if_pos h2]
        rfl
      · simp only [h1, not_true_eq_false, if_false, if_neg h2]
        exact report_outOf het xs _
    · simp only [h1, not_false_eq_true, if_true]
      rfl

theorem drawn_within {data : List (Row K D)} {lo hi : Fin D → K} (h : AllWithin data lo hi) {n : ℕ} (e : Fin n ↪ Fin data.length) : AllWithin (drawnRows data e) lo hi := by
  intro r hr
  obtain ⟨k, rfl⟩ := List.mem_ofFn.mp hr
  exact h _ (List.get_mem _ _)

/-! ### C118 -/

/-- **C118, given limits.**  `PDP` or `DerPDP` with `axis_limits` that contain all instances and `nof_instances=n`, `0 < n < N`; any calls before (that do not change the number
of points for centring); any centring.  `eval` answers for every outcome of the draw, and on average over the outcomes it returns, at every position, the curve of the object with all
instances.  The squared heterogeneity is on average that of the object with all instances times `(n - 1) / n * (N / (N - 1))`. -/
theorem C118_given_limits [PySqrt K] (M : PdpModel K D) (data : List (Row K D)) (n : ℕ) (h0 : 0 < n) (h : n < data.length) (lo hi : Fin D → K)
    (hw : AllWithin data lo hi) (calls : List (PdpOp K D)) (s : Fin D) (hlim : lo s < hi s) (hp : DefaultPoints s calls) (xs : List K) (hxs : xs ≠ []) (het : Bool) (hs : het = true → LawfulSqrt K) (c : PyVal)
    (m : Centering) (hc : prepCentering c = .ok m) (vec : Bool) (ch : ℕ → ℕ → List ℕ) :
    ∃ (res : (Fin n ↪ Fin data.length) → EvalOut K) (all : EvalOut K),
      (∀ e, pdpSampled M (outcome e) data (.int n) (some (lo, hi)) calls s xs het c vec = .ok (res e)) ∧
      pdpSampled M ch data (.str "all") (some (lo, hi)) calls s xs het c vec = .ok all ∧
      (∀ e, (res e).2.isSome = het) ∧ all.2.isSome = het ∧ RightOnAverage xs.length res all := by
  refine ⟨_, _, fun e => ?_, ?_, fun e => ?_, ?_, rightOnAverage h0 h het hs xs fun v r => M.at s v r - M.shift lo hi s r m⟩
  · obtain ⟨idx, hb⟩ := base_init_outcome h e (some (lo, hi))
    unfold pdpSampled
    rw [hb]
    simp only [limitsOr, Except.bind]
    have := evalAfter_all M (drawn_within hw e) hp xs het c vec
    simp only [hc, hlim, hxs, not_true_eq_false, if_false, and_false] at this
    exact this
  · unfold pdpSampled
    rw [base_init_all]
    simp only [limitsOr, Except.bind]
    have := evalAfter_all M hw hp xs het c vec
    simp only [hc, hlim, hxs, not_true_eq_false, if_false, and_false] at this
    exact this
  · cases het <;> rfl
  · cases het <;> rfl

theorem sampled_default [PySqrt K] (M : PdpModel K D) {data : List (Row K D)} {n : ℕ} (h : n < data.length) {calls : List (PdpOp K D)} {s : Fin D} (hp : DefaultPoints s calls)
    {xs : List K} {het vec : Bool} (e : Fin n ↪ Fin data.length) {z : ℤ} (hz : z = n) {r : EvalOut K}
    (hr : pdpSampled M (outcome e) data (.int z) none calls s xs het (.bool false) vec = .ok r) : r = outOf het xs fun v => (drawnRows data e).map fun r => M.at s v r := by
  subst hz
  obtain ⟨idx, hb⟩ := base_init_outcome h e none
  unfold pdpSampled at hr
  cases hl : limitsOr (drawnRows data e) none with
  | error x => rw [hb, hl] at hr; cases hr
  | ok l =>
    rw [hl] at hb
    rw [hb] at hr
    have hw := (C53_default_limits _ _ _ _ hb).1
    have := evalAfter_all M hw hp xs het (.bool false) vec
    simp only [show prepCentering (.bool false) = .ok Centering.off from rfl, PdpModel.shift, sub_zero] at this
    have h2 := this.symm.trans hr
    split_ifs at h2
    exact (Except.ok.inj h2).symm

/-- **C118, default limits.**  Without `axis_limits` (they are then those of the drawn instances), uncentred: the same, whenever `eval` answers for every outcome. -/
theorem C118_default_limits [PySqrt K] (M : PdpModel K D) (data : List (Row K D)) (n : ℕ) (h0 : 0 < n) (h : n < data.length)
    (calls : List (PdpOp K D)) (s : Fin D) (hp : DefaultPoints s calls) (xs : List K) (het : Bool) (hs : het = true → LawfulSqrt K) (vec : Bool) (ch : ℕ → ℕ → List ℕ)
    (res : (Fin n ↪ Fin data.length) → EvalOut K) (all : EvalOut K)
    (hres : ∀ e, pdpSampled M (outcome e) data (.int n) none calls s xs het (.bool false) vec = .ok (res e))
    (hall : pdpSampled M ch data (.str "all") none calls s xs het (.bool false) vec = .ok all) : RightOnAverage xs.length res all := by
  have key : ∀ (b : Base K D), AllWithin b.data b.axisLo b.axisHi → ∀ (r : EvalOut K),
      (pdpEvalAfter M b.axisLo b.axisHi b.data calls s xs het (.bool false) false vec).bind PdpOut.toPair = .ok r → r = outOf het xs fun v => b.data.map fun r => M.at s v r := by
    intro b hw r hr
    rw [evalAfter_all M hw hp xs het (.bool false) vec] at hr
    simp only [show prepCentering (.bool false) = .ok Centering.off from rfl, PdpModel.shift, sub_zero] at hr
    split_ifs at hr
    exact (Except.ok.inj hr).symm
  have h1 : res = fun e => outOf het xs fun v => (drawnRows data e).map fun r => M.at s v r := by
    funext e
    exact sampled_default M h hp e rfl (hres e)
  have h2 : all = outOf het xs fun v => data.map fun r => M.at s v r := by
    have hb := base_init_all ch data (none : Option ((Fin D → K) × (Fin D → K)))
    unfold pdpSampled at hall
    cases hl : limitsOr data none with
    | error x => rw [hb, hl] at hall; cases hall
    | ok l =>
      rw [hl] at hb
      rw [hb] at hall
      exact key _ (C53_default_limits _ _ _ _ hb).1 _ hall
  rw [h1, h2]
  exact rightOnAverage h0 h het hs xs fun v r => M.at s v r

theorem regionalPdpOf_reseed {o : RegionalObj K D} {M : PdpModel K D} (h : RegionalPdpOf o M) (ch : ℕ → ℕ → List ℕ) : RegionalPdpOf (reseed o ch) M := by
  cases M <;> exact h

theorem reseed_choice (o : RegionalObj K D) (ch : ℕ → ℕ → List ℕ) : (reseed o ch).cfg.bb.choice = ch := rfl

theorem pdpOnce_sampled [PySqrt K] (ch : ℕ → ℕ → List ℕ) (M : PdpModel K D) (data : List (Row K D)) (eff : Option (List (Row K D))) (s : Fin D) (xs : List K) (het : Bool) (c : PyVal) :
    pdpOnce ch id M.kind data eff s xs het c = pdpSampled M ch data (.int 300) none [] s xs het c true := rfl

/-- **C118, regional.**  A `RegionalPDP` or `RegionalDerPDP` object, in any state in which the feature is fitted, and a region of more than 300 instances (of which `eval` draws 300
anew at every call).  Whenever uncentred `eval` answers for every outcome, on average it returns the mean of the (derivative of the) model over all instances of the region; the squared
heterogeneity is on average too small, by the factor given. -/
theorem C118_regional [PySqrt K] (o : RegionalObj K D) (M : PdpModel K D) (hM : RegionalPdpOf o M) (hcast : o.cfg.bb.cast = id) (st : RegionalState K D) (f : Fin D)
    (hf : st.fitted f = true) (node : ℕ) (nd : Node K D) (hn : getNodeInfo st f node = .ok nd) (hbig : 300 < nd.rows.length) (xs : List K) (het : Bool) (hs : het = true → LawfulSqrt K)
    (res : (Fin 300 ↪ Fin nd.rows.length) → EvalOut K)
    (hres : ∀ e, (regionalEvalM (reseed o (outcome e)) st f node xs het (.bool false)).2 = .ok (res e)) :
    RightOnAverage xs.length res (xs.map fun v => avg (nd.rows.map fun r => M.at f v r),
      if het then some (xs.map fun v => PySqrt.sqrt (popVar (nd.rows.map fun r => M.at f v r))) else none) := by
  have h1 : res = fun e => outOf het xs fun v => (drawnRows nd.rows e).map fun r => M.at f v r := by
    funext e
    have h2 := hres e
    unfold regionalEvalM regionalRefitM at h2
    rw [if_pos hf] at h2
    simp only [] at h2
    unfold regionalEval at h2
    rw [refit_idle _ _ _ hf] at h2
    simp only [bind, Except.bind, show prepCentering (.bool false) = .ok Centering.off from rfl, hn] at h2
    rw [createAndEval_pdp (regionalPdpOf_reseed hM (outcome e)) hcast, pdpOnce_sampled] at h2
    have hz : (300 : ℤ) = ((300 : ℕ) : ℤ) := by norm_num
    rw [reseed_choice, show Centering.off.toVal = .bool false from rfl] at h2
    exact sampled_default M hbig (calls := []) (by intro _ _ _ _ h; cases h) e hz h2
  rw [h1]
  exact rightOnAverage (by norm_num) hbig het hs xs fun v r => M.at f v r

/-! ### When `eval` answers for every outcome -/

theorem drawn_subperm (data : List (Row K D)) {n : ℕ} (e : Fin n ↪ Fin data.length) : (drawnRows data e).Subperm data := by
  have h1 : (List.ofFn fun k => e k).Subperm (List.finRange data.length) := (List.nodup_ofFn.mpr e.injective).subperm fun i _ => List.mem_finRange i
  obtain ⟨l, hp, hsub⟩ := h1
  have h2 : ((List.ofFn fun k => e k).map data.get).Subperm ((List.finRange data.length).map data.get) := ⟨l.map data.get, hp.map _, hsub.map _⟩
  rw [List.map_ofFn] at h2
  have h3 : (List.finRange data.length).map data.get = data := by
    rw [← List.ofFn_eq_map, List.ofFn_get]
  rw [h3] at h2
  exact h2

/-- A draw of `n` instances holds two values of a feature that no `n` instances share. -/
theorem drawn_two_values {data : List (Row K D)} {n : ℕ} (h0 : 0 < n) (s : Fin D) (hv : ∀ v, data.countP (fun r => r s = v) < n) (e : Fin n ↪ Fin data.length) :
    ∃ a ∈ drawnRows data e, ∃ b ∈ drawnRows data e, a s ≠ b s := by
  by_contra hc
  push Not at hc
  have hmem : data.get (e ⟨0, h0⟩) ∈ drawnRows data e := List.mem_ofFn.mpr ⟨_, rfl⟩
  have h1 : (drawnRows data e).countP (fun r => r s = data.get (e ⟨0, h0⟩) s) = n := by
    rw [List.countP_eq_length.mpr fun b hb => by simpa using hc b hb _ hmem]
    simp [drawnRows]
  have h2 := (drawn_subperm data e).countP_le (fun r => r s = data.get (e ⟨0, h0⟩) s)
  have h3 := hv (data.get (e ⟨0, h0⟩) s)
  omega

theorem limits_two_values {d : List (Row K D)} {s : Fin D} (h : ∃ a ∈ d, ∃ b ∈ d, a s ≠ b s) : ∃ l, axisLimitsAll d = .ok l ∧ l.1 s < l.2 s := by
  obtain ⟨a, ha, b, hb, hab⟩ := h
  cases hl : axisLimitsAll d with
  | error x =>
    cases d with
    | nil => cases ha
    | cons q qs => simp [axisLimitsAll] at hl
  | ok l =>
    refine ⟨l, rfl, ?_⟩
    have hw := axisLimits_within (lo := l.1) (hi := l.2) hl
    by_contra hc
    obtain ⟨a1, a2⟩ := hw a ha s
    obtain ⟨b1, b2⟩ := hw b hb s
    exact hab (by linarith [not_lt.mp hc])

/-- **C118, when there is an answer.**  With default limits, `eval` answers for every outcome of the draw of `n` instances if no `n` instances share a value of the feature. -/
theorem C118_answers [PySqrt K] (M : PdpModel K D) (data : List (Row K D)) (n : ℕ) (h0 : 0 < n) (h : n < data.length) (calls : List (PdpOp K D)) (s : Fin D)
    (hv : ∀ v, data.countP (fun r => r s = v) < n) (hp : DefaultPoints s calls) (xs : List K) (hxs : xs ≠ []) (het : Bool) (c : PyVal) (m : Centering)
    (hc : prepCentering c = .ok m) (vec : Bool) (e : Fin n ↪ Fin data.length) :
    ∃ r, pdpSampled M (outcome e) data (.int n) none calls s xs het c vec = .ok r := by
  obtain ⟨l, hl, hlt⟩ := limits_two_values (drawn_two_values h0 s hv e)
  obtain ⟨idx, hb⟩ := base_init_outcome h e none
  unfold pdpSampled
  rw [show limitsOr (drawnRows data e) none = .ok l from hl] at hb
  rw [hb]
  have hw := (C53_default_limits _ _ _ _ hb).1
  have := evalAfter_all M hw hp xs het c vec
  simp only [hc, hlt, hxs, not_true_eq_false, if_false, and_false] at this
  exact ⟨_, this⟩

/-- The same in a region, for the draw of 300 instances. -/
theorem C118_regional_answers [PySqrt K] (o : RegionalObj K D) (M : PdpModel K D) (hM : RegionalPdpOf o M) (hcast : o.cfg.bb.cast = id) (st : RegionalState K D) (f : Fin D)
    (hf : st.fitted f = true) (node : ℕ) (nd : Node K D) (hn : getNodeInfo st f node = .ok nd) (hbig : 300 < nd.rows.length)
    (hv : ∀ v, nd.rows.countP (fun r => r f = v) < 300) (xs : List K) (hxs : xs ≠ []) (het : Bool) (e : Fin 300 ↪ Fin nd.rows.length) :
    ∃ r, (regionalEvalM (reseed o (outcome e)) st f node xs het (.bool false)).2 = .ok r := by
  obtain ⟨r, hr⟩ := C118_answers M nd.rows 300 (by norm_num) hbig [] f hv (by intro _ _ _ _ h; cases h) xs hxs het (.bool false) .off rfl true e
  refine ⟨r, ?_⟩
  unfold regionalEvalM regionalRefitM
  rw [if_pos hf]
  simp only []
  unfold regionalEval
  rw [refit_idle _ _ _ hf]
  simp only [bind, Except.bind, show prepCentering (.bool false) = .ok Centering.off from rfl, hn]
  rw [createAndEval_pdp (regionalPdpOf_reseed hM (outcome e)) hcast, pdpOnce_sampled, reseed_choice, show Centering.off.toVal = .bool false from rfl]
  have hz : (300 : ℤ) = ((300 : ℕ) : ℤ) := by norm_num
  rw [hz]
  exact hr

end Effector
