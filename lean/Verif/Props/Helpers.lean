import Verif.Props.AleInvariance
import Verif.Model.Shap
import Mathlib.Data.Fin.VecNotation

/-!
# C51-C54: sub-sampling, `indices`, default axis limits, argument normalisation
-/

set_option linter.unusedSectionVars false

namespace Effector

open Spec

variable {K : Type} [Field K] [LinearOrder K] [IsStrictOrderedRing K] {D : ℕ}

/-! ### C51 -/

/-- **C51.**  Whatever the random generator does (it only has to honour numpy's contract for `choice(.., replace=False)`), the returned
indices are pairwise distinct and within range; there are `n` of them if `nof_instances = n < N`, and they are `0..N-1` in order otherwise. -/
theorem C51_subsampling (choice : ℕ → ℕ → List ℕ) (hc : ValidChoice choice) (nof : PyVal) (N : ℕ) (n : ℤ) (idx : List ℕ)
    (h : prepNofInstances choice nof N = .ok (n, idx)) :
    idx.Nodup ∧ (∀ i ∈ idx, i < N) ∧
      (nof = .str "all" → n = N ∧ idx = List.range N) ∧
      (∀ k : ℤ, nof = .int k → n = k ∧ (k < N → (idx.length : ℤ) = k) ∧ ((N : ℤ) ≤ k → idx = List.range N)) := by
  unfold prepNofInstances at h
  cases nof with
  | int k =>
    simp only [] at h
    by_cases hk : k < (N : ℤ)
    · rw [if_pos hk] at h
      by_cases h0 : k < 0
      · rw [if_pos h0] at h; cases h
      · rw [if_neg h0] at h
        cases h
        obtain ⟨h1, h2, h3⟩ := hc N n.toNat (by omega)
        refine ⟨h2, h3, by simp, ?_⟩
        rintro j ⟨⟩
        exact ⟨rfl, fun _ => by rw [h1]; omega, fun h => by omega⟩
    · rw [if_neg hk] at h
      cases h
      refine ⟨List.nodup_range, by simp, by simp, ?_⟩
      rintro j ⟨⟩
      exact ⟨rfl, fun h => absurd h hk, fun _ => rfl⟩
  | str s =>
    simp only [] at h
    by_cases hs : s = "all"
    · rw [if_pos hs] at h
      cases h
      exact ⟨List.nodup_range, by simp, fun _ => ⟨rfl, rfl⟩, by simp⟩
    · rw [if_neg hs] at h; cases h
  | bool b => cases h
  | list l => cases h
  | other => cases h

/-- **C51**, acceptance: `"all"` and every non-negative integer are accepted, and nothing else (a `bool` is not an `int` here). -/
theorem C51_accepts_exactly (choice : ℕ → ℕ → List ℕ) (nof : PyVal) (N : ℕ) :
    (∃ r, prepNofInstances choice nof N = .ok r) ↔ nof = .str "all" ∨ ∃ k : ℤ, nof = .int k ∧ 0 ≤ k := by
  unfold prepNofInstances
  cases nof with
  | int k =>
    by_cases hk : k < (N : ℤ)
    · by_cases h0 : k < 0
      · simp [hk, h0]
      · simp only [hk, h0, if_true, if_false]
        exact ⟨fun _ => Or.inr ⟨k, rfl, by omega⟩, fun _ => ⟨_, rfl⟩⟩
    · simp only [hk, if_false]
      exact ⟨fun _ => Or.inr ⟨k, rfl, by omega⟩, fun _ => ⟨_, rfl⟩⟩
  | str s =>
    by_cases hs : s = "all"
    · simp [hs]
    · simp [hs]
  | bool b => simp
  | list l => simp
  | other => simp

/-- Honouring the contract is possible: take the first rows. -/
theorem validChoice_take : ValidChoice fun _ n => List.range n :=
  fun _ _ h => ⟨by simp, List.nodup_range, fun i hi => by have := List.mem_range.mp hi; omega⟩

/-! ### C52 -/

theorem takeRows_spec {α : Type} {data : List α} {idx : List ℕ} {d : List α} (h : takeRows data idx = .ok d) :
    d.map some = idx.map fun i => data[i]? := by
  unfold takeRows at h
  induction idx generalizing d with
  | nil => cases h; rfl
  | cons i t ih =>
    rw [List.mapM_cons] at h
    cases hp : pyIndex data i with
    | error e => rw [hp] at h; cases h
    | ok a =>
      cases hm : t.mapM (fun i => pyIndex data i) with
      | error e => rw [hp, hm] at h; cases h
      | ok l =>
        rw [hp, hm] at h
        cases h
        have : data[i]? = some a := by
          unfold pyIndex at hp
          cases hd : data[i]? with
          | none => rw [hd] at hp; cases hp
          | some b => rw [hd] at hp; cases hp; rfl
        simp [ih hm, this]

theorem base_init_inv {choice : ℕ → ℕ → List ℕ} {data : List (Row K D)} {nof : PyVal} {ax : Option ((Fin D → K) × (Fin D → K))} {b : Base K D}
    (h : Base.init choice data nof ax = .ok b) :
    (∃ n, prepNofInstances choice nof data.length = .ok (n, b.indices)) ∧ takeRows data b.indices = .ok b.data ∧
      limitsOr b.data ax = .ok (b.axisLo, b.axisHi) := by
  unfold Base.init at h
  cases hp : prepNofInstances choice nof data.length with
  | error e => rw [hp] at h; cases h
  | ok q =>
    obtain ⟨n, idx⟩ := q
    rw [hp] at h
    simp only [bind, Except.bind] at h
    cases ht : takeRows data idx with
    | error e => rw [ht] at h; cases h
    | ok d =>
      rw [ht] at h
      cases ax with
      | some l => cases h; exact ⟨⟨n, rfl⟩, ht, rfl⟩
      | none =>
        simp only [] at h
        cases ha : axisLimitsAll d with
        | error e => rw [ha] at h; cases h
        | ok l => rw [ha] at h; cases h; exact ⟨⟨n, rfl⟩, ht, ha⟩

/-- **C52 for ALE, PDP, d-PDP.**  After construction, row `k` of `obj.data` is row `obj.indices[k]` of the passed data. -/
theorem C52_indices_identify_rows (choice : ℕ → ℕ → List ℕ) (data : List (Row K D)) (nof : PyVal) (ax : Option ((Fin D → K) × (Fin D → K)))
    (b : Base K D) (h : Base.init choice data nof ax = .ok b) : b.data.map some = b.indices.map fun i => data[i]? :=
  takeRows_spec (base_init_inv h).2.1

theorem takeRows_length {α : Type} {data : List α} {idx : List ℕ} {d : List α} (h : takeRows data idx = .ok d) : d.length = idx.length := by
  have := congrArg List.length (takeRows_spec h)
  simpa using this

/-- What `RHALE.__init__` stores, as a base object. -/
theorem rhaleInit_inv {choice : ℕ → ℕ → List ℕ} {model : List (Row K D) → List K} {jac : Option (List (Row K D) → List (Row K D))}
    {data : List (Row K D)} {given : Option (List (Row K D))} {nof : PyVal} {ax : Option ((Fin D → K) × (Fin D → K))} {cfg : AleCfg K D}
    {b : Base K D} (h : rhaleInit choice model jac data given nof ax = .ok (cfg, b)) :
    ∃ n idx d, prepNofInstances choice nof data.length = .ok (n, idx) ∧ takeRows data idx = .ok d ∧
      Base.init choice d (.str "all") ax = .ok b := by
  unfold rhaleInit at h
  cases hp : prepNofInstances choice nof data.length with
  | error e => rw [hp] at h; cases h
  | ok q =>
    obtain ⟨n, idx⟩ := q
    rw [hp] at h
    simp only [bind, Except.bind] at h
    cases ht : takeRows data idx with
    | error e => rw [ht] at h; cases h
    | ok d =>
      rw [ht] at h
      refine ⟨n, idx, d, rfl, ht, ?_⟩
      simp only [] at h
      cases given with
      | none =>
        simp only [] at h
        cases hb : Base.init choice d (.str "all") ax with
        | error e => rw [hb] at h; cases h
        | ok b' => rw [hb] at h; cases h; rfl
      | some e =>
        simp only [] at h
        cases hm : (takeRows e idx).map some with
        | error e => rw [hm] at h; cases h
        | ok g =>
          rw [hm] at h
          simp only [] at h
          cases hb : Base.init choice d (.str "all") ax with
          | error e => rw [hb] at h; cases h
          | ok b' => rw [hb] at h; cases h; rfl

theorem base_all {choice : ℕ → ℕ → List ℕ} {d : List (Row K D)} {ax : Option ((Fin D → K) × (Fin D → K))} {b : Base K D}
    (h : Base.init choice d (.str "all") ax = .ok b) : b.data = d ∧ b.indices = List.range d.length := by
  rw [base_init_all] at h
  cases hl : limitsOr d ax with
  | error e => rw [hl] at h; cases h
  | ok l => rw [hl] at h; cases h; exact ⟨rfl, rfl⟩

/-- **C52 for RHALE**, what holds: `obj.data` consists of the sub-sampled rows, but `obj.indices` is always `0..n-1`; it identifies the rows only
when nothing was sub-sampled. -/
theorem C52_rhale_partial (choice : ℕ → ℕ → List ℕ) (model : List (Row K D) → List K) (jac : Option (List (Row K D) → List (Row K D)))
    (data : List (Row K D)) (given : Option (List (Row K D))) (nof : PyVal) (ax : Option ((Fin D → K) × (Fin D → K))) (cfg : AleCfg K D)
    (b : Base K D) (h : rhaleInit choice model jac data given nof ax = .ok (cfg, b)) :
    b.indices = List.range b.data.length ∧
    (nof = .str "all" ∨ (∃ k : ℤ, nof = .int k ∧ (data.length : ℤ) ≤ k) → b.data = data ∧ b.data.map some = b.indices.map fun i => data[i]?) := by
  obtain ⟨n, idx, d, hp, ht, hb⟩ := rhaleInit_inv h
  obtain ⟨rfl, hi⟩ := base_all hb
  refine ⟨hi, fun hn => ?_⟩
  have hidx : idx = List.range data.length := by
    rcases hn with rfl | ⟨k, rfl, hk⟩
    · cases hp; rfl
    · unfold prepNofInstances at hp
      simp only [] at hp
      rw [if_neg (by omega)] at hp
      cases hp; rfl
  subst hidx
  have hd : b.data = data := by
    rw [takeRows_range] at ht
    exact (Except.ok.inj ht).symm
  refine ⟨hd, ?_⟩
  rw [hi, hd]
  exact takeRows_spec (takeRows_range data)

theorem nof_length {choice : ℕ → ℕ → List ℕ} (hc : ValidChoice choice) {nof : PyVal} {N : ℕ} {n : ℤ} {idx : List ℕ}
    (h : prepNofInstances choice nof N = .ok (n, idx)) :
    prepNofInstances choice nof idx.length = .ok (if nof = .str "all" then (idx.length : ℤ) else n, List.range idx.length) := by
  obtain ⟨-, -, h1, h2⟩ := C51_subsampling choice hc nof N n idx h
  have hacc := (C51_accepts_exactly choice nof N).1 ⟨_, h⟩
  rcases hacc with rfl | ⟨k, rfl, hk⟩
  · simp [prepNofInstances]
  · obtain ⟨rfl, h3, h4⟩ := h2 k rfl
    unfold prepNofInstances
    have : ¬ n < (idx.length : ℤ) := by
      rcases lt_or_ge n (N : ℤ) with h5 | h5
      · rw [h3 h5]; exact lt_irrefl _
      · rw [h4 h5]; simpa using h5
    simp [this]

/-- **C52 for ShapDP**: the constructor samples twice; the second pass keeps all rows but resets `obj.indices` to `0..n-1`. -/
theorem C52_shap_partial (choice : ℕ → ℕ → List ℕ) (hc : ValidChoice choice) (data : List (Row K D)) (nof : PyVal)
    (ax : Option ((Fin D → K) × (Fin D → K))) (b : Base K D) (h : shapInit choice data nof ax = .ok b) :
    (∃ n idx, prepNofInstances choice nof data.length = .ok (n, idx) ∧ b.data.map some = idx.map fun i => data[i]?) ∧
    b.indices = List.range b.data.length ∧
    (nof = .str "all" ∨ (∃ k : ℤ, nof = .int k ∧ (data.length : ℤ) ≤ k) → b.data.map some = b.indices.map fun i => data[i]?) := by
  unfold shapInit at h
  cases hp : prepNofInstances choice nof data.length with
  | error e => rw [hp] at h; cases h
  | ok q =>
    obtain ⟨n, idx⟩ := q
    rw [hp] at h
    simp only [bind, Except.bind] at h
    cases ht : takeRows data idx with
    | error e => rw [ht] at h; cases h
    | ok d =>
      rw [ht] at h
      simp only [] at h
      obtain ⟨⟨n', hn'⟩, hb, -⟩ := base_init_inv h
      have hlen := takeRows_length ht
      rw [hlen, nof_length hc hp] at hn'
      have hi : b.indices = List.range idx.length := by
        have := Except.ok.inj hn'
        exact (congrArg Prod.snd this).symm
      rw [hi, ← hlen, takeRows_range] at hb
      have hd : d = b.data := Except.ok.inj hb
      subst hd
      refine ⟨⟨n, idx, rfl, takeRows_spec ht⟩, by rw [hi, hlen], fun hn => ?_⟩
      have hidx : idx = List.range data.length := by
        obtain ⟨-, -, h1, h2⟩ := C51_subsampling choice hc nof _ n idx hp
        rcases hn with rfl | ⟨k, rfl, hk⟩
        · exact (h1 rfl).2
        · exact (h2 k rfl).2.2 hk
      rw [hi, takeRows_spec ht, hidx]
      simp

/-- A random choice that takes the last rows. -/
def lastRows : ℕ → ℕ → List ℕ := fun N n => (List.range n).map fun i => N - n + i

theorem validChoice_last : ValidChoice lastRows := by
  intro N n h
  refine ⟨by simp [lastRows], ?_, fun i hi => ?_⟩
  · unfold lastRows
    exact List.nodup_range.map (fun a b hab => by simpa using hab)
  · obtain ⟨j, hj, rfl⟩ := List.mem_map.1 hi
    have := List.mem_range.mp hj
    omega

/-- **C52 is false for RHALE** (bug): one feature, rows 5 and 7, one of them sampled.  The object works on row 1 and says `indices = [0]`. -/
theorem C52_rhale_false : ∃ (cfg : AleCfg ℚ 1) (b : Base ℚ 1),
    rhaleInit lastRows (List.map fun r => r 0) (some (List.map fun _ => ![1])) [![5], ![7]] none (.int 1) none = .ok (cfg, b) ∧
      b.data = [![7]] ∧ b.indices = [0] ∧ b.data.map some ≠ b.indices.map fun i => [![(5 : ℚ)], ![7]][i]? := by
  refine ⟨_, _, rfl, rfl, rfl, ?_⟩
  intro h
  have h2 := congrArg (fun l => l.map fun (o : Option (Row ℚ 1)) => o.map fun r => r 0) h
  exact absurd h2 (by decide +kernel)

/-- **C52 is false for ShapDP** (bug), same data. -/
theorem C52_shap_false : ∃ b : Base ℚ 1, shapInit lastRows [![5], ![7]] (.int 1) none = .ok b ∧
    b.data = [![7]] ∧ b.indices = [0] ∧ b.data.map some ≠ b.indices.map fun i => [![(5 : ℚ)], ![7]][i]? := by
  refine ⟨_, rfl, rfl, rfl, ?_⟩
  intro h
  have h2 := congrArg (fun l => l.map fun (o : Option (Row ℚ 1)) => o.map fun r => r 0) h
  exact absurd h2 (by decide +kernel)

/-! ### C53 -/

theorem foldl_min_le (l : List K) (a : K) : l.foldl min a ≤ a ∧ ∀ x ∈ l, l.foldl min a ≤ x := by
  induction l generalizing a with
  | nil => simp
  | cons b t ih =>
    obtain ⟨h1, h2⟩ := ih (min a b)
    refine ⟨h1.trans (min_le_left _ _), fun x hx => ?_⟩
    rcases List.mem_cons.mp hx with rfl | hx
    · exact h1.trans (min_le_right _ _)
    · exact h2 x hx

theorem le_foldl_max (l : List K) (a : K) : a ≤ l.foldl max a ∧ ∀ x ∈ l, x ≤ l.foldl max a := by
  induction l generalizing a with
  | nil => simp
  | cons b t ih =>
    obtain ⟨h1, h2⟩ := ih (max a b)
    refine ⟨(le_max_left _ _).trans h1, fun x hx => ?_⟩
    rcases List.mem_cons.mp hx with rfl | hx
    · exact (le_max_right _ _).trans h1
    · exact h2 x hx

theorem axisLimits_within {data : List (Row K D)} {lo hi : Fin D → K} (h : axisLimitsAll data = .ok (lo, hi)) :
    ∀ r ∈ data, ∀ f, lo f ≤ r f ∧ r f ≤ hi f := by
  cases data with
  | nil => simp
  | cons q qs =>
    simp only [axisLimitsAll] at h
    cases h
    intro r hr f
    rcases List.mem_cons.mp hr with rfl | hr
    · exact ⟨(foldl_min_le _ _).1, (le_foldl_max _ _).1⟩
    · exact ⟨(foldl_min_le _ _).2 _ (List.mem_map_of_mem hr), (le_foldl_max _ _).2 _ (List.mem_map_of_mem hr)⟩

/-- **C53.**  Without user-given limits, every instance the object works on lies within the limits of every feature (both limits are attained),
so dropping the points outside of the limits drops nothing. -/
theorem C53_default_limits (choice : ℕ → ℕ → List ℕ) (data : List (Row K D)) (nof : PyVal) (b : Base K D)
    (h : Base.init choice data nof none = .ok b) :
    (∀ r ∈ b.data, ∀ f, b.axisLo f ≤ r f ∧ r f ≤ b.axisHi f) ∧
    (∀ f : Fin D, (∃ r ∈ b.data, r f = b.axisLo f) ∧ ∃ r ∈ b.data, r f = b.axisHi f) ∧
    ∀ f, dropOutside b.data (b.axisLo f) (b.axisHi f) f = b.data := by
  obtain ⟨-, -, hl⟩ := base_init_inv h
  have h1 := axisLimits_within hl
  refine ⟨h1, fun f => ?_, fun f => ?_⟩
  · have hl' : axisLimitsAll b.data = .ok (b.axisLo, b.axisHi) := hl
    cases hd : b.data with
    | nil =>
      rw [hd] at hl'
      simp only [axisLimitsAll] at hl'
      by_cases h0 : D = 0
      · subst h0; exact f.elim0
      · rw [if_neg h0] at hl'; cases hl'
    | cons q qs =>
      rw [hd] at hl'
      simp only [axisLimitsAll] at hl'
      have hlo : (fun f => (qs.map fun r => r f).foldl min (q f)) = b.axisLo := congrArg Prod.fst (Except.ok.inj hl')
      have hhi : (fun f => (qs.map fun r => r f).foldl max (q f)) = b.axisHi := congrArg Prod.snd (Except.ok.inj hl')
      rw [← hlo, ← hhi]
      have hm : ∀ z, z ∈ q f :: qs.map (fun r => r f) → ∃ r ∈ q :: qs, r f = z := by
        intro z hz
        rcases List.mem_cons.mp hz with rfl | hz
        · exact ⟨q, by simp, rfl⟩
        · obtain ⟨r, hr, rfl⟩ := List.mem_map.1 hz
          exact ⟨r, by simp [hr], rfl⟩
      exact ⟨hm _ (foldl_min_mem _ _), hm _ (foldl_max_mem _ _)⟩
  · unfold dropOutside
    rw [List.filter_eq_self.mpr, List.filter_eq_self.mpr]
    · intro r hr; simpa using (h1 r hr f).1
    · intro r hr
      have : r ∈ b.data := List.mem_of_mem_filter hr
      simpa using (h1 r this f).2

/-- **C53**, also for RHALE and ShapDP, which sub-sample first. -/
theorem C53_rhale_shap (choice : ℕ → ℕ → List ℕ) (data : List (Row K D)) (nof : PyVal) (b : Base K D)
    (h : shapInit choice data nof none = .ok b ∨
      ∃ model jac given cfg, rhaleInit choice model jac data given nof none = .ok (cfg, b)) :
    ∀ r ∈ b.data, ∀ f, b.axisLo f ≤ r f ∧ r f ≤ b.axisHi f := by
  rcases h with h | ⟨model, jac, given, cfg, h⟩
  · unfold shapInit at h
    cases hp : prepNofInstances choice nof data.length with
    | error e => rw [hp] at h; cases h
    | ok q =>
      rw [hp] at h
      simp only [bind, Except.bind] at h
      cases ht : takeRows data q.2 with
      | error e => rw [ht] at h; cases h
      | ok d => rw [ht] at h; exact (C53_default_limits choice d nof b h).1
  · obtain ⟨n, idx, d, -, -, hb⟩ := rhaleInit_inv h
    exact (C53_default_limits choice d _ b hb).1

/-! ### C54 -/

/-- The three-valued `prepCentering` of the model is `prep_centering` of the code. -/
theorem prepCenteringVal_eq (c : PyVal) : prepCenteringVal c = (prepCentering c).map Centering.toVal := by
  unfold prepCenteringVal prepCentering
  cases c with
  | bool b => cases b <;> rfl
  | str s =>
    by_cases h1 : s = "zero_start"
    · subst h1; rfl
    · by_cases h2 : s = "zero_integral"
      · subst h2; rfl
      · simp [h1, h2, Except.map]
  | int i => rfl
  | list l => rfl
  | other => rfl

/-- **C54, centring.**  Exactly four arguments are accepted; `True` means `"zero_integral"`; normalising twice changes nothing. -/
theorem C54_centering (c : PyVal) :
    ((∃ r, prepCenteringVal c = .ok r) ↔ c = .bool true ∨ c = .bool false ∨ c = .str "zero_start" ∨ c = .str "zero_integral") ∧
    prepCenteringVal (.bool true) = prepCenteringVal (.str "zero_integral") ∧
    ∀ r, prepCenteringVal c = .ok r → prepCenteringVal r = .ok r ∧ (c ≠ .bool true → r = c) := by
  refine ⟨?_, rfl, ?_⟩
  · unfold prepCenteringVal
    cases c with
    | bool b => cases b <;> simp
    | str s =>
      by_cases h : s = "zero_start" ∨ s = "zero_integral"
      · simp only [h, if_true]
        rcases h with rfl | rfl <;> simp
      · simp only [h, if_false]
        push Not at h
        simp [h.1, h.2]
    | int i => simp
    | list l => simp
    | other => simp
  · intro r hr
    unfold prepCenteringVal at hr
    cases c with
    | bool b =>
      cases b <;> cases hr
      · exact ⟨rfl, fun _ => rfl⟩
      · exact ⟨rfl, fun h => absurd rfl h⟩
    | str s =>
      simp only [] at hr
      by_cases h : s = "zero_start" ∨ s = "zero_integral"
      · rw [if_pos h] at hr
        cases hr
        refine ⟨?_, fun _ => rfl⟩
        unfold prepCenteringVal
        simp only []
        rw [if_pos h]
      · rw [if_neg h] at hr; cases hr
    | int i => cases hr
    | list l => cases hr
    | other => cases hr

/-- **C54**, on the methods: `centering=True` and `centering="zero_integral"` are the same argument of every `fit` and `eval`. -/
theorem C54_true_is_zero_integral [PySqrt K] :
    (∀ (cfg : AleCfg K D) st f bm, aleFit cfg st f bm (.bool true) = aleFit cfg st f bm (.str "zero_integral")) ∧
    (∀ (cfg : AleCfg K D) st s xs het, aleEval cfg st s xs het (.bool true) = aleEval cfg st s xs het (.str "zero_integral")) ∧
    (∀ (cfg : PdpCfg K D) st f p v, pdpFit cfg st f (.bool true) p v = pdpFit cfg st f (.str "zero_integral") p v) ∧
    (∀ (cfg : PdpCfg K D) st s xs het all v, pdpEval cfg st s xs het (.bool true) all v = pdpEval cfg st s xs het (.str "zero_integral") all v) ∧
    (∀ (cfg : ShapCfg K D) st f p, shapFit cfg st f (.bool true) p = shapFit cfg st f (.str "zero_integral") p) ∧
    (∀ (cfg : ShapCfg K D) st s xs het, shapEval cfg st s xs het (.bool true) = shapEval cfg st s xs het (.str "zero_integral")) := by
  have h : prepCentering (.bool true) = prepCentering (.str "zero_integral") := rfl
  refine ⟨?_, ?_, ?_, ?_, ?_, ?_⟩ <;> intros
  · unfold aleFit; rw [h]
  · unfold aleEval; rw [h]
  · unfold pdpFit; rw [h]
  · unfold pdpEval; rw [h]
  · unfold shapFit; rw [h]
  · unfold shapEval; rw [h]

/-- **C54**, rejection on the methods: an invalid centring raises and leaves the object as it was, whatever the other arguments. -/
theorem C54_invalid_centering [PySqrt K] (c : PyVal) (hc : c ≠ .bool true ∧ c ≠ .bool false ∧ c ≠ .str "zero_start" ∧ c ≠ .str "zero_integral") :
    (∀ (cfg : AleCfg K D) st f bm, ∃ e, aleFit cfg st f bm c = (st, .error e)) ∧
    (∀ (cfg : AleCfg K D) st s xs het, aleEval cfg st s xs het c = (st, .error .assertionError)) ∧
    (∀ (cfg : PdpCfg K D) st f p v, pdpFit cfg st f c p v = (st, .error .assertionError)) ∧
    (∀ (cfg : PdpCfg K D) st s xs het all v, pdpEval cfg st s xs het c all v = (st, .error .assertionError)) ∧
    (∀ (cfg : ShapCfg K D) st f p, shapFit cfg st f c p = (st, .error .assertionError)) ∧
    (∀ (cfg : ShapCfg K D) st s xs het, shapEval cfg st s xs het c = (st, .error .assertionError)) := by
  obtain ⟨h1, h2, h3, h4⟩ := hc
  have h : prepCentering c = .error .assertionError := by
    unfold prepCentering
    cases c with
    | bool b => cases b <;> simp_all
    | str s =>
      have e3 : s ≠ "zero_start" := fun e => h3 (by rw [e])
      have e4 : s ≠ "zero_integral" := fun e => h4 (by rw [e])
      simp [e3, e4]
    | int i => rfl
    | list l => rfl
    | other => rfl
  refine ⟨?_, ?_, ?_, ?_, ?_, ?_⟩ <;> intros
  · unfold aleFit
    rename_i cfg st f bm
    by_cases ha : cfg.allowed bm = true
    · simp only [if_pos ha, bind, Except.bind, h]
      cases prepFeatures f D with
      | error e => exact ⟨e, rfl⟩
      | ok g => exact ⟨_, rfl⟩
    · simp only [if_neg ha]
      exact ⟨_, rfl⟩
  · unfold aleEval; rw [h]
  · unfold pdpFit; rw [h]; rfl
  · unfold pdpEval; rw [h]
  · unfold shapFit; rw [h]; rfl
  · unfold shapEval; rw [h]

/-- **C54, features.**  `"all"` means every feature in order, an `int` that feature alone, a list itself; idempotent; a `bool` or another type is
rejected. -/
theorem C54_features (D : ℕ) :
    prepFeatures (.str "all") D = .ok (.list ((List.range D).map Int.ofNat)) ∧
    (∀ i, prepFeatures (.int i) D = .ok (.list [i])) ∧ (∀ l, prepFeatures (.list l) D = .ok (.list l)) ∧
    (∀ b, prepFeatures (.bool b) D = .error .assertionError) ∧ prepFeatures .other D = .error .assertionError ∧
    ∀ f r, prepFeatures f D = .ok r → prepFeatures r D = .ok r := by
  refine ⟨rfl, fun _ => rfl, fun _ => rfl, fun _ => rfl, rfl, fun f r h => ?_⟩
  cases f with
  | list l => cases h; rfl
  | str s =>
    by_cases hs : s = "all"
    · subst hs; cases h; rfl
    · simp only [prepFeatures, hs, if_false] at h
      cases h
      simp [prepFeatures, hs]
  | int i => cases h; rfl
  | bool b => cases h
  | other => cases h

/-- **C54**, `features="all"` resolves to every feature exactly once, in order. -/
theorem C54_all_features (D : ℕ) : (prepFeatures (.str "all") D).bind (resolveFeatures D) = .ok (List.finRange D) := by
  have h : ((List.range D).map Int.ofNat) = (List.finRange D).map fun j : Fin D => ((j : ℕ) : ℤ) := by
    apply List.ext_getElem
    · simp
    · intro i h1 h2
      simp
  show resolveFeatures D (.list ((List.range D).map Int.ofNat)) = _
  rw [h]
  unfold resolveFeatures
  simp only []
  rw [List.mapM_map]
  have : ∀ l : List (Fin D), (l.mapM ((fun i : ℤ => if h : 0 ≤ i ∧ i.toNat < D then (.ok (⟨i.toNat, h.2⟩ : Fin D) : Py (Fin D)) else .error .indexError) ∘
      fun j : Fin D => ((j : ℕ) : ℤ))) = .ok l := by
    intro l
    have := mapM_ok (f := (fun i : ℤ => if h : 0 ≤ i ∧ i.toNat < D then (.ok (⟨i.toNat, h.2⟩ : Fin D) : Py (Fin D)) else .error .indexError) ∘
      fun j : Fin D => ((j : ℕ) : ℤ)) (g := fun j => j) (l := l) (by
        intro j _
        have hj : 0 ≤ ((j : ℕ) : ℤ) ∧ ((j : ℕ) : ℤ).toNat < D := ⟨by omega, by have := j.2; omega⟩
        simp)
    simpa using this
  exact this _

/-- Non-vacuity for C51, C53: a two-row data set. -/
example : ∃ b : Base ℚ 1, Base.init lastRows [![5], ![7], ![6]] (.int 2) none = .ok b ∧ b.indices = [1, 2] ∧ b.axisLo 0 = 6 ∧ b.axisHi 0 = 7 := by
  refine ⟨_, rfl, by decide +kernel, by decide +kernel, by decide +kernel⟩

end Effector
