import Verif.Props.NanOutput
import Verif.Props.PdpProps

/-!
# C113: predictions that are NaN: PDP and DerPDP
-/

set_option linter.unusedSectionVars false

namespace Effector

variable {K : Type} [Field K] [LinearOrder K] [IsStrictOrderedRing K] {D : ℕ}

open Spec

namespace Spec

/-- NaN, or the number `b`. -/
def NanOr (a : Option K) (b : K) : Prop := a = none ∨ a = some b

/-- The same array up to some entries that are NaN. -/
def RowNanOr (a : List (Option K)) (b : List K) : Prop := List.Forall₂ NanOr a b

/-- The same result up to some entries that are NaN. -/
def OutNanOr : PdpOut (Option K) → PdpOut K → Prop
  | .all a, .all b => List.Forall₂ RowNanOr a b
  | .meanOnly a, .meanOnly b => RowNanOr a b
  | .meanStdErr a a' a'', .meanStdErr b b' b'' => RowNanOr a b ∧ RowNanOr a' b' ∧ RowNanOr a'' b''
  | .meanStd a a', .meanStd b b' => RowNanOr a b ∧ RowNanOr a' b'
  | _, _ => False

/-- `N` answers like `M`, except that some of its outputs are NaN: for every batch. -/
def KindNanOr : NPdpKind K D → PdpKind K D → Prop
  | .pdp m, .pdp m0 => ∀ X, RowNanOr (m X) (m0 X)
  | .derJac j, .derJac j0 => ∀ X, List.Forall₂ (fun (a : MRow K D) (b : Row K D) => ∀ i, NanOr (a i) (b i)) (j X) (j0 X)
  | .derNum m, .derNum m0 => ∀ X, RowNanOr (m X) (m0 X)
  | _, _ => False

/-- Both calls raise the same exception, or both return, the first one the same value up to NaN. -/
def ResNanOr : Py (PdpOut (Option K)) → Py (PdpOut K) → Prop
  | .error e, .error e' => e = e'
  | .ok a, .ok b => OutNanOr a b
  | _, _ => False

/-- PDP, DerPDP with a Jacobian, DerPDP with finite differences: a row-wise model whose outputs may be NaN. -/
inductive NPdpModel (K : Type) (D : ℕ)
  | pdp (f : Row K D → Option K)
  | derJac (j : Row K D → MRow K D)
  | derNum (f : Row K D → Option K)

/-- As passed to the library. -/
def NPdpModel.kind : NPdpModel K D → NPdpKind K D
  | .pdp f => .pdp (List.map f)
  | .derJac j => .derJac (List.map j)
  | .derNum f => .derNum (List.map f)

/-- A prediction needed for the (d-)ICE value of instance `r` at `x_s = v` is NaN. -/
def NPdpModel.nanAt (N : NPdpModel K D) (s : Fin D) (v : K) (r : Row K D) : Prop :=
  match N with
  | .pdp f => f (Function.update r s v) = none
  | .derJac j => j (Function.update r s v) s = none
  | .derNum f => f (Function.update r s (v + 1 / 10 ^ 6)) = none ∨ f (Function.update r s (v - 1 / 10 ^ 6)) = none

/-- A prediction needed to centre the curve of instance `r` is NaN. -/
def NPdpModel.nanShift (N : NPdpModel K D) (lo hi : Fin D → K) (s : Fin D) (r : Row K D) : Centering → Prop
  | .off => False
  | .zeroStart => N.nanAt s (lo s) r
  | .zeroIntegral => ∃ v ∈ evenly (lo s) (hi s) 100, N.nanAt s v r

/-- `N` answers like `M`, except that some of its outputs are NaN. -/
def NPdpModel.LikeExceptNan : NPdpModel K D → PdpModel K D → Prop
  | .pdp f, .pdp f0 => ∀ r, NanOr (f r) (f0 r)
  | .derJac j, .derJac j0 => ∀ r i, NanOr (j r i) (j0 r i)
  | .derNum f, .derNum f0 => ∀ r, NanOr (f r) (f0 r)
  | _, _ => False

/-- The configuration of the object. -/
def nPdpCfgOf (N : NPdpModel K D) (lo hi : Fin D → K) : NPdpCfg K D := { cast := id, kind := N.kind, axisLo := lo, axisHi := hi }

end Spec

/-! ### Any history: every entry is NaN or right -/

theorem Spec.NanOr.sub {a b : Option K} {x y : K} (h1 : NanOr a x) (h2 : NanOr b y) : NanOr (nanSub a b) (x - y) := by
  rcases h1 with rfl | rfl
  · exact Or.inl rfl
  · rcases h2 with rfl | rfl
    · exact Or.inl rfl
    · exact Or.inr rfl

theorem Spec.NanOr.map {a : Option K} {x : K} (h : NanOr a x) (g : K → K) : NanOr (a.map g) (g x) := by
  rcases h with rfl | rfl
  · exact Or.inl rfl
  · exact Or.inr rfl

theorem Spec.RowNanOr.number {a : List (Option K)} {b : List K} (h : RowNanOr a b) (hn : none ∉ a) : a = b.map some := by
  induction h with
  | nil => rfl
  | cons h1 _ ih =>
    simp only [List.mem_cons, not_or] at hn
    rcases h1 with rfl | rfl
    · exact absurd rfl hn.1
    · rw [ih hn.2, List.map_cons]

theorem Spec.RowNanOr.zipWith {a a' : List (Option K)} {b b' : List K} (h : RowNanOr a b) (h' : RowNanOr a' b') {g : Option K → Option K → Option K} {g0 : K → K → K}
    (hg : ∀ x y u v, NanOr x u → NanOr y v → NanOr (g x y) (g0 u v)) : RowNanOr (List.zipWith g a a') (List.zipWith g0 b b') := by
  induction h generalizing a' b' with
  | nil => exact .nil
  | cons h1 _ ih =>
    cases h' with
    | nil => exact .nil
    | cons h2 h3 => exact .cons (hg _ _ _ _ h1 h2) (ih h3)

theorem Spec.RowNanOr.mean {a : List (Option K)} {b : List K} (h : RowNanOr a b) : NanOr (nMean a) (Effector.mean b) := by
  unfold nMean
  by_cases h0 : a = []
  · rw [if_pos h0]; exact Or.inl rfl
  · rw [if_neg h0, nanSum_known]
    by_cases hn : none ∈ a
    · rw [if_pos hn]; exact Or.inl rfl
    · rw [if_neg hn, h.number hn, known_some]
      exact Or.inr (by simp [Effector.mean])

theorem Spec.RowNanOr.std [PySqrt K] {a : List (Option K)} {b : List K} (h : RowNanOr a b) : NanOr (nStd a) (npStd b) := by
  unfold nStd
  by_cases hn : none ∈ a
  · rw [if_pos hn]; exact Or.inl rfl
  · rw [if_neg hn, h.number hn, known_some]
    unfold nanStd
    split_ifs
    · exact Or.inl rfl
    · exact Or.inr rfl

theorem Spec.RowNanOr.getD {a : List (Option K)} {b : List K} (h : RowNanOr a b) (i : ℕ) : NanOr (a.getD i none) (b.getD i 0) := by
  induction h generalizing i with
  | nil => exact Or.inl rfl
  | cons h1 _ ih =>
    cases i with
    | zero => exact h1
    | succ i => exact ih i

theorem rows_map {α β : Type} {R : α → β → Prop} {γ δ : Type} {S : γ → δ → Prop} {a : List α} {b : List β} (h : List.Forall₂ R a b) {f : α → γ} {g : β → δ}
    (hfg : ∀ x y, R x y → S (f x) (g y)) : List.Forall₂ S (a.map f) (b.map g) := by
  induction h with
  | nil => exact .nil
  | cons h1 _ ih => exact .cons (hfg _ _ h1) ih

theorem map_rows {α γ δ : Type} {S : γ → δ → Prop} (l : List α) {f : α → γ} {g : α → δ} (hfg : ∀ x, S (f x) (g x)) : List.Forall₂ S (l.map f) (l.map g) := by
  induction l with
  | nil => exact .nil
  | cons a t ih => exact .cons (hfg a) ih

theorem Spec.RowNanOr.reshape {a : List (Option K)} {b : List K} (h : RowNanOr a b) (T N : ℕ) :
    (∃ e, nReshape T N a = .error e ∧ reshape2 T N b = .error e) ∨ ∃ y y0, nReshape T N a = .ok y ∧ reshape2 T N b = .ok y0 ∧ List.Forall₂ RowNanOr y y0 := by
  unfold nReshape reshape2
  rw [List.Forall₂.length_eq h]
  split_ifs
  · exact Or.inr ⟨_, _, rfl, rfl, map_rows _ fun t => List.forall₂_take _ (List.forall₂_drop _ h)⟩
  · exact Or.inl ⟨_, rfl, rfl⟩

/-- Two computations that raise the same exception or return related values. -/
def NanPyRel {α β : Type} (R : α → β → Prop) (a : Py α) (b : Py β) : Prop :=
  (∃ e, a = .error e ∧ b = .error e) ∨ ∃ x y, a = .ok x ∧ b = .ok y ∧ R x y

theorem nPredict_rel {N : NPdpKind K D} {M : PdpKind K D} (h : KindNanOr N M) (cast : K → K) (data : List (Row K D)) (xx : List K) (s : Fin D) (vec : Bool) :
    NanPyRel (List.Forall₂ RowNanOr) (nPdpPredict cast N data xx s vec) (pdpPredict cast M data xx s vec) := by
  have hcd : ∀ {a a' : List (Option K)} {b b' : List K}, RowNanOr a b → RowNanOr a' b' → RowNanOr (nCentralDiff a a') (centralDiff b b') :=
    fun h h' => h.zipWith h' fun _ _ _ _ h1 h2 => (h1.sub h2).map _
  cases N with
  | pdp m =>
    cases M with
    | pdp m0 =>
      cases vec with
      | true => exact (h _).reshape _ _
      | false =>
        unfold nPdpPredict pdpPredict
        dsimp only
        simp only [Bool.false_eq_true, if_false]
        by_cases hx : xx = []
        · rw [if_pos hx, if_pos hx]; exact Or.inl ⟨_, rfl, rfl⟩
        · rw [if_neg hx, if_neg hx]; exact Or.inr ⟨_, _, rfl, rfl, map_rows _ fun v => h _⟩
    | derJac j0 => exact h.elim
    | derNum m0 => exact h.elim
  | derJac j =>
    cases M with
    | derJac j0 =>
      have hcol : ∀ X, RowNanOr (mcol (j X) s) (col (j0 X) s) := fun X => rows_map (h X) fun a b hab => hab s
      cases vec with
      | true => exact (hcol _).reshape _ _
      | false =>
        unfold nPdpPredict pdpPredict
        dsimp only
        simp only [Bool.false_eq_true, if_false]
        by_cases hx : xx = []
        · rw [if_pos hx, if_pos hx]; exact Or.inl ⟨_, rfl, rfl⟩
        · rw [if_neg hx, if_neg hx]; exact Or.inr ⟨_, _, rfl, rfl, map_rows _ fun v => hcol _⟩
    | pdp m0 => exact h.elim
    | derNum m0 => exact h.elim
  | derNum m =>
    cases M with
    | derNum m0 =>
      cases vec with
      | true => exact (hcd (h _) (h _)).reshape _ _
      | false =>
        unfold nPdpPredict pdpPredict
        dsimp only
        simp only [Bool.false_eq_true, if_false]
        by_cases hx : xx = []
        · rw [if_pos hx, if_pos hx]; exact Or.inl ⟨_, rfl, rfl⟩
        · rw [if_neg hx, if_neg hx]; exact Or.inr ⟨_, _, rfl, rfl, map_rows _ fun v => hcd (h _) (h _)⟩
    | pdp m0 => exact h.elim
    | derJac j0 => exact h.elim

/-- Stored constants equal up to NaN. -/
def NormNanOr : NormConst (Option K) → NormConst K → Prop
  | .scalar a, .scalar b => NanOr a b
  | .vec a, .vec b => RowNanOr a b
  | _, _ => False

/-- The same state up to NaN in the stored constants. -/
structure StateNanOr (st : NPdpState K D) (st0 : PdpState K D) : Prop where
  data : st.data = st0.data
  fitted : st.fitted = st0.fitted
  args : st.args = st0.args
  fe : ∀ t, (st.fe t = none ∧ st0.fe t = none) ∨ ∃ a b, st.fe t = some a ∧ st0.fe t = some b ∧ NormNanOr a b

section
variable {cfg : NPdpCfg K D} {cfg0 : PdpCfg K D} (hcast : cfg.cast = cfg0.cast) (hkind : KindNanOr cfg.kind cfg0.kind) (hlo : cfg.axisLo = cfg0.axisLo)
  (hhi : cfg.axisHi = cfg0.axisHi)
include hcast hkind hlo hhi

theorem nFitFeature_rel (data : List (Row K D)) (s : Fin D) (c : Centering) (points : ℕ) (vec : Bool) :
    (nPdpFitFeature cfg data s c points vec).1 = (pdpFitFeature cfg0 data s c points vec).1 ∧
      NanPyRel NormNanOr (nPdpFitFeature cfg data s c points vec).2 (pdpFitFeature cfg0 data s c points vec).2 := by
  unfold nPdpFitFeature pdpFitFeature
  rw [hcast, hlo, hhi]
  refine ⟨rfl, ?_⟩
  generalize dropOutside data (cfg0.axisLo s) (cfg0.axisHi s) s = d
  cases c with
  | off => exact Or.inr ⟨_, _, rfl, rfl, Or.inr rfl⟩
  | zeroStart =>
    dsimp only
    rcases nPredict_rel hkind cfg0.cast d [cfg0.axisLo s] s vec with ⟨e, h1, h2⟩ | ⟨y, y0, h1, h2, h⟩
    · rw [h1, h2]; exact Or.inl ⟨_, rfl, rfl⟩
    · rw [h1, h2]
      simp only [bind, Except.bind, pure, Except.pure]
      cases h with
      | nil => exact Or.inl ⟨_, rfl, rfl⟩
      | cons h3 _ => exact Or.inr ⟨_, _, rfl, rfl, h3⟩
  | zeroIntegral =>
    dsimp only
    generalize linspace (cfg0.axisLo s) (cfg0.axisHi s) points = grid
    rcases nPredict_rel hkind cfg0.cast d grid s vec with ⟨e, h1, h2⟩ | ⟨y, y0, h1, h2, h⟩
    · rw [h1, h2]; exact Or.inl ⟨_, rfl, rfl⟩
    · rw [h1, h2]
      refine Or.inr ⟨_, _, rfl, rfl, ?_⟩
      exact map_rows _ fun i => RowNanOr.mean (rows_map h fun a b hab => hab.getD i)

theorem nFitLoop_rel (c : Centering) (points : ℕ) (vec : Bool) (l : List (Fin D)) {st : NPdpState K D} {st0 : PdpState K D} (hs : StateNanOr st st0) :
    StateNanOr (nPdpFitLoop cfg c points vec st l).1 (pdpFitLoop cfg0 c points vec st0 l).1 ∧
      (nPdpFitLoop cfg c points vec st l).2 = (pdpFitLoop cfg0 c points vec st0 l).2 := by
  induction l generalizing st st0 with
  | nil => exact ⟨hs, rfl⟩
  | cons s l ih =>
    unfold nPdpFitLoop pdpFitLoop
    rw [hs.data]
    obtain ⟨h1, h2⟩ := nFitFeature_rel hcast hkind hlo hhi st0.data s c points vec
    generalize nPdpFitFeature cfg st0.data s c points vec = q at h1 h2
    generalize pdpFitFeature cfg0 st0.data s c points vec = q0 at h1 h2
    obtain ⟨d, r⟩ := q
    obtain ⟨d0, r0⟩ := q0
    dsimp only at h1 h2
    subst h1
    rcases h2 with ⟨e, rfl, rfl⟩ | ⟨a, b, rfl, rfl, hab⟩
    · exact ⟨⟨rfl, hs.fitted, hs.args, hs.fe⟩, rfl⟩
    · refine ih ⟨rfl, ?_, ?_, ?_⟩
      · show Function.update st.fitted s true = Function.update st0.fitted s true
        rw [hs.fitted]
      · show Function.update st.args s (some c) = Function.update st0.args s (some c)
        rw [hs.args]
      · intro t
        by_cases ht : t = s
        · subst ht
          exact Or.inr ⟨a, b, Function.update_self .., Function.update_self .., hab⟩
        · rcases hs.fe t with ⟨k1, k2⟩ | ⟨a', b', k1, k2, k3⟩
          · exact Or.inl ⟨by show Function.update st.fe s _ t = _; rw [Function.update_of_ne ht, k1], by show Function.update st0.fe s _ t = _; rw [Function.update_of_ne ht, k2]⟩
          · exact Or.inr ⟨a', b', by show Function.update st.fe s _ t = _; rw [Function.update_of_ne ht, k1], by show Function.update st0.fe s _ t = _; rw [Function.update_of_ne ht, k2], k3⟩

omit hcast hkind hlo hhi in
theorem nSubNorm_rel {nc : NormConst (Option K)} {nc0 : NormConst K} (h : NormNanOr nc nc0) {row : List (Option K)} {row0 : List K} (hr : RowNanOr row row0) :
    NanPyRel RowNanOr (nSubNorm nc row) (subNorm nc0 row0) := by
  cases nc with
  | scalar a =>
    cases nc0 with
    | vec b => exact h.elim
    | scalar b => exact Or.inr ⟨_, _, rfl, rfl, rows_map hr fun x y hxy => hxy.sub h⟩
  | vec a =>
    cases nc0 with
    | scalar b => exact h.elim
    | vec b =>
      replace h : RowNanOr a b := h
      have hl := List.Forall₂.length_eq h
      have hl' := List.Forall₂.length_eq hr
      unfold nSubNorm subNorm
      dsimp only
      rw [hl, hl']
      by_cases hlen : b.length = row0.length
      · rw [if_pos hlen, if_pos hlen]
        exact Or.inr ⟨_, _, rfl, rfl, hr.zipWith h fun _ _ _ _ h1 h2 => h1.sub h2⟩
      · rw [if_neg hlen, if_neg hlen]
        rcases h with _ | ⟨h1, _ | ⟨h2, h3⟩⟩
        · rcases hr with _ | ⟨k1, _ | ⟨k2, k3⟩⟩
          · exact absurd rfl hlen
          · exact Or.inr ⟨_, _, rfl, rfl, .nil⟩
          · exact Or.inl ⟨_, rfl, rfl⟩
        · exact Or.inr ⟨_, _, rfl, rfl, rows_map hr fun x y hxy => hxy.sub h1⟩
        · rcases hr with _ | ⟨k1, _ | ⟨k2, k3⟩⟩
          · exact Or.inl ⟨_, rfl, rfl⟩
          · exact Or.inr ⟨_, _, rfl, rfl, rows_map (.cons h1 (.cons h2 h3)) fun x y hxy => k1.sub hxy⟩
          · exact Or.inl ⟨_, rfl, rfl⟩

omit hcast hkind hlo hhi in
theorem mapM_rel {α β γ δ : Type} {R : α → β → Prop} {S : γ → δ → Prop} {f : α → Py γ} {g : β → Py δ} (hfg : ∀ x y, R x y → NanPyRel S (f x) (g y)) {a : List α} {b : List β}
    (h : List.Forall₂ R a b) : NanPyRel (List.Forall₂ S) (a.mapM f) (b.mapM g) := by
  induction h with
  | nil => exact Or.inr ⟨_, _, rfl, rfl, .nil⟩
  | cons h1 _ ih =>
    rw [List.mapM_cons, List.mapM_cons]
    simp only [bind, Except.bind, pure, Except.pure]
    rcases hfg _ _ h1 with ⟨e, k1, k2⟩ | ⟨x, y, k1, k2, k3⟩
    · rw [k1, k2]; exact Or.inl ⟨_, rfl, rfl⟩
    · rw [k1, k2]
      dsimp only
      rcases ih with ⟨e, i1, i2⟩ | ⟨xs, ys, i1, i2, i3⟩
      · rw [i1, i2]; exact Or.inl ⟨_, rfl, rfl⟩
      · rw [i1, i2]; exact Or.inr ⟨_, _, rfl, rfl, .cons k3 i3⟩

theorem nEvalFitted_rel [PySqrt K] {st : NPdpState K D} {st0 : PdpState K D} (hs : StateNanOr st st0) (s : Fin D) (xs : List K) (het : Bool) (c : Centering) (all vec : Bool) :
    ResNanOr (nPdpEvalFitted cfg st s xs het c all vec) (pdpEvalFitted cfg0 st0 s xs het c all vec) := by
  unfold nPdpEvalFitted pdpEvalFitted
  rw [hcast, hlo, hhi, hs.data]
  simp only [bind, Except.bind, pyAssert]
  by_cases hab : cfg0.axisLo s < cfg0.axisHi s
  swap
  · simp [hab, ResNanOr]
  simp only [hab, decide_true, if_true]
  have fin : ∀ (y : List (List (Option K))) (y0 : List (List K)), List.Forall₂ RowNanOr y y0 →
      ResNanOr (pure (if all = true then .all y else if het = true then .meanStd (y.map nMean) (y.map nStd) else .meanOnly (y.map nMean)))
        (pure (if all = true then .all y0 else if het = true then .meanStd (y0.map mean) (y0.map npStd) else .meanOnly (y0.map mean))) := by
    intro y y0 h
    cases all with
    | true => exact h
    | false =>
      cases het with
      | true => exact ⟨rows_map h fun _ _ k => k.mean, rows_map h fun _ _ k => k.std⟩
      | false => exact rows_map h fun _ _ k => k.mean
  rcases nPredict_rel hkind cfg0.cast st0.data xs s vec with ⟨e, h1, h2⟩ | ⟨y, y0, h1, h2, h⟩
  · rw [h1, h2]; rfl
  · rw [h1, h2]
    dsimp only
    by_cases hc : c = .off
    · rw [if_pos hc, if_pos hc]
      exact fin _ _ h
    · rw [if_neg hc, if_neg hc]
      rcases hs.fe s with ⟨k1, k2⟩ | ⟨a, b, k1, k2, k3⟩
      · rw [k1, k2]; rfl
      · rw [k1, k2]
        dsimp only
        rcases mapM_rel (fun _ _ hr => nSubNorm_rel k3 hr) h with ⟨e, i1, i2⟩ | ⟨z, z0, i1, i2, i3⟩
        · rw [i1, i2]; rfl
        · rw [i1, i2]
          exact fin _ _ i3

theorem nEval_rel [PySqrt K] {st : NPdpState K D} {st0 : PdpState K D} (hs : StateNanOr st st0) (s : Fin D) (xs : List K) (het : Bool) (c : PyVal) (all vec : Bool) :
    StateNanOr (nPdpEval cfg st s xs het c all vec).1 (pdpEval cfg0 st0 s xs het c all vec).1 ∧
      ResNanOr (nPdpEval cfg st s xs het c all vec).2 (pdpEval cfg0 st0 s xs het c all vec).2 := by
  unfold nPdpEval pdpEval
  rw [hs.fitted, hs.args]
  cases prepCentering c with
  | error e => exact ⟨hs, rfl⟩
  | ok m =>
    dsimp only
    cases needsRefit (st0.fitted s) (st0.args s) m with
    | error e => exact ⟨hs, rfl⟩
    | ok b =>
      cases b with
      | false => exact ⟨hs, nEvalFitted_rel hcast hkind hlo hhi hs s xs het m all vec⟩
      | true =>
        dsimp only
        obtain ⟨h1, h2⟩ := nFitLoop_rel hcast hkind hlo hhi m 100 vec [s] hs
        generalize nPdpFitLoop cfg m 100 vec st [s] = q at h1 h2
        generalize pdpFitLoop cfg0 m 100 vec st0 [s] = q0 at h1 h2
        obtain ⟨st1, r⟩ := q
        obtain ⟨st01, r0⟩ := q0
        dsimp only at h1 h2
        subst h2
        cases r with
        | error e => exact ⟨h1, rfl⟩
        | ok u => exact ⟨h1, nEvalFitted_rel hcast hkind hlo hhi h1 s xs het m all vec⟩

theorem nRun_rel [PySqrt K] (data : List (Row K D)) (calls : List (PdpOp K D)) : StateNanOr (nPdpRun cfg data calls) (pdpRun cfg0 data calls) := by
  unfold nPdpRun pdpRun
  suffices ∀ st st0, StateNanOr st st0 → StateNanOr (calls.foldl (nPdpStep cfg) st) (calls.foldl (pdpStep cfg0) st0) from
    this _ _ ⟨rfl, rfl, rfl, fun _ => Or.inl ⟨rfl, rfl⟩⟩
  induction calls with
  | nil => exact fun _ _ h => h
  | cons op calls ih =>
    intro st st0 hs
    refine ih _ _ ?_
    cases op with
    | eval t xs het c all vec => exact (nEval_rel hcast hkind hlo hhi hs t xs het c all vec).1
    | fit f c p v =>
      show StateNanOr (nPdpFit cfg st f c p v).1 (pdpFit cfg0 st0 f c p v).1
      unfold nPdpFit pdpFit
      cases (do let c ← prepCentering c
                let f ← prepFeatures f D
                let l ← resolveFeatures D f
                return (l, c) : Py (List (Fin D) × Centering)) with
      | error e => exact hs
      | ok q => exact (nFitLoop_rel hcast hkind hlo hhi q.2 p v q.1 hs).1

end

/-- **C113, PDP and d-PDP never turn a NaN into a number.**  Suppose the model answers like another one, except that some of its outputs are NaN (any batch model, any of the three sources of
d-ICE values).  After any history of calls, on any features, with any centring, `eval` raises exactly when the other model's `eval` does, and otherwise every entry of its result is NaN or
the entry the other model gives. -/
theorem C113_pdp_nan_or_right [PySqrt K] (cast : K → K) (N : NPdpKind K D) (M : PdpKind K D) (h : KindNanOr N M) (lo hi : Fin D → K) (data : List (Row K D)) (calls : List (PdpOp K D))
    (s : Fin D) (xs : List K) (het : Bool) (c : PyVal) (all vec : Bool) :
    ResNanOr
      (nPdpEval { cast := cast, kind := N, axisLo := lo, axisHi := hi } (nPdpRun { cast := cast, kind := N, axisLo := lo, axisHi := hi } data calls) s xs het c all vec).2
      (pdpEval { cast := cast, kind := M, axisLo := lo, axisHi := hi } (pdpRun { cast := cast, kind := M, axisLo := lo, axisHi := hi } data calls) s xs het c all vec).2 :=
  (nEval_rel (cfg := { cast := cast, kind := N, axisLo := lo, axisHi := hi }) (cfg0 := { cast := cast, kind := M, axisLo := lo, axisHi := hi }) rfl h rfl rfl
    (nRun_rel rfl h rfl rfl data calls) s xs het c all vec).2

/-! ### A fresh object: exactly which entries are NaN -/

/-- The (d-)ICE value, possibly NaN. -/
def nAt (N : NPdpModel K D) (s : Fin D) (v : K) (r : Row K D) : Option K :=
  match N with
  | .pdp f => f (Function.update r s v)
  | .derJac j => j (Function.update r s v) s
  | .derNum f => (nanSub (f (Function.update r s (v + FD_STEP))) (f (Function.update r s (v - FD_STEP)))).map (· / (2 * FD_STEP))

theorem nReshape_flatMap {α β : Type} (x : List α) (n : ℕ) (g : α → List β) (hg : ∀ a ∈ x, (g a).length = n) :
    nReshape x.length n (x.flatMap g) = .ok (x.map g) := by
  have hlen : (x.flatMap g).length = x.length * n := by
    induction x with
    | nil => simp
    | cons a t ih =>
      rw [List.flatMap_cons, List.length_append, hg a (by simp), ih (fun b hb => hg b (by simp [hb])), List.length_cons]
      ring
  unfold nReshape
  rw [if_pos hlen]
  congr 1
  induction x with
  | nil => rfl
  | cons a t ih =>
    have ha : (g a).length = n := hg a (by simp)
    have ih' := ih (fun b hb => hg b (by simp [hb])) (by
      have := hlen
      rw [List.flatMap_cons, List.length_append, ha, List.length_cons] at this
      have h2 : (t.length + 1) * n = n + t.length * n := by ring
      omega)
    rw [List.length_cons, List.range_succ_eq_map, List.map_cons, List.map_map, List.map_cons]
    congr 1
    · simp [List.flatMap_cons, ← ha]
    · rw [← ih']
      apply List.map_congr_left
      intro i _
      simp only [Function.comp, List.flatMap_cons]
      have : (i + 1) * n = (g a).length + i * n := by rw [ha]; ring
      rw [Nat.succ_eq_add_one, this, List.drop_append, List.drop_of_length_le (by omega)]
      simp

theorem nZipWith_flatMap {α β : Type} (x : List α) (op : β → β → β) (g h : α → List β) (hl : ∀ a ∈ x, (g a).length = (h a).length) :
    List.zipWith op (x.flatMap g) (x.flatMap h) = x.flatMap fun a => List.zipWith op (g a) (h a) := by
  induction x with
  | nil => rfl
  | cons a t ih =>
    simp only [List.flatMap_cons]
    rw [List.zipWith_append (hl a (by simp)), ih (fun b hb => hl b (by simp [hb]))]

theorem nPredict_rowwise (N : NPdpModel K D) (data : List (Row K D)) (xx : List K) (s : Fin D) (vec : Bool) :
    nPdpPredict id N.kind data xx s vec =
      if vec = false ∧ xx = [] then .error .valueError else .ok (xx.map fun v => data.map fun r => nAt N s v r) := by
  cases vec with
  | true =>
    rw [if_neg (by simp)]
    cases N with
    | pdp f =>
      show nReshape xx.length data.length ((pdpBatch id data xx s).map f) = _
      rw [map_batch]
      exact nReshape_flatMap xx _ _ (by simp)
    | derJac j =>
      show nReshape xx.length data.length (mcol ((pdpBatch id data xx s).map j) s) = _
      unfold mcol
      rw [List.map_map, map_batch]
      exact nReshape_flatMap xx _ _ (by simp)
    | derNum f =>
      show nReshape xx.length data.length (nCentralDiff ((pdpBatch id data (xx.map (· + FD_STEP)) s).map f)
        ((pdpBatch id data (xx.map (· - FD_STEP)) s).map f)) = _
      unfold nCentralDiff
      rw [map_batch, map_batch, List.flatMap_map, List.flatMap_map, nZipWith_flatMap _ _ _ _ (by simp)]
      rw [nReshape_flatMap xx _ _ (by simp)]
      congr 1
      apply List.map_congr_left
      intro v _
      rw [List.zipWith_map, List.zipWith_self]
      rfl
  | false =>
    by_cases hx : xx = []
    · rw [if_pos ⟨rfl, hx⟩]
      cases N <;> simp [nPdpPredict, NPdpModel.kind, hx]
    · rw [if_neg (by simp [hx])]
      cases N with
      | pdp f => simp [nPdpPredict, NPdpModel.kind, hx, setAll, nAt, Function.comp_def]
      | derJac j => simp [nPdpPredict, NPdpModel.kind, hx, setAll, nAt, mcol, Function.comp_def]
      | derNum f =>
        simp [nPdpPredict, NPdpModel.kind, hx, setAll, nAt, nCentralDiff, Function.comp_def, List.zipWith_map, List.zipWith_self]

section
open Classical

theorem nAt_eq {N : NPdpModel K D} {M : PdpModel K D} (h : N.LikeExceptNan M) (s : Fin D) (v : K) (r : Row K D) :
    nAt N s v r = if N.nanAt s v r then none else some (M.at s v r) := by
  have key : (N.nanAt s v r → nAt N s v r = none) ∧ (¬ N.nanAt s v r → nAt N s v r = some (M.at s v r)) := by
    cases N with
    | pdp f =>
      cases M with
      | pdp f0 => exact ⟨id, fun hn => (h _).resolve_left hn⟩
      | derJac j0 => exact h.elim
      | derNum f0 => exact h.elim
    | derJac j =>
      cases M with
      | derJac j0 => exact ⟨id, fun hn => (h _ _).resolve_left hn⟩
      | pdp f0 => exact h.elim
      | derNum f0 => exact h.elim
    | derNum f =>
      cases M with
      | derNum f0 =>
        have e : (FD_STEP : K) = 1 / 10 ^ 6 := rfl
        unfold nAt NPdpModel.nanAt PdpModel.at
        dsimp only
        rw [e]
        refine ⟨fun hn => ?_, fun hn => ?_⟩
        · rcases hn with h1 | h1
          · rw [h1]; rfl
          · rw [h1]
            cases f (Function.update r s (v + 1 / 10 ^ 6)) <;> rfl
        · push Not at hn
          rw [(h _).resolve_left hn.1, (h _).resolve_left hn.2]
          rfl
      | pdp f0 => exact h.elim
      | derJac j0 => exact h.elim
  split_ifs with hn
  · exact key.1 hn
  · exact key.2 hn

/-- A row of numbers with some NaN: its mean. -/
theorem nMean_ite {α : Type} (l : List α) (hl : l ≠ []) (P : α → Prop) (g : α → K) :
    nMean (l.map fun a => if P a then none else some (g a)) = if ∃ a ∈ l, P a then none else some (avg (l.map g)) := by
  unfold nMean
  rw [if_neg (by simpa using hl), nanSum_known]
  by_cases h : ∃ a ∈ l, P a
  · obtain ⟨a, ha, hp⟩ := h
    have hm : none ∈ l.map fun a => if P a then none else some (g a) := List.mem_map.mpr ⟨a, ha, if_pos hp⟩
    rw [if_pos hm, if_pos ⟨a, ha, hp⟩]
    rfl
  · push Not at h
    have e : (l.map fun a => if P a then none else some (g a)) = (l.map g).map some := by
      rw [List.map_map]
      exact List.map_congr_left fun a ha => if_neg (h a ha)
    rw [if_neg (show ¬ ∃ a ∈ l, P a by push Not; exact h), e, known_some, if_neg (by simp)]
    simp [avg]

theorem nColMeans_rows (d : List (Row K D)) (grid : List K) (g : K → Row K D → Option K) :
    nColMeans d.length (grid.map fun v => d.map (g v)) = d.map fun r => nMean (grid.map fun v => g v r) := by
  unfold nColMeans
  apply List.ext_getElem
  · simp
  · intro i h1 h2
    have hi : i < d.length := by simpa using h2
    rw [List.getElem_map, List.getElem_range, List.getElem_map, List.map_map]
    congr 1
    apply List.map_congr_left
    intro v _
    simp [hi]

/-- What a fresh object computes. -/
theorem nFresh_eq [PySqrt K] {N : NPdpModel K D} {M : PdpModel K D} (h : N.LikeExceptNan M) (lo hi : Fin D → K) (data : List (Row K D)) (s : Fin D) (hlt : lo s < hi s) (xs : List K)
    (het : Bool) (c : PyVal) (m : Centering) (hc : prepCentering c = .ok m) (all vec : Bool) (hx : ¬ (vec = false ∧ xs = [])) :
    let Y := xs.map fun v => (inLimits data lo hi s).map fun r =>
      if N.nanAt s v r ∨ N.nanShift lo hi s r m then none else some (M.at s v r - M.shift lo hi s r m)
    (nPdpEval (nPdpCfgOf N lo hi) (NPdpState.init data) s xs het c all vec).2 =
      .ok (if all then .all Y else if het then .meanStd (Y.map nMean) (Y.map nStd) else .meanOnly (Y.map nMean)) := by
  intro Y
  generalize hd : inLimits data lo hi s = d at Y
  have hfit : nPdpFitFeature (nPdpCfgOf N lo hi) data s m 100 vec = (d, .ok (match m with
      | .off => .scalar (some EMPTY_SYMBOL)
      | m => .vec (d.map fun r => if N.nanShift lo hi s r m then none else some (M.shift lo hi s r m)))) := by
    unfold nPdpFitFeature nPdpCfgOf
    simp only [dropOutside_eq, hd, Prod.mk.injEq, true_and]
    cases m with
    | off => rfl
    | zeroStart =>
      simp only [nPredict_rowwise, List.cons_ne_nil, and_false, if_false, bind, Except.bind, nAt_eq h]
      rfl
    | zeroIntegral =>
      have hne : evenly (lo s) (hi s) 100 ≠ [] := by unfold evenly; simp
      simp only [linspace_evenly, nPredict_rowwise, hne, and_false, if_false, bind, Except.bind, pure, Except.pure, nColMeans_rows, nAt_eq h]
      simp only [nMean_ite _ hne]
      congr 2
      apply List.map_congr_left
      intro r _
      by_cases hh : N.nanShift lo hi s r .zeroIntegral
      · rw [if_pos hh]; exact if_pos hh
      · rw [if_neg hh]; exact if_neg hh
  subst hd
  unfold nPdpEval
  rw [hc]
  dsimp only
  have hr : needsRefit ((NPdpState.init data).fitted s) ((NPdpState.init data).args s) m = .ok true := rfl
  rw [hr]
  dsimp only
  unfold nPdpFitLoop
  rw [show (NPdpState.init data).data = data from rfl, hfit]
  dsimp only
  unfold nPdpFitLoop
  dsimp only
  unfold nPdpEvalFitted
  simp only [nPdpCfgOf, hlt, decide_true, pyAssert, if_true, bind, Except.bind, nPredict_rowwise, if_neg hx, Function.update_self, nAt_eq h]
  by_cases hoff : m = .off
  · subst hoff
    simp only [if_true, pure, Except.pure]
    have : (xs.map fun v => (inLimits data lo hi s).map fun r => if N.nanAt s v r then none else some (M.at s v r)) = Y := by
      apply List.map_congr_left
      intro v _
      apply List.map_congr_left
      intro r _
      have h0 : M.shift lo hi s r .off = 0 := rfl
      have h1 : ¬ N.nanShift lo hi s r .off := id
      simp only [h0, h1, or_false, sub_zero]
    rw [this]
  · rw [if_neg hoff]
    have hv : (match m with
        | .off => .scalar (some EMPTY_SYMBOL)
        | m => .vec ((inLimits data lo hi s).map fun r => if N.nanShift lo hi s r m then none else some (M.shift lo hi s r m)) : NormConst (Option K)) =
        .vec ((inLimits data lo hi s).map fun r => if N.nanShift lo hi s r m then none else some (M.shift lo hi s r m)) := by
      cases m with
      | off => exact absurd rfl hoff
      | zeroStart => rfl
      | zeroIntegral => rfl
    have hm : (xs.map fun v => (inLimits data lo hi s).map fun r => if N.nanAt s v r then none else some (M.at s v r)).mapM
        (nSubNorm (.vec ((inLimits data lo hi s).map fun r => if N.nanShift lo hi s r m then none else some (M.shift lo hi s r m)))) = (.ok Y : Py _) := by
      rw [List.mapM_map]
      apply mapM_ok
      intro v _
      simp only [Function.comp, nSubNorm, List.length_map, if_true]
      rw [List.zipWith_map, List.zipWith_self]
      congr 1
      apply List.map_congr_left
      intro r _
      by_cases h1 : N.nanAt s v r
      · simp [h1, nanSub]
      · by_cases h2 : N.nanShift lo hi s r m
        · simp [h1, h2, nanSub]
        · simp [h1, h2, nanSub]
    cases m with
    | off => exact absurd rfl hoff
    | zeroStart => dsimp only at hm ⊢; rw [hm]; rfl
    | zeroIntegral => dsimp only at hm ⊢; rw [hm]; rfl

/-- **C113, ICE curves: exactly which entries are NaN.**  On a fresh object the curve of an instance is NaN at `v` exactly when a prediction needed there, or to centre that curve,
is NaN, and is what the model without NaN gives otherwise. -/
theorem C113_ice [PySqrt K] {N : NPdpModel K D} {M : PdpModel K D} (h : N.LikeExceptNan M) (lo hi : Fin D → K) (data : List (Row K D)) (s : Fin D) (hlt : lo s < hi s) (xs : List K)
    (het : Bool) (c : PyVal) (m : Centering) (hc : prepCentering c = .ok m) (vec : Bool) (hx : ¬ (vec = false ∧ xs = [])) :
    (nPdpEval (nPdpCfgOf N lo hi) (NPdpState.init data) s xs het c true vec).2 =
      .ok (.all (xs.map fun v => (inLimits data lo hi s).map fun r =>
        if N.nanAt s v r ∨ N.nanShift lo hi s r m then none else some (M.at s v r - M.shift lo hi s r m))) :=
  nFresh_eq h lo hi data s hlt xs het c m hc true vec hx

/-- **C113, PDP: exactly which entries are NaN.**  The average effect at `v` is NaN exactly when a prediction needed for some instance is. -/
theorem C113_pdp [PySqrt K] {N : NPdpModel K D} {M : PdpModel K D} (h : N.LikeExceptNan M) (lo hi : Fin D → K) (data : List (Row K D)) (s : Fin D) (hlt : lo s < hi s)
    (hne : ∃ r ∈ data, lo s ≤ r s ∧ r s ≤ hi s) (xs : List K) (c : PyVal) (m : Centering) (hc : prepCentering c = .ok m) (vec : Bool) (hx : ¬ (vec = false ∧ xs = [])) :
    (nPdpEval (nPdpCfgOf N lo hi) (NPdpState.init data) s xs false c false vec).2 =
      .ok (.meanOnly (xs.map fun v => if ∃ r ∈ inLimits data lo hi s, N.nanAt s v r ∨ N.nanShift lo hi s r m then none
        else some (avg ((inLimits data lo hi s).map fun r => M.at s v r - M.shift lo hi s r m)))) := by
  have hne' : inLimits data lo hi s ≠ [] := by
    obtain ⟨r, hr, h1⟩ := hne
    exact List.ne_nil_of_mem (List.mem_filter.mpr ⟨hr, by simpa using h1⟩)
  have e := nFresh_eq h lo hi data s hlt xs false c m hc false vec hx
  rw [e]
  simp only [Bool.false_eq_true, if_false, List.map_map]
  congr 2
  apply List.map_congr_left
  intro v _
  have e2 := nMean_ite (inLimits data lo hi s) hne' (fun r => N.nanAt s v r ∨ N.nanShift lo hi s r m) fun r => M.at s v r - M.shift lo hi s r m
  convert e2 using 2
  show nMean _ = nMean _
  congr 1
  apply List.map_congr_left
  intro r _
  congr

end

/-! ### Non-vacuity -/

/-- The NaN-valued model of `C113_false_ale` and its NaN-free counterpart: the PDP is NaN everywhere, the ICE curves of the four other instances are numbers. -/
example : (NPdpModel.pdp sometimesNan).LikeExceptNan (.pdp fun r => r 0 ^ 2) ∧
    (nPdpEval (nPdpCfgOf (.pdp sometimesNan) (fun _ => 0) (fun _ => 4)) (NPdpState.init nanExample) 0 [1, 3] false (.bool false) false true).2 = .ok (.meanOnly [none, none]) ∧
    (nPdpEval (nPdpCfgOf (.pdp sometimesNan) (fun _ => 0) (fun _ => 4)) (NPdpState.init nanExample) 0 [1, 3] false (.str "zero_start") true true).2 =
      .ok (.all [[some 1, some 1, some 1, some 1, none], [some 9, some 9, some 9, some 9, none]]) := by
  refine ⟨fun r => ?_, ?_, ?_⟩
  · unfold sometimesNan
    by_cases h : r 1 = 0
    · rw [if_pos h]; exact Or.inl rfl
    · rw [if_neg h]; exact Or.inr rfl
  · decide +kernel
  · decide +kernel

end Effector
