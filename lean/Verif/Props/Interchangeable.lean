import Verif.Props.Recode
import Verif.Props.Unbiased

/-!
# C121: interchangeable features have the same effect
-/

namespace Effector

set_option linter.unusedSectionVars false

open Spec

variable {K : Type} [Field K] [LinearOrder K] [IsStrictOrderedRing K] {D : ℕ}

namespace Spec

/-- The instance with the values of the features `a` and `b` exchanged. -/
def exchanged (a b : Fin D) (r : Row K D) : Row K D := fun t => if t = a then r b else if t = b then r a else r t

/-- The data set is the same, up to the order of the instances, after the features `a` and `b` are exchanged. -/
def SymmetricData (a b : Fin D) (data : List (Row K D)) : Prop := (data.map (exchanged a b)).Perm data

/-- The model does not distinguish the features `a` and `b`; for a Jacobian: what it says about `a` it says about `b` after the exchange. -/
def SymmetricPdp (a b : Fin D) : PdpModel K D → Prop
  | .pdp f => ∀ r, f (exchanged a b r) = f r
  | .derJac j => ∀ r, j (exchanged a b r) b = j r a
  | .derNum f => ∀ r, f (exchanged a b r) = f r

end Spec

theorem rewrites_exchanged (a b : Fin D) : Rewrites (K := K) a b (exchanged a b) := by
  intro r v
  funext t
  unfold exchanged
  by_cases hta : t = a
  · subst hta
    by_cases htb : t = b
    · subst htb; simp
    · simp only [if_true]
      rw [Function.update_of_ne (Ne.symm htb), Function.update_of_ne htb]
      simp
  · by_cases htb : t = b
    · subst htb
      simp [hta]
    · simp [hta, htb]

/-- **C121 for ALE.**  If the model does not distinguish two features and the data set does not either (exchanging them permutes the instances), and their axis limits are equal or left to
the library, then after the same calls `eval` returns for both the same curve and heterogeneity, or raises the same exception. -/
theorem C121_ale [PySqrt K] (choice : ℕ → ℕ → List ℕ) (cast : K → K) (f : Row K D → K) (a b : Fin D) (hf : ∀ r, f (exchanged a b r) = f r)
    (data : List (Row K D)) (hd : SymmetricData a b data) (limits : Option ((Fin D → K) × (Fin D → K))) (hl : SameLimits a b limits limits)
    (calls : List (AleOp K D)) (hc : ∀ op ∈ calls, OnlyOn a op) (xs : List K) (het : Bool) (c : PyVal) :
    aleSession choice cast f data limits (calls.map (callOn b)) b xs het c = aleSession choice cast f data limits calls a xs het c := by
  rw [← C85_ale_other_columns (rewrites_exchanged a b) choice choice cast f f hf data limits limits hl calls hc xs het c]
  exact (C11_ale_row_order choice cast f _ _ hd limits _ b xs het c).symm

/-- **C121 for RHALE**, with the gradient from `model_jac` or from finite differences. -/
theorem C121_rhale [PySqrt K] (choice : ℕ → ℕ → List ℕ) (f : Row K D → K) (jac : Option (Row K D → Row K D)) (a b : Fin D) (hf : ∀ r, f (exchanged a b r) = f r)
    (hj : ∀ j, jac = some j → ∀ r, j (exchanged a b r) b = j r a)
    (data : List (Row K D)) (hd : SymmetricData a b data) (limits : Option ((Fin D → K) × (Fin D → K))) (hl : SameLimits a b limits limits)
    (calls : List (AleOp K D)) (hc : ∀ op ∈ calls, OnlyOn a op) (xs : List K) (het : Bool) (c : PyVal) :
    rhaleSession choice f jac data none limits (calls.map (callOn b)) b xs het c = rhaleSession choice f jac data none limits calls a xs het c := by
  have hder : SameDerivatives a b (exchanged a b) data.length none none jac jac := by
    cases jac with
    | none => exact .inr (.inr ⟨rfl, rfl, rfl, rfl⟩)
    | some j => exact .inr (.inl ⟨rfl, rfl, j, j, rfl, rfl, hj j rfl⟩)
  rw [← C85_rhale_other_columns (rewrites_exchanged a b) choice choice f f hf jac jac data none none hder limits limits hl calls hc xs het c]
  exact (C11_rhale_row_order choice f jac _ _ none none hd limits _ b xs het c).symm

/-- **C121 for RHALE with given `data_effect`**: the pairs of an instance and its effects are permuted by the exchange. -/
theorem C121_rhale_given [PySqrt K] (choice : ℕ → ℕ → List ℕ) (f : Row K D → K) (jac : Option (Row K D → Row K D)) (a b : Fin D) (hf : ∀ r, f (exchanged a b r) = f r)
    (data eff : List (Row K D)) (hlen : eff.length = data.length) (hd : ((data.map (exchanged a b)).zip (eff.map (exchanged a b))).Perm (data.zip eff))
    (limits : Option ((Fin D → K) × (Fin D → K))) (hl : SameLimits a b limits limits)
    (calls : List (AleOp K D)) (hc : ∀ op ∈ calls, OnlyOn a op) (xs : List K) (het : Bool) (c : PyVal) :
    rhaleSession choice f jac data (some eff) limits (calls.map (callOn b)) b xs het c = rhaleSession choice f jac data (some eff) limits calls a xs het c := by
  have hb : ∀ r : Row K D, exchanged a b r b = r a := by
    intro r
    unfold exchanged
    by_cases h : b = a
    · subst h; simp
    · simp [h]
  have hder : SameDerivatives a b (exchanged a b) data.length (some eff) (some (eff.map (exchanged a b))) jac jac := by
    refine .inl ⟨eff, _, rfl, rfl, hlen, ?_⟩
    rw [List.map_map]
    exact List.map_congr_left fun r _ => (hb r).symm
  rw [← C85_rhale_other_columns (rewrites_exchanged a b) choice choice f f hf jac jac data (some eff) (some (eff.map (exchanged a b))) hder limits limits hl calls hc xs het c]
  refine (C11_rhale_row_order choice f jac _ _ (some (eff.map (exchanged a b))) (some eff) ?_ limits _ b xs het c).symm
  exact ⟨by simp [hlen], hlen, hd⟩

/-- **C121 for PDP and DerPDP**, the axis limits of the object given; any calls before that respect them (see C31). -/
theorem C121_pdp [PySqrt K] (M : PdpModel K D) (a b : Fin D) (hM : SymmetricPdp a b M) (data : List (Row K D)) (hd : SymmetricData a b data) (lo hi : Fin D → K) (hlo : lo a = lo b)
    (hhi : hi a = hi b) (calls calls' : List (PdpOp K D)) (hcalls : ∀ op ∈ calls, PdpCallOk data lo hi a op) (hcalls' : ∀ op ∈ calls', PdpCallOk data lo hi b op)
    (xs : List K) (vec : Bool) (ha : EvalArgsOk data lo hi b xs vec) (het : Bool) (c : PyVal) (m : Centering) (hc : prepCentering c = .ok m) :
    pdpEvalAfter M lo hi data calls' b xs het c false vec = pdpEvalAfter M lo hi data calls a xs het c false vec := by
  have hR : PdpRewritten a b (exchanged a b) M M := by cases M <;> exact hM
  have hcalls2 : ∀ op ∈ calls', PdpCallOk (data.map (exchanged a b)) lo hi b op := by
    intro op hop
    have := hcalls' op hop
    cases op with
    | fit f c points vec => exact ⟨this.1, fun t ht r hr => this.2 t ht r (hd.mem_iff.mp hr)⟩
    | eval t xs het c all vec => exact fun r hr => this r (hd.mem_iff.mp hr)
  rw [← C85_pdp_other_columns (rewrites_exchanged a b) M M hR data lo hi lo hi hlo hhi calls calls' hcalls hcalls2 xs het c false vec]
  exact (C36_row_order M lo hi data _ hd.symm b calls' hcalls' xs vec ha c m hc).1 het

/-- **C121 for PDP and DerPDP with default limits**: whole sessions, including the constructor. -/
theorem C121_pdp_default [PySqrt K] (M : PdpModel K D) (a b : Fin D) (hM : SymmetricPdp a b M) (data : List (Row K D)) (hd : SymmetricData a b data) (ch : ℕ → ℕ → List ℕ)
    (calls calls' : List (PdpOp K D)) (hp : DefaultPoints a calls) (hp' : DefaultPoints b calls') (xs : List K) (vec het : Bool) (c : PyVal) :
    pdpSampled M ch data (.str "all") none calls' b xs het c vec = pdpSampled M ch data (.str "all") none calls a xs het c vec := by
  unfold pdpSampled
  have hb := base_init_all ch data (none : Option ((Fin D → K) × (Fin D → K)))
  rw [hb]
  rcases limitsOr_rewrite (rewrites_exchanged a b) data (l := none) (l' := none) trivial with ⟨e, h1, h2⟩ | ⟨l, l', h1, h2, hlo, hhi⟩
  · rw [h1]; rfl
  · rw [limitsOr_perm hd, h1] at h2
    obtain rfl := Except.ok.inj h2
    rw [h1] at hb ⊢
    simp only [Except.bind]
    have hw := (C53_default_limits _ _ _ _ hb).1
    have e1 := evalAfter_all M hw hp xs het c vec
    have e2 := evalAfter_all M hw hp' xs het c vec
    simp only [Except.bind] at e1 e2
    rw [e1, e2]
    cases hc : prepCentering c with
    | error e => rfl
    | ok m =>
      simp only [hlo, hhi]
      by_cases k1 : ¬ l.1 b < l.2 b
      · rw [if_pos k1, if_pos k1]
      by_cases k2 : vec = false ∧ xs = []
      · rw [if_neg k1, if_neg k1, if_pos k2, if_pos k2]
      · rw [if_neg k1, if_neg k1, if_neg k2, if_neg k2]
        -- the ICE values of `a` are those of `b`, in another order
        have hne : data ≠ [] := by
          rintro rfl
          have hD : D ≠ 0 := fun h => by subst h; exact a.elim0
          simp [limitsOr, axisLimitsAll, hD] at h1
        obtain ⟨r0, hr0⟩ := List.exists_mem_of_ne_nil _ hne
        have hx : vec = true ∨ xs ≠ [] := by
          cases vec with
          | true => exact .inl rfl
          | false => exact .inr fun h => k2 ⟨rfl, h⟩
        have hlt : l.1 b < l.2 b := not_not.mp k1
        have key := C121_pdp M a b hM data hd l.1 l.2 hlo hhi calls calls' (callsOk_all hw hp) (callsOk_all hw hp') xs vec ⟨hlt, hx, r0, hr0, hw r0 hr0 b⟩ het c m hc
        have e3 : (pdpEvalAfter M l.1 l.2 data calls' b xs het c false vec).bind PdpOut.toPair = (pdpEvalAfter M l.1 l.2 data calls a xs het c false vec).bind PdpOut.toPair := by rw [key]
        simp only [Except.bind] at e3
        rw [e1, e2] at e3
        simp only [hc, hlo, hhi, if_neg k1, if_neg k2] at e3
        exact e3

/-! ### Concrete cases -/

/-- Four instances: `(1, 2, .)` and `(2, 1, .)`, `(3, 5, .)` and `(5, 3, .)`. -/
def mirrored : List (Row ℚ 3) := [![1, 2, 7], ![3, 5, 0], ![2, 1, 7], ![5, 3, 0]]

example : SymmetricData 0 1 mirrored := by
  have h : mirrored.map (exchanged 0 1) = [![2, 1, 7], ![5, 3, 0], ![1, 2, 7], ![3, 5, 0]] := by
    simp only [mirrored, List.map_cons, List.map_nil]
    have e : ∀ x y z : ℚ, exchanged (0 : Fin 3) 1 ![x, y, z] = ![y, x, z] := by
      intro x y z
      funext t
      fin_cases t <;> rfl
    rw [e, e, e, e]
  show (mirrored.map (exchanged 0 1)).Perm mirrored
  rw [h]
  exact List.perm_append_comm (l₁ := [![2, 1, 7], ![5, 3, 0]]) (l₂ := [![1, 2, 7], ![3, 5, 0]])

example : ∀ r : Row ℚ 3, (fun r : Row ℚ 3 => r 0 * r 1 + r 2) (exchanged 0 1 r) = (fun r : Row ℚ 3 => r 0 * r 1 + r 2) r := by
  intro r
  show r 1 * r 0 + r 2 = r 0 * r 1 + r 2
  ring

/-- ALE of `x_0 x_1 + x_2` on these instances: both features have the same curve, and it is not flat; the third has another. -/
example : aleSession (fun _ _ => []) id (fun r : Row ℚ 3 => r 0 * r 1 + r 2) mirrored none [.fit (.int 0) (.fixed 2 (some 1) 0) (.bool false)] 0 [1, 2, 3] false (.bool false) =
      aleSession (fun _ _ => []) id (fun r : Row ℚ 3 => r 0 * r 1 + r 2) mirrored none [.fit (.int 1) (.fixed 2 (some 1) 0) (.bool false)] 1 [1, 2, 3] false (.bool false) ∧
    aleSession (fun _ _ => []) id (fun r : Row ℚ 3 => r 0 * r 1 + r 2) mirrored none [.fit (.int 0) (.fixed 2 (some 1) 0) (.bool false)] 0 [1, 2, 3] false (.bool false) ≠
      aleSession (fun _ _ => []) id (fun r : Row ℚ 3 => r 0 * r 1 + r 2) mirrored none [.fit (.int 2) (.fixed 2 (some 1) 0) (.bool false)] 2 [1, 2, 3] false (.bool false) := by
  constructor <;> decide +kernel

end Effector
