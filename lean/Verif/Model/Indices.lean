import Verif.Model.RegionalFit

/-!
# Feature indices as python integers

The other files of the model name a feature by its column (`Fin D`).  In the code a feature is a python integer `i`: arrays (`data[:, i]`, `axis_limits[0, i]`,
`is_fitted[i]`, `feature_types[i]`) are indexed with it, so that `-1` is the last column, while the dictionaries `feature_effect` and `method_args` have the key
`"feature_" + str(i)`, so that `-1` and `D - 1` are different keys.  Here are the global classes with that, and with lists of features whose entries are looked
up one by one, when the loop reaches them.
-/

namespace Effector

variable {K : Type} [Field K] [LinearOrder K] {D : ℕ}

/-- numpy's indexing of an axis of length `D` with a python integer. -/
def pyColumn (D : ℕ) (i : ℤ) : Py (Fin D) :=
  if h : 0 ≤ i ∧ i.toNat < D then .ok ⟨i.toNat, h.2⟩
  else if h : 0 ≤ i + D ∧ (i + D).toNat < D ∧ i < 0 then .ok ⟨(i + D).toNat, h.2.1⟩
  else .error .indexError

/-- The attributes of a global effect object that `fit` and `eval` use (global_effect.py:82-89): the dictionaries `feature_effect` and `method_args`, the array
`is_fitted`, and `self.data` where the class changes it. -/
structure Attrs (S E X : Type) (D : ℕ) where
  make : (Fin D → Option E) → (Fin D → Bool) → (Fin D → Option Centering) → X → S
  fe : S → Fin D → Option E
  fitted : S → Fin D → Bool
  args : S → Fin D → Option Centering
  own : S → X

/-- ALE and RHALE (`AleState`). -/
def aleAttrs : Attrs (AleState K D) (AleParams K × Option K) Unit D :=
  { make := fun a b c _ => ⟨a, b, c⟩, fe := (·.fe), fitted := (·.fitted), args := (·.args), own := fun _ => () }

/-- PDP and d-PDP (`PdpState`). -/
def pdpAttrs : Attrs (PdpState K D) (NormConst K) (List (Row K D)) D :=
  { make := fun a b c x => ⟨x, a, b, c⟩, fe := (·.fe), fitted := (·.fitted), args := (·.args), own := (·.data) }

/-- ShapDP (`ShapState`). -/
def shapAttrs : Attrs (ShapState K D) (ShapFe K) (List (Row K D)) D :=
  { make := fun a b c x => ⟨x, a, b, c⟩, fe := (·.fe), fitted := (·.fitted), args := (·.args), own := (·.data) }

/-- The attributes as python keeps them: dictionaries keyed by the integer the feature was named with, an array over the columns. -/
structure Raw (E X : Type) (D : ℕ) where
  fe : ℤ → Option E
  fitted : Fin D → Bool
  args : ℤ → Option Centering
  own : X

/-- A fresh object (global_effect.py:82-89). -/
def Raw.init {E X : Type} (x : X) : Raw E X D := { fe := fun _ => none, fitted := fun _ => false, args := fun _ => none, own := x }

section

variable {S E X R : Type} (A : Attrs S E X D)

/-- What a method called with the integer `i` sees: the entries at the key `i`. -/
def Raw.slot (st : Raw E X D) (i : ℤ) : S := A.make (fun _ => st.fe i) st.fitted (fun _ => st.args i) st.own

/-- What it leaves: the entries at the key `i` (`f` is the column). -/
def Raw.put (st : Raw E X D) (i : ℤ) (f : Fin D) (s : S) : Raw E X D :=
  { fe := Function.update st.fe i (A.fe s f), fitted := A.fitted s, args := Function.update st.args i (A.args s f), own := A.own s }

/-- A method (or the body of a loop) applied to the feature named `i`; an index out of range raises before anything is changed. -/
def Raw.on (st : Raw E X D) (i : ℤ) (op : S → Fin D → S × Py R) : Raw E X D × Py R :=
  match pyColumn D i with
  | .error e => (st, .error e)
  | .ok f => (st.put A i f (op (st.slot A i) f).1, (op (st.slot A i) f).2)

/-- `for s in features:` (global_effect_ale.py:73, global_effect_pdp.py:114, global_effect_shap.py:192); the first exception ends it. -/
def Raw.each (st : Raw E X D) (op : S → Fin D → S × Py Unit) : List ℤ → Raw E X D × Py Unit
  | [] => (st, .ok ())
  | i :: t =>
    match st.on A i op with
    | (st', .ok ()) => st'.each op t
    | (st', .error e) => (st', .error e)

/-- The loop over what `prep_features` returned: a list of integers; the letters of a string (which are no indices). -/
def Raw.loop (st : Raw E X D) (op : S → Fin D → S × Py Unit) : PyVal → Raw E X D × Py Unit
  | .list l => st.each A op l
  | .str s => if s = "" then (st, .ok ()) else (st, .error .indexError)
  | _ => (st, .error .typeError)

end

/-! ## ALE and RHALE -/

/-- An ALE or RHALE object. -/
abbrev RawAle (K : Type) (D : ℕ) := Raw (AleParams K × Option K) Unit D

/-- `ALE.fit`, `RHALE.fit` and `_fit_loop` (global_effect_ale.py:350-380, 520-560, 70-88). -/
def rawAleFit (cfg : AleCfg K D) (st : RawAle K D) (features : PyVal) (bm : BinMethod K) (centering : PyVal) : RawAle K D × Py Unit :=
  if cfg.allowed bm then
    match (do let f ← prepFeatures features D
              let c ← prepCentering centering
              return (f, c)) with
    | .error e => (st, .error e)
    | .ok (f, c) => st.loop aleAttrs (fun s f => fitOne cfg s f bm c) f
  else (st, .error .assertionError)

/-- `eval` (global_effect_ale.py:107-157): `prep_centering` comes first. -/
def rawAleEval [PySqrt K] (cfg : AleCfg K D) (st : RawAle K D) (i : ℤ) (xs : List K) (het : Bool) (centering : PyVal) :
    RawAle K D × Py (List K × Option (List K)) :=
  match prepCentering centering with
  | .error e => (st, .error e)
  | .ok _ => st.on aleAttrs i fun s f => aleEval cfg s f xs het centering

/-- Public calls that touch the state. -/
inductive RawAleOp (K : Type)
  | fit (features : PyVal) (bm : BinMethod K) (centering : PyVal)
  | eval (i : ℤ) (xs : List K) (het : Bool) (centering : PyVal)

/-- One public call, result forgotten. -/
def rawAleStep [PySqrt K] (cfg : AleCfg K D) (st : RawAle K D) : RawAleOp K → RawAle K D
  | .fit f bm c => (rawAleFit cfg st f bm c).1
  | .eval i xs het c => (rawAleEval cfg st i xs het c).1

/-- A history of calls on a fresh object. -/
def rawAleRun [PySqrt K] (cfg : AleCfg K D) (ops : List (RawAleOp K)) : RawAle K D := ops.foldl (rawAleStep cfg) (Raw.init ())

/-! ## PDP and d-PDP -/

/-- A PDP or d-PDP object. -/
abbrev RawPdp (K : Type) (D : ℕ) := Raw (NormConst K) (List (Row K D)) D

/-- `fit` (global_effect_pdp.py:79-122). -/
def rawPdpFit (cfg : PdpCfg K D) (st : RawPdp K D) (features : PyVal) (centering : PyVal) (points : ℕ) (vec : Bool) : RawPdp K D × Py Unit :=
  match (do let c ← prepCentering centering
            let f ← prepFeatures features D
            return (f, c)) with
  | .error e => (st, .error e)
  | .ok (f, c) => st.loop pdpAttrs (fun s f => pdpFitLoop cfg c points vec s [f]) f

/-- `eval` (global_effect_pdp.py:124-189). -/
def rawPdpEval [PySqrt K] (cfg : PdpCfg K D) (st : RawPdp K D) (i : ℤ) (xs : List K) (het : Bool) (centering : PyVal) (all vec : Bool) :
    RawPdp K D × Py (PdpOut K) :=
  match prepCentering centering with
  | .error e => (st, .error e)
  | .ok _ => st.on pdpAttrs i fun s f => pdpEval cfg s f xs het centering all vec

/-- Public calls that touch the state. -/
inductive RawPdpOp (K : Type)
  | fit (features : PyVal) (centering : PyVal) (points : ℕ) (vec : Bool)
  | eval (i : ℤ) (xs : List K) (het : Bool) (centering : PyVal) (all vec : Bool)

/-- One public call, result forgotten. -/
def rawPdpStep [PySqrt K] (cfg : PdpCfg K D) (st : RawPdp K D) : RawPdpOp K → RawPdp K D
  | .fit f c p v => (rawPdpFit cfg st f c p v).1
  | .eval i xs het c all vec => (rawPdpEval cfg st i xs het c all vec).1

/-- A history of calls on a fresh object. -/
def rawPdpRun [PySqrt K] (cfg : PdpCfg K D) (data : List (Row K D)) (ops : List (RawPdpOp K)) : RawPdp K D := ops.foldl (rawPdpStep cfg) (Raw.init data)

/-! ## ShapDP -/

/-- A ShapDP object. -/
abbrev RawShap (K : Type) (D : ℕ) := Raw (ShapFe K) (List (Row K D)) D

/-- `fit` (global_effect_shap.py:148-200). -/
def rawShapFit (cfg : ShapCfg K D) (st : RawShap K D) (features : PyVal) (centering : PyVal) (points : ℕ) : RawShap K D × Py Unit :=
  match (do let c ← prepCentering centering
            let f ← prepFeatures features D
            return (f, c)) with
  | .error e => (st, .error e)
  | .ok (f, c) => st.loop shapAttrs (fun s f => shapFitLoop cfg c points s [f]) f

/-- `eval` (global_effect_shap.py:202-248). -/
def rawShapEval (cfg : ShapCfg K D) (st : RawShap K D) (i : ℤ) (xs : List K) (het : Bool) (centering : PyVal) :
    RawShap K D × Py (List K × Option (List K)) :=
  match prepCentering centering with
  | .error e => (st, .error e)
  | .ok _ => st.on shapAttrs i fun s f => shapEval cfg s f xs het centering

/-- Public calls that touch the state. -/
inductive RawShapOp (K : Type)
  | fit (features : PyVal) (centering : PyVal) (points : ℕ)
  | eval (i : ℤ) (xs : List K) (het : Bool) (centering : PyVal)

/-- One public call, result forgotten. -/
def rawShapStep (cfg : ShapCfg K D) (st : RawShap K D) : RawShapOp K → RawShap K D
  | .fit f c p => (rawShapFit cfg st f c p).1
  | .eval i xs het c => (rawShapEval cfg st i xs het c).1

/-- A history of calls on a fresh object. -/
def rawShapRun (cfg : ShapCfg K D) (data : List (Row K D)) (ops : List (RawShapOp K)) : RawShap K D := ops.foldl (rawShapStep cfg) (Raw.init data)

/-! ## The conditioning features of a regional fit -/

/-- partitioning.py:47-51: `[i for i in range(self.dim) if i != self.feature]` compares columns with the integer the feature was named with. -/
def rawFoc (D : ℕ) (i : ℤ) : List (Fin D) := (List.finRange D).filter fun j => decide ((j : ℤ) ≠ i)

/-- `fit` of one feature of a regional class, named by a python integer (regional_effect_ale.py:119-145, 266-293, regional_effect_pdp.py:96-109,
regional_effect_shap.py:126-153): as for the column, except for the conditioning features.  The keys of the dictionaries are not modelled here, so this is the state
in which the feature is named by `i` throughout. -/
def rawRegionalFitOne [PySqrt K] (o : RegionalObj K D) (kw : FitKw K D) (st : RegionalState K D) (i : ℤ) : RegionalState K D × Py Unit :=
  match pyColumn D i with
  | .error e => (st, .error e)
  | .ok f => regionalFitOne o { kw with foc := some (kw.foc.getD (rawFoc D i)) } st f

end Effector
