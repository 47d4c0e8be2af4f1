import Verif.Model.Utils

/-!
# Model of effector/helpers.py and of the constructor in effector/global_effect.py
-/

namespace Effector

variable {K : Type} [Field K] [LinearOrder K] {D : ℕ}

/-- A python argument value, as far as `type(arg)` tests in helpers.py distinguish them.
`list` carries feature indices; `other` is any value of any further type (float, None, dict, ndarray, ...). -/
inductive PyVal
  | bool (b : Bool)
  | int (i : ℤ)
  | str (s : String)
  | list (l : List ℤ)
  | other
deriving DecidableEq, Repr

/-- effector/helpers.py:10-16 `prep_features`. -/
def prepFeatures (feat : PyVal) (D : ℕ) : Py PyVal :=
  match feat with
  | .list l => .ok (.list l)
  | .str s => .ok (if s = "all" then .list ((List.range D).map Int.ofNat) else .str s)
  | .int i => .ok (.list [i])
  | .bool _ => .error .assertionError
  | .other => .error .assertionError

/-- effector/helpers.py:19-27 `prep_centering`. -/
def prepCenteringVal (c : PyVal) : Py PyVal :=
  match c with
  | .bool true => .ok (.str "zero_integral")
  | .bool false => .ok (.bool false)
  | .str s => if s = "zero_start" ∨ s = "zero_integral" then .ok (.str s) else .error .assertionError
  | _ => .error .assertionError

/-- effector/helpers.py:30-37 `prep_confidence_interval`. -/
def prepConfidenceInterval (c : PyVal) : Py PyVal :=
  match c with
  | .bool true => .ok (.str "std")
  | .bool false => .ok (.bool false)
  | .str s =>
    if s = "std" ∨ s = "std_err" ∨ s = "ice" ∨ s = "shap_values" then .ok (.str s) else .error .assertionError
  | _ => .error .assertionError

/-- The three values that survive `prep_centering`. -/
inductive Centering
  | off | zeroIntegral | zeroStart
deriving DecidableEq, Repr

/-- The python value of a normalised centring. -/
def Centering.toVal : Centering → PyVal
  | .off => .bool false
  | .zeroIntegral => .str "zero_integral"
  | .zeroStart => .str "zero_start"

/-- effector/helpers.py:19-27 `prep_centering`, with the result in the three-valued type
(`prepCenteringVal_eq` in `Props/Helpers.lean` proves that it is the same function). -/
def prepCentering (c : PyVal) : Py Centering :=
  match c with
  | .bool true => .ok .zeroIntegral
  | .bool false => .ok .off
  | .str s =>
    if s = "zero_start" then .ok .zeroStart
    else if s = "zero_integral" then .ok .zeroIntegral
    else .error .assertionError
  | _ => .error .assertionError

/-- effector/helpers.py:40-47 `axis_limits_from_data`, for one feature: (min, max);
`ValueError` for an empty data set. -/
def axisLimitsFromData (data : List (Row K D)) (f : Fin D) : Py (K × K) := do
  let lo ← listMin (col data f)
  let hi ← listMax (col data f)
  return (lo, hi)

/-- effector/helpers.py:85-107 `prep_nof_instances`.  `choice N n` is the outcome of
`np.random.choice(N, n, replace=False)`, which raises `ValueError` for negative `n`. -/
def prepNofInstances (choice : ℕ → ℕ → List ℕ) (nof : PyVal) (N : ℕ) : Py (ℤ × List ℕ) :=
  match nof with
  | .int n =>
    if n < (N : ℤ) then
      if n < 0 then .error .valueError else .ok (n, choice N n.toNat)
    else .ok (n, List.range N)
  | .str s => if s = "all" then .ok ((N : ℤ), List.range N) else .error .assertionError
  | _ => .error .assertionError

/-- What numpy guarantees about `np.random.choice(N, n, replace=False)` for `n ≤ N`, whatever the random state. -/
def ValidChoice (choice : ℕ → ℕ → List ℕ) : Prop :=
  ∀ N n, n ≤ N → (choice N n).length = n ∧ (choice N n).Nodup ∧ ∀ i ∈ choice N n, i < N

/-- effector/helpers.py:110-112 `get_feature_names`. -/
def getFeatureNames (dim : ℕ) : List String := (List.range dim).map fun i => "x_" ++ toString i

/-- `{"mean": m, "std": s}`: the dictionaries scale_x / scale_y. -/
structure Scale (K : Type) where
  mean : K
  std : K
deriving DecidableEq

/-- effector/helpers.py:115-118 `prep_avg_output`. -/
def prepAvgOutput (data : List (Row K D)) (model : List (Row K D) → List K) (avg : Option K)
    (scaleY : Option (Scale K)) : K :=
  let a := match avg with
    | some a => a
    | none => mean (model data)
  match scaleY with
  | some s => a * s.std + s.mean
  | none => a

/-- effector/helpers.py:121-125 `drop_points_outside_axis_limits`. -/
def dropOutside (data : List (Row K D)) (lo hi : K) (f : Fin D) : List (Row K D) :=
  (data.filter fun r => decide (lo ≤ r f)).filter fun r => decide (r f ≤ hi)

/-- `data[indices, :]`; `IndexError` when an index is out of range. -/
def takeRows {α : Type} (data : List α) (indices : List ℕ) : Py (List α) :=
  indices.mapM fun i => pyIndex data i

/-- The part of the state set by `GlobalEffectBase.__init__` (effector/global_effect.py:55-89) that depends on
the data: `self.data`, `self.indices`, `self.axis_limits`. -/
structure Base (K : Type) (D : ℕ) where
  data : List (Row K D)
  indices : List ℕ
  axisLo : Fin D → K
  axisHi : Fin D → K

/-- All features, as python's `range(D)`. -/
def allFeatures (D : ℕ) : List (Fin D) := List.finRange D

/-- Running `axis_limits_from_data` over all features; the entries of the (2, D) array as functions. -/
def axisLimitsAll (data : List (Row K D)) : Py ((Fin D → K) × (Fin D → K)) :=
  match data with
  | [] => if D = 0 then .ok (fun _ => 0, fun _ => 0) else .error .valueError
  | r :: rs => .ok (fun f => (rs.map (· f)).foldl min (r f), fun f => (rs.map (· f)).foldl max (r f))

/-- effector/global_effect.py:55-89: sub-sample the rows, default axis limits. -/
def Base.init (choice : ℕ → ℕ → List ℕ) (data : List (Row K D)) (nof : PyVal)
    (axisLimits : Option ((Fin D → K) × (Fin D → K))) : Py (Base K D) := do
  let (_, idx) ← prepNofInstances choice nof data.length
  let data' ← takeRows data idx
  let (lo, hi) ← match axisLimits with
    | some l => .ok l
    | none => axisLimitsAll data'
  return { data := data', indices := idx, axisLo := lo, axisHi := hi }

end Effector
