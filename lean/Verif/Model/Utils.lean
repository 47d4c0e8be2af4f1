import Verif.Model.Numpy

/-!
# Model of effector/utils.py and effector/utils_integrate.py
-/

namespace Effector

variable {K : Type} [Field K] [LinearOrder K] {D : ℕ}

/-- One instance: the values of its `D` features. -/
abbrev Row (K : Type) (D : ℕ) := Fin D → K

/-- `data[:, s]`. -/
def col (data : List (Row K D)) (s : Fin D) : List K := data.map fun r => r s

/-- `a = deepcopy(data); a[:, s] = vals` (effector/utils.py:58-61, effector/global_effect_pdp.py:467-479).
`cast` is what numpy does to an assigned value: the identity for a float array, truncation toward zero for an
integer array. -/
def setCol (cast : K → K) (data : List (Row K D)) (s : Fin D) (vals : List K) : List (Row K D) :=
  List.zipWith (fun r v => Function.update r s (cast v)) data vals

/-- effector/utils.py:10-64 `compute_local_effects`.  Returns the effects together with the value of the caller's
`limits` array after the call, because line 53 (`limits[-1] += EPS`) mutates the argument in place.
The black-box model is a function on batches.  `np.squeeze` (line 64) is the identity on a 1-d array of length ≥ 2;
for one instance it returns a 0-d array, which is not represented.  `dx = 0` (only possible for repeated limits) gives
inf/NaN in numpy and 0 here; all theorems assume increasing limits. -/
def computeLocalEffects (cast : K → K) (data : List (Row K D)) (model : List (Row K D) → List K)
    (limits : List K) (s : Fin D) : Py (List K × List K) := do
  let lo ← pyIndex limits 0
  let mn ← listMin (col data s)
  pyAssert (lo ≤ mn)                                      -- line 49
  let hi ← pyIndex limits (limits.length - 1)
  let mx ← listMax (col data s)
  pyAssert (mx ≤ hi)                                      -- line 50
  let limits' := bumpLast EPS limits                      -- line 53
  let ind ← digitize (col data s) limits'                 -- line 54
  pyAssert (ind.all (0 < ·))                              -- line 55
  let right ← ind.mapM (fun i => pyIndex limits' i)       -- line 60
  let left ← ind.mapM (fun i => pyIndex limits' (i - 1))  -- line 61
  let l0 ← pyIndex limits' 0
  let l1 ← pyIndex limits' 1
  let dx := l1 - l0                                       -- line 62
  let eff := List.zipWith (· - ·) (model (setCol cast data s right)) (model (setCol cast data s left))
  return (eff.map (· / dx), limits')

/-- The test `limits[0] <= x <= limits[1]` of effector/utils.py:96. -/
def inBin (start stop x : K) : Bool := decide (start ≤ x) && decide (x ≤ stop)

/-- effector/utils.py:67-104 `filter_points_in_bin`, first component. -/
def filterXs (xs : List K) (start stop : K) : List K := xs.filter (inBin start stop)

/-- effector/utils.py:67-104 `filter_points_in_bin`, second component (boolean-mask indexing of `df_dxs`). -/
def filterEff (xs eff : List K) (start stop : K) : List K :=
  ((xs.zip eff).filter (fun p => inBin start stop p.1)).map (·.2)

/-- effector/utils.py:107-160 `compute_bin_effect`: (bin_effect_mean with NaN = none, points_per_bin). -/
def computeBinEffect (xs eff limits : List K) : Py (List (Option K) × List ℕ) := do
  let ind ← digitize xs (bumpLast EPS limits)             -- lines 143-145
  let idx ← binIndices ind
  let nb := limits.length - 1                             -- line 149
  let agg ← bincountW idx eff nb                          -- line 150
  let ppb := bincount idx nb                              -- line 151
  return (List.zipWith (fun (a : K) (n : ℕ) => if n ≠ 0 then some (a / (n : K)) else none) agg ppb, ppb)

/-- `(df - m) ** 2` with NaN propagation. -/
def sqDev (d : K) (m : Option K) : Option K := m.map fun m => (d - m) ^ 2

/-- effector/utils.py:163-244 `compute_bin_variance`: (bin_variance, bin_estimator_variance).  `ind - 1 = -1`
would first wrap around in `bin_effect_mean[ind-1]` and then raise in `bincount`: the same `ValueError`. -/
def computeBinVariance (xs eff limits : List K) (means : List (Option K)) :
    Py (List (Option K) × List (Option K)) := do
  let ind ← digitize xs (bumpLast EPS limits)             -- lines 216-218
  let idx ← binIndices ind
  let ms ← idx.mapM (fun i => pyIndex means i)            -- line 222
  let vpp := List.zipWith sqDev eff ms
  let nb := limits.length - 1
  let agg ← bincountNan idx vpp nb                        -- line 224
  let ppb := bincount idx nb                              -- line 227
  let var := List.zipWith (fun (a : Option K) (n : ℕ) => if 1 < n then a.map (· / (n : K)) else none) agg ppb
  let est := List.zipWith (fun (a : Option K) (n : ℕ) => if 1 < n then a.map (· / (n : K)) else none) var ppb
  return (var, est)

/-- The non-NaN entries of `x` with their positions, starting at position `i`. -/
def knownFrom (i : ℕ) : List (Option K) → List (K × K)
  | [] => []
  | none :: t => knownFrom (i + 1) t
  | some v :: t => ((i : K), v) :: knownFrom (i + 1) t

/-- Fill the NaN entries from the samples `kn`, starting at position `i`. -/
def fillFrom (kn : List (K × K)) (i : ℕ) : List (Option K) → List K
  | [] => []
  | none :: t => interp kn (i : K) :: fillFrom kn (i + 1) t
  | some v :: t => v :: fillFrom kn (i + 1) t

/-- effector/utils.py:247-276 `fill_nans`; `np.interp` raises `ValueError` on an empty list of samples. -/
def fillNans (x : List (Option K)) : Py (List K) :=
  match knownFrom 0 x with
  | [] => .error .valueError
  | kn => .ok (fillFrom kn 0 x)

/-- effector/utils.py:279-364 `compute_accumulated_effect` at one point whose `digitize` index is `ind`. -/
def accAt (limits binEffect dx : List K) (square : Bool) (x : K) (ind : ℕ) : Py K := do
  let w := if square then dx.map (· ^ 2) else dx
  let cs := cumsum (List.zipWith (· * ·) binEffect w)          -- line 350
  let full ← pyIndex (0 :: 0 :: cs) ind                        -- lines 351-352
  let l0 ← pyIndex limits 0
  let t ← pyIndex (l0 :: limits.dropLast ++ [BIG_M]) ind       -- lines 355-356
  let d := if x - t < 0 then 0 else x - t                      -- line 357
  let d := if square then d ^ 2 else d                         -- line 358
  let el ← pyIndex binEffect (binEffect.length - 1)
  let e ← pyIndex (0 :: binEffect ++ [el]) ind                 -- line 359
  return full + d * e

/-- effector/utils.py:279-364 `compute_accumulated_effect`.  `bin_effect * dx` raises `ValueError` for different
lengths (numpy's broadcasting of length-1 arrays is not modelled). -/
def computeAccumulatedEffect (xs limits binEffect dx : List K) (square : Bool := false) : Py (List K) := do
  let ind ← digitize xs limits                                 -- line 347
  if binEffect.length ≠ dx.length then .error .valueError
  else (xs.zip ind).mapM fun p => accAt limits binEffect dx square p.1 p.2

/-- The dictionary returned by `compute_ale_params`. -/
structure AleParams (K : Type) where
  limits : List K
  dx : List K
  pointsPerBin : List ℕ
  binEffect : List K
  binVariance : List K
  binEstimatorVariance : List K
deriving DecidableEq

/-- effector/utils.py:367-419 `compute_ale_params`. -/
def computeAleParams (xs eff limits : List K) : Py (AleParams K) := do
  let dx := diffs limits                                        -- line 396
  let (be, ppb) ← computeBinEffect xs eff limits                -- line 399
  let (bv, bev) ← computeBinVariance xs eff limits be           -- line 402
  let be' ← fillNans be                                         -- line 407
  let bv' ← fillNans bv
  let bev' ← fillNans bev
  return { limits := limits, dx := dx, pointsPerBin := ppb, binEffect := be',
           binVariance := bv', binEstimatorVariance := bev' }

/-- Feature types of the partitioning code. -/
inductive FeatType
  | cat | cont
deriving DecidableEq, Repr

/-- effector/utils.py:422-442 `get_feature_types`: "cat" iff strictly fewer than `categorical_limit` distinct values. -/
def getFeatureTypes (data : List (Row K D)) (catLimit : ℕ) (f : Fin D) : FeatType :=
  if (npUnique (col data f)).length < catLimit then .cat else .cont

/-- effector/utils.py:445-479 `compute_jacobian_numerically` (forward differences, float data).
The column `f` of the result. -/
def jacobianCol (model : List (Row K D) → List K) (data : List (Row K D)) (eps : K) (f : Fin D) : List K :=
  List.zipWith (fun a b => (a - b) / eps)
    (model (data.map fun r => Function.update r f (r f + eps))) (model data)

/-- effector/utils.py:445-479: the Jacobian as rows, `jacobian[i, f]`. -/
def computeJacobianNumerically (model : List (Row K D) → List K) (data : List (Row K D)) (eps : K) :
    List (Row K D) :=
  (List.range data.length).map fun i => fun f => (jacobianCol model data eps f).getD i 0

/-! ## effector/utils_integrate.py -/

/-- effector/utils_integrate.py:34-45 `mean_1d_linspace` (for `nof_points ≥ 2`; numpy's mean of an empty array is
NaN otherwise).  `func` maps a grid to values and may raise. -/
def mean1dLinspace (func : List K → Py (List K)) (start stop : K) (nofPoints : ℕ := 100) : Py K := do
  let y ← func (midpoints (linspace start stop nofPoints))
  return mean y

/-- effector/utils_integrate.py:21-31 `integrate_1d_linspace`. -/
def integrate1dLinspace (func : List K → Py (List K)) (start stop : K) : Py K := do
  let y ← func (midpoints (linspace start stop 1000))
  return y.sum * (stop - start) / 1000

end Effector
