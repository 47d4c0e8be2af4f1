import Verif.Model.NanOutput

/-!
# Gradients that are NaN: `RHALE` and its binning methods when the Jacobian (or the numerical one of a model that returns NaN) has NaN entries

The data are numbers, an entry of `data_effect` may be NaN (`none`).  `np.var` of an array with a NaN is NaN; comparisons with NaN are false; `np.argmin` and `np.min` return the
first NaN (`npArgmin`, `npMin` of Model/Numpy.lean).
-/

namespace Effector

variable {K : Type} [Field K] [LinearOrder K] {D : ℕ}

/-- `np.var` of an array that may have NaN entries. -/
def nVar (l : List (Option K)) : Option K := if none ∈ l then none else npVar (known l)

/-- effector/utils.py:66-104 `filter_points_in_bin`: the effects of the points in `[start, stop]`. -/
def nFilterEff (xs : List K) (eff : List (Option K)) (start stop : K) : List (Option K) :=
  ((xs.zip eff).filter fun p => inBin start stop p.1).map (·.2)

/-- effector/bin_splitting.py:42-57 `_bin_cost`. -/
def nBinCost (xs : List K) (eff : List (Option K)) (minPoints : ℕ) (discount start stop : K) : Option K :=
  let e := nFilterEff xs eff start stop
  if e.length < minPoints then some BIG_M
  else (nVar e).map fun v => v * (stop - start) * (1 - discount * ((e.length : K) / (xs.length : K)))

/-- effector/bin_splitting.py:203-229: whether to close the bin `[left, l1]`. -/
def nCloseDecision (xs : List K) (eff : List (Option K)) (m : ℕ) (discount left l1 l2 : K) : Bool :=
  let loss1 := nBinCost xs eff m discount left l1
  let loss2 := nBinCost xs eff m discount left l2
  if binValid xs m left l1 && binValid xs m left l2 then
    if nanEqZero loss1 && nanPos loss2 then true
    else if nanEqZero loss1 && nanEqZero loss2 then false
    else !(nanLe loss2 loss1)
  else false

/-- effector/bin_splitting.py:193-235, the `while i < init_nof_bins` loop. -/
def nGreedyLoop (xs : List K) (eff : List (Option K)) (m : ℕ) (discount : K) (left : K) : List K → List K
  | [] => [left]
  | [l1] => [left, l1]
  | l1 :: l2 :: t =>
    if nCloseDecision xs eff m discount left l1 l2 then left :: nGreedyLoop xs eff m discount l1 (l2 :: t)
    else nGreedyLoop xs eff m discount left (l2 :: t)

/-- effector/bin_splitting.py:90-103 `_only_one_bin_possible`: only the number of effects is read. -/
def nOnlyOneBin (eff : List (Option K)) (xmin xmax : K) (minPoints : ℕ) : Bool :=
  allclose xmin xmax || (decide (minPoints ≤ eff.length) && decide (eff.length < 2 * minPoints))

/-- effector/bin_splitting.py:167-244 `Greedy.find`. -/
def nGreedyFind (xs : List K) (eff : List (Option K)) (xmin xmax : K) (initNofBins : ℕ) (discount : K) (minPoints : Option ℕ) (catLimit : ℕ) :
    Py (Lim K) := do
  let nv ← noneValidBinning xs minPoints
  if nv then return .impossible
  match ← isCategorical xs minPoints catLimit with
  | some l => return l
  | none =>
    match minPoints with
    | none => .error .typeError               -- never reached: `noneValidBinning` has raised
    | some m =>
      if nOnlyOneBin eff xmin xmax m then return .arr [xmin, xmax]
      match linspace xmin xmax (initNofBins + 1) with
      | [] => .error .indexError
      | l0 :: rest =>
        let merged ← repairLast xs m (nGreedyLoop xs eff m discount l0 rest)
        return .arr merged

/-- effector/bin_splitting.py:258-273 `_cost_of_move`. -/
def nCostOfMove (xs : List K) (eff : List (Option K)) (xmin xmax : K) (m : ℕ) (discount : K) (k i j : ℕ) : Option K :=
  if j < i then some BIG_M
  else if i = j then some 0
  else nBinCost xs eff m discount (gridPos xmin xmax k i) (gridPos xmin xmax k j)

/-- effector/bin_splitting.py:302-355 `DP.find`; the matrices (`dpIndices`) are those of Model/BinSplitting.lean, where costs may be NaN. -/
def nDpFind (xs : List K) (eff : List (Option K)) (xmin xmax : K) (maxNofBins : ℕ) (minPoints : Option ℕ) (discount : K) (catLimit : ℕ) : Py (Lim K) := do
  let nv ← noneValidBinning xs minPoints
  if nv then return .impossible
  match ← isCategorical xs minPoints catLimit with
  | some l => return l
  | none =>
    match minPoints with
    | none => .error .typeError               -- never reached
    | some m =>
      if nOnlyOneBin eff xmin xmax m then return .arr [xmin, xmax]
      if maxNofBins = 1 then return .arr [xmin, xmax]
      if maxNofBins = 0 then .error .indexError
      else return .arr ((dpIndices (nCostOfMove xs eff xmin xmax m discount maxNofBins) maxNofBins).map (gridPos xmin xmax maxNofBins))

/-- effector/binning_methods.py:42-94 `find_limits`.  `Fixed.find` (`fixedFind`) does not read the effects. -/
def nFindLimits (xs : List K) (eff : List (Option K)) (xmin xmax : K) (bm : BinMethod K) : Py (Lim K) :=
  match bm with
  | .fixed n m cl => fixedFind { xs := xs, eff := none, xmin := xmin, xmax := xmax } n m cl
  | .greedy n m d cl => nGreedyFind xs eff xmin xmax n d m cl
  | .dp n m d cl => nDpFind xs eff xmin xmax n m d cl
  | .str s =>
    if s = "fixed" then fixedFind { xs := xs, eff := none, xmin := xmin, xmax := xmax } 20 (some 0) 15
    else if s = "greedy" then nGreedyFind xs eff xmin xmax 100 (3 / 10) (some 0) 15
    else if s = "dp" then nDpFind xs eff xmin xmax 20 (some 0) (3 / 10) 15
    else .error .assertionError

/-- effector/global_effect_ale.py:481-518 `RHALE._fit_feature`. -/
def nRhaleFitFeature (data : List (Row K D)) (eff : List (MRow K D)) (lo hi : Fin D → K) (s : Fin D) (bm : BinMethod K) : Py (AleParams K) := do
  if eff.length ≠ data.length then .error .indexError
  else do
    let d := data.filter (inAxis (lo s) (hi s) s)
    let e := ((data.zip eff).filter (fun p => inAxis (lo s) (hi s) s p.1)).map (·.2)
    match ← nFindLimits (col d s) (mcol e s) (lo s) (hi s) bm with
    | .impossible => .error .assertionError
    | .arr limits => nAleParams (col d s) (mcol e s) limits

/-- effector/utils.py:445-479 `compute_jacobian_numerically`, one column. -/
def nJacobianCol (model : List (Row K D) → List (Option K)) (data : List (Row K D)) (eps : K) (f : Fin D) : List (Option K) :=
  List.zipWith (fun a b => (nanSub a b).map (· / eps)) (model (data.map fun r => Function.update r f (r f + eps))) (model data)

/-- effector/utils.py:445-479: the Jacobian as rows. -/
def nJacobian (model : List (Row K D) → List (Option K)) (data : List (Row K D)) (eps : K) : List (MRow K D) :=
  (List.range data.length).map fun i => fun f => (nJacobianCol model data eps f).getD i none

/-- effector/global_effect_ale.py:473-479 `RHALE.compile`: the effects used for fitting. -/
def nRhaleEffects (model : List (Row K D) → List (Option K)) (jac : Option (List (Row K D) → List (MRow K D))) (given : Option (List (MRow K D)))
    (data : List (Row K D)) : List (MRow K D) :=
  match given, jac with
  | some e, _ => e
  | none, some j => j data
  | none, none => nJacobian model data EPS

/-- effector/global_effect_ale.py:383-560: an `RHALE` object.  Calls on it are `aleFit`, `aleEval`, ... of Model/Ale.lean. -/
def nRhaleCfg (eff : List (MRow K D)) (b : Base K D) : AleCfg K D where
  axisLo := b.axisLo
  axisHi := b.axisHi
  fitF := nRhaleFitFeature b.data eff b.axisLo b.axisHi
  defaultBin := .str "greedy"
  allowed := rhaleAllowed

/-- effector/global_effect_ale.py:461-471 `RHALE.__init__`. -/
def nRhaleInit (choice : ℕ → ℕ → List ℕ) (model : List (Row K D) → List (Option K)) (jac : Option (List (Row K D) → List (MRow K D))) (data : List (Row K D))
    (given : Option (List (MRow K D))) (nof : PyVal) (axisLimits : Option ((Fin D → K) × (Fin D → K))) : Py (AleCfg K D × Base K D) := do
  let (_, idx) ← prepNofInstances choice nof data.length
  let data' ← takeRows data idx
  let given' ← match given with
    | some e => (takeRows e idx).map some
    | none => .ok none
  let b ← Base.init choice data' (.str "all") axisLimits
  return (nRhaleCfg (nRhaleEffects model jac given' b.data) b, b)

end Effector
