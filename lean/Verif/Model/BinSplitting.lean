import Verif.Model.Utils

/-!
# Model of effector/bin_splitting.py and effector/binning_methods.py
-/

namespace Effector

variable {K : Type} [Field K] [LinearOrder K] {D : ℕ}

/-- What a `BinBase` object knows (effector/bin_splitting.py:12-40): the feature column `data[:, feature]`, the effect
column `data_effect[:, feature]` (`none` when `data_effect is None`), and the axis limits of the feature. -/
structure BinCtx (K : Type) where
  xs : List K
  eff : Option (List K)
  xmin : K
  xmax : K

/-- `self.limits` after `find`: `False`, or an array. -/
inductive Lim (K : Type)
  | impossible
  | arr (l : List K)
deriving DecidableEq

/-- `data_effect[:, feature]`: `TypeError` ('NoneType' object is not subscriptable) when there is no data_effect. -/
def BinCtx.getEff (c : BinCtx K) : Py (List K) :=
  match c.eff with
  | some e => .ok e
  | none => .error .typeError

/-- effector/bin_splitting.py:42-57 `_bin_cost`; `none` is NaN, produced by `np.var` of an empty bin when
`min_points = 0`. -/
def binCost (xs eff : List K) (minPoints : ℕ) (discount start stop : K) : Option K :=
  let e := filterEff xs eff start stop
  if e.length < minPoints then some BIG_M
  else (npVar e).map fun v => v * (stop - start) * (1 - discount * ((e.length : K) / (xs.length : K)))

/-- effector/bin_splitting.py:59-73 `_bin_valid` with an integer `min_points`. -/
def binValid (xs : List K) (minPoints : ℕ) (start stop : K) : Bool :=
  decide (minPoints ≤ (filterXs xs start stop).length)

/-- effector/bin_splitting.py:59-73 `_bin_valid`, `min_points` possibly `None`. -/
def binValidOpt (xs : List K) (minPoints : Option ℕ) (start stop : K) : Bool :=
  match minPoints with
  | none => true
  | some m => binValid xs m start stop

/-- effector/bin_splitting.py:75-88 `_none_valid_binning`.  Both conditions are evaluated before the `or`, and
`size < None` raises `TypeError`. -/
def noneValidBinning (xs : List K) (minPoints : Option ℕ) : Py Bool :=
  match minPoints with
  | none => .error .typeError
  | some m => .ok (decide ((npUnique xs).length = 1) || decide (xs.length < m))

/-- effector/bin_splitting.py:90-103 `_only_one_bin_possible`. -/
def onlyOneBinPossible (c : BinCtx K) (minPoints : ℕ) : Py Bool := do
  let e ← c.getEff
  return allclose c.xmin c.xmax || (decide (minPoints ≤ e.length) && decide (e.length < 2 * minPoints))

/-- `[uniq[i] + dx[i] / 2 for i in range(len(uniq) - 1)] + [uniq[-1] + dx[-1] / 2]` (bin_splitting.py:121);
`last` is `dx[-1]` so far. -/
def catLimitsTail (last : K) : List K → List K
  | [] => []
  | [u] => [u + last / 2]
  | u :: v :: t => (u + (v - u) / 2) :: catLimitsTail (v - u) (v :: t)

/-- effector/bin_splitting.py:119-121: the limits around the sorted unique values; `uniq[0]` / `dx[0]` raise
`IndexError` when there are fewer than two unique values. -/
def catLimits (uniq : List K) : Py (List K) :=
  match uniq with
  | u :: v :: t => .ok ((u - (v - u) / 2) :: catLimitsTail (v - u) (u :: v :: t))
  | _ => .error .indexError

/-- Consecutive pairs `(l[i], l[i+1])`. -/
def bins : List K → List (K × K)
  | a :: b :: t => (a, b) :: bins (b :: t)
  | _ => []

/-- effector/bin_splitting.py:105-128 `_is_categorical`: `none` when it returns False, else the value it stores in
`self.limits`.  (The assignment `self.limits = False` of line 115 for a single unique value is overwritten later on
every path that reaches it; see `fixedFind`, `greedyFind`, `dpFind`.) -/
def isCategorical (xs : List K) (minPoints : Option ℕ) (catLimit : ℕ) : Py (Option (Lim K)) :=
  if (npUnique xs).length ≤ catLimit then do
    let lims ← catLimits (npUnique xs)
    return some (if (bins lims).all (fun b => binValidOpt xs minPoints b.1 b.2) then .arr lims else .impossible)
  else return none

/-- `bin_1_loss == 0.0` with NaN = `none`. -/
def nanEqZero (a : Option K) : Bool := match a with
  | some x => decide (x = 0)
  | none => false

/-- `bin_2_loss > 0` with NaN = `none`. -/
def nanPos (a : Option K) : Bool := match a with
  | some x => decide (0 < x)
  | none => false

/-- `a <= b` with NaN = `none` (comparisons with NaN are false). -/
def nanLe (a b : Option K) : Bool := match a, b with
  | some x, some y => decide (x ≤ y)
  | _, _ => false

/-- effector/bin_splitting.py:203-229: whether to close the bin `[left, l1]` rather than continue to `l2`. -/
def closeDecision (xs eff : List K) (m : ℕ) (discount left l1 l2 : K) : Bool :=
  let loss1 := binCost xs eff m discount left l1
  let loss2 := binCost xs eff m discount left l2
  if binValid xs m left l1 && binValid xs m left l2 then
    if nanEqZero loss1 && nanPos loss2 then true
    else if nanEqZero loss1 && nanEqZero loss2 then false
    else !(nanLe loss2 loss1)
  else false

/-- effector/bin_splitting.py:193-235, the `while i < init_nof_bins` loop.  `rest` is `limits[i+1:]`, `left` is
`merged_limits[-1]`, the result is `merged_limits` from there on. -/
def greedyLoop (xs eff : List K) (m : ℕ) (discount : K) (left : K) : List K → List K
  | [] => [left]
  | [l1] => [left, l1]                       -- i == init_nof_bins - 1: close
  | l1 :: l2 :: t =>
    if closeDecision xs eff m discount left l1 l2 then left :: greedyLoop xs eff m discount l1 (l2 :: t)
    else greedyLoop xs eff m discount left (l2 :: t)

/-- effector/bin_splitting.py:237-239: `merged_limits[-2]` raises `IndexError` for a single limit; if the last bin is
invalid, drop the last but one limit. -/
def repairLast (xs : List K) (m : ℕ) (merged : List K) : Py (List K) :=
  match merged.reverse with
  | b :: a :: t => .ok (if binValid xs m a b then merged else (b :: t).reverse)
  | _ => .error .indexError

/-- effector/bin_splitting.py:167-244 `Greedy.find`. -/
def greedyFind (c : BinCtx K) (initNofBins : ℕ) (discount : K) (minPoints : Option ℕ) (catLimit : ℕ) :
    Py (Lim K) := do
  let nv ← noneValidBinning c.xs minPoints
  if nv then return .impossible
  match ← isCategorical c.xs minPoints catLimit with
  | some l => return l
  | none =>
    match minPoints with
    | none => .error .typeError               -- never reached: `noneValidBinning` has raised
    | some m =>
      if ← onlyOneBinPossible c m then return .arr [c.xmin, c.xmax]
      let e ← c.getEff
      match linspace c.xmin c.xmax (initNofBins + 1) with
      | [] => .error .indexError
      | l0 :: rest =>
        let merged ← repairLast c.xs m (greedyLoop c.xs e m discount l0 rest)
        return .arr merged

/-- effector/bin_splitting.py:252-256 `_index_to_position`, one index. -/
def gridPos (xmin xmax : K) (k i : ℕ) : K := xmin + (i : K) * ((xmax - xmin) / (k : K))

/-- effector/bin_splitting.py:258-273 `_cost_of_move`; `none` is NaN. -/
def costOfMove (c : BinCtx K) (e : List K) (m : ℕ) (discount : K) (k i j : ℕ) : Option K :=
  if j < i then some BIG_M
  else if i = j then some 0
  else binCost c.xs e m discount (gridPos c.xmin c.xmax k i) (gridPos c.xmin c.xmax k j)

/-- NaN-propagating addition. -/
def nanAdd (a b : Option K) : Option K := match a, b with
  | some x, some y => some (x + y)
  | _, _ => none

/-- effector/bin_splitting.py:339-346: the list `tmp` for one target limit; `prev` is the previous matrix column. -/
def dpTmp (cost : ℕ → ℕ → Option K) (k : ℕ) (prev : List (Option K)) (j : ℕ) : List (Option K) :=
  (List.range (k + 1)).map fun i => nanAdd (prev.getD i none) (cost i j)

/-- effector/bin_splitting.py:335-349: column `b` of `matrix` (column 0: lines 328-333). -/
def dpMatrix (cost : ℕ → ℕ → Option K) (k : ℕ) : ℕ → List (Option K)
  | 0 => (List.range (k + 1)).map fun j => cost 0 j
  | b + 1 => (List.range (k + 1)).map fun j => npMin (dpTmp cost k (dpMatrix cost k b) j)

/-- effector/bin_splitting.py:335-349: column `b + 1` of `argmatrix`. -/
def dpArg (cost : ℕ → ℕ → Option K) (k : ℕ) (b : ℕ) : List ℕ :=
  (List.range (k + 1)).map fun j => npArgmin (dpTmp cost k (dpMatrix cost k b) j)

/-- effector/bin_splitting.py:280-283: back-tracking from limit `j` at column `b` down to column 1: the list
`argmatrix[j, b], argmatrix[argmatrix[j, b], b-1], ...` reversed, i.e. in increasing column order. -/
def dpBack (cost : ℕ → ℕ → Option K) (k : ℕ) : ℕ → ℕ → List ℕ
  | 0, _ => []
  | b + 1, j =>
    let a := (dpArg cost k b).getD j 0
    dpBack cost k b a ++ [a]

/-- effector/bin_splitting.py:288-294: drop an entry equal to the previously kept one. -/
def dedupAdj : List ℕ → List ℕ
  | a :: b :: t => if a = b then dedupAdj (b :: t) else a :: dedupAdj (b :: t)
  | l => l

/-- effector/bin_splitting.py:275-300 `_argmatrix_to_limits`: the indices of the limits. -/
def dpIndices (cost : ℕ → ℕ → Option K) (k : ℕ) : List ℕ :=
  dedupAdj (0 :: dpBack cost k (k - 1) k ++ [k])

/-- effector/bin_splitting.py:302-355 `DP.find`.  For `max_nof_bins = 0` the matrix has no column and
`matrix[0, 0]` raises `IndexError`. -/
def dpFind (c : BinCtx K) (maxNofBins : ℕ) (minPoints : Option ℕ) (discount : K) (catLimit : ℕ) : Py (Lim K) := do
  let nv ← noneValidBinning c.xs minPoints
  if nv then return .impossible
  match ← isCategorical c.xs minPoints catLimit with
  | some l => return l
  | none =>
    match minPoints with
    | none => .error .typeError               -- never reached
    | some m =>
      if ← onlyOneBinPossible c m then return .arr [c.xmin, c.xmax]
      if maxNofBins = 1 then return .arr [c.xmin, c.xmax]
      let e ← c.getEff
      if maxNofBins = 0 then .error .indexError
      else return .arr ((dpIndices (costOfMove c e m discount maxNofBins) maxNofBins).map
        (gridPos c.xmin c.xmax maxNofBins))

/-- effector/bin_splitting.py:362-378 `Fixed.find`.  Note that it does not return after `_none_valid_binning()`. -/
def fixedFind (c : BinCtx K) (nofBins : ℕ) (minPoints : Option ℕ) (catLimit : ℕ) : Py (Lim K) := do
  let _ ← noneValidBinning c.xs minPoints
  match ← isCategorical c.xs minPoints catLimit with
  | some l => return l
  | none =>
    let limits := linspace c.xmin c.xmax (nofBins + 1)
    match minPoints with
    | some m =>
      return if (bins limits).all (fun b => binValid c.xs m b.1 b.2) then .arr limits else .impossible
    | none => return .arr limits

/-! ## effector/binning_methods.py -/

/-- The values of the argument `binning_method`: a string, or an instance of one of the three classes
(effector/binning_methods.py:6-39). -/
inductive BinMethod (K : Type)
  | str (s : String)
  | dp (maxNofBins : ℕ) (minPoints : Option ℕ) (discount : K) (catLimit : ℕ)
  | greedy (initNofBins : ℕ) (minPoints : Option ℕ) (discount : K) (catLimit : ℕ)
  | fixed (nofBins : ℕ) (minPoints : Option ℕ) (catLimit : ℕ)
deriving DecidableEq

/-- effector/binning_methods.py:42-94 `find_limits` (returning `bin_est.limits`). -/
def findLimits (c : BinCtx K) (bm : BinMethod K) : Py (Lim K) :=
  match bm with
  | .fixed n m cl => fixedFind c n m cl
  | .greedy n m d cl => greedyFind c n d m cl
  | .dp n m d cl => dpFind c n m d cl
  | .str s =>
    if s = "fixed" then fixedFind c 20 (some 0) 15
    else if s = "greedy" then greedyFind c 100 (3 / 10) (some 0) 15
    else if s = "dp" then dpFind c 20 (some 0) (3 / 10) 15
    else .error .assertionError

end Effector
