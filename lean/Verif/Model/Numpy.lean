import Mathlib.Algebra.Order.Field.Basic
import Mathlib.Algebra.Order.Field.Rat
import Mathlib.Algebra.BigOperators.Group.List.Basic
import Mathlib.Data.List.Basic
import Mathlib.Data.List.Sort
import Mathlib.Data.Rat.Sqrt
import Mathlib.Tactic.Ring
import Mathlib.Tactic.Linarith
import Mathlib.Tactic.NormNum

/-!
# Python exceptions and the numpy primitives used by effector

The repository is python/numpy.  Numbers are elements of a linearly ordered field `K` (exact arithmetic, no
rounding), a one-dimensional `ndarray` is a `List K`, NaN is `none : Option K`, an exception is a value of `PyErr`.
numpy itself is not part of `/repo`; each primitive below says which numpy call it stands for and where
`/repo` uses it.
-/

namespace Effector

/-- The python exception classes that the modelled code can raise. -/
inductive PyErr
  | assertionError | valueError | indexError | typeError | keyError | notImplementedError | attributeError
  | zeroDivisionError
  /-- an exception of the user's own (Model/Calls.lean) -/
  | userError (n : ℕ)
deriving DecidableEq, Repr

/-- A python computation that returns a value or raises. -/
abbrev Py (α : Type) := Except PyErr α

instance {α : Type} [DecidableEq α] : DecidableEq (Py α)
  | .ok a, .ok b => if h : a = b then isTrue (by rw [h]) else isFalse (by intro h'; cases h'; exact h rfl)
  | .error a, .error b => if h : a = b then isTrue (by rw [h]) else isFalse (by intro h'; cases h'; exact h rfl)
  | .ok _, .error _ => isFalse (by intro h; cases h)
  | .error _, .ok _ => isFalse (by intro h; cases h)

/-- `assert cond` : raises `AssertionError` when the condition is false. -/
def pyAssert (b : Bool) : Py Unit := if b then .ok () else .error .assertionError

/-- `l[i]` for a non-negative index: `IndexError` when out of range. -/
def pyIndex {α : Type} (l : List α) (i : ℕ) : Py α :=
  match l[i]? with
  | some a => .ok a
  | none => .error .indexError

/-- Square root as used by `np.sqrt` / `np.std`. -/
class PySqrt (K : Type) where
  sqrt : K → K

/-- `ℚ` has a square root only for perfect squares (`Rat.sqrt`, exact there); used in executable examples only,
no theorem assumes laws for it. -/
instance : PySqrt ℚ := ⟨Rat.sqrt⟩

/-- The laws of a square root (true for `Real.sqrt`). -/
class LawfulSqrt (K : Type) [Field K] [LinearOrder K] [PySqrt K] : Prop where
  sqrt_nonneg : ∀ x : K, 0 ≤ PySqrt.sqrt x
  sqrt_mul_self : ∀ x : K, 0 ≤ x → PySqrt.sqrt x * PySqrt.sqrt x = x

variable {K : Type} [Field K] [LinearOrder K]

/-- effector/helpers.py:5 `BIG_M = 1e8`. -/
def BIG_M : K := 10 ^ 8

/-- effector/helpers.py:6 `EPS = 1e-8`. -/
def EPS : K := 1 / 10 ^ 8

/-- effector/helpers.py:7 `EMPTY_SYMBOL = 1e8`. -/
def EMPTY_SYMBOL : K := 10 ^ 8

/-- Number of `bins` that are `≤ x`: `np.searchsorted(bins, x, side="right")` on increasing bins. -/
def countLe (bins : List K) (x : K) : ℕ := bins.countP (fun l => decide (l ≤ x))

/-- `np.digitize(xs, bins)` (right=False), used in effector/utils.py:54,145,218,347.
numpy raises `ValueError` when the bins are not monotone; for weakly increasing bins the result is
`searchsorted(bins, x, 'right')`, for decreasing ones `len(bins) - searchsorted(bins[::-1], x, 'right')`. -/
def digitize (xs bins : List K) : Py (List ℕ) :=
  if bins.Pairwise (· ≤ ·) then .ok (xs.map (countLe bins))
  else if bins.Pairwise (· ≥ ·) then .ok (xs.map fun x => bins.length - countLe bins x)
  else .error .valueError

/-- `ind - 1` passed to `np.bincount`, which raises `ValueError` on a negative entry
(effector/utils.py:150,151,224,227). -/
def binIndices (ind : List ℕ) : Py (List ℕ) :=
  if 0 ∈ ind then .error .valueError else .ok (ind.map (· - 1))

/-- Length of the result of `np.bincount(idx, minlength=m)`: `max(m, max(idx)+1)`. -/
def bincountLen (idx : List ℕ) (m : ℕ) : ℕ := max m ((idx.map (· + 1)).foldr max 0)

/-- `np.bincount(idx, minlength=m)` for non-negative `idx`. -/
def bincount (idx : List ℕ) (m : ℕ) : List ℕ :=
  (List.range (bincountLen idx m)).map fun k => idx.count k

/-- The values of `w` at the positions where `idx` equals `k`. -/
def valuesAt {α : Type} (idx : List ℕ) (w : List α) (k : ℕ) : List α :=
  ((idx.zip w).filter (fun p => p.1 == k)).map (·.2)

/-- `np.bincount(idx, weights=w, minlength=m)`; `ValueError` when the lengths differ. -/
def bincountW (idx : List ℕ) (w : List K) (m : ℕ) : Py (List K) :=
  if idx.length = w.length then
    .ok ((List.range (bincountLen idx m)).map fun k => (valuesAt idx w k).sum)
  else .error .valueError

/-- Sum with NaN propagation. -/
def nanSum : List (Option K) → Option K
  | [] => some 0
  | x :: xs => match x, nanSum xs with
    | some a, some s => some (a + s)
    | _, _ => none

/-- `np.bincount` with weights that may be NaN. -/
def bincountNan (idx : List ℕ) (w : List (Option K)) (m : ℕ) : Py (List (Option K)) :=
  if idx.length = w.length then
    .ok ((List.range (bincountLen idx m)).map fun k => nanSum (valuesAt idx w k))
  else .error .valueError

/-- `np.mean` of a non-empty array; the empty case (NaN in numpy) is handled by the callers. -/
def mean (l : List K) : K := l.sum / (l.length : K)

/-- Population variance, `np.var` of a non-empty array. -/
def variance (l : List K) : K := mean (l.map fun y => (y - mean l) ^ 2)

/-- `np.var`, NaN for an empty array. -/
def npVar (l : List K) : Option K := if l = [] then none else some (variance l)

/-- `np.std` of a non-empty array. -/
def npStd [PySqrt K] (l : List K) : K := PySqrt.sqrt (variance l)

/-- `np.cumsum`, starting from an accumulator. -/
def cumsumFrom (acc : K) : List K → List K
  | [] => []
  | x :: xs => (acc + x) :: cumsumFrom (acc + x) xs

/-- `np.cumsum`. -/
def cumsum (l : List K) : List K := cumsumFrom 0 l

/-- The `i`-th entry of `np.linspace(a, b, num)`. -/
def linspaceAt (a b : K) (num i : ℕ) : K := a + (i : K) * ((b - a) / ((num - 1 : ℕ) : K))

/-- `np.linspace(a, b, num)` (endpoint included; `num = 1` gives `[a]`). -/
def linspace (a b : K) (num : ℕ) : List K := (List.range num).map (linspaceAt a b num)

/-- Insertion into a sorted duplicate-free list. -/
def insertUniq (x : K) : List K → List K
  | [] => [x]
  | y :: ys => if x < y then x :: y :: ys else if x = y then y :: ys else y :: insertUniq x ys

/-- `np.unique(l)`: the sorted distinct values. -/
def npUnique (l : List K) : List K := l.foldr insertUniq []

/-- `np.allclose(a, b)` on scalars with the default tolerances rtol=1e-5, atol=1e-8. -/
def allclose (a b : K) : Bool := decide (|a - b| ≤ 1 / 10 ^ 8 + 1 / 10 ^ 5 * |b|)

/-- `[l[i+1] - l[i] for i in range(len(l)-1)]`. -/
def diffs : List K → List K
  | a :: b :: t => (b - a) :: diffs (b :: t)
  | _ => []

/-- `0.5 * (x[:-1] + x[1:])`. -/
def midpoints : List K → List K
  | a :: b :: t => (a + b) / 2 :: midpoints (b :: t)
  | _ => []

/-- `l[-1] += eps` on a copy of the array. -/
def bumpLast (eps : K) : List K → List K
  | [] => []
  | [a] => [a + eps]
  | a :: b :: t => a :: bumpLast eps (b :: t)

/-- `np.interp(x, xp, fp)` for increasing `xp`, the samples given as pairs: constant outside, linear between
neighbouring samples.  The empty case is rejected by the caller (numpy raises `ValueError`). -/
def interp : List (K × K) → K → K
  | [], _ => 0
  | [(_, fa)], _ => fa
  | (a, fa) :: (b, fb) :: t, x =>
    if x ≤ a then fa
    else if x < b then fa + (x - a) * ((fb - fa) / (b - a))
    else interp ((b, fb) :: t) x

/-- `np.min` over an array with NaN (`none`): NaN if any entry is NaN.  `m` is the running minimum. -/
def npMinFrom (m : K) : List (Option K) → Option K
  | [] => some m
  | none :: _ => none
  | some y :: t => npMinFrom (if y < m then y else m) t

/-- `np.min`; `none` (NaN) for NaN entries.  (numpy raises on an empty array; never reached.) -/
def npMin : List (Option K) → Option K
  | [] => none
  | none :: _ => none
  | some y :: t => npMinFrom y t

/-- running `np.argmin`: best value `m` at index `best`, next index `i`; the first NaN wins. -/
def npArgminFrom (m : K) (best : ℕ) : ℕ → List (Option K) → ℕ
  | _, [] => best
  | i, none :: _ => i
  | i, some y :: t => if y < m then npArgminFrom y i (i + 1) t else npArgminFrom m best (i + 1) t

/-- `np.argmin`: index of the first minimum, or of the first NaN. -/
def npArgmin : List (Option K) → ℕ
  | [] => 0
  | none :: _ => 0
  | some y :: t => npArgminFrom y 0 1 t

/-- running `np.argmax`. -/
def npArgmaxFrom (m : K) (best : ℕ) : ℕ → List K → ℕ
  | _, [] => best
  | i, y :: t => if m < y then npArgmaxFrom y i (i + 1) t else npArgmaxFrom m best (i + 1) t

/-- `np.argmax` of a flat array without NaN: index of the first maximum. -/
def npArgmax : List K → ℕ
  | [] => 0
  | y :: t => npArgmaxFrom y 0 1 t

/-- `np.min` of a list without NaN; `ValueError` on an empty array. -/
def listMin : List K → Py K
  | [] => .error .valueError
  | x :: xs => .ok (xs.foldl min x)

/-- `np.max` of a list without NaN; `ValueError` on an empty array. -/
def listMax : List K → Py K
  | [] => .error .valueError
  | x :: xs => .ok (xs.foldl max x)

end Effector
