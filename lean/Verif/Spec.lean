import Mathlib.Algebra.Order.Field.Basic
import Mathlib.Data.List.Basic
import Mathlib.Data.List.Count
import Mathlib.Data.List.Dedup
import Mathlib.Algebra.BigOperators.Group.List.Basic

/-!
# Specification vocabulary

Small definitions in which the property theorems are stated.  Nothing here refers to the model, and nothing in
the model refers to this file.
-/

namespace Effector.Spec

variable {K : Type} [Field K] [LinearOrder K]

/-- The integral over `(-∞, x]` of the step function that has the value `e k` on the bin `[l k, l (k+1)]` and is 0
elsewhere: every bin contributes its height times the length of its part to the left of `x`. -/
def stepIntegral : List K → List K → K → K
  | l0 :: l1 :: ls, e :: es, x => e * (min x l1 - min x l0) + stepIntegral (l1 :: ls) es x
  | _, _, _ => 0

/-- The arithmetic mean. -/
def avg (l : List K) : K := l.sum / (l.length : K)

/-- The population variance: the mean squared distance from the mean. -/
def popVar (l : List K) : K := (l.map fun y => (y - avg l) ^ 2).sum / (l.length : K)

/-- `x` falls in bin `k` of `limits`: `limits[k] ≤ x < limits[k+1]`, the last bin being closed on the right. -/
def InBin (limits : List K) (k : ℕ) (x : K) : Prop :=
  ∃ a ∈ limits[k]?, ∃ b ∈ limits[k + 1]?, a ≤ x ∧ (if k + 2 = limits.length then x ≤ b else x < b)

instance (limits : List K) (k : ℕ) (x : K) : Decidable (InBin limits k x) := by
  unfold InBin
  exact Option.decidableExistsMem _

/-- The effects of the instances that fall in bin `k` (instance `i` has the feature value `xs[i]` and the effect
`eff[i]`). -/
def binEffects (limits xs eff : List K) (k : ℕ) : List K :=
  ((xs.zip eff).filter fun p => InBin limits k p.1).map (·.2)

/-- All values lie between the first and the last limit. -/
def Within (limits xs : List K) : Prop :=
  ∃ lo hi, limits.head? = some lo ∧ limits.getLast? = some hi ∧ ∀ x ∈ xs, lo ≤ x ∧ x ≤ hi

/-- Strictly increasing. -/
def Increasing (l : List K) : Prop := l.Pairwise (· < ·)

/-- Number of different values. -/
def distinct (xs : List K) : ℕ := xs.dedup.length

/-- Number of instances in the closed interval `[a, b]`. -/
def closedCount (xs : List K) (a b : K) : ℕ := xs.countP fun x => a ≤ x ∧ x ≤ b

/-- Every bin of `limits`, taken as a closed interval, contains at least `m` instances. -/
def MinPoints (xs : List K) (m : ℕ) (limits : List K) : Prop :=
  ∀ (k : ℕ) (a b : K), limits[k]? = some a → limits[k + 1]? = some b → m ≤ closedCount xs a b

/-- `limits` are the limits of at least one bin, strictly increasing from `lo` to `hi`. -/
structure Spans (limits : List K) (lo hi : K) : Prop where
  inc : Increasing limits
  two : 2 ≤ limits.length
  first : limits.head? = some lo
  last : limits.getLast? = some hi

/-- Point `i` of the equidistant grid that cuts `[lo, hi]` into `n` parts. -/
def gridPoint (lo hi : K) (n i : ℕ) : K := lo + (i : K) * ((hi - lo) / (n : K))

/-- `n` equidistant points from `a` to `b`, both included. -/
def evenly (a b : K) (n : ℕ) : List K := (List.range n).map fun i => gridPoint a b (n - 1) i

/-- The midpoint of the `i`-th of `n` equal cells between `a` and `b`. -/
def cellCentre (a b : K) (n i : ℕ) : K := a + (2 * (i : K) + 1) * (b - a) / (2 * (n : K))

/-- The centres of `n` equal cells between `a` and `b`. -/
def centres (a b : K) (n : ℕ) : List K := (List.range n).map (cellCentre a b n)

/-- All limits are points of that grid. -/
def OnGrid (lo hi : K) (n : ℕ) (limits : List K) : Prop := ∀ l ∈ limits, ∃ i, i ≤ n ∧ l = gridPoint lo hi n i

/-- The effects of the instances in the closed interval `[a, b]`. -/
def closedEffects (xs eff : List K) (a b : K) : List K :=
  ((xs.zip eff).filter fun p => a ≤ p.1 ∧ p.1 ≤ b).map (·.2)

/-- The cost of one bin: 1e8 if it has fewer than `m` instances, else variance times width times a discount for
populous bins. -/
def binCost (xs eff : List K) (m : ℕ) (discount a b : K) : K :=
  if closedCount xs a b < m then 10 ^ 8
  else popVar (closedEffects xs eff a b) * (b - a) * (1 - discount * ((closedCount xs a b : K) / (xs.length : K)))

/-- The cost of a binning: the sum of the costs of its bins. -/
def binningCost (xs eff : List K) (m : ℕ) (discount : K) : List K → K
  | a :: b :: t => binCost xs eff m discount a b + binningCost xs eff m discount (b :: t)
  | _ => 0

end Effector.Spec
