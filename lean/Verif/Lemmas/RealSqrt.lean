import Verif.Model.Numpy
import Mathlib.Analysis.SpecialFunctions.Sqrt

/-! # The real numbers satisfy the square-root laws assumed by some theorems -/

namespace Effector

/-- `np.sqrt` on exact reals. -/
noncomputable instance : PySqrt ℝ := ⟨Real.sqrt⟩

/-- The class `LawfulSqrt` is inhabited: `ℝ` with `Real.sqrt`. -/
instance : LawfulSqrt ℝ where
  sqrt_nonneg := Real.sqrt_nonneg
  sqrt_mul_self := fun _ h => Real.mul_self_sqrt h

end Effector
