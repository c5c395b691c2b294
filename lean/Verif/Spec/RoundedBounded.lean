import Verif.Model.RoundedBounded
import Verif.Spec.Rounded
import Verif.Spec.Rounded32
import Mathlib.Analysis.SpecialFunctions.Log.Basic
import Mathlib.Analysis.SpecialFunctions.Pow.Real

/-!
# Specification for C145: bounded parameters in single precision
-/

namespace PT.Spec

/-- The functions of the library are accurate almost to the last digit of single precision, and the logistic function gives numbers of that
precision between 0 and 1 (the smallest results may be flushed to zero). -/
def AccurateT (m : Libt) : Prop :=
  (∀ d : ℚ, 0 < d → |(m.log d : ℝ) - Real.log d| ≤ |Real.log d| / 2 ^ 22) ∧
  (∀ w : ℚ, 0 ≤ m.sigmoid w ∧ m.sigmoid w ≤ 1 ∧ Binary32 (m.sigmoid w) ∧
    |(m.sigmoid w : ℝ) - 1 / (1 + Real.exp (-w))| ≤ 1 / (1 + Real.exp (-w)) / 2 ^ 22 + 1 / 2 ^ 120) ∧
  ∀ x : ℚ, 0 ≤ x → 0 ≤ m.sqrt x ∧ |(m.sqrt x : ℝ) - √(x : ℝ)| ≤ √(x : ℝ) / 2 ^ 23

end PT.Spec
