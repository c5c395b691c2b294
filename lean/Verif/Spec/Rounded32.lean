import Mathlib.Data.Rat.Floor

/-! # Single-precision numbers, for the statements about rounded arithmetic of tensors -/

namespace PT.Spec

/-- The finite numbers of the format IEEE 754 binary32, except that the exponent is not bounded from above. -/
def Binary32 (x : ℚ) : Prop := ∃ m e : ℤ, |m| < 2 ^ 24 ∧ -149 ≤ e ∧ x = m * 2 ^ e

/-- `y` is a single-precision number nearest to `x`. -/
def Nearest32 (x y : ℚ) : Prop := Binary32 y ∧ ∀ z, Binary32 z → |y - x| ≤ |z - x|

/-- Single-precision numbers near `x` are the multiples of `2 ^ e`. -/
def Spacing32 (x : ℚ) (e : ℤ) : Prop :=
  -149 ≤ e ∧ |x| < 2 ^ (e + 24) ∧ (e = -149 ∨ 2 ^ (e + 23) ≤ |x|)

/-- Far enough from zero for 24 significant digits. -/
def Normal32 (x : ℚ) : Prop := 2 ^ (-126 : ℤ) ≤ |x|

end PT.Spec
