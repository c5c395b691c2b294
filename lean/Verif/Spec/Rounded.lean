import Mathlib.Data.Rat.Floor

/-! # Floating-point numbers, for the statements about rounded arithmetic -/

namespace PT.Spec

/-- The finite numbers of the format IEEE 754 binary64, except that the exponent is not bounded from above. -/
def Binary64 (x : ℚ) : Prop := ∃ m e : ℤ, |m| < 2 ^ 53 ∧ -1074 ≤ e ∧ x = m * 2 ^ e

/-- `y` is a floating-point number nearest to `x`. -/
def Nearest (x y : ℚ) : Prop := Binary64 y ∧ ∀ z, Binary64 z → |y - x| ≤ |z - x|

/-- Floating-point numbers near `x` are the multiples of `2 ^ e`. -/
def Spacing (x : ℚ) (e : ℤ) : Prop :=
  -1074 ≤ e ∧ |x| < 2 ^ (e + 53) ∧ (e = -1074 ∨ 2 ^ (e + 52) ≤ |x|)

/-- Far enough from zero for 53 significant digits. -/
def Normal (x : ℚ) : Prop := 2 ^ (-1022 : ℤ) ≤ |x|

end PT.Spec
