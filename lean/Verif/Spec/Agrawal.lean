import Mathlib.Analysis.Calculus.Deriv.Basic
import Mathlib.Analysis.SpecialFunctions.Exp

/-!
# Specification: the rate equation of an optical amplifier
-/

namespace PT.Spec

/-- The right-hand side of the rate equation of Agrawal and Olsson: unsaturated gain `G`, carrier lifetime `tc`, input power `p` in units of
the saturation power, integrated gain `h`. -/
noncomputable def gainRate (G tc p h : ℝ) : ℝ := (G - h - p * (Real.exp h - 1)) / tc

/-- `H` is the integrated gain of an amplifier that is switched on at time zero, for the input power `p`. -/
structure Follows (G tc : ℝ) (p H : ℝ → ℝ) : Prop where
  start : H 0 = 0
  equation : ∀ t, 0 ≤ t → HasDerivWithinAt H (gainRate G tc (p t) (H t)) (Set.Ici 0) t

end PT.Spec
