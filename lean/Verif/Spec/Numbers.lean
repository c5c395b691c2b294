import Verif.Model.Train
import Verif.Spec.Train

/-! Specification vocabulary for C121 and C122. -/

namespace PT.Spec
open PT

/-- The arguments of a component make sense at a wavelength: ratios are between zero and one, and nothing is divided by zero. -/
def Sensible (wl : ℝ) : Part → Prop
  | .mirror R => 0 ≤ R ∧ R ≤ 1
  | .coupler k => 0 ≤ k ∧ k ≤ 1
  | .longCoupler _ k _ _ _ _ _ => 0 ≤ k ∧ k ≤ 1
  | .waveguide _ _ _ wl0 _ _ => wl0 ≠ 0 ∧ wl ≠ 0
  | .mzi _ _ _ _ wl0 _ _ => wl0 ≠ 0 ∧ wl ≠ 0
  | .realisticCoupler .. => wl ≠ 0
  | .grating _ _ Tmax bandwidth wl0 => if bandwidth = 0 then wl ≠ wl0 else 0 ≤ Tmax
  | _ => True

/-- The logistic function. -/
noncomputable def logistic (v : ℝ) : ℝ := 1 / (1 + Real.exp (-v))

end PT.Spec
