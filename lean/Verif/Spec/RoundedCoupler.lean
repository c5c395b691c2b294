import Verif.Spec.SensitiveMesh
import Verif.Spec.RoundedBounded
import Verif.Model.RoundedCoupler

/-! Specification vocabulary for circuits of couplers, mirrors, Mzis and waveguides computed in floating-point arithmetic. -/

namespace PT.Spec
open PT

/-- `S` is what is computed for the component at this wavelength: sources, detectors, Mzis and waveguides as in C149, and couplers and
mirrors whose coupling and reflectivity are between 0 and 1. -/
def IsComputedPart (m : Libm) (mt : Libt) (T wl : ℝ) : (p : Part) → Matrix (Fin p.n) (Fin p.n) ℂ → Prop
  | .coupler k, S => ∃ k' : ℚ, k = k' ∧ 0 ≤ k' ∧ k' ≤ 1 ∧ S = Matrix.of fun i j => pairComplex (couplerR fl32 mt k' i j)
  | .mirror R, S => ∃ R' : ℚ, R = R' ∧ 0 ≤ R' ∧ R' ≤ 1 ∧ S = Matrix.of fun i j => pairComplex (mirrorR fl32 mt R' i j)
  | p, S => IsComputed m T wl p S

end PT.Spec
