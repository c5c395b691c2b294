import Verif.Spec.Components

/-! Specification vocabulary for how fast spectra can change. -/

namespace PT.Spec
open PT

/-- As a function of the wavenumber `1 / wl`, the scattering matrix of the component changes at most at the rate `τ`. -/
def ChangesBy (τ : ℝ) (p : Part) : Prop :=
  ∀ wl wl' i j, wl ≠ 0 → wl' ≠ 0 → ‖scattering p wl' i j - scattering p wl i j‖ ≤ τ * |1 / wl' - 1 / wl|

end PT.Spec
