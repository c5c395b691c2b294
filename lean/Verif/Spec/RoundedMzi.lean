import Verif.Model.RoundedMzi
import Verif.Spec.RoundedWave

/-!
# Specification for C147: Mzis in floating-point arithmetic
-/

namespace PT.Spec

/-- An Mzi: light at port 0 is shifted by `phi`; then it is mixed with the light at port 3, half the difference between the arms being
`theta`; all light is shifted by `x`. The same backwards. -/
noncomputable def mziBetween (x phi theta : ℝ) : Matrix (Fin 4) (Fin 4) ℂ :=
  let a := Complex.exp ((x + phi : ℝ) * Complex.I)
  let b := Complex.exp ((x : ℝ) * Complex.I)
  let c : ℂ := Real.cos theta
  let s : ℂ := Real.sin theta
  !![0, a * c, a * s, 0; a * c, 0, 0, -(b * s); a * s, 0, 0, b * c; 0, -(b * s), b * c, 0]

/-- The phase that light picks up in an arm. -/
noncomputable def armPhase (length neff wl0 ng wl : ℝ) : ℝ := 2 * Real.pi * (neff + (wl0 - wl) * (ng - neff) / wl0) * length / wl

/-- The matrix of the computed real and imaginary parts. -/
def computed (S : Fin 4 → Fin 4 → ℚ × ℚ) : Matrix (Fin 4) (Fin 4) ℂ := Matrix.of fun i j => pairComplex (S i j)

end PT.Spec
