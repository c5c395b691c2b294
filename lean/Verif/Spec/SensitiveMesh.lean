import Verif.Spec.Sensitive
import Verif.Spec.RoundedMzi

/-! Specification vocabulary for circuits of Mzis and waveguides computed in floating-point arithmetic. -/

namespace PT.Spec
open PT

/-- `S` is what is computed for the component at this wavelength. The arguments are numbers of a usual size, and light picks up a
phase of at most `T` in the component. Sources and detectors, Mzis and waveguides that do not amplify are considered. -/
def IsComputed (m : Libm) (T wl : ℝ) : (p : Part) → Matrix (Fin p.n) (Fin p.n) ℂ → Prop
  | .source, S => S = 0
  | .detector, S => S = 0
  | .mzi phi theta neff ng wl0 length loss, S => ∃ phi' theta' neff' ng' wl0' length' loss' wl' : ℚ,
      (phi = phi' ∧ theta = theta' ∧ neff = neff' ∧ ng = ng' ∧ wl0 = wl0' ∧ length = length' ∧ loss = loss' ∧ wl = wl') ∧
      Usual length' loss' neff' wl0' ng' wl' ∧ |phi'| ≤ 500 ∧ |theta'| ≤ 1000 ∧
      turn (waveguideOf length' loss' neff' wl0' ng' 0) wl' ≤ T ∧ S = computed (mziR fl fl32 m phi' theta' length' neff' wl0' ng' wl')
  | .waveguide length loss neff wl0 ng phase, S => ∃ length' loss' neff' wl0' ng' phase' wl' : ℚ,
      (length = length' ∧ loss = loss' ∧ neff = neff' ∧ wl0 = wl0' ∧ ng = ng' ∧ phase = phase' ∧ wl = wl') ∧
      Usual length' loss' neff' wl0' ng' wl' ∧ 0 ≤ loss' ∧ |phase'| ≤ 500 ∧
      turn (waveguideOf length' loss' neff' wl0' ng' phase') wl' ≤ T ∧
      S = Matrix.of fun i j => if i = j then 0 else
        pairComplex (waveguideR fl fl32 m length' loss' neff' wl0' ng' (phaseStoredR fl phase') wl')
  | _, _ => False

end PT.Spec
