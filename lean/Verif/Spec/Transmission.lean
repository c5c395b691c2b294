import Verif.Props.Interferometer
import Verif.Model.Detector

/-!
# A link: a source, a waveguide and a detector

Nothing here refers to the model, except for the parts, the arguments of `link` and the type of tensors.
-/

namespace PT.Spec

/-- A source, a waveguide and a detector. -/
noncomputable def lineModules (z : Wg) : List (Str × Part) :=
  [("src".toList, .source), ("wg".toList, z.part), ("det".toList, .detector)]

/-- `nw.link("src:0", "0:wg:1", "0:det")`. -/
def lineLinks : List (List LinkArg) := [[.str "src:0".toList, .str "0:wg:1".toList, .str "0:det".toList]]

/-- The fraction of the power that passes a waveguide. -/
noncomputable def Wg.transmission (z : Wg) : ℝ := 10 ^ (-(z.loss * z.length) / 10)

/-- The number of bits that are compared, if `m` samples are taken per bit, `T` samples in all, and the light needs `D` samples. -/
def bitsReceived (T m D : ℕ) : ℕ := (T - (m / 2 + D) + m - 1) / m

/-- The detected powers of a step as a tensor: wavelengths, detectors, batches. -/
def powers {nw b : ℕ} (nd : ℕ) (o : Fin nw → Fin b → List ℝ) : Ten [nw, nd, b] := fun w k i => (o w i).getD k 0

/-- The currents of detector `k` at wavelength `w`. -/
def channel {nw nd b : ℕ} (y : List (Ten [nw, nd, b])) (w : Fin nw) (k : Fin nd) : List (Fin b → ℝ) := y.map fun r i => r w k i

end PT.Spec
