import Verif.Model.RoundedWave
import Verif.Spec.Weights

/-!
# Specification for C144: waveguides in floating-point arithmetic
-/

namespace PT.Spec

/-- The functions of the libraries are accurate almost to the last digit. -/
def Accurate (m : Libm) : Prop :=
  (∀ x : ℚ, |x| ≤ 1000 → |(m.cos x : ℝ) - Real.cos x| ≤ 1 / 2 ^ 52 ∧ |(m.sin x : ℝ) - Real.sin x| ≤ 1 / 2 ^ 52) ∧
    ∀ x : ℚ, |x| ≤ 100 → |(m.pow10 x : ℝ) - (10 : ℝ) ^ (x : ℝ)| ≤ (10 : ℝ) ^ (x : ℝ) / 2 ^ 50

/-- The phase light picks up in a waveguide, if both parts of its effective index are counted positive. -/
noncomputable def turn (g : Wg) (wl : ℝ) : ℝ :=
  2 * Real.pi * (|g.neff| + |(wl - g.wl0) * (g.ng - g.neff) / g.wl0|) * g.length / wl

/-- The arguments of a waveguide, read as real numbers. -/
def waveguideOf (length loss neff wl0 ng phase : ℚ) : Wg := ⟨length, loss, neff, wl0, ng, phase⟩

/-- Arguments of a size that occurs (in meters, and in dB/m for the loss), far from overflow. -/
structure Usual (length loss neff wl0 ng wl : ℚ) : Prop where
  length_ok : 0 ≤ length ∧ length ≤ 2 ^ 20
  loss_ok : -700 ≤ loss * length ∧ loss * length ≤ 1000
  neff_ok : |neff| ≤ 2 ^ 20
  ng_ok : |ng| ≤ 2 ^ 20
  wl0_ok : 1 / 2 ^ 40 ≤ wl0 ∧ wl0 ≤ 2 ^ 20
  wl_ok : 1 / 2 ^ 40 ≤ wl ∧ wl ≤ 2 ^ 20

/-- A pair of real and imaginary part as a complex number. -/
def pairComplex (p : ℚ × ℚ) : ℂ := ⟨p.1, p.2⟩

end PT.Spec
