import Mathlib.Algebra.Polynomial.Eval.Defs
import Mathlib.Analysis.SpecialFunctions.Trigonometric.Basic
import Mathlib.Analysis.Complex.Trigonometric

/-!
# The digital Butterworth filter

What `scipy.signal.butter(N, Wn, btype="lowpass", analog=False)` is documented to design.  Nothing here refers to the model.
-/

namespace PT.Spec

open Finset Polynomial

/-- The frequency of the analog filter whose image under the bilinear transform is the normalized frequency `w` (the Nyquist frequency is
`w = 1`). -/
noncomputable def warp (w : ℝ) : ℝ := Real.tan (Real.pi * w / 2)

/-- The angle of pole `j` (of `N`) from the negative real axis. -/
noncomputable def poleAngle (N j : ℕ) : ℝ := Real.pi * (2 * j - (N - 1)) / (2 * N)

/-- The poles of the analog Butterworth filter lie equally spaced on the left half of the circle of radius `Ω`. -/
noncomputable def analogPole (N : ℕ) (Ω : ℝ) (j : ℕ) : ℂ := -(Ω * Complex.exp (poleAngle N j * Complex.I))

/-- The bilinear transform. -/
noncomputable def digitalPole (N : ℕ) (Ω : ℝ) (j : ℕ) : ℂ := (1 + analogPole N Ω j) / (1 - analogPole N Ω j)

/-- The denominator of the transfer function, in `z`. -/
noncomputable def butterDen (N : ℕ) (Ω : ℝ) : ℂ[X] := ∏ j ∈ range N, (X - C (digitalPole N Ω j))

/-- The factor of the numerator. -/
noncomputable def butterGain (N : ℕ) (Ω : ℝ) : ℂ := Ω ^ N / ∏ j ∈ range N, (1 - analogPole N Ω j)

/-- Numerator and denominator as lists of coefficients, in powers of `z⁻¹`: all zeros are at `z = -1`. -/
noncomputable def butterworth (N : ℕ) (w : ℝ) : List ℝ × List ℝ :=
  ((List.range (N + 1)).map fun k => (butterGain N (warp w)).re * N.choose k,
    (List.range (N + 1)).map fun k => ((butterDen N (warp w)).coeff (N - k)).re)

/-- The squared magnitude of the response of an ideal Butterworth filter of order `N` with cutoff `fc` at the frequency `f`, for the sample
rate `fs`. -/
noncomputable def butterPower (N : ℕ) (fs fc f : ℝ) : ℝ := 1 / (1 + (Real.tan (Real.pi * f / fs) / Real.tan (Real.pi * fc / fs)) ^ (2 * N))

/-- `u` approaches `v` exponentially fast. -/
def Settles (u v : ℕ → ℝ) : Prop := ∃ C r : ℝ, 0 ≤ r ∧ r < 1 ∧ ∀ n, |u n - v n| ≤ C * r ^ n

end PT.Spec
