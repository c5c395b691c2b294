import Mathlib.Analysis.Complex.Norm
import Mathlib.Analysis.SpecialFunctions.Complex.Circle
import Mathlib.Logic.Relation
import Verif.Spec.Components
import Verif.Spec.Sim

/-! Specification vocabulary for settling circuits and modulated sources. -/

namespace PT.Spec
open Matrix

/-- No wave, of whatever frequency, circulates in the circuit for ever: with a factor `z` of modulus one per time step, the
circuit equations without sources have no solution but zero. -/
def Damped {ι : Type} [Fintype ι] (C S : Matrix ι ι ℂ) (d : ι → ℕ) : Prop :=
  ∀ z : ℂ, ‖z‖ = 1 → ∀ a, a = C *ᵥ (S *ᵥ fun k => (z ^ d k)⁻¹ * a k) → a = 0

/-- No wave that circulates in the circuit without sources grows or persists. -/
def Stable {ι : Type} [Fintype ι] (C S : Matrix ι ι ℂ) (d : ι → ℕ) : Prop :=
  ∀ z : ℂ, 1 ≤ ‖z‖ → ∀ a, a = C *ᵥ (S *ᵥ fun k => (z ^ d k)⁻¹ * a k) → a = 0

/-- If the power at every port is counted with a suitable weight, every wave has lost some of it at the next ports. Weights that
decrease along the light allow for gain. -/
def LosesWeighted {ι : Type} [Fintype ι] (C S : Matrix ι ι ℂ) : Prop :=
  ∃ μ : ι → ℝ, (∀ i, 0 < μ i) ∧ ∀ u : ι → ℂ, u ≠ 0 → ∑ i, μ i * Complex.normSq ((C *ᵥ (S *ᵥ u)) i) < ∑ i, μ i * Complex.normSq (u i)

/-- The component passes on the full power of no wave but the zero wave. -/
def Absorbs (p : Part) : Prop := ∀ wl u, power (scattering p wl *ᵥ u) = power u → u = 0

/-- No wave that keeps its full power enters at port `j`. -/
def AbsorbsAt {ι : Type} [Fintype ι] (S : Matrix ι ι ℂ) (j : ι) : Prop := ∀ u, power (S *ᵥ u) = power u → u j = 0

/-- Light entering port `j` without loss may be scattered to a port connected with port `i`. -/
def Passes {ι : Type} [Fintype ι] (C S : Matrix ι ι ℂ) (j i : ι) : Prop := ¬AbsorbsAt S j ∧ ∃ k, S k j ≠ 0 ∧ C i k ≠ 0

/-- Light that comes back to where it was has been absorbed in part. -/
def LoopsAbsorb {ι : Type} [Fintype ι] (C S : Matrix ι ι ℂ) : Prop := ∀ i, ¬Relation.TransGen (Passes C S) i i

/-- The amplitudes `amp`, multiplied by `z` in each time step. -/
noncomputable def modulated {W B : Type} (z : W → ℂ) (amp : ℕ → W → B → ℝ × ℝ) (t k : ℕ) (w : W) (b : B) : ℝ × ℝ :=
  ((z w ^ t * asComplex (amp k w b)).re, (z w ^ t * asComplex (amp k w b)).im)

/-- The factor per time step `dt` that a field of wavelength `wl₂` has relative to the carrier of wavelength `wl₁`, where `c` is the
speed of light. -/
noncomputable def detuning (c wl₁ wl₂ dt : ℝ) : ℂ :=
  Complex.exp ((-(2 * Real.pi * (c / wl₂ - c / wl₁) * dt) : ℝ) * Complex.I)

/-- Two lists of fields of the same length, equal up to `ε` and the common factor `x`. -/
def CloseUpTo (ε : ℝ) (x : ℂ) (l l' : List (ℝ × ℝ)) : Prop :=
  l.length = l'.length ∧ ∀ (q : ℕ) (y y' : ℝ × ℝ), l[q]? = some y → l'[q]? = some y' → ‖asComplex y - x * asComplex y'‖ < ε

end PT.Spec
