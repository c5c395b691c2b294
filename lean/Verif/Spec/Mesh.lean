import Verif.Spec.Device
import Verif.Spec.Sim
import Mathlib.LinearAlgebra.UnitaryGroup

/-! Specification vocabulary for meshes. -/

namespace PT.Spec
open Matrix

/-- A lossless component. -/
def LosslessPart (p : Part) : Prop := ∀ wl, Unitary (scattering p wl)

/-- Sides of the ports 0, 1, 2, 3 of a 4-port numbered anti-clockwise: 0 and 3 are opposite to 1 and 2. -/
def leftOf4 (i : ℕ) : Bool := i == 0 || i == 3

/-- A 4-port component without reflections: light crosses from the ports 0 and 3 to the ports 1 and 2 and back. -/
def FourPort (p : Part) : Prop :=
  p.n = 4 ∧ ∀ wl (i j : Fin p.n), scattering p wl i j ≠ 0 → leftOf4 i ≠ leftOf4 j

/-- A 2-port component without reflections. -/
def TwoPort (p : Part) : Prop :=
  p.n = 2 ∧ ∀ wl (i j : Fin p.n), scattering p wl i j ≠ 0 → i ≠ j

/-- A device with `N` sources and `N` detectors which can be simulated in every frequency-domain environment and
transforms the source amplitudes into the detected amplitudes by a unitary matrix at every wavelength. -/
def UnitaryDevice (N : ℕ) (d : Dev) : Prop :=
  ∀ (W : Type) (v : ℝ) (wl : W → ℝ) (env : SimEnv), env.freqdomain = true → env.t.length = 1 →
    (portsWith (d.plant v wl).src).length = N ∧ (portsWith (d.plant v wl).det).length = N ∧
    ∃ r, initNet (d.plant v wl) env = .ok (some r) ∧
      ∃ U : W → Matrix (Fin N) (Fin N) ℂ, (∀ w, U w ∈ Matrix.unitaryGroup (Fin N) ℂ) ∧
        ∀ (B : Type) (cs : List (Actor W B)) (src : ℕ → ℕ → W → B → ℝ × ℝ),
          ∃ o, forwardReduced r env cs src = .ok [o] ∧
            ∀ w b, (o w b).map asComplex = List.ofFn (U w *ᵥ fun k => asComplex (src 0 k w b))

/-- A device with `N` sources and `N` detectors which in every frequency-domain environment detects, at the wavelength
`wl₀`, the source amplitudes multiplied by `U`. -/
def Realizes (N : ℕ) (d : Dev) (wl₀ : ℝ) (U : Matrix (Fin N) (Fin N) ℂ) : Prop :=
  ∀ (W : Type) (v : ℝ) (wl : W → ℝ) (env : SimEnv), env.freqdomain = true → env.t.length = 1 →
    ∃ r, initNet (d.plant v wl) env = .ok (some r) ∧
      ∀ (B : Type) (cs : List (Actor W B)) (src : ℕ → ℕ → W → B → ℝ × ℝ),
        ∃ o, forwardReduced r env cs src = .ok [o] ∧
          ∀ w b, wl w = wl₀ → (o w b).map asComplex = List.ofFn (U *ᵥ fun k => asComplex (src 0 k w b))

/-- A device with `N` sources and `N` detectors which in every time-domain environment with time step `dt` detects, at the
wavelength `wl₀`, the source amplitudes multiplied by `U`, where the light from source `j` to detector `i` takes `D i j`
time steps; nothing arrives earlier. -/
def Arrives (N : ℕ) (d : Dev) (wl₀ v dt : ℝ) (D : Fin N → Fin N → ℕ) (U : Matrix (Fin N) (Fin N) ℂ) : Prop :=
  ∀ (W : Type) (wl : W → ℝ) (env : SimEnv), env.freqdomain = false → env.dt = some dt →
    ∃ r, initNet (d.plant v wl) env = .ok (some r) ∧
      ∀ (B : Type) (cs : List (Actor W B)) (src : ℕ → ℕ → W → B → ℝ × ℝ),
        ∃ out, forwardReduced r env cs src = .ok out ∧ out.length = env.t.length ∧
          ∀ t (ht : t < out.length) w b, wl w = wl₀ → (out[t] w b).map asComplex = List.ofFn fun i : Fin N =>
            ∑ j : Fin N, U i j * if D i j ≤ t then asComplex (src (t - D i j) j w b) else 0

end PT.Spec
