import Verif.Spec.Device
import Verif.Spec.Sensitive

/-! Specification vocabulary for circuits whose components are not quite what they should be. -/

namespace PT.Spec
open PT

/-- The component `p'` can take the place of `p`: ports, delay and role are the same, and at the wavelengths `wl` the entries of the
scattering matrix differ by at most `δ`. -/
structure Resembles {W : Type} (δ : ℝ) (wl : W → ℝ) (p p' : Part) : Prop where
  comp : p'.comp = p.comp
  ports : p'.n = p.n
  delay : ∀ v, p'.delay v = p.delay v
  near : ∀ w i j (hi : i < p.n) (hj : j < p.n) (hi' : i < p'.n) (hj' : j < p'.n),
    ‖scattering p' (wl w) ⟨i, hi'⟩ ⟨j, hj'⟩ - scattering p (wl w) ⟨i, hi⟩ ⟨j, hj⟩‖ ≤ δ

/-- As `Resembles`, but the delays may be different. -/
structure Looks {W : Type} (δ : ℝ) (wl : W → ℝ) (p p' : Part) : Prop where
  comp : p'.comp = p.comp
  ports : p'.n = p.n
  near : ∀ w i j (hi : i < p.n) (hj : j < p.n) (hi' : i < p'.n) (hj' : j < p'.n),
    ‖scattering p' (wl w) ⟨i, hi'⟩ ⟨j, hj'⟩ - scattering p (wl w) ⟨i, hi⟩ ⟨j, hj⟩‖ ≤ δ

/-- The delays (in seconds) are not negative, and the same in time steps `dt`, rounded to the nearest. -/
def SameSteps (dt x x' : ℝ) : Prop := 0 ≤ x ∧ 0 ≤ x' ∧ round (x' / dt) = round (x / dt)

/-- The optical length of a waveguide with dispersion at the wavelength `wl`: its length times the effective index, which depends linearly on
the wavelength. -/
noncomputable def opticalLength (length neff wl0 ng wl : ℝ) : ℝ := length * (neff - (wl - wl0) * (ng - neff) / wl0)

/-- The angle whose squared sine is the power coupled by a realistic directional coupler at the wavelength `wl`: coupling of the bends plus coupling of
the straight part, both of second order in the wavelength. -/
noncomputable def couplingAngle (length k0 n0 de1k0 de1n0 de2k0 de2n0 wl0 wl : ℝ) : ℝ :=
  (k0 + de1k0 * (wl - wl0) + de2k0 * (wl - wl0) ^ 2 / 2) + Real.pi * (n0 + de1n0 * (wl - wl0) + de2n0 * (wl - wl0) ^ 2 / 2) / wl * length

/-- Two circuits built in the same way, to any nesting depth, with components related by `R` in the same places. -/
inductive Varied (R : Part → Part → Prop) : Dev → Dev → Prop
  | part (p p' : Part) : R p p' → 0 < p.n → 0 < p'.n → Varied R p.dev p'.dev
  | named (d d' : Dev) (x : Option Str) : Varied R d d' →
      Varied R { d with comp := { d.comp with name := x } } { d' with comp := { d'.comp with name := x } }
  | net (name : Option Str) (modules : List (Str × Dev × Dev)) (cs : List Conn) (d d' : Dev) :
      (∀ q ∈ modules, Varied R q.2.1 q.2.2) → GoodConns cs → UsedOnce cs → Contiguous cs →
      mkDev name (modules.map fun q => (q.1, q.2.1)) (cs.map Conn.text) = .ok d →
      mkDev name (modules.map fun q => (q.1, q.2.2)) (cs.map Conn.text) = .ok d' → Varied R d d'

end PT.Spec
