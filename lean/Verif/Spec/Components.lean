import Verif.Model.Components

/-!
# What is expected of components
-/

namespace PT.Spec

/-- The complex scattering matrix of a component: entry `(i, j)` is what leaves port `i` when a unit wave enters
port `j`. -/
noncomputable def scattering (p : Part) (wl : ℝ) : Matrix (Fin p.n) (Fin p.n) ℂ := cx (p.S wl).re (p.S wl).im

/-- SymmetricS: transmission is the same in both directions. -/
def SymmetricS {n : ℕ} (S : Matrix (Fin n) (Fin n) ℂ) : Prop := ∀ i j, S i j = S j i

/-- All power that enters leaves again. -/
def Unitary {n : ℕ} (S : Matrix (Fin n) (Fin n) ℂ) : Prop := ∀ v, power (S.mulVec v) = power v

/-- The components that are documented as passive and lossless (a waveguide or a coupler with length has a loss
parameter, which has to be zero), with parameters in their documented ranges. -/
def IdealPart : Part → Prop
  | .connection => True
  | .mirror R => 0 ≤ R ∧ R ≤ 1
  | .waveguide _ loss _ _ _ _ => loss = 0
  | .coupler k => 0 ≤ k ∧ k ≤ 1
  | .longCoupler _ k loss _ _ _ _ => 0 ≤ k ∧ k ≤ 1 ∧ loss = 0
  | .realisticCoupler .. => True
  | .mzi .. => True
  | _ => False

/-- The components that are documented as passive: the above with non-negative loss and length, terminations,
and grating couplers with reflections and transmission between 0 and 1. -/
def PassivePart : Part → Prop
  | .term => True
  | .source => True
  | .detector => True
  | .connection => True
  | .mirror R => 0 ≤ R ∧ R ≤ 1
  | .waveguide length loss _ _ _ _ => 0 ≤ length ∧ 0 ≤ loss
  | .coupler k => 0 ≤ k ∧ k ≤ 1
  | .longCoupler length k loss _ _ _ _ => 0 ≤ k ∧ k ≤ 1 ∧ 0 ≤ length ∧ 0 ≤ loss
  | .realisticCoupler .. => True
  | .mzi _ _ _ _ _ length loss => 0 ≤ length ∧ 0 ≤ loss
  | .grating R Rin Tmax _ _ => 0 ≤ R ∧ R ≤ 1 ∧ 0 ≤ Rin ∧ Rin ≤ 1 ∧ 0 ≤ Tmax ∧ Tmax ≤ 1
  | _ => False

/-- The fraction of the power that is left after a loss (in dB/m) over a length (in m). -/
noncomputable def remaining (loss length : ℝ) : ℝ := (10 : ℝ) ^ (-(loss * length) / 10)

end PT.Spec
