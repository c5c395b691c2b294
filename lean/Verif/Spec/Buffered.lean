import Verif.Spec.Named
import Verif.Spec.Sensitive

/-! Specification vocabulary for circuits in which light often passes components that absorb. -/

namespace PT.Spec
open PT Matrix

/-- Of the amplitude of the light that enters the component, at most the fraction `ρ` leaves it. -/
def LosesBy (ρ : ℝ) (p : Part) : Prop := ∀ wl u, power (scattering p wl *ᵥ u) ≤ ρ ^ 2 * power u

/-- Every connection leads from or to a component that absorbs. -/
def BuffersBy (ρ : ℝ) (parts : List (Str × Part)) (cs : List Conn) : Prop :=
  ∀ a i b j, Joined cs a i b j → ∀ p q, (a, p) ∈ parts → (b, q) ∈ parts → LosesBy ρ p ∨ LosesBy ρ q

end PT.Spec
