import Verif.Spec.Named

/-!
# Specification: light in a circuit of named components without sources
-/

namespace PT.Spec

/-- Light without sources that is multiplied by `z` in every time step: what leaves a component is scattered by it and as old as its delay. -/
structure Lasting (parts : List (Str × Part)) (cs : List Conn) (wl v dt : ℝ) (z : ℂ) (A B : Str → ℕ → ℂ) : Prop where
  joined : ∀ a i b j, Joined cs a i b j → A a i = B b j
  scattered : ∀ q ∈ parts, ∀ i : Fin q.2.n, B q.1 i = (z ^ roundSteps (q.2.delay v / dt))⁻¹ * ∑ j, scattering q.2 wl i j * A q.1 j

/-- There is no light without sources that grows or persists. -/
def Fades (parts : List (Str × Part)) (cs : List Conn) (wl v dt : ℝ) : Prop :=
  ∀ z : ℂ, 1 ≤ ‖z‖ → ∀ A B, Lasting parts cs wl v dt z A B → ∀ q ∈ parts, ∀ i < q.2.n, A q.1 i = 0

end PT.Spec
