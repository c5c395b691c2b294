import Verif.Model.Sim

/-!
# The warning of `Network.initialize`
-/

namespace PT

/-- Whether `initialize` warns that the time step might be too large, `/repo/photontorch/networks/network.py:444-454`: after the early
return for networks that are not terminated or have no memory. -/
noncomputable def Plant.warns {W : Type} (p : Plant W) (env : SimEnv) : Prop :=
  p.terminated ∧ (p.mcPorts env).length ≠ 0 ∧ ∃ i, 0 < p.seconds env i ∧ p.steps env i < 1

end PT
