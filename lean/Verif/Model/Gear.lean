import Verif.Model.Device
import Verif.Model.Nested
import Verif.Model.Soa

/-!
# Model of components with matrices, delays and actions, and of networks of them

`/repo/photontorch/networks/network.py:279-306,840-887`, `/repo/photontorch/components/soas.py`.
-/

namespace PT

variable {W B : Type}

/-- A component as the network containing it uses it: its buffers, matrices and delays
(`/repo/photontorch/networks/network.py:854-887`) and its action (`/repo/photontorch/networks/network.py:840-852`). -/
structure Gear (W B : Type) where
  dev : Dev
  actor : Actor W B

/-- A basic component without active ports; its action, which is never called, leaves the output as it is,
`/repo/photontorch/components/component.py:192-204`. -/
noncomputable def Part.gear (p : Part) : Gear W B := ⟨p.dev, ⟨p.n, false, fun _ _ x => x⟩⟩

/-- `BaseSoa.set_S`, `set_C`, `set_actions_at`, `/repo/photontorch/components/soas.py:74,117-127`, with the given delays. -/
def soaDev (delay : ℝ → ℕ → ℝ) : Dev :=
  ⟨soa, fun _ i j => if i = j ∧ i < 3 then 1 else 0, fun _ _ _ => 0, delay⟩

/-- `Soa` in an environment with time step `dt`, `/repo/photontorch/components/soas.py:76-98,130-167`; it does not set delays. -/
noncomputable def SoaParams.gear (dt : ℝ) (q : SoaParams) : Gear W B := ⟨soaDev fun _ _ => 0, soaActor dt q.rate⟩

/-- `AgrawalSoa` in an environment with time step `dt` and speed of light `c`, `/repo/photontorch/components/soas.py:170-284`; only
port 0 is delayed (265-266). -/
noncomputable def Agrawal.gear (dt c : ℝ) (q : Agrawal) : Gear W B :=
  ⟨soaDev fun v i => if i = 0 then q.delay v else 0, soaActor dt (q.rate c)⟩

/-- The components of a network in the order of `self.components.values()`, as `Network.action` goes through them,
`/repo/photontorch/networks/network.py:300-303,844-846`. -/
def gearActors (modules : List (Str × Gear W B)) (conns : List Str) : List (Actor W B) :=
  (usedNames (conns.map stripConn)).filterMap fun x => (dictGet x modules).map fun g => g.actor

/-- The network made of the given modules and connections, `/repo/photontorch/networks/network.py:279-306,840-887`.
Simplification as for `mkNet`: every entry of the dictionary is a component of its own. -/
def mkGear (name : Option Str) (modules : List (Str × Gear W B)) (conns : List Str) : Except PyErr (Gear W B) :=
  (mkDev name (modules.map fun p => (p.1, p.2.dev)) conns).map fun d =>
    ⟨d, netActor ((List.range d.comp.n).filter fun i => d.comp.src.getD i false).length (gearActors modules conns)⟩

end PT
