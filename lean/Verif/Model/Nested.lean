import Verif.Model.Sim

/-!
# A network as a component of a network

`/repo/photontorch/networks/network.py:840-852,854-887`.
-/

namespace PT

/-- A network seen by the `action` of the network containing it: all ports of its components count
(`num_ports`, `/repo/photontorch/networks/network.py:74-80`), it is active if one of its components is
(`actions_at.any()`, `/repo/photontorch/networks/network.py:882-887`) and its action is the one of networks
(`/repo/photontorch/networks/network.py:840-852`), where `numSrc` is the number of its sources. -/
def netActor {W B : Type} (numSrc : ℕ) (cs : List (Actor W B)) : Actor W B :=
  ⟨(cs.map Actor.numPorts).sum, cs.any Actor.active, netAction numSrc cs⟩

end PT
