import Verif.Model.Checkpoint

/-!
# Model of components that are in a network under several names

`self.north = self.east = self.south = pt.Detector()` (`/repo/examples/03_circuit_optimization_by_backpropagation.ipynb`) registers one object
three times, `/repo/photontorch/networks/network.py:163-176`.
-/

namespace PT

/-- The components of a network: names, and the objects they stand for; `/repo/photontorch/networks/network.py:163-176,286-303`. -/
structure Shelf where
  names : List (Str × ℕ)
  objs : ℕ → Obj

/-- What the network uses (scattering matrices, ports, delays) are the objects by name; they are not copied,
`/repo/photontorch/networks/network.py:299-303,411-412`. -/
def Shelf.components (s : Shelf) : List (Str × Obj) := s.names.map fun p => (p.1, s.objs p.2)

/-- A step of an optimizer of `network.parameters()`, which lists every parameter once, however many names its component has
(`/repo/photontorch/networks/network.py:176` registers the component itself). -/
noncomputable def Shelf.train (s : Shelf) (δ : ℕ → (Str → ℝ) × (ℕ → ℕ → ℕ → ℝ)) : Shelf := { s with objs := fun i => (s.objs i).train (δ i) }

/-- `load_state_dict` goes through the names in the order of registration and loads the entries of each name into its object; components as
registered by `/repo/photontorch/networks/network.py:176`. -/
noncomputable def loadInto (sd : List (Str × Saved)) : List (Str × ℕ) → (ℕ → Obj) → Except PyErr (ℕ → Obj)
  | [], objs => .ok objs
  | (x, i) :: l, objs =>
    match sd.find? (fun q => q.1 == x) with
    | none => .error .runtimeError
    | some q =>
      match (objs i).load q.2 with
      | .error e => .error e
      | .ok o => loadInto sd l (Function.update objs i o)

/-- `load_state_dict` of a network whose components may have several names, `/repo/photontorch/networks/network.py:176`. -/
noncomputable def Shelf.load (s : Shelf) (sd : List (Str × Saved)) : Except PyErr Shelf :=
  if ∀ x ∈ sd.map Prod.fst, x ∈ s.names.map Prod.fst then (loadInto sd s.names s.objs).map fun objs => { s with objs := objs }
  else .error .runtimeError

end PT
