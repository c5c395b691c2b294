import Verif.Model.Train

/-!
# Model of `state_dict` and `load_state_dict`

Both are torch's; what they save and load is what `Module.__setattr__` registers, `/repo/photontorch/nn/nn.py:139-162`. The buffers that
`Component.__init__` registers (`/repo/photontorch/components/component.py:60-80`) have the same values for all components of one class and
are left out.
-/

namespace PT

/-- The entries of a `state_dict` that belong to one component: the tensors in `_parameters` and `_buffers` by the names under which they are
registered, `/repo/photontorch/nn/nn.py:143-146`, and the weights of an `Mmi`, `/repo/photontorch/components/mmis.py:82-83`. -/
structure Saved where
  entries : Str → Option EReal
  weights : Option MmiWeights

/-- `state_dict()` of a component; attributes that are no tensors are not in it. What is registered: `/repo/photontorch/nn/nn.py:139-162`. -/
noncomputable def Obj.saved (o : Obj) : Saved :=
  ⟨fun k => match o.attrs.params k with
    | some v => some v.raw
    | none => (o.attrs.buffers k).map AVal.raw, o.weights⟩

/-- `tensor.copy_(x)` for a registered tensor: the number changes, its kind and the bounds (an attribute of the python object,
`/repo/photontorch/nn/nn.py:93`) stay. Numbers that are not finite occur only as weights of bounded parameters. -/
noncomputable def AVal.store (x : EReal) : AVal → AVal
  | .param _ => .param x.toReal
  | .buffer _ => .buffer x.toReal
  | .bounded _ lo hi => .bounded x lo hi
  | v => v

/-- The shape of the weights of an `Mmi`, `/repo/photontorch/components/mmis.py:75`. -/
def MmiWeights.shape (w : MmiWeights) : ℕ × ℕ × ℕ := (w.k, w.m, w.n)

open Classical in
/-- `load_state_dict(state)` of a component (strict): RuntimeError if the names or shapes do not agree, otherwise the numbers are copied into the
tensors registered by `/repo/photontorch/nn/nn.py:139-162`. (Torch copies what it can before it raises; that state is not modelled.) -/
noncomputable def Obj.load (o : Obj) (s : Saved) : Except PyErr Obj :=
  if (∀ k, (o.saved.entries k).isSome = (s.entries k).isSome) ∧ o.weights.map MmiWeights.shape = s.weights.map MmiWeights.shape then
    .ok { o with
      attrs := { o.attrs with
        params := fun k => (o.attrs.params k).map fun v => v.store ((s.entries k).getD 0)
        buffers := fun k => (o.attrs.buffers k).map fun v => v.store ((s.entries k).getD 0) }
      weights := s.weights }
  else .error .runtimeError

/-- `state_dict()` of a network: the entries of its components (of all depths), prefixed with their names; the components are those registered by
`/repo/photontorch/networks/network.py:163-176`. -/
noncomputable def saveNet (os : List (Str × Obj)) : List (Str × Saved) := os.map fun p => (p.1, p.2.saved)

/-- `load_state_dict(state)` of a network: the names of the components must be the same, and each of them loads its own entries; components as
in `saveNet`, `/repo/photontorch/networks/network.py:163-176`. -/
noncomputable def loadNet (os : List (Str × Obj)) (sd : List (Str × Saved)) : Except PyErr (List (Str × Obj)) :=
  if ∀ x ∈ sd.map Prod.fst, x ∈ os.map Prod.fst then
    os.mapM fun p => match sd.find? (fun q => q.1 == p.1) with
      | none => .error .runtimeError
      | some q => (p.2.load q.2).map fun o => (p.1, o)
  else .error .runtimeError

end PT
