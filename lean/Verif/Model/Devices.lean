import Verif.Model.Py

/-!
# Model of the devices of modules (`Module.to`, `cpu`, `cuda`, `is_cuda`) and of `terminate` on them

Modules are given by what matters for devices: the python object, which has the attribute `device`, the dictionaries of
tensors it refers to, and its submodules. A shallow copy of a module is another object with the same dictionaries.
-/

namespace PT

/-- A `torch.device`: the cpu or a gpu with an index, `/repo/photontorch/nn/nn.py:138,187-193`. Devices written without
an index are outside the model. -/
inductive Place
  | cpu
  | cuda (index : ℕ)
  deriving DecidableEq, Repr

/-- The submodules of a module in order (the dictionary `_modules`, `/repo/photontorch/nn/nn.py:171-172`): `obj` is the
identity of the python object, `store` that of its dictionaries of parameters and buffers. -/
inductive Submodules
  | nil
  | cons (obj store : ℕ) (children rest : Submodules)
  deriving Repr

/-- Where the attribute `device` of objects points to (`none` for python's `None`) and where the tensors of dictionaries
are, `/repo/photontorch/nn/nn.py:138,171-177`. All tensors of one dictionary move together. -/
structure Devices where
  attr : ℕ → Option Place
  tensor : ℕ → Place

/-- `self.device = value`, `/repo/photontorch/nn/nn.py:138,174-176`. -/
def Devices.setAttr (s : Devices) (o : ℕ) (d : Option Place) : Devices :=
  { s with attr := fun x => if x = o then d else s.attr x }

/-- Moving the tensors of one dictionary, `/repo/photontorch/nn/nn.py:170`; without a device they stay. -/
def Devices.setTensor (s : Devices) (st : ℕ) : Option Place → Devices
  | none => s
  | some p => { s with tensor := fun x => if x = st then p else s.tensor x }

/-- `torch.nn.Module.to` of all modules of a list, `/repo/photontorch/nn/nn.py:170`: moves the tensors of the modules and of
all their submodules; `d` is `none` if no device was given, as in `to(torch.float64)`. -/
def torchTo (d : Option Place) : Submodules → Devices → Devices
  | .nil, s => s
  | .cons _ st children rest, s => torchTo d rest ((torchTo d children s).setTensor st d)

/-- `Module.to` of all modules of a list, `/repo/photontorch/nn/nn.py:168-177`: `super().to`, then `to` of the submodules, then
`new.device` is the device found among the arguments, `None` if there is none. -/
def moduleTo (d : Option Place) : Submodules → Devices → Devices
  | .nil, s => s
  | .cons o st children rest, s =>
    moduleTo d rest ((moduleTo d children (torchTo d (.cons o st children .nil) s)).setAttr o d)

/-- One module on its own, `/repo/photontorch/nn/nn.py:168`. -/
def Submodules.single (o st : ℕ) (children : Submodules) : Submodules := .cons o st children .nil

/-- `Module.cpu`, `/repo/photontorch/nn/nn.py:179-181`. -/
def moduleCpu (m : Submodules) (s : Devices) : Devices := moduleTo (some .cpu) m s

/-- `Module.cuda`, `/repo/photontorch/nn/nn.py:183-193`: without argument the first gpu. -/
def moduleCuda (index : Option ℕ) (m : Submodules) (s : Devices) : Devices :=
  match index with
  | none => moduleTo (some (.cuda 0)) m s
  | some i => moduleTo (some (.cuda i)) m s

/-- `Module.is_cuda` of an object, `/repo/photontorch/nn/nn.py:163-166`: `None` has no attribute `type`. -/
def isCuda (s : Devices) (o : ℕ) : Except PyErr Bool :=
  match s.attr o with
  | none => .error .attributeError
  | some .cpu => .ok false
  | some (.cuda _) => .ok true

/-- The last submodules of a list, `/repo/photontorch/networks/network.py:339-340,346`. -/
def Submodules.append : Submodules → Submodules → Submodules
  | .nil, m => m
  | .cons o st c r, m => .cons o st c (r.append m)

/-- `Network.terminate`, `/repo/photontorch/networks/network.py:335-347`, of the network `.single o st children` without a name
and with free ports, with the terminations `terms` (already copied). `copied`, `obj` and `store` are the identities of the
shallow copy, of the new network and of its dictionaries. The terms are moved to the first gpu if the network is on any gpu.
`Module.__init__` puts the new network on the cpu (nn.py:138) and its buffers are created there (component.py:58-80). Its
submodules are the copy, the terms and, since `nw.base = self` adds a component, the original. -/
def terminateOn (o st : ℕ) (children terms : Submodules) (copied obj store : ℕ) (s : Devices) :
    Except PyErr (Submodules × Devices) :=
  match isCuda s o with
  | .error e => .error e
  | .ok onGpu =>
    .ok (.single obj store (.cons copied st children (terms.append (.single o st children))),
      (((if onGpu then moduleCuda none terms s else s).setAttr copied (s.attr o)).setAttr obj (some .cpu)).setTensor store
        (some .cpu))

/-- `ReckNxN.terminate`, `ClementsNxN.terminate` and `RingNetwork.terminate`, `/repo/photontorch/networks/reck.py:157-159`,
`/repo/photontorch/networks/clements.py:270-272`, `/repo/photontorch/networks/rings.py:223-225`: `ret.to(self.device)`. -/
def terminateMeshOn (o st : ℕ) (children terms : Submodules) (copied obj store : ℕ) (s : Devices) :
    Except PyErr (Submodules × Devices) :=
  match terminateOn o st children terms copied obj store s with
  | .error e => .error e
  | .ok r => .ok (r.1, moduleTo (s.attr o) r.1 r.2)

end PT
