import Verif.Model.Sim

/-!
# Model of `Network._handle_source`

`/repo/photontorch/networks/network.py:586-720`.  Conversion of lists and numpy arrays to tensors (612-623) is
not modelled: the argument is a tensor.
-/

namespace PT

/-- A tensor with optionally named dimensions: sizes, names, and the element at given coordinates
(only coordinates within the sizes are meaningful). torch guarantees that there are as many names as sizes and that
given names are distinct. Simplification: names are single characters (all longer names are rejected, like all
other characters),
`/repo/photontorch/networks/network.py:586-720`. -/
structure NTensor where
  shape : List ℕ
  names : List (Option Char)
  elem : List ℕ → ℝ

/-- The guarantees of torch,
`/repo/photontorch/networks/network.py:586-720`. -/
structure NTensor.Valid (x : NTensor) : Prop where
  length : x.names.length = x.shape.length
  distinct : (x.names.filterMap id).Nodup

/-- A tensor with dimensions `c`, `t`, `w`, `s` (or nodes), `b`,
`/repo/photontorch/networks/network.py:667`. -/
structure Tensor5 where
  c : ℕ
  t : ℕ
  w : ℕ
  s : ℕ
  b : ℕ
  elem : ℕ → ℕ → ℕ → ℕ → ℕ → ℝ

/-- `_possible_names`, `/repo/photontorch/networks/network.py:610`. -/
def sourceNames : List Char := ['c', 't', 'w', 's', 'b']

/-- `source[None]`: a new first dimension of size 1, `/repo/photontorch/networks/network.py:642`. -/
def NTensor.unsqueezeFront (x : NTensor) : NTensor :=
  ⟨1 :: x.shape, none :: x.names, fun idx => x.elem idx.tail⟩

/-- `source[..., None]` together with the name appended to `names`: a new last dimension of size 1,
`/repo/photontorch/networks/network.py:664-665`. -/
def NTensor.unsqueezeBack (x : NTensor) (name : Char) : NTensor :=
  ⟨x.shape ++ [1], x.names ++ [some name], fun idx => x.elem idx.dropLast⟩

/-- Handling of tensors without names, `/repo/photontorch/networks/network.py:625-651`. -/
def nameDims (x : NTensor) : Except PyErr NTensor :=
  if 5 < x.shape.length then .error .valueError
  else if x.names.all Option.isSome then .ok x
  else if x.names.any Option.isSome then .error .valueError
  else
    if x.shape.length = 5 then
      if 2 < x.shape.getD 0 0 then .error .valueError
      else .ok { x with names := sourceNames.map some }
    else if x.shape.length = 4 then .ok { x.unsqueezeFront with names := sourceNames.map some }
    else .error .valueError

/-- The check of the names, `/repo/photontorch/networks/network.py:653-659`. -/
def checkNames (x : NTensor) : Except PyErr Unit :=
  if x.names.all fun n => n.elim false sourceNames.contains then .ok () else .error .valueError

/-- The loop adding missing dimensions, `/repo/photontorch/networks/network.py:661-666`. -/
def addMissing (x : NTensor) : List Char → NTensor
  | [] => x
  | n :: ns => addMissing (if x.names.contains (some n) then x else x.unsqueezeBack n) ns

/-- The size of the dimension with the given name,
`/repo/photontorch/networks/network.py:667-696`. -/
def NTensor.size (x : NTensor) (n : Char) : ℕ := x.shape.getD (x.names.idxOf (some n)) 0

/-- `align_to("c", "t", "w", "s", "b")`, `/repo/photontorch/networks/network.py:667`. -/
def alignTo (x : NTensor) : Tensor5 where
  c := x.size 'c'
  t := x.size 't'
  w := x.size 'w'
  s := x.size 's'
  b := x.size 'b'
  elem := fun c t w s b => x.elem (x.names.map fun n =>
    if n = some 'c' then c else if n = some 't' then t else if n = some 'w' then w
    else if n = some 's' then s else b)

/-- A missing imaginary part is zero, `/repo/photontorch/networks/network.py:669-670`. -/
def addImag (x : Tensor5) : Tensor5 :=
  if x.c = 1 then { x with c := 2, elem := fun c t w s b => if c = 0 then x.elem 0 t w s b else 0 } else x

/-- Sources of other lengths, `/repo/photontorch/networks/network.py:671-686`; the number of appended zeros is
`num_t - source.shape[0]`, and `shape[0]` is the first dimension (real and imaginary part).  A first dimension of
another size than 2 makes `torch.cat` fail. -/
def fitTime (numT : ℕ) (x : Tensor5) : Except PyErr Tensor5 :=
  if 1 < x.t ∧ x.t ≠ numT then
    if x.t < numT then
      if numT < x.c then .error .runtimeError
      else if x.c ≠ 2 then .error .runtimeError
      else .ok { x with
        t := x.t + (numT - x.c)
        elem := fun c t w s b => if t < x.t then x.elem c t w s b else 0 }
    else .ok { x with t := numT }
  else .ok x

/-- The checks of wavelengths and sources, `/repo/photontorch/networks/network.py:687-696`. -/
def checkSizes (numWl numSrc : ℕ) (x : Tensor5) : Except PyErr Unit :=
  if 1 < x.w ∧ x.w ≠ numWl then .error .valueError
  else if 1 < x.s ∧ x.s ≠ numSrc then .error .valueError
  else .ok ()

/-- One dimension of `torch.broadcast_tensors`, `/repo/photontorch/networks/network.py:704`. -/
def broadcastDim (a b : ℕ) : Except PyErr ℕ :=
  if a = b then .ok a else if a = 1 then .ok b else if b = 1 then .ok a else .error .runtimeError

/-- `torch.broadcast_tensors(source, source_template)`, `/repo/photontorch/networks/network.py:698-704`. -/
def broadcastTo (numT numWl numSrc : ℕ) (x : Tensor5) : Except PyErr Tensor5 := do
  let c ← broadcastDim x.c 2
  let t ← broadcastDim x.t numT
  let w ← broadcastDim x.w numWl
  let s ← broadcastDim x.s numSrc
  let b ← broadcastDim x.b 1
  let pick (size i : ℕ) : ℕ := if size = 1 then 0 else i
  .ok ⟨c, t, w, s, b, fun ci ti wi si bi =>
    x.elem (pick x.c ci) (pick x.t ti) (pick x.w wi) (pick x.s si) (pick x.b bi)⟩

/-- Zeros for all other nodes, `/repo/photontorch/networks/network.py:706-718`. -/
def padNodes (numMc : ℕ) (x : Tensor5) : Except PyErr Tensor5 :=
  if numMc < x.s then .error .runtimeError
  else .ok { x with s := numMc, elem := fun c t w k b => if k < x.s then x.elem c t w k b else 0 }

/-- `Network._handle_source`, `/repo/photontorch/networks/network.py:586-720`. -/
def handleSource (numT numWl numSrc numMc : ℕ) (x : NTensor) : Except PyErr Tensor5 := do
  let x ← nameDims x
  checkNames x
  let y := addImag (alignTo (addMissing x sourceNames))
  let y ← fitTime numT y
  checkSizes numWl numSrc y
  let y ← broadcastTo numT numWl numSrc y
  padNodes numMc y

/-- `Network.forward` with `power=False` on a source tensor, `/repo/photontorch/networks/network.py:748-784`,
after initialization: wavelengths are `0, …, numWl - 1`. -/
noncomputable def forwardTensor {numWl : ℕ} (r : Reduced (Fin numWl)) (env : SimEnv) (x : NTensor)
    (cs : (b : ℕ) → List (Actor (Fin numWl) (Fin b))) :
    Except PyErr ((b : ℕ) × List (Fin numWl → Fin b → List (ℝ × ℝ))) :=
  (handleSource env.t.length numWl r.numSrc r.m x).bind fun y =>
    (forwardReduced r env (cs y.b) fun t k w b => (y.elem 0 t w k b, y.elem 1 t w k b)).map fun out => ⟨y.b, out⟩

end PT
