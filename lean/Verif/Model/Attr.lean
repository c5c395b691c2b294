import Verif.Model.Bounded
import Verif.Model.Str

/-!
# Model of the attributes of a module

`Module.__setattr__`, `/repo/photontorch/nn/nn.py:139-162`, on top of `torch.nn.Module` (`__setattr__`, `__getattr__`,
`register_parameter`, `register_buffer`). Tensors have one entry. Sub-modules, deletion, and names which the class itself
defines (methods) are left out.
-/

namespace PT

/-- Values an attribute may be set to: a number (or any object that is no tensor), a plain tensor, a `torch.nn.Parameter`, a
`Buffer` (`/repo/photontorch/nn/nn.py:29-51`) and a `BoundedParameter` with its weight
(`/repo/photontorch/nn/nn.py:59-94`). -/
inductive AVal
  | number (x : ℝ)
  | tensor (x : ℝ)
  | param (x : ℝ)
  | buffer (x : ℝ)
  | bounded (w : EReal) (lo hi : ℝ)

/-- The number in the tensor that is stored; for a bounded parameter its weight, `/repo/photontorch/nn/nn.py:90-94`. -/
noncomputable def AVal.raw : AVal → EReal
  | .number x | .tensor x | .param x | .buffer x => (x : EReal)
  | .bounded w _ _ => w

/-- The state of a module: the instance dictionary, `_parameters`, `_buffers`, and the properties of the classes made on
the fly, `/repo/photontorch/nn/nn.py:141-162`. -/
structure Attrs where
  dict : Str → Option AVal := fun _ => none
  params : Str → Option AVal := fun _ => none
  buffers : Str → Option AVal := fun _ => none
  props : Str → Bool := fun _ => false

/-- Assignment of one entry of a dictionary, as in `/repo/photontorch/nn/nn.py:158-160`. -/
def setKey {α : Type} (f : Str → α) (k : Str) (v : α) : Str → α := fun x => if x = k then v else f x

namespace Attrs

/-- `torch.nn.Module.__getattr__`, which is called when the ordinary lookup fails (`_modules` left out); used by every read of
an attribute set by `/repo/photontorch/nn/nn.py:139-162`. -/
noncomputable def fallback (s : Attrs) (a : Str) : Except PyErr EReal :=
  match s.params a with
  | some v => .ok v.raw
  | none => match s.buffers a with
    | some v => .ok v.raw
    | none => .error .attributeError

/-- Reading an attribute: a property of the class comes first (its getter is `/repo/photontorch/nn/nn.py:148-152`; a parameter without
`_sigmoid` makes it fail with AttributeError, which python answers by calling `__getattr__`), then the instance dictionary,
then `fallback`. -/
noncomputable def read (s : Attrs) (a : Str) : Except PyErr EReal :=
  if s.props a then
    match s.params ('_' :: a) with
    | none => .error .keyError
    | some (.bounded w lo hi) => .ok (boundedValue w lo hi : ℝ)
    | some _ => s.fallback a
  else match s.dict a with
    | some v => .ok v.raw
    | none => s.fallback a

/-- `hasattr(self, name)`: python catches AttributeError only (the KeyError of a getter does not occur, since nothing removes a
parameter); used by the registration in `/repo/photontorch/nn/nn.py:142,146`. -/
noncomputable def has (s : Attrs) (a : Str) : Bool :=
  match s.read a with
  | .error .attributeError => false
  | _ => true

/-- `register_parameter`, called in `/repo/photontorch/nn/nn.py:146`, for identifiers and leaf tensors. -/
noncomputable def registerParam (s : Attrs) (a : Str) (v : AVal) : Attrs × Option PyErr :=
  if s.has a && (s.params a).isNone then (s, some .keyError)
  else ({ s with params := setKey s.params a (some v) }, none)

/-- `register_buffer`, called in `/repo/photontorch/nn/nn.py:142`, for identifiers. -/
noncomputable def registerBuffer (s : Attrs) (a : Str) (v : AVal) : Attrs × Option PyErr :=
  if s.has a && (s.buffers a).isNone then (s, some .keyError)
  else ({ s with buffers := setKey s.buffers a (some v) }, none)

/-- `object.__setattr__`: the properties have no setter, `/repo/photontorch/nn/nn.py:148-152`. -/
def objectSet (s : Attrs) (a : Str) (v : AVal) : Attrs × Option PyErr :=
  if s.props a then (s, some .attributeError)
  else ({ s with dict := setKey s.dict a (some v) }, none)

/-- A value that is no parameter, in `torch.nn.Module.__setattr__`, called in `/repo/photontorch/nn/nn.py:162`; `tensor` says
whether it is a tensor. -/
def torchSetOther (s : Attrs) (a : Str) (v : AVal) (tensor : Bool) : Attrs × Option PyErr :=
  if (s.params a).isSome then (s, some .typeError)
  else if (s.buffers a).isSome then
    if tensor then ({ s with buffers := setKey s.buffers a (some v) }, none) else (s, some .typeError)
  else objectSet s a v

/-- `torch.nn.Module.__setattr__`, called in `/repo/photontorch/nn/nn.py:162`: a parameter is first removed from the other
dictionaries, then registered. -/
noncomputable def torchSet (s : Attrs) (a : Str) (v : AVal) : Attrs × Option PyErr :=
  match v with
  | .param _ | .bounded _ _ _ =>
    registerParam { s with dict := setKey s.dict a none, buffers := setKey s.buffers a none } a v
  | .tensor _ | .buffer _ => torchSetOther s a v true
  | .number _ => torchSetOther s a v false

/-- `Module.__setattr__`, `/repo/photontorch/nn/nn.py:139-162`: the new state, and the exception if there is one. -/
noncomputable def set (s : Attrs) (a : Str) (v : AVal) : Attrs × Option PyErr :=
  match v with
  | .bounded _ _ _ =>
    match s.registerParam ('_' :: a) v with
    | (s', some e) => (s', some e)
    | (s', none) => ({ s' with props := setKey s'.props a true }, none)
  | .buffer _ =>
    match s.registerBuffer a v with
    | (s', some e) => (s', some e)
    | (s', none) => s'.torchSet a v
  | _ => s.torchSet a v

/-- A history of assignments, each in a `try` of its own: the states after them and their outcomes;
`/repo/photontorch/nn/nn.py:139-162`. -/
noncomputable def run (s : Attrs) : List (Str × AVal) → Attrs × List (Option PyErr)
  | [] => (s, [])
  | (a, v) :: h =>
    let r := s.set a v
    let q := run r.1 h
    (q.1, r.2 :: q.2)

end Attrs

end PT
