import Verif.Model.Network

/-!
# Model of networks under construction: with-blocks, attributes, `link`

`/repo/photontorch/networks/network.py:122-306,1028-1082`, `/repo/photontorch/components/component.py:37-56`.

Networks are objects: a network holds references to its sub-networks, which may change later.  Not
modelled: a network that contains itself (endless recursion in Python).
-/

namespace PT

/-- What a network holds under a name: a component that is not a network, or (a reference to) a network,
`/repo/photontorch/networks/network.py:144-176`.  Simplified: components that are not networks are
values; they have nothing that `link` changes except the name. -/
inductive Item
  | leaf (c : Comp)
  | net (x : ℕ)

/-- A network object, see `NetState`, with references to other networks,
`/repo/photontorch/networks/network.py:122-141`.  `used` are the keys of `components`. -/
structure NetObj where
  name : Option Str
  items : List (Str × Item)
  used : List Str
  conns : List Str
  buf : Option Comp

/-- All network objects and the deque `_current_networks`,
`/repo/photontorch/networks/network.py:47,1035-1058`. -/
structure Site where
  objs : List NetObj
  stack : List ℕ

/-- The component object an item stands for, as far as its buffers exist,
`/repo/photontorch/networks/network.py:279-306`. -/
def Site.comp (s : Site) : Item → Option Comp
  | .leaf c => some c
  | .net y => s.objs[y]?.bind NetObj.buf

/-- The `name` of the component, `/repo/photontorch/components/component.py:45`. -/
def Site.nameOf (s : Site) : Item → Option Str
  | .leaf c => c.name
  | .net y => s.objs[y]?.bind NetObj.name

/-- Replacing an object (assignment to its attributes),
`/repo/photontorch/networks/network.py:279-306`. -/
def Site.put (s : Site) (x : ℕ) (o : NetObj) : Site := { s with objs := s.objs.set x o }

/-- `add_component` and `__setattr__`, `/repo/photontorch/networks/network.py:144-176,1028-1033`
(simplified as `addComponent`). -/
def Site.add (s : Site) (x : ℕ) (n : Str) (it : Item) : Site × Except PyErr Unit :=
  match s.objs[x]? with
  | none => (s, .error .runtimeError)
  | some o =>
    if n ∈ o.used then (s, .error .attributeError)
    else if s.nameOf it ≠ none ∧ s.nameOf it ≠ some n then (s, .error .valueError)
    else if n = [] ∨ '.' ∈ n then (s, .error .keyError)
    else (s.put x { o with items := dictSet n it o.items }, .ok ())

/-- `self.components[name].name = name` on the network that is stored under the name,
`/repo/photontorch/networks/network.py:303`.  (Components that are not networks are values here; `mkNet`
sets their names.) -/
def Site.rename (s : Site) (x : ℕ) (n : Str) : Site :=
  match s.objs[x]?.bind fun o => dictGet n o.items with
  | some (.net y) =>
    match s.objs[y]? with
    | none => s
    | some p => s.put y { p with name := some n }
  | _ => s

/-- The known prefix of the used names,
`/repo/photontorch/networks/network.py:301-303` (`KeyError` at the first unknown one). -/
def knownNames (items : List (Str × Item)) : List Str → List Str
  | [] => []
  | n :: l => if (dictGet n items).isSome then n :: knownNames items l else []

/-- `Network._set_buffers`, `/repo/photontorch/networks/network.py:279-306`.  A used sub-network without
buffers has no `port_order`: `AttributeError` (`/repo/photontorch/networks/network.py:956-962`; the
attribute is looked up by torch). -/
def Site.rebuild (s : Site) (x : ℕ) : Site × Except PyErr Unit :=
  match s.objs[x]? with
  | none => (s, .error .runtimeError)
  | some o =>
    if o.conns = [] then (s, .ok ())
    else if o.items = [] then (s, .ok ())
    else
      let conns := o.conns.map stripConn
      let names := usedNames conns
      let known := knownNames o.items names
      let s' := known.foldl (fun s n => s.rename x n) s
      let o' : NetObj := { ((s'.objs[x]?).getD o) with used := known, conns := conns, buf := none }
      let modules := o'.items.filterMap fun p => (s'.comp p.2).map fun c => (p.1, c)
      if known ≠ names then (s'.put x o', .error .keyError)
      else if ∃ n ∈ names, n ∉ modules.map Prod.fst then (s'.put x o', .error .attributeError)
      else
        match mkNet o'.name modules o.conns with
        | .ok c => (s'.put x { o' with buf := some c }, .ok ())
        | .error e => (s'.put x o', .error e)

/-- `Network.link`, `/repo/photontorch/networks/network.py:179-252`. -/
def Site.link (s : Site) (x : ℕ) (args : List LinkArg) : Site × Except PyErr Unit :=
  match s.objs[x]? with
  | none => (s, .error .runtimeError)
  | some o =>
    let r := linkConns args
    let s' := s.put x { o with conns := o.conns ++ r.1 }
    match r.2 with
    | .error e => (s', .error e)
    | .ok _ => s'.rebuild x

/-- The function `link` of the package, `/repo/photontorch/networks/network.py:1055-1082`: outside of any
with-block `current_network` returns `None`, which has no `link`. -/
def Site.linkHere (s : Site) (args : List LinkArg) : Site × Except PyErr Unit :=
  match s.stack with
  | [] => (s, .error .attributeError)
  | x :: _ => s.link x args

/-- `Component.__init__` registers a named component in the current network,
`/repo/photontorch/components/component.py:44-50`. -/
def Site.register (s : Site) (name : Option Str) (it : Item) : Site × Except PyErr Unit :=
  match name, s.stack with
  | some n, x :: _ => s.add x n it
  | _, _ => (s, .ok ())

/-- `Network(name=name)`, `/repo/photontorch/networks/network.py:122-141`: a new object, registered in
the current network. -/
def Site.newNet (s : Site) (name : Option Str) : Site × Except PyErr Unit :=
  Site.register { s with objs := s.objs ++ [⟨name, [], [], [], none⟩] } name (.net s.objs.length)

/-- `__exit__`, `/repo/photontorch/networks/network.py:1042-1047`, see `netExit`. -/
def Site.exit (s : Site) : Except PyErr Unit → Site × Except PyErr Unit
  | .error e => (s, .error e)
  | .ok _ =>
    match s.stack with
    | [] => (s, .error .indexError)
    | _ :: rest => ({ s with stack := rest }, .ok ())

/-- Programs that build networks.  A with-block over a new network binds it to a variable,
`/repo/photontorch/networks/network.py:179-196,1028-1082`. -/
inductive Build
  | skip
  | seq (p q : Build)
  /-- `pt.Waveguide(name="wg")` -/
  | newComp (n : Str) (c : Comp)
  /-- `x.wg = pt.Waveguide()`, or `x.inner = y` -/
  | attr (x : ℕ) (n : Str) (it : Item)
  /-- `pt.link(…)` -/
  | linkHere (args : List LinkArg)
  /-- `x.link(…)` -/
  | linkOf (x : ℕ) (args : List LinkArg)
  /-- `with pt.Network(name=…) as x: …`, and what is done with `x` afterwards -/
  | withNew (name : Option Str) (body after : ℕ → Build)
  /-- `with x: …` -/
  | withOld (x : ℕ) (body : Build)

/-- Execution, `/repo/photontorch/networks/network.py:179-196,1028-1082`,
`/repo/photontorch/components/component.py:37-56`. -/
def Build.run : Build → Site → Site × Except PyErr Unit
  | .skip, s => (s, .ok ())
  | .seq p q, s =>
    match p.run s with
    | (s', .ok _) => q.run s'
    | (s', .error e) => (s', .error e)
  | .newComp n c, s => s.register (some n) (.leaf { c with name := some n })
  | .attr x n it, s => s.add x n it
  | .linkHere args, s => s.linkHere args
  | .linkOf x args, s => s.link x args
  | .withNew name body after, s =>
    match s.newNet name with
    | (s', .error e) => (s', .error e)
    | (s', .ok _) =>
      let r := (body s.objs.length).run { s' with stack := s.objs.length :: s'.stack }
      match r.1.exit r.2 with
      | (s', .error e) => (s', .error e)
      | (s', .ok _) => (after s.objs.length).run s'
  | .withOld x body, s =>
    let r := body.run { s with stack := x :: s.stack }
    r.1.exit r.2

end PT
