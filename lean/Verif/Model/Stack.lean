import Verif.Model.Py

/-!
# Model of the environment and network stacks

Programs are built from with-blocks, `set_environment`, raising and catching exceptions and
looking at the current environment / gradient mode.
-/

namespace PT

/-- An environment object: its identity (`is`) and its `grad` attribute.
`/repo/photontorch/environment/environment.py:401-403` (all other attributes are irrelevant for
the stack). -/
structure EnvObj where
  id : ℕ
  grad : Bool
  deriving DecidableEq, Repr

/-- Programs that enter and leave environments,
`/repo/photontorch/environment/environment.py:469-481,591-614`. -/
inductive EnvProg
  /-- do nothing -/
  | skip
  /-- `p; q` -/
  | seq (p q : EnvProg)
  /-- `with x: p` -/
  | withEnv (x : EnvObj) (p : EnvProg)
  /-- `set_environment(...)` of an environment with the given `grad` attribute;
  `/repo/photontorch/environment/environment.py:591-614`: always a *new* object. -/
  | setEnv (grad : Bool)
  /-- `raise e` -/
  | raise (e : PyErr)
  /-- `try: p except: q` -/
  | tryExcept (p q : EnvProg)
  /-- `log.append((current_environment(), torch.is_grad_enabled()))` -/
  | observe
  /-- `torch.set_grad_enabled(b)` -/
  | setGrad (b : Bool)
  deriving DecidableEq, Repr

/-- Interpreter state: the deque `_current_environments`
(`/repo/photontorch/environment/environment.py:31`), torch's gradient mode, the `prev` field of every
environment's grad manager (`403`; torch's `no_grad`/`enable_grad` save the previous mode in
`self.prev` on `__enter__`), a supply of object identities, and what was observed. -/
structure EnvSt where
  stack : List EnvObj
  grad : Bool
  prev : ℕ → Bool
  fresh : ℕ
  log : List (EnvObj × Bool)

/-- `Environment.__enter__`, `/repo/photontorch/environment/environment.py:469-472`. -/
def envEnter (x : EnvObj) (s : EnvSt) : EnvSt :=
  { s with
    stack := x :: s.stack
    prev := fun i => if i = x.id then s.grad else s.prev i
    grad := x.grad }

/-- `Environment.__exit__`, `/repo/photontorch/environment/environment.py:474-481`, given how the
body ended. -/
def envExit (x : EnvObj) (s : EnvSt) (o : Except PyErr Unit) : EnvSt × Except PyErr Unit :=
  match s.stack with
  | [] => (s, .error .indexError)
  | y :: rest =>
    ({ s with
        stack := if y.id = x.id then rest else s.stack
        grad := s.prev x.id }, o)

/-- `current_environment`, `/repo/photontorch/environment/environment.py:579-588`. -/
def currentEnvironment (s : EnvSt) : Except PyErr EnvObj :=
  match s.stack with
  | [] => .error .runtimeError
  | x :: _ => .ok x

/-- Execution of a program (Python's statement semantics),
`/repo/photontorch/environment/environment.py:469-481,591-614`. -/
def EnvProg.run : EnvProg → EnvSt → EnvSt × Except PyErr Unit
  | .skip, s => (s, .ok ())
  | .seq p q, s =>
    match p.run s with
    | (s', .ok _) => q.run s'
    | (s', .error e) => (s', .error e)
  | .withEnv x p, s =>
    let r := p.run (envEnter x s)
    envExit x r.1 r.2
  | .setEnv g, s => (envEnter ⟨s.fresh, g⟩ { s with fresh := s.fresh + 1 }, .ok ())
  | .raise e, s => (s, .error e)
  | .tryExcept p q, s =>
    match p.run s with
    | (s', .ok _) => (s', .ok ())
    | (s', .error _) => q.run s'
  | .observe, s =>
    match currentEnvironment s with
    | .ok x => ({ s with log := s.log ++ [(x, s.grad)] }, .ok ())
    | .error e => (s, .error e)
  | .setGrad b, s => ({ s with grad := b }, .ok ())

/-- Programs that define networks in with-blocks,
`/repo/photontorch/networks/network.py:1035-1047`. -/
inductive NetProg
  | skip
  | seq (p q : NetProg)
  /-- `with nw: p` (the network object with identity `x`) -/
  | withNet (x : ℕ) (p : NetProg)
  | raise (e : PyErr)
  | tryExcept (p q : NetProg)
  /-- construct a component with a name, e.g. `pt.Waveguide(name="wg")` -/
  | newComp (name : List Char)
  deriving DecidableEq, Repr

/-- State: the deque `_current_networks` (`/repo/photontorch/networks/network.py:47`) and which
component was registered in which network. -/
structure NetSt where
  stack : List ℕ
  added : List (ℕ × List Char)
  deriving DecidableEq

/-- `Network.__exit__`, `/repo/photontorch/networks/network.py:1042-1047`: on an error it re-raises
*before* removing the network from the deque. -/
def netExit (s : NetSt) (o : Except PyErr Unit) : NetSt × Except PyErr Unit :=
  match o with
  | .error e => (s, .error e)
  | .ok _ =>
    match s.stack with
    | [] => (s, .error .indexError)
    | _ :: rest => ({ s with stack := rest }, .ok ())

/-- Execution.  `newComp` is `Component.__init__`, `/repo/photontorch/components/component.py:48-50`,
with `current_network`, `/repo/photontorch/networks/network.py:1055-1058`; simplified: the
duplicate-name error of `add_component` is not raised here. -/
def NetProg.run : NetProg → NetSt → NetSt × Except PyErr Unit
  | .skip, s => (s, .ok ())
  | .seq p q, s =>
    match p.run s with
    | (s', .ok _) => q.run s'
    | (s', .error e) => (s', .error e)
  | .withNet x p, s =>
    let r := p.run { s with stack := x :: s.stack }
    netExit r.1 r.2
  | .raise e, s => (s, .error e)
  | .tryExcept p q, s =>
    match p.run s with
    | (s', .ok _) => (s', .ok ())
    | (s', .error _) => q.run s'
  | .newComp n, s =>
    match s.stack with
    | [] => (s, .ok ())
    | x :: _ => ({ s with added := s.added ++ [(x, n)] }, .ok ())

/-- Attribute storage of an environment object: `self.__dict__`,
`/repo/photontorch/environment/environment.py:368-420`.  Values are abstract (`V`). -/
structure Locked (V : Type) where
  dict : List Char → Option V

/-- The attribute name `_initialized`, `/repo/photontorch/environment/environment.py:420`. -/
def initializedName : List Char := ['_', 'i', 'n', 'i', 't', 'i', 'a', 'l', 'i', 'z', 'e', 'd']

/-- An operation on an environment's attributes,
`/repo/photontorch/environment/environment.py:553-571`. -/
inductive AttrOp (V : Type)
  /-- `env.name = v` -/
  | setattr (name : List Char) (v : V)
  /-- `env[name] = v` -/
  | setitem (name : List Char) (v : V)
  /-- `del env.name` -/
  | delattr (name : List Char)

/-- `__setattr__`, `__setitem__` (`/repo/photontorch/environment/environment.py:553-571`; `object`
has no `__setitem__`, so that the unlocked branch raises `AttributeError` as well) and the
inherited `__delattr__`. -/
def AttrOp.run {V : Type} (truthy : V → Bool) (o : Locked V) : AttrOp V → Locked V × Except PyErr Unit
  | .setattr n v =>
    if (o.dict initializedName).any truthy then (o, .error .attributeError)
    else (⟨fun m => if m = n then some v else o.dict m⟩, .ok ())
  | .setitem _ _ => (o, .error .attributeError)
  | .delattr n =>
    if (o.dict n).isNone then (o, .error .attributeError)
    else (⟨fun m => if m = n then none else o.dict m⟩, .ok ())

/-- A sequence of operations, each in its own try-block; returns all outcomes,
`/repo/photontorch/environment/environment.py:553-571`. -/
def runAttrOps {V : Type} (truthy : V → Bool) (o : Locked V) : List (AttrOp V) →
    Locked V × List (Except PyErr Unit)
  | [] => (o, [])
  | op :: ops =>
    let r := op.run truthy o
    let r' := runAttrOps truthy r.1 ops
    (r'.1, r.2 :: r'.2)

/-- The constructor's attribute assignments followed by `self._initialized = True`,
`/repo/photontorch/environment/environment.py:368-420`; `yes` is the value `True`. -/
def constructAttrs {V : Type} (truthy : V → Bool) (yes : V) (kvs : List (List Char × V)) :
    Locked V × List (Except PyErr Unit) :=
  runAttrOps truthy ⟨fun _ => none⟩
    (kvs.map (fun kv => AttrOp.setattr kv.1 kv.2) ++ [AttrOp.setattr initializedName yes])

end PT
