import Verif.Model.Topology

/-!
# Model of network construction: `add_component`, `link`, `terminate`

`/repo/photontorch/networks/network.py:82-358`.
-/

namespace PT

/-- A network object: its name, its lower-case class name, its registered modules (`_modules`), the
dictionary `components` of the used ones, the connection strings, and — after a successful
`_set_buffers` — its buffers.  `buf = none` stands for buffers that are absent (never linked) or
abandoned half-way by an exception.  Not modelled: the list `links`, which is only a record,
`/repo/photontorch/networks/network.py:82-141,279-306`. -/
structure NetState where
  name : Option Str
  cls : Str
  modules : Comps
  comps : Comps
  conns : List Str
  buf : Option Comp

/-- The longest prefix of the used names that is known (what `components` contains when the loop at
`/repo/photontorch/networks/network.py:301-303` stops). -/
def pickKnown (modules : Comps) : List Str → Comps
  | [] => []
  | x :: xs =>
    match dictGet x modules with
    | none => []
    | some c => (x, { c with name := some x }) :: pickKnown modules xs

/-- `Network._set_buffers`, `/repo/photontorch/networks/network.py:279-306`. -/
def netSetBuffers (s : NetState) : NetState × Except PyErr Unit :=
  if s.conns = [] then (s, .ok ())
  else if s.modules = [] then (s, .ok ())
  else
    let conns := s.conns.map stripConn
    let s' := { s with conns := conns, comps := pickKnown s.modules (usedNames conns), buf := none }
    match mkNet s.name s.modules s.conns with
    | .ok c => ({ s' with buf := some c }, .ok ())
    | .error e => (s', .error e)

/-- `Network.add_component`, `/repo/photontorch/networks/network.py:144-176`, with torch's
`add_module` (which refuses empty names and names with a dot with `KeyError`; the refusal of names of
existing attributes is not modelled). -/
def addComponent (s : NetState) (x : Str) (c : Comp) : NetState × Except PyErr Unit :=
  if x ∈ s.comps.map Prod.fst then (s, .error .attributeError)
  else if c.name ≠ none ∧ c.name ≠ some x then (s, .error .valueError)
  else if x = [] ∨ '.' ∈ x then (s, .error .keyError)
  else ({ s with modules := dictSet x c s.modules }, .ok ())

/-- An argument of `link`: `None`, an `int`, or a string,
`/repo/photontorch/networks/network.py:179-200`. -/
inductive LinkArg
  | none
  | int (z : ℤ)
  | str (s : Str)
  deriving DecidableEq, Repr

/-- The first `try` of `link`, `/repo/photontorch/networks/network.py:198-202`: the external port and
the remaining arguments (`rest` excludes the first slot). -/
def linkFirst : List LinkArg → Except PyErr (Option ℤ × List LinkArg)
  | [] => .error .indexError
  | .none :: l => .ok (none, l)
  | .int z :: l => .ok (some z, l)
  | .str s :: l =>
    match pyInt s with
    | some z => .ok (some z, l)
    | none => .ok (none, .str s :: l)

/-- The second `try`, `/repo/photontorch/networks/network.py:204-208`, on the arguments after the first
slot: the middle and the last external port.  With nothing after the first slot,
`ports[-1]` is the first slot itself. -/
def linkLast (first : Option ℤ) (rest : List LinkArg) : Option ℤ × List LinkArg :=
  match rest.getLast? with
  | none => (first, [])
  | some .none => (none, rest.dropLast)
  | some (.int z) => (some z, rest.dropLast)
  | some (.str s) =>
    match pyInt s with
    | some z => (some z, rest.dropLast)
    | none => (none, rest)

/-- `tuple(p.split(":"))`, `/repo/photontorch/networks/network.py:210`; `AttributeError` for `None` or
an int. -/
def splitArg : LinkArg → Except PyErr (List (Option Str))
  | .str s => .ok ((splitColon s).map some)
  | _ => .error .attributeError

/-- The padding of the first middle element, `/repo/photontorch/networks/network.py:212-213`
(`TypeError` if there is none, since `len(None)` is taken). -/
def padFirst (first : Option ℤ) (mid : List (List (Option Str))) :
    Except PyErr (List (List (Option Str))) :=
  match first with
  | some _ => .ok mid
  | none =>
    match mid with
    | [] => .error .typeError
    | e :: l => .ok ((if e.length = 2 then none :: e else e) :: l)

/-- The padding of the last middle element, `/repo/photontorch/networks/network.py:215-216`. -/
def padLast (last : Option ℤ) (mid : List (List (Option Str))) :
    Except PyErr (List (List (Option Str))) :=
  match last with
  | some _ => .ok mid
  | none =>
    match mid.getLast? with
    | none => .error .typeError
    | some e => .ok (mid.dropLast ++ [if e.length = 2 then e ++ [none] else e])

/-- `"%s" % p` for a string or `None`,
`/repo/photontorch/networks/network.py:179-252`. -/
def fmt : Option Str → Str
  | none => ['N', 'o', 'n', 'e']
  | some s => s

/-- The connection strings of consecutive elements, `/repo/photontorch/networks/network.py:224-226`:
what was appended, and whether a tuple unpacking failed (`ValueError`). -/
def linkPairs : List (List (Option Str)) → List Str × Except PyErr Unit
  | e :: e' :: l =>
    match e, e' with
    | [_, name1, p1], [p2, name2, _] =>
      let r := linkPairs (e' :: l)
      (joinColon [fmt name1, fmt p1, fmt name2, fmt p2] :: r.1, r.2)
    | _, _ => ([], .error .valueError)
  | _ => ([], .ok ())

/-- The connection string of the first external port, `/repo/photontorch/networks/network.py:229-238`. -/
def linkIn (p : Option ℤ) : Option (List (Option Str)) → List Str × Except PyErr Unit
  | some [q, name, _] =>
    match p, q with
    | none, _ => ([], .ok ())
    | some _, none => ([], .error .runtimeError)
    | some p, some q => ([joinColon [fmt name, q, intStr p]], .ok ())
  | _ => ([], .error .valueError)

/-- The connection string of the last external port, `/repo/photontorch/networks/network.py:240-249`. -/
def linkOut (p : Option ℤ) : Option (List (Option Str)) → List Str × Except PyErr Unit
  | some [_, name, q] =>
    match p, q with
    | none, _ => ([], .ok ())
    | some _, none => ([], .error .runtimeError)
    | some p, some q => ([joinColon [fmt name, q, intStr p]], .ok ())
  | _ => ([], .error .valueError)

/-- Statements in sequence: the appended strings and the first exception,
`/repo/photontorch/networks/network.py:225-252`. -/
def appendThen (a : List Str × Except PyErr Unit) (b : Unit → List Str × Except PyErr Unit) :
    List Str × Except PyErr Unit :=
  match a.2 with
  | .error e => (a.1, .error e)
  | .ok _ => (a.1 ++ (b ()).1, (b ()).2)

/-- Everything `link` appends to `connections` before `_set_buffers`,
`/repo/photontorch/networks/network.py:198-249`. -/
def linkConns (args : List LinkArg) : List Str × Except PyErr Unit :=
  match linkFirst args with
  | .error e => ([], .error e)
  | .ok (first, rest) =>
    match mapE splitArg (linkLast first rest).2 with
    | .error e => ([], .error e)
    | .ok mid =>
      match padFirst first mid with
      | .error e => ([], .error e)
      | .ok mid =>
        match padLast (linkLast first rest).1 mid with
        | .error e => ([], .error e)
        | .ok mid =>
          if mid = [] then ([], .error .valueError)
          else appendThen (linkPairs mid) fun _ =>
            appendThen (linkIn first mid.head?) fun _ => linkOut (linkLast first rest).1 mid.getLast?

/-- `Network.link`, `/repo/photontorch/networks/network.py:179-252`. -/
def link (s : NetState) (args : List LinkArg) : NetState × Except PyErr Unit :=
  let r := linkConns args
  let s' := { s with conns := s.conns ++ r.1 }
  match r.2 with
  | .error e => (s', .error e)
  | .ok _ => netSetBuffers s'

/-- Adding the components of the constructor's dictionary one by one,
`/repo/photontorch/networks/network.py:131-133`. -/
def addAll (s : NetState) : Comps → Except PyErr NetState
  | [] => .ok s
  | (x, c) :: l =>
    match addComponent s x c with
    | (_, .error e) => .error e
    | (s', .ok _) => addAll s' l

/-- `Network(components, connections, name)`, `/repo/photontorch/networks/network.py:122-141`. -/
def newNetwork (name : Option Str) (cls : Str) (components : Comps) (connections : List Str) :
    Except PyErr NetState :=
  match addAll ⟨name, cls, [], [], [], none⟩ components with
  | .error e => .error e
  | .ok s =>
    match netSetBuffers { s with conns := s.conns ++ connections } with
    | (s', .ok _) => .ok s'
    | (_, .error e) => .error e

/-- The `term` argument of `terminate`,
`/repo/photontorch/networks/network.py:309-349`. -/
inductive TermArg
  /-- no argument, or one term: its lower-case class name and a fresh instance -/
  | single (cls : Str) (c : Comp)
  /-- a list of terms (each with its own name) -/
  | list (l : List Comp)
  /-- a dictionary of terms -/
  | dict (d : Comps)

/-- `(t.name, copy(t))`, `/repo/photontorch/networks/network.py:332` (see `termDict` for the error). -/
def namedTerm (c : Comp) : Except PyErr (Str × Comp) :=
  match c.name with
  | none => .error .typeError
  | some x => .ok (x, c)

/-- The dictionary of terms, `/repo/photontorch/networks/network.py:326-334`.  A nameless term in a list
makes the later concatenation `name + ":0:"` fail with `TypeError`. -/
def termDict (numFree : ℕ) : TermArg → Except PyErr Comps
  | .single cls c =>
    .ok ((List.range numFree).map fun (i : ℕ) =>
      (cls ++ '_' :: natStr i, { c with name := some (cls ++ '_' :: natStr i) }))
  | .list l =>
    (mapE namedTerm l).map fun ps => ps.foldl (fun d p => dictSet p.1 p.2 d) []
  | .dict d => .ok d

/-- The connection strings `name:0:copied.name:i`, `/repo/photontorch/networks/network.py:342-344`. -/
def termConns (nwName : Str) (names : List Str) : List Str :=
  names.zipIdx.map fun p => joinColon [p.1, ['0'], nwName, natStr p.2]

/-- `Network.terminate`, `/repo/photontorch/networks/network.py:309-349`: the terminated network, whose
`base` attribute (a registered module) is the original network.  The CUDA branch is omitted. -/
def terminate (s : NetState) (arg : TermArg) (name : Option Str) : Except PyErr NetState :=
  match s.buf with
  | none => .error .attributeError
  | some c =>
    if c.numFree = 0 then .error .indexError
    else
      match termDict c.numFree arg with
      | .error e => .error e
      | .ok terms =>
        let nwName := s.name.getD s.cls
        let copied : Comp := { c with name := some nwName }
        let components := terms.foldl (fun d p => dictSet p.1 p.2 d) [(nwName, copied)]
        let conns := termConns nwName (terms.map Prod.fst)
        let newName := name.getD (nwName ++ ['_', 't', 'e', 'r', 'm', 'i', 'n', 'a', 't', 'e', 'd'])
        match newNetwork (some newName) ['n', 'e', 't', 'w', 'o', 'r', 'k'] components conns with
        | .error e => .error e
        | .ok nw =>
          match addComponent nw ['b', 'a', 's', 'e'] { c with name := s.name } with
          | (_, .error e) => .error e
          | (nw, .ok _) => .ok nw

/-- `unterminate`, `/repo/photontorch/networks/network.py:352-358`: the module called `base`
(`AttributeError` if there is none). -/
def unterminate (s : NetState) : Except PyErr Comp :=
  match dictGet ['b', 'a', 's', 'e'] s.modules with
  | none => .error .attributeError
  | some c => .ok c

end PT
