import Verif.Model.Str
import Mathlib.Data.List.Sort

/-!
# Model of components and networks: ports, connections, port order

`/repo/photontorch/components/component.py` and `/repo/photontorch/networks/network.py:57-358,889-993`.
-/

namespace PT

/-- A component with its buffers, `/repo/photontorch/components/component.py:38-105`.
`C` is the connection matrix, `portOrder` the port order; `src`, `det`, `act` are `sources_at`,
`detectors_at`, `actions_at`.  The scattering matrix and delays are in `Verif/Model/Sim.lean`.
Simplification: a component inside a network is not modified after it was added, so that the
buffers a network recomputes for its children (`set_C`, `set_port_order`… called recursively) are
the stored ones. -/
structure Comp where
  name : Option Str
  n : ℕ
  C : ℕ → ℕ → ℚ
  portOrder : List ℕ
  src : List Bool
  det : List Bool
  act : List Bool
  isNet : Bool

/-- `free_ports_at[i]`, `/repo/photontorch/components/component.py:80`. -/
def Comp.freeAt (c : Comp) (i : ℕ) : Bool :=
  decide (i < c.n) &&
    !(decide (0 < ((List.range c.n).map fun k => c.C k i).sum) ||
      decide (0 < ((List.range c.n).map fun k => c.C i k).sum))

/-- `num_free_ports`, `/repo/photontorch/components/component.py:85`. -/
def Comp.numFree (c : Comp) : ℕ := ((List.range c.n).filter c.freeAt).length

/-- `terminated`, `/repo/photontorch/components/component.py:81`. -/
def Comp.terminated (c : Comp) : Bool := !(List.range c.n).any c.freeAt

/-- The free ports in port order:
`[idx for idx in comp.port_order if idx in torch.where(comp.free_ports_at)[0]]`,
`/repo/photontorch/networks/network.py:907-914,956-963`. -/
def Comp.free (c : Comp) : List ℕ := c.portOrder.filter c.freeAt

/-- Whether two boolean tensors have a common `True`, `(a & b).any()`,
`/repo/photontorch/components/component.py:86-105`. -/
def overlap (a b : List Bool) : Bool := (List.zipWith (· && ·) a b).any id

/-- The final checks of `Component._set_buffers`, `/repo/photontorch/components/component.py:87-105`.
The port-order check raises only if *every* position of the sorted order differs from `arange`
(`.all()`), and then it raises `NameError`, because it mentions the undefined name `comp`. -/
def Comp.check (c : Comp) : Except PyErr Unit :=
  if overlap c.src c.det then .error .valueError
  else if overlap c.src c.act then .error .valueError
  else if overlap c.det c.act then .error .valueError
  else if (List.zipWith (fun a b => decide (a ≠ b)) (c.portOrder.insertionSort (· ≤ ·))
      (List.range c.n)).all id then .error .nameError
  else if c.act.any id && !(c.act.all id || c.isNet) then .error .valueError
  else .ok ()

/-- A basic component that does not override `set_C`/`set_port_order`, with the given markings,
`/repo/photontorch/components/component.py:58-105,177-190`. -/
def leaf (n : ℕ) (src det act : List Bool) : Comp :=
  ⟨none, n, fun _ _ => 0, List.range n, src, det, act, false⟩

/-- `Term`, `/repo/photontorch/components/terms.py:28-39`. -/
def term : Comp := leaf 1 [false] [false] [false]
/-- `Source`, `/repo/photontorch/components/terms.py:45-56`. -/
def source : Comp := leaf 1 [true] [false] [false]
/-- `Detector`, `/repo/photontorch/components/terms.py:62-72`. -/
def detector : Comp := leaf 1 [false] [true] [false]

/-- A passive component with `n` ports (waveguide, mirror, coupler, …): no markings,
`/repo/photontorch/components/waveguides.py`. -/
def passive (n : ℕ) : Comp :=
  leaf n (List.replicate n false) (List.replicate n false) (List.replicate n false)

/-- `BaseSoa`, `/repo/photontorch/components/soas.py:74,117-127`: three active ports, the internal
state connected to itself. -/
def soa : Comp :=
  ⟨none, 3, fun i j => if i = 1 ∧ j = 1 then 1 else 0, List.range 3, List.replicate 3 false,
    List.replicate 3 false, List.replicate 3 true, false⟩

/-- An ordered dictionary of components,
`/repo/photontorch/networks/network.py:279-306`. -/
abbrev Comps := List (Str × Comp)

/-- `Network.num_ports`, `/repo/photontorch/networks/network.py:74-77`. -/
def Comps.numPorts (l : Comps) : ℕ := (l.map fun p => p.2.n).sum

/-- `start_idxs[name]` and the component, `/repo/photontorch/networks/network.py:903-906`;
`none` is `KeyError`. -/
def locate : Comps → Str → Option (ℕ × Comp)
  | [], _ => none
  | (m, c) :: l, x => if m = x then some (0, c) else (locate l x).map fun p => (c.n + p.1, p.2)

/-- `start_idxs[comp] + free_idxs[comp][i]`, `/repo/photontorch/networks/network.py:931,932,972`. -/
def globalPort (l : Comps) (x : Str) (i : ℤ) : Except PyErr ℕ :=
  match locate l x with
  | none => .error .keyError
  | some (start, c) =>
    match pyIndex c.free i with
    | none => .error .indexError
    | some p => .ok (start + p)

/-- `int(s)`, raising `ValueError`,
`/repo/photontorch/networks/network.py:889-993`. -/
def intOf (s : Str) : Except PyErr ℤ :=
  match pyInt s with
  | none => .error .valueError
  | some z => .ok z

/-- The check `i >= len(free_idxs[comp])`, `/repo/photontorch/networks/network.py:925-930`. -/
def portTooHigh (l : Comps) (x : Str) (i : ℤ) : Except PyErr Unit :=
  match locate l x with
  | none => .error .keyError
  | some (_, c) => if (c.free.length : ℤ) ≤ i then .error .valueError else .ok ()

/-- `parse_connection` on the four parts, `/repo/photontorch/networks/network.py:922-933`. -/
def internalPorts (l : Comps) (a : Str) (i : ℤ) (b : Str) (j : ℤ) : Except PyErr (ℕ × ℕ) :=
  if a = b ∧ i = j then .error .indexError
  else
    (portTooHigh l a i).bind fun _ =>
    (portTooHigh l b j).bind fun _ =>
    (globalPort l a i).bind fun x =>
    (globalPort l b j).bind fun y => .ok (x, y)

/-- `parse_connection`, `/repo/photontorch/networks/network.py:917-933`. -/
def parseInternal (l : Comps) (conn : Str) : Except PyErr (Option (ℕ × ℕ)) :=
  match splitColon conn with
  | [a, i, b, j] =>
    (intOf i).bind fun i => (intOf j).bind fun j => (internalPorts l a i b j).map some
  | ps => if ps.length < 4 then .ok none else .error .valueError

/-- `C[i, j] = C[j, i] = 1.0`, `/repo/photontorch/networks/network.py:938`. -/
def connect (C : ℕ → ℕ → ℚ) (i j : ℕ) : ℕ → ℕ → ℚ := fun a b =>
  if (a = i ∧ b = j) ∨ (a = j ∧ b = i) then 1 else C a b

/-- The children's connection matrices on the diagonal,
`/repo/photontorch/networks/network.py:898-901`. -/
def blockC : Comps → ℕ → ℕ → ℚ
  | [], _, _ => 0
  | (_, c) :: l, i, j =>
    if i < c.n then (if j < c.n then c.C i j else 0)
    else if j < c.n then 0 else blockC l (i - c.n) (j - c.n)

/-- `Network.set_C`, `/repo/photontorch/networks/network.py:889-938` (the parsing of all strings is
done before the assignments; an exception abandons the matrix either way). -/
def setC (l : Comps) (conns : List Str) : Except PyErr (ℕ → ℕ → ℚ) :=
  (mapE (parseInternal l) conns).map fun ps =>
    (ps.filterMap id).foldl (fun C p => connect C p.1 p.2) (blockC l)

/-- `parse_output_connection`, `/repo/photontorch/networks/network.py:966-973`. -/
def parseExternal (l : Comps) (conn : Str) : Except PyErr (Option (ℕ × ℤ)) :=
  match splitColon conn with
  | [c, i, j] =>
    (intOf i).bind fun i => (intOf j).bind fun j => (globalPort l c i).map fun g => some (g, j)
  | ps => if ps.length = 4 then .ok none else .error .valueError

/-- The children's port orders, shifted: `port_order_clone`,
`/repo/photontorch/networks/network.py:945-950,991`. -/
def blockOrder : Comps → List ℕ
  | [] => []
  | (_, c) :: l => c.portOrder ++ (blockOrder l).map (c.n + ·)

/-- `order_dict`, `/repo/photontorch/networks/network.py:975-979`. -/
def orderDict (es : List (ℕ × ℤ)) : List (ℤ × ℕ) := es.foldl (fun d e => dictSet e.2 e.1 d) []

/-- `order`, `/repo/photontorch/networks/network.py:981-989`. -/
def orderOf (n : ℕ) (d : List (ℤ × ℕ)) : List ℕ :=
  ((List.range d.length).filterMap fun (j : ℕ) => dictGet (j : ℤ) d) ++
    (List.range n).filter fun i => decide (i ∉ d.map Prod.snd)

/-- `port_order_clone[idx]`, `/repo/photontorch/networks/network.py:993`. -/
def cloneAt (clone : List ℕ) (idx : ℕ) : Except PyErr ℕ :=
  match clone[idx]? with
  | none => .error .indexError
  | some v => .ok v

/-- The loop `port_order[i] = port_order_clone[idx]`,
`/repo/photontorch/networks/network.py:992-993`; positions beyond `order` keep their old value. -/
def applyOrder (clone order : List ℕ) : Except PyErr (List ℕ) :=
  if clone.length < order.length then .error .indexError
  else (mapE (cloneAt clone) order).map fun vs => vs ++ clone.drop order.length

/-- `Network.set_port_order`, `/repo/photontorch/networks/network.py:940-993`. -/
def setPortOrder (l : Comps) (conns : List Str) : Except PyErr (List ℕ) :=
  (mapE (parseExternal l) conns).bind fun es =>
    applyOrder (blockOrder l) (orderOf l.numPorts (orderDict (es.filterMap id)))

/-- `_get_used_component_names`, `/repo/photontorch/networks/network.py:255-277`. -/
def usedNames (conns : List Str) : List Str :=
  dedupFirst ((conns.flatMap splitColon).filter fun s => (pyInt s).isNone)

/-- `self.components[name] = all_components[name]` for the used names (`KeyError` if unknown), setting
the children's names, `/repo/photontorch/networks/network.py:300-303`. -/
def pickComps (modules : Comps) (names : List Str) : Except PyErr Comps :=
  mapE (fun x => match dictGet x modules with
    | none => .error .keyError
    | some c => .ok (x, { c with name := some x })) names

/-- Stripping of the parts of a connection string, `/repo/photontorch/networks/network.py:296-297`. -/
def stripConn (conn : Str) : Str := joinColon ((splitColon conn).map strip)

/-- `Component._set_buffers` for a network with the given components dictionary,
`/repo/photontorch/components/component.py:58-105`, `/repo/photontorch/networks/network.py:864-887`. -/
def netBuffers (name : Option Str) (l : Comps) (conns : List Str) : Except PyErr Comp :=
  (setPortOrder l conns).bind fun po =>
  (setC l conns).bind fun C =>
    let c : Comp := ⟨name, l.numPorts, C, po, l.flatMap (·.2.src), l.flatMap (·.2.det),
      l.flatMap (·.2.act), true⟩
    c.check.map fun _ => c

/-- The network made of the given modules and connections: `Network._set_buffers`,
`/repo/photontorch/networks/network.py:279-306`, in the case that there are connections and
modules. -/
def mkNet (name : Option Str) (modules : Comps) (conns : List Str) : Except PyErr Comp :=
  (pickComps modules (usedNames (conns.map stripConn))).bind fun l =>
    netBuffers name l (conns.map stripConn)

end PT
