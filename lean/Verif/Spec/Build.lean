import Verif.Model.Build
import Verif.Spec.Link

/-! Specification: plans of networks within networks, and the ways to write them down. -/

namespace PT.Spec

/-- One call of `link`: a chain with or without external ports at its ends, how these are written, and
whether it is `pt.link(…)` or `nw.link(…)`. -/
structure LinkCall where
  inp : Option ℤ
  es : List Elem
  out : Option ℤ
  ia : List LinkArg
  oa : List LinkArg
  here : Bool

/-- The arguments. -/
def LinkCall.args (l : LinkCall) : List LinkArg := l.ia ++ l.es.map (fun e => .str e.text) ++ l.oa

/-- The chain is proper, and its external ports are written properly. -/
def LinkCall.OK (l : LinkCall) : Prop := ArgFor l.inp l.ia ∧ ArgFor l.out l.oa ∧ ChainOK l.inp l.es l.out

/-- What the calls declare. -/
def declared (calls : List LinkCall) : List Conn := calls.flatMap fun l => chain l.inp l.es l.out

/-- The parts of a network: components and networks, each with the name it is used under, and whether the
name is given to the constructor (`named`) or by assigning to an attribute. -/
inductive Parts
  | nil
  | leaf (n : Str) (named : Bool) (c : Comp) (rest : Parts)
  | net (n : Str) (named : Bool) (parts : Parts) (calls : List LinkCall) (rest : Parts)

/-- The calls of `link` for the network `x`. -/
def callsScript (x : ℕ) : List LinkCall → Build
  | [] => .skip
  | l :: ls => .seq (if l.here then .linkHere l.args else .linkOf x l.args) (callsScript x ls)

/-- The program that makes the parts, inside `with … as x:`. -/
def Parts.script : Parts → ℕ → Build
  | .nil, _ => .skip
  | .leaf n true c r, x => .seq (.newComp n c) (r.script x)
  | .leaf n false c r, x => .seq (.attr x n (.leaf { c with name := none })) (r.script x)
  | .net n true ps ls r, x =>
    .seq (.withNew (some n) (fun y => .seq (ps.script y) (callsScript y ls)) fun _ => .skip) (r.script x)
  | .net n false ps ls r, x =>
    .seq (.withNew none (fun y => .seq (ps.script y) (callsScript y ls)) fun y => .attr x n (.net y)) (r.script x)

/-- The names of the parts. -/
def Parts.names : Parts → List Str
  | .nil => []
  | .leaf n _ _ r => n :: r.names
  | .net n _ _ _ r => n :: r.names

/-- The buffers of `pt.Network(components={…}, connections=[…], name=…)`. -/
def byDictionary (name : Option Str) (m : Comps) (cs : List Conn) : Option Comp :=
  match newNetwork name [] m (cs.map Conn.text) with
  | .ok s => s.buf
  | .error _ => none

/-- The parts, when everything is made with dictionaries, from the inside to the outside. -/
def Parts.comps : Parts → Option Comps
  | .nil => some []
  | .leaf n _ c r => r.comps.map ((n, { c with name := some n }) :: ·)
  | .net n _ ps ls r =>
    ps.comps.bind fun m => (byDictionary (some n) m (declared ls)).bind fun c => r.comps.map ((n, c) :: ·)

/-- The calls fit the parts: proper chains between existing ports, external ports numbered from 0 without
gaps. -/
def Fits (ps : Parts) (calls : List LinkCall) : Prop :=
  (∀ l ∈ calls, l.OK) ∧ declared calls ≠ [] ∧ Contiguous (declared calls) ∧
    ∀ m, ps.comps = some m → PortsExist m (declared calls)

/-- Different usable names, proper components, and calls that fit, on all levels. -/
def Parts.OK : Parts → Prop
  | .nil => True
  | .leaf n _ c r => AttrName n ∧ n ∉ r.names ∧ Built c ∧ OrderOK c ∧ r.OK
  | .net n _ ps ls r => AttrName n ∧ n ∉ r.names ∧ ps.OK ∧ Fits ps ls ∧ r.OK

/-- Equal except for the name. -/
def SameComp (c d : Comp) : Prop := ({ c with name := none } : Comp) = { d with name := none }

/-- The parts of a network object as they are now. -/
def nowParts (s : Site) (o : NetObj) : Comps := o.items.filterMap fun p => (s.comp p.2).map fun c => (p.1, c)

/-- The buffers of every network are those of a network with its connections and with its parts as they are
now. -/
def UpToDate (s : Site) : Prop := ∀ (x : ℕ) (o : NetObj) (c : Comp), s.objs[x]? = some o → o.buf = some c →
  ∃ c', mkNet o.name (nowParts s o) o.conns = .ok c' ∧ SameComp c' c

end PT.Spec
