import Verif.Model.Topology

/-! Specification vocabulary for networks: connections, ports, layout. -/

namespace PT.Spec

/-- A connection as the documentation describes it
(`/repo/photontorch/networks/network.py:91-93`). -/
inductive Conn
  /-- port `i` of component `a` is connected to port `j` of component `b` -/
  | inner (a : Str) (i : ℤ) (b : Str) (j : ℤ)
  /-- port `i` of component `a` is port `p` of the network -/
  | outer (a : Str) (i : ℤ) (p : ℤ)
  deriving DecidableEq, Repr

/-- How a connection is written: `"a:i:b:j"` or `"a:i:p"`. -/
def Conn.text : Conn → Str
  | .inner a i b j => a ++ ':' :: (intStr i ++ ':' :: (b ++ ':' :: intStr j))
  | .outer a i p => a ++ ':' :: (intStr i ++ ':' :: intStr p)

/-- The components mentioned in a connection. -/
def Conn.names : Conn → List Str
  | .inner a _ b _ => [a, b]
  | .outer a _ _ => [a]

/-- A usable component name: no colon, no surrounding white space, not an integer. -/
def GoodName (x : Str) : Prop := ':' ∉ x ∧ strip x = x ∧ pyInt x = none

/-- All component names in the connections are usable. -/
def GoodConns (cs : List Conn) : Prop := ∀ c ∈ cs, ∀ x ∈ c.names, GoodName x

/-- Component names in the order in which they are first mentioned. -/
def firstMentions (cs : List Conn) : List Str :=
  (cs.flatMap Conn.names).foldl (fun acc x => if x ∈ acc then acc else acc ++ [x]) []

/-- A port without any connection. -/
def Unconnected (c : Comp) (i : ℕ) : Prop := ∀ k < c.n, c.C i k = 0 ∧ c.C k i = 0

instance (c : Comp) (i : ℕ) : Decidable (Unconnected c i) := by unfold Unconnected; infer_instance

/-- The numbered ports of a component: its unconnected ports in port order. -/
def freePorts (c : Comp) : List ℕ :=
  c.portOrder.filter fun i => decide (i < c.n ∧ Unconnected c i)

/-- `p` is the entry of `l` at Python index `i` (negative indices count from the end). -/
def At (l : List ℕ) (i : ℤ) (p : ℕ) : Prop :=
  (∃ k : ℕ, i = k ∧ l[k]? = some p) ∨ (∃ k : ℕ, i = (k : ℤ) - l.length ∧ i < 0 ∧ l[k]? = some p)

/-- Total number of ports. -/
def width (l : Comps) : ℕ := (l.map fun p => p.2.n).sum

/-- Component `x` occupies the ports `s, s+1, …, s+c.n-1` in the layout `l`. -/
def Block (l : Comps) (x : Str) (c : Comp) (s : ℕ) : Prop :=
  ∃ pre post, l = pre ++ (x, c) :: post ∧ x ∉ pre.map Prod.fst ∧ s = width pre

/-- Port number `i` of component `x` is port `g` of the network with layout `l`. -/
def PortOf (l : Comps) (x : Str) (i : ℤ) (g : ℕ) : Prop :=
  ∃ c s p, Block l x c s ∧ At (freePorts c) i p ∧ g = s + p

/-- `l` lists the components mentioned in the connections, in order of first mention. -/
def Layout (modules : Comps) (cs : List Conn) (l : Comps) : Prop :=
  l.map Prod.fst = firstMentions cs ∧
    ∀ p ∈ l, ∃ d, dictGet p.1 modules = some d ∧ p.2 = { d with name := some p.1 }

/-- Ports `i` and `j` of the network are connected inside one of its components. -/
def InsideConn (l : Comps) (i j : ℕ) : Prop :=
  ∃ x c s i' j', Block l x c s ∧ i' < c.n ∧ j' < c.n ∧ i = s + i' ∧ j = s + j' ∧ c.C i' j' ≠ 0

/-- Ports `i` and `j` of the network are connected by a declared connection. -/
def Declared (l : Comps) (cs : List Conn) (i j : ℕ) : Prop :=
  ∃ a k b m, Conn.inner a k b m ∈ cs ∧
    ((PortOf l a k i ∧ PortOf l b m j) ∨ (PortOf l a k j ∧ PortOf l b m i))

/-- A symmetric zero-one matrix on `n` ports. -/
def Reciprocal (n : ℕ) (C : ℕ → ℕ → ℚ) : Prop :=
  (∀ i j, C i j = C j i) ∧ (∀ i j, C i j = 0 ∨ C i j = 1) ∧ ∀ i j, C i j ≠ 0 → i < n ∧ j < n

/-- Everything that can be built: basic components, SOAs, and networks of such, to any depth. -/
inductive Built : Comp → Prop
  | leaf (n : ℕ) (src det act : List Bool) : src.length = n → det.length = n → act.length = n →
      (leaf n src det act).check = .ok () → Built (leaf n src det act)
  | soa : Built soa
  | named (c : Comp) (x : Option Str) : Built c → Built { c with name := x }
  | net (name : Option Str) (modules : Comps) (conns : List Str) (c : Comp) :
      (∀ p ∈ modules, Built p.2) → mkNet name modules conns = .ok c → Built c

end PT.Spec

namespace PT.Spec

/-- The endpoints named by an internal connection. -/
def Conn.ends : Conn → List (Str × ℤ)
  | .inner a i b j => [(a, i), (b, j)]
  | .outer _ _ _ => []

/-- The endpoints named by internal connections. -/
def endpoints (cs : List Conn) : List (Str × ℤ) := cs.flatMap Conn.ends

/-- Every sub-component port is named by at most one internal connection, by its non-negative
number. -/
def UsedOnce (cs : List Conn) : Prop := (endpoints cs).Nodup ∧ ∀ e ∈ endpoints cs, 0 ≤ e.2

/-- The external declarations: component, port, external number. -/
def outs (cs : List Conn) : List ((Str × ℤ) × ℤ) :=
  cs.filterMap fun c => match c with
    | .inner _ _ _ _ => none
    | .outer a i p => some ((a, i), p)

/-- The external numbers are 0, 1, …, k-1, each used once, for different sub-component ports (given
by non-negative numbers). -/
def Contiguous (cs : List Conn) : Prop :=
  ((outs cs).map Prod.snd).Perm ((List.range (outs cs).length).map fun (j : ℕ) => (j : ℤ)) ∧
    ((outs cs).map Prod.fst).Nodup ∧ ∀ o ∈ outs cs, 0 ≤ o.1.2

/-- No sub-component port is both connected and declared external; connected ports are given by
non-negative numbers. -/
def Separate (cs : List Conn) : Prop :=
  (∀ o ∈ outs cs, o.1 ∉ endpoints cs) ∧ ∀ e ∈ endpoints cs, 0 ≤ e.2

/-- External number `j` of network `c` with layout `l` is where the connections say, for every
declaration, and the undeclared free ports follow in ascending order. -/
def NumberedAsDeclared (l : Comps) (cs : List Conn) (c : Comp) : Prop :=
  (∀ a i p, Conn.outer a i p ∈ cs → ∃ (j : ℕ) (g : ℕ), p = j ∧ PortOf l a i g ∧ (freePorts c)[j]? = some g) ∧
    ((freePorts c).drop (outs cs).length).Pairwise (· < ·) ∧
    ∀ g, g ∈ (freePorts c).drop (outs cs).length ↔
      (g < c.n ∧ Unconnected c g) ∧ ¬ ∃ a i p, Conn.outer a i p ∈ cs ∧ PortOf l a i g

/-- Every port has at most one partner. -/
def AtMostOne (C : ℕ → ℕ → ℚ) : Prop := ∀ i j j', C i j ≠ 0 → C i j' ≠ 0 → j = j'

/-- The port order lists every port exactly once. -/
def OrderOK (c : Comp) : Prop := c.portOrder.Perm (List.range c.n)

end PT.Spec

namespace PT.Spec

/-- Networks built the documented way, to any depth: usable names, every port used at most once,
external ports numbered from 0 without gaps. -/
inductive Clean : Comp → Prop
  | leaf (n : ℕ) (src det act : List Bool) : src.length = n → det.length = n → act.length = n →
      (leaf n src det act).check = .ok () → Clean (leaf n src det act)
  | soa : Clean soa
  | named (c : Comp) (x : Option Str) : Clean c → Clean { c with name := x }
  | net (name : Option Str) (modules : Comps) (cs : List Conn) (c : Comp) :
      (∀ p ∈ modules, Clean p.2) → GoodConns cs → UsedOnce cs → Contiguous cs →
      mkNet name modules (cs.map Conn.text) = .ok c → Clean c

/-- All numbered ports of the components of a layout, component by component. -/
def chainPorts : Comps → ℕ → List ℕ
  | [], _ => []
  | (_, c) :: l, s => (freePorts c).map (s + ·) ++ chainPorts l (s + c.n)

end PT.Spec

namespace PT.Spec

/-- `i` is the number of a free port of component `x`. -/
def HasPort (modules : Comps) (x : Str) (i : ℤ) : Prop :=
  ∃ d, dictGet x modules = some d ∧ 0 ≤ i ∧ i < (freePorts d).length

/-- Every connection is between existing ports, and no connection joins a port to itself. -/
def PortsExist (modules : Comps) (cs : List Conn) : Prop :=
  ∀ c ∈ cs, match c with
    | .inner a i b j => HasPort modules a i ∧ HasPort modules b j ∧ ¬ (a = b ∧ i = j)
    | .outer a i _ => HasPort modules a i

end PT.Spec
