import Verif.Model.Device
import Verif.Spec.Named

/-!
# Specification: the circuit that networks of networks stand for
-/

namespace PT.Spec

/-- A circuit drawn on one sheet: its components, the connections between them, and the ports that are left, in the
order of their numbers. -/
structure Sheet where
  parts : List (Str × Part)
  conns : List Conn
  free : List (Str × ℤ)

/-- A single component. -/
def Sheet.single (x : Str) (p : Part) : Sheet := ⟨[(x, p)], [], portNames [(x, p)]⟩

/-- What is behind a port of a box. -/
def portAt (sheet : Str → Sheet) (e : Str × ℤ) : Str × ℤ := ((sheet e.1).free[e.2.toNat]?).getD e

/-- Connections between boxes, as connections between what is in the boxes. -/
def wires (sheet : Str → Sheet) (cs : List Conn) : List Conn :=
  cs.filterMap fun c => match c with
    | .inner a i b j => some (.inner (portAt sheet (a, i)).1 (portAt sheet (a, i)).2
        (portAt sheet (b, j)).1 (portAt sheet (b, j)).2)
    | .outer _ _ _ => none

/-- The ports of the boxes, in the order in which the connections mention the boxes. -/
def boxPorts (sheet : Str → Sheet) (cs : List Conn) : List (Str × ℤ) :=
  (firstMentions cs).flatMap fun x => (List.range (sheet x).free.length).map fun (i : ℕ) => (x, (i : ℤ))

/-- Connected boxes, with the boxes opened; the ports `D` are left. -/
def Sheet.merge (sheet : Str → Sheet) (cs : List Conn) (D : List (Str × ℤ)) : Sheet :=
  ⟨(firstMentions cs).flatMap fun x => (sheet x).parts,
    wires sheet cs ++ (firstMentions cs).flatMap fun x => (sheet x).conns,
    D.map (portAt sheet)⟩

/-- A component or network (of networks, to any depth) stands for a circuit on one sheet. External ports are declared
either in networks of basic components only, or not at all: then the ports left are those of the boxes in order. -/
inductive Drawn : Dev → Sheet → Prop
  | part (x : Str) (p : Part) : 0 < p.n → Drawn p.dev (.single x p)
  | net (name : Option Str) (modules : List (Str × Dev)) (cs : List Conn) (sheet : Str → Sheet) (d : Dev) :
      (∀ q ∈ modules, Drawn q.2 (sheet q.1)) → GoodConns cs → cs ≠ [] → outs cs = [] → (endpoints cs).Nodup →
      (∀ e ∈ endpoints cs, e ∈ boxPorts sheet cs) → mkDev name modules (cs.map Conn.text) = .ok d →
      Drawn d (.merge sheet cs ((boxPorts sheet cs).filter fun e => decide (e ∉ endpoints cs)))
  | declared (name : Option Str) (modules : List (Str × Dev)) (cs : List Conn) (sheet : Str → Sheet) (d : Dev)
      (D : List (Str × ℤ)) :
      (∀ q ∈ modules, ∃ x p, 0 < p.n ∧ q.2 = p.dev ∧ sheet q.1 = .single x p) → GoodConns cs → cs ≠ [] →
      (endpoints cs ++ D).Perm (boxPorts sheet cs) →
      (outs cs).Perm (D.zipIdx.map fun e => (e.1, (e.2 : ℤ))) → mkDev name modules (cs.map Conn.text) = .ok d →
      Drawn d (.merge sheet cs D)

end PT.Spec
