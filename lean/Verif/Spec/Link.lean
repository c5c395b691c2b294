import Verif.Spec.Topology
import Verif.Model.Network

/-! Specification vocabulary for `link` and `terminate`. -/

namespace PT.Spec

/-- An element `"a:name:b"` of a chain: enter at port `a`, leave at port `b`.  Both ports are optional
here; see `ChainOK`. -/
structure Elem where
  a : Option ℤ
  name : Str
  b : Option ℤ

/-- How an element is written. -/
def Elem.text (e : Elem) : Str :=
  (match e.a with
    | some a => intStr a ++ [':']
    | none => []) ++ e.name ++
  match e.b with
    | some b => ':' :: intStr b
    | none => []

/-- How an optional external port is given: left out or `None`; as an `int` or as a decimal string. -/
def ArgFor : Option ℤ → List LinkArg → Prop
  | none, args => args = [] ∨ args = [.none]
  | some z, args => args = [.int z] ∨ args = [.str (intStr z)]

/-- A proper chain: non-empty; usable names; only the outer ports of the two ends may be left out, and
only if there is no external port there. A single element without external port in front must have its
second port. -/
def ChainOK (inp : Option ℤ) (es : List Elem) (out : Option ℤ) : Prop :=
  es ≠ [] ∧ (∀ e ∈ es, GoodName e.name) ∧ (∀ e ∈ es.tail, e.a.isSome) ∧ (∀ e ∈ es.dropLast, e.b.isSome) ∧
    (inp.isSome → ∀ e ∈ es.head?, e.a.isSome) ∧ (out.isSome → ∀ e ∈ es.getLast?, e.b.isSome) ∧
    (es.length = 1 → inp = none → ∀ e ∈ es, e.b.isSome)

/-- The connections between consecutive elements. -/
def between : List Elem → List Conn
  | e :: e' :: l =>
    (Option.map₂ (fun b a => Conn.inner e.name b e'.name a) e.b e'.a).toList ++ between (e' :: l)
  | _ => []

/-- Everything a chain declares. -/
def chain (inp : Option ℤ) (es : List Elem) (out : Option ℤ) : List Conn :=
  between es ++
    (es.head?.bind fun e => Option.map₂ (fun a p => Conn.outer e.name a p) e.a inp).toList ++
    (es.getLast?.bind fun e => Option.map₂ (fun b p => Conn.outer e.name b p) e.b out).toList

end PT.Spec

namespace PT.Spec

/-- A usable name for an attribute of a network (and in connection strings). -/
def AttrName (x : Str) : Prop := GoodName x ∧ x ≠ [] ∧ '.' ∉ x

/-- A one-port component, such as a term, a source or a detector. -/
def OnePort (t : Comp) : Prop := Built t ∧ OrderOK t ∧ t.n = 1 ∧ freePorts t = [0]

/-- Proper terms for a network called `nw`: one-port components under different usable names, which are
also their own names (if they have one). -/
def TermsOK (nw : Str) (terms : Comps) : Prop :=
  (terms.map Prod.fst).Nodup ∧ nw ∉ terms.map Prod.fst ∧ AttrName nw ∧
    (∀ p ∈ terms, AttrName p.1 ∧ p.1 ≠ ['b', 'a', 's', 'e'] ∧ OnePort p.2 ∧ (p.2.name = none ∨ p.2.name = some p.1)) ∧
    nw ≠ ['b', 'a', 's', 'e']

/-- Term number `i` on port number `i` of the network. -/
def termLinks (nw : Str) (names : List Str) : List Conn :=
  names.zipIdx.map fun (p : Str × ℕ) => Conn.inner p.1 0 nw (p.2 : ℤ)

end PT.Spec
