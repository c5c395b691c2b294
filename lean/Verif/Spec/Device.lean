import Verif.Model.Device
import Verif.Spec.Topology
import Verif.Spec.Components

/-! Specification vocabulary for circuits made of components. -/

namespace PT.Spec

/-- Circuits made of components satisfying `P`, to any nesting depth, wired the documented way: usable names, every
port used at most once, external ports numbered from 0 without gaps. -/
inductive MadeOf (P : Part → Prop) : Dev → Prop
  | part (p : Part) : P p → 0 < p.n → MadeOf P p.dev
  | named (d : Dev) (x : Option Str) : MadeOf P d → MadeOf P { d with comp := { d.comp with name := x } }
  | net (name : Option Str) (modules : List (Str × Dev)) (cs : List Conn) (d : Dev) :
      (∀ p ∈ modules, MadeOf P p.2) → GoodConns cs → UsedOnce cs → Contiguous cs →
      mkDev name modules (cs.map Conn.text) = .ok d → MadeOf P d

/-- Light entering the circuit travels through it in one direction: the ports have a front (`front i = true`) and a
back side, components scatter only from the front to the back and vice versa, and connections lead from the back of
something to the front of something of higher rank. -/
structure FeedForward (d : Dev) (front : ℕ → Bool) (rank : ℕ → ℕ) : Prop where
  scatter : ∀ wl i j, i < d.comp.n → j < d.comp.n → d.rS wl i j ≠ 0 ∨ d.iS wl i j ≠ 0 →
    front i ≠ front j ∧ rank i = rank j
  connect : ∀ i j, d.comp.C i j ≠ 0 → front i ≠ front j ∧ (front i = false → rank i < rank j)

/-- Sources, detectors and lossless components. -/
def IdealOrEnd (p : Part) : Prop := p = .source ∨ p = .detector ∨ ∀ wl, Unitary (scattering p wl)

end PT.Spec

namespace PT.Spec

/-- Light travels through the device in one direction, its port number `j` is on the front side if `side j`, and its
sources emit forward. -/
def Oriented (d : Dev) (side : ℕ → Bool) : Prop :=
  ∃ front rank, FeedForward d front rank ∧ (∀ j p : ℕ, (freePorts d.comp)[j]? = some p → front p = side j) ∧
    ∀ i, d.comp.src.getD i false = true → front i = false

end PT.Spec
