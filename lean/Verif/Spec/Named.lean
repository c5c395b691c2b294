import Verif.Model.Sim
import Verif.Spec.Components
import Verif.Spec.Sim
import Verif.Spec.Topology

/-!
# Specification: circuits of named components, and their equations in terms of the names
-/

namespace PT.Spec

/-- The ports of named components. -/
def portNames (parts : List (Str × Part)) : List (Str × ℤ) :=
  parts.flatMap fun q => (List.range q.2.n).map fun (i : ℕ) => (q.1, (i : ℤ))

/-- A closed circuit of named components: the ends of the connections are the ports of the components, each once. -/
structure Closed (parts : List (Str × Part)) (cs : List Conn) : Prop where
  names : (parts.map Prod.fst).Nodup
  good : ∀ q ∈ parts, GoodName q.1
  sized : ∀ q ∈ parts, 0 < q.2.n
  nonempty : parts ≠ []
  ports : (endpoints cs).Perm (portNames parts)
  inner : outs cs = []

/-- Port `i` of `a` and port `j` of `b` are connected. -/
def Joined (cs : List Conn) (a : Str) (i : ℕ) (b : Str) (j : ℕ) : Prop :=
  Conn.inner a i b j ∈ cs ∨ Conn.inner b j a i ∈ cs

def isSource : Part → Bool
  | .source => true
  | _ => false

def isDetector : Part → Bool
  | .detector => true
  | _ => false

/-- The names of the sources, in the given order. -/
def emittersIn (order : List Str) (parts : List (Str × Part)) : List Str :=
  order.filter fun x => parts.any fun q => decide (q.1 = x) && isSource q.2

/-- The names of the detectors, in the given order. -/
def listenersIn (order : List Str) (parts : List (Str × Part)) : List Str :=
  order.filter fun x => parts.any fun q => decide (q.1 = x) && isDetector q.2

/-- The names of the sources, in the order in which the connections mention them. -/
def emitters (parts : List (Str × Part)) (cs : List Conn) : List Str := emittersIn (firstMentions cs) parts

/-- The names of the detectors, in the order in which the connections mention them. -/
def listeners (parts : List (Str × Part)) (cs : List Conn) : List Str := listenersIn (firstMentions cs) parts

/-- Light in a steady state: `A x i` enters port `i` of the component `x` and `B x i` leaves it. What enters a port left the
port connected to it, what leaves a component is scattered by it, or emitted. -/
structure Steady (parts : List (Str × Part)) (cs : List Conn) (wl : ℝ) (emit : Str → ℂ) (A B : Str → ℕ → ℂ) : Prop where
  joined : ∀ a i b j, Joined cs a i b j → A a i = B b j
  scattered : ∀ q ∈ parts, ∀ i : Fin q.2.n,
    B q.1 i = ∑ j, scattering q.2 wl i j * A q.1 j + if isSource q.2 then emit q.1 else 0

/-- The same in time: components scatter what entered them their delay ago. -/
structure Moving (parts : List (Str × Part)) (cs : List Conn) (wl v dt : ℝ) (T : ℕ) (emit : ℕ → Str → ℂ)
    (A B : ℕ → Str → ℕ → ℂ) : Prop where
  joined : ∀ t < T, ∀ a i b j, Joined cs a i b j → A t a i = B t b j
  scattered : ∀ t < T, ∀ q ∈ parts, ∀ i : Fin q.2.n, B t q.1 i =
    (∑ j, scattering q.2 wl i j * if roundSteps (q.2.delay v / dt) ≤ t then A (t - roundSteps (q.2.delay v / dt)) q.1 j else 0) +
      if isSource q.2 then emit t q.1 else 0

/-- Components at which light cannot circulate within one step: sources, detectors and those with a delay. -/
def Holds (env : SimEnv) (v : ℝ) (p : Part) : Prop :=
  isSource p = true ∨ isDetector p = true ∨
    (env.freqdomain = false ∧ ∃ dt, env.dt = some dt ∧ 0 < roundSteps (p.delay v / dt))

/-- Light that circulates without any source, and without passing one of the components that hold it. -/
structure Trapped (env : SimEnv) (v : ℝ) (parts : List (Str × Part)) (cs : List Conn) (wl : ℝ) (A B : Str → ℕ → ℂ) : Prop where
  held : ∀ q ∈ parts, Holds env v q.2 → ∀ i < q.2.n, A q.1 i = 0 ∧ B q.1 i = 0
  joined : ∀ q ∈ parts, ¬Holds env v q.2 → ∀ i b j, Joined cs q.1 i b j → A q.1 i = B b j
  scattered : ∀ q ∈ parts, ¬Holds env v q.2 → ∀ i : Fin q.2.n, B q.1 i = ∑ j, scattering q.2 wl i j * A q.1 j

end PT.Spec
