import Verif.Model.Gear
import Verif.Spec.Active
import Verif.Spec.Named

/-!
# Specification: circuits of named components of any kind, active ones included
-/

namespace PT.Spec

variable {W B : Type}

/-- The numbered ports of named components. -/
def gearPorts (parts : List (Str × Gear W B)) : List (Str × ℤ) :=
  parts.flatMap fun q => (List.range (freePorts q.2.dev.comp).length).map fun (i : ℕ) => (q.1, (i : ℤ))

/-- A component that keeps the rules: its buffers were made by the documented means, it is active with all its ports or not at
all, and its action fills the given output. -/
structure Proper (g : Gear W B) : Prop where
  clean : Clean g.dev.comp
  ports : g.actor.numPorts = g.dev.comp.n
  active : ∀ i < g.dev.comp.n, g.dev.comp.act.getD i false = g.actor.active
  fills : ∀ t x z, (g.actor.action t x z).length = z.length

/-- A closed circuit of named components: the ends of the connections are the numbered ports of the components, each once. -/
structure Shut (parts : List (Str × Gear W B)) (cs : List Conn) : Prop where
  names : (parts.map Prod.fst).Nodup
  good : ∀ q ∈ parts, GoodName q.1
  proper : ∀ q ∈ parts, Proper q.2
  reachable : ∀ q ∈ parts, freePorts q.2.dev.comp ≠ []
  nonempty : parts ≠ []
  ports : (endpoints cs).Perm (gearPorts parts)
  inner : outs cs = []

/-- The ports of the components with the given mark, in the given order of the components. -/
def markedIn (f : Comp → List Bool) (order : List Str) (parts : List (Str × Gear W B)) : List (Str × ℕ) :=
  order.flatMap fun x => parts.flatMap fun q =>
    if q.1 = x then ((List.range q.2.dev.comp.n).filter fun i => (f q.2.dev.comp).getD i false).map fun i => (x, i) else []

/-- The time steps light takes to get into port `i` of a component: the rounded delay, but at least one at sources, detectors and active ports. -/
noncomputable def lag (env : SimEnv) (v : ℝ) (g : Gear W B) (i : ℕ) : ℕ :=
  let s := if env.freqdomain then 0 else match env.dt with
    | some dt => roundSteps (g.dev.delay v i / dt)
    | none => 0
  if g.dev.comp.src.getD i false || g.dev.comp.det.getD i false || g.dev.comp.act.getD i false then max 1 s else s

/-- What a component scatters to port `i`, when `A` is what entered its ports. -/
noncomputable def scatters (env : SimEnv) (v wl : ℝ) (g : Gear W B) (A : ℕ → ℕ → ℂ) (t i : ℕ) : ℂ :=
  ∑ j ∈ Finset.range g.dev.comp.n, (⟨g.dev.rS wl i j, g.dev.iS wl i j⟩ : ℂ) *
    if lag env v g j ≤ t then A (t - lag env v g j) j else 0

/-- Light running through a circuit: `A t w β x i` enters port `i` of the component `x` and `O t w β x i` leaves it. What enters a
port left the port connected to it; what a component scatters and emits is subjected to its own action. -/
structure Running (parts : List (Str × Gear W B)) (cs : List Conn) (env : SimEnv) (v : ℝ) (wl : W → ℝ)
    (emit : ℕ → W → B → Str → ℕ → ℂ) (A O : ℕ → W → B → Str → ℕ → ℂ) : Prop where
  joined : ∀ t < env.t.length, ∀ w β a i b j, Joined cs a i b j → ∀ g h p q, (a, g) ∈ parts → (b, h) ∈ parts →
    (freePorts g.dev.comp)[i]? = some p → (freePorts h.dev.comp)[j]? = some q → A t w β a p = O t w β b q
  inside : ∀ t < env.t.length, ∀ w β, ∀ q ∈ parts, ∀ i j, q.2.dev.comp.C i j ≠ 0 → A t w β q.1 i = O t w β q.1 j
  left : ∀ t (ht : t < env.t.length), ∀ q ∈ parts, ∀ i < q.2.dev.comp.n,
    node (fun w β => O t w β q.1 i) = ownAction env.t[t]
      (fun j => node fun w β => scatters env v (wl w) q.2 (fun s => A s w β q.1) t j + emit t w β q.1 j) q.2.actor 0 i

/-- The signals of the sources, in the order of the channels; nothing at other ports. -/
noncomputable def signals (parts : List (Str × Gear W B)) (order : List Str) (src : ℕ → ℕ → W → B → ℝ × ℝ) (t : ℕ) (w : W) (β : B)
    (x : Str) (i : ℕ) : ℂ :=
  if (x, i) ∈ markedIn (·.src) order parts then asComplex (src t ((markedIn (·.src) order parts).idxOf (x, i)) w β) else 0

/-- Light going round without taking time: nothing at the ports that take time, and at the other ports `A x i` enters and `O x i`
leaves at the same moment. -/
structure Caught (parts : List (Str × Gear W B)) (cs : List Conn) (env : SimEnv) (v wl : ℝ) (A O : Str → ℕ → ℂ) : Prop where
  held : ∀ q ∈ parts, ∀ i < q.2.dev.comp.n, lag env v q.2 i ≠ 0 → A q.1 i = 0 ∧ O q.1 i = 0
  joined : ∀ a i b j, Joined cs a i b j → ∀ g h p q, (a, g) ∈ parts → (b, h) ∈ parts →
    (freePorts g.dev.comp)[i]? = some p → (freePorts h.dev.comp)[j]? = some q → lag env v g p = 0 → A a p = O b q
  inside : ∀ q ∈ parts, ∀ i j, q.2.dev.comp.C i j ≠ 0 → lag env v q.2 i = 0 → A q.1 i = O q.1 j
  scattered : ∀ q ∈ parts, ∀ i < q.2.dev.comp.n, lag env v q.2 i = 0 →
    O q.1 i = ∑ j ∈ Finset.range q.2.dev.comp.n, (⟨q.2.dev.rS wl i j, q.2.dev.iS wl i j⟩ : ℂ) * A q.1 j

/-- Components in which light that takes no time does not mix with light that takes some. -/
def Unmixed (env : SimEnv) (v : ℝ) (wl : ℝ) (g : Gear W B) : Prop :=
  ∀ i < g.dev.comp.n, ∀ j < g.dev.comp.n, lag env v g i = 0 → lag env v g j ≠ 0 →
    (g.dev.rS wl i j = 0 ∧ g.dev.iS wl i j = 0) ∧ g.dev.rS wl j i = 0 ∧ g.dev.iS wl j i = 0

end PT.Spec
