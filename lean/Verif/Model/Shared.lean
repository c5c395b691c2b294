import Verif.Model.Cache
import Verif.Model.Gear

/-!
# Model of component objects used by several networks, and of calls one after the other

`/repo/photontorch/components/component.py:50-56,206-221`, `/repo/photontorch/components/soas.py:76-98,236-263`,
`/repo/photontorch/networks/network.py:402-419,745-789`.
-/

namespace PT

variable {E W B : Type}

/-- The component objects of a session, by class: the passive ones, sources and detectors (`/repo/photontorch/components/component.py:24`), and the two
amplifiers with memory (`/repo/photontorch/components/soas.py:130,170`). -/
inductive Kind
  | part (p : Part)
  | soa (q : SoaParams)
  | agrawal (q : Agrawal)

/-- What is read of an environment, `/repo/photontorch/environment/environment.py:333-496`. -/
structure Stage (W : Type) where
  sim : SimEnv
  c : ℝ
  wl : W → ℝ

/-- The exception `initialize` of a component raises before it stores the environment, if any,
`/repo/photontorch/components/soas.py:236-242`, `/repo/photontorch/components/component.py:213-221`. -/
def Kind.refuses (k : Kind) (env : SimEnv) : Option PyErr :=
  match k with
  | .agrawal _ => if env.freqdomain then some .runtimeError else none
  | _ => none

/-- A component object that was last initialized for the given environment, `/repo/photontorch/components/component.py:206-221`: its action uses the time
step of that environment (`/repo/photontorch/components/soas.py:94`) and what was derived from it in `initialize` (`/repo/photontorch/components/soas.py:249-262`).
The values for objects that were never initialized are not used (see `Kind.fails`). -/
noncomputable def Kind.gear (k : Kind) (s : Option (Stage W)) : Gear W B :=
  match k with
  | .part p => p.gear
  | .soa q => q.gear ((s.bind fun s => s.sim.dt).getD 0)
  | .agrawal q => q.gear ((s.bind fun s => s.sim.dt).getD 0) ((s.map fun s => s.c).getD 0)

/-- The exception the action of a component raises: `self.env` is `None` (`/repo/photontorch/components/component.py:52`), or `self.env.dt` is `None`,
`/repo/photontorch/components/soas.py:94`. -/
def Kind.fails (k : Kind) (s : Option (Stage W)) : Option PyErr :=
  match k with
  | .part _ => none
  | _ => match s with
    | none => some .attributeError
    | some s => if s.sim.dt.isNone then some .typeError else none

/-- The environments, component objects and networks of a session: networks are made of names for component objects and of connections,
`/repo/photontorch/networks/network.py:279-306`. Parameters do not change (for changing ones see `CacheState`). -/
structure Session (E W : Type) where
  stage : E → Stage W
  kind : ℕ → Kind
  parts : ℕ → List (Str × ℕ)
  conns : ℕ → List Str

/-- What is stored in the component objects (`_env`, `/repo/photontorch/components/component.py:52`) and in the networks. -/
structure Board (E W : Type) where
  envs : ℕ → Option E
  nets : ℕ → CacheState Unit E W

/-- Before any call, `/repo/photontorch/components/component.py:38-56`. -/
def Board.new : Board E W := ⟨fun _ => none, fun _ => CacheState.new ()⟩

/-- The matrices of network `k` in an environment, `/repo/photontorch/networks/network.py:402-419`; all component objects were just initialized for it. The
value for networks that cannot be constructed is not used. -/
noncomputable def Session.world (S : Session E W) (k : ℕ) : World Unit E W :=
  ⟨fun e => (S.stage e).sim, fun _ e =>
    match mkDev none ((S.parts k).map fun q => (q.1, ((S.kind q.2).gear (some (S.stage e)) : Gear W Unit).dev)) (S.conns k) with
    | .ok d => d.plant (S.stage e).c (S.stage e).wl
    | .error _ => ⟨0, 0, fun _ => 0, fun _ => 0, fun _ => 0, fun _ => false, fun _ => false, fun _ => false⟩⟩

/-- The component objects of network `k` in the order of `self.components.values()`, `/repo/photontorch/networks/network.py:300-303,411-412`. -/
def Session.objects (S : Session E W) (k : ℕ) : List ℕ :=
  (usedNames ((S.conns k).map stripConn)).filterMap fun x => dictGet x (S.parts k)

/-- The loop over `comp.initialize()`, `/repo/photontorch/networks/network.py:410-412`: it stops at the first exception. -/
def Session.initObjects (S : Session E W) (e : E) : List ℕ → (ℕ → Option E) → (ℕ → Option E) × Option PyErr
  | [], envs => (envs, none)
  | i :: is, envs =>
    match (S.kind i).refuses (S.stage e).sim with
    | some x => (envs, some x)
    | none => S.initObjects e is (Function.update envs i (some e))

/-- `initialize` of network `k`, `/repo/photontorch/networks/network.py:402-559`. -/
noncomputable def Session.initOn (S : Session E W) (b : Board E W) (k : ℕ) (e : E) : Board E W × Option PyErr :=
  let r := S.initObjects e (S.objects k) b.envs
  match r.2 with
  | some x => ({ b with envs := r.1 }, some x)
  | none =>
    let d := doInit (S.world k) (b.nets k) e
    (⟨r.1, Function.update b.nets k d.1⟩, d.2)

/-- The simulation with what is stored, `/repo/photontorch/networks/network.py:758-789`: actions use the environments stored in the component objects.
If there is a step, the first failing action ends the simulation. -/
noncomputable def Session.runOn (S : Session E W) (b : Board E W) (k : ℕ) (src : ℕ → ℕ → W → B → ℝ × ℝ) :
    Except PyErr (List (W → B → List (ℝ × ℝ))) :=
  (runStored (S.world k) (b.nets k)
    (gearActors ((S.parts k).map fun q => (q.1, (S.kind q.2).gear ((b.envs q.2).map S.stage))) (S.conns k)) src).bind fun out =>
      match (S.objects k).findSome? fun i => (S.kind i).fails ((b.envs i).map S.stage) with
      | some x => if out = [] then .ok out else .error x
      | none => .ok out

/-- `Network.forward` of network `k` in the environment `e`, with or without gradient tracking, `/repo/photontorch/networks/network.py:745-789`. -/
noncomputable def Session.call (S : Session E W) (b : Board E W) (k : ℕ) (e : E) (grad : Bool) (src : ℕ → ℕ → W → B → ℝ × ℝ) :
    Board E W × Except PyErr (List (W → B → List (ℝ × ℝ))) :=
  open Classical in
  if (b.nets k).env ≠ some e ∨ grad = true then
    match S.initOn b k e with
    | (b', some x) => (b', .error x)
    | (b', none) => (b', S.runOn b' k src)
  else (b, S.runOn b k src)

end PT
