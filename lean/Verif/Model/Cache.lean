import Verif.Model.Sim

/-!
# Model of what a network keeps between two calls of `forward`

`/repo/photontorch/networks/network.py:363-559,722-789`.  `Θ` are the values of the parameters of the
components, `E` are environment objects (compared by identity, 745-746), `sim e` is what a simulation reads from
`e`, and `plant θ e` are the matrices that the components provide for the parameters `θ` in `e`
(`set_S`, `set_delays`).
-/

namespace PT

/-- How parameters and environments determine the matrices,
`/repo/photontorch/networks/network.py:402-419`. -/
structure World (Θ E W : Type) where
  sim : E → SimEnv
  plant : Θ → E → Plant W

/-- The attributes of a network that `forward` reads: the parameters, `_env`, what the last successful
`initialize` stored (`_rS`, `_iS`, `_rC`, `_iC`, `buffermask`), and `num_mc`, `/repo/photontorch/networks/network.py:441`,
and `_delays`, 467, which are overwritten before the system of equations is solved. -/
structure CacheState (Θ E W : Type) where
  params : Θ
  env : Option E
  red : Option (Reduced W)
  numMc : ℕ
  delays : List ℝ

/-- A network that has just been constructed, `/repo/photontorch/components/component.py:38-56`. -/
def CacheState.new {Θ E W : Type} (θ : Θ) : CacheState Θ E W := ⟨θ, none, none, 0, []⟩

/-- `_delays` after an attempt to initialize, `/repo/photontorch/networks/network.py:467`. -/
noncomputable def attemptDelays {W : Type} (p : Plant W) (env : SimEnv) : List ℝ :=
  (p.mcOrder env).map (p.seconds env)

/-- `initialize` as an operation on the network, `/repo/photontorch/networks/network.py:363-559`: the
new state and the exception, if any.  `num_mc` is overwritten first (441), `_delays` unless initialization is broken off
silently (444-446), the rest only after the equations are solved. -/
noncomputable def doInit {Θ E W : Type} (wd : World Θ E W) (s : CacheState Θ E W) (e : E) :
    CacheState Θ E W × Option PyErr :=
  let p := wd.plant s.params e
  let env := wd.sim e
  let s1 := { s with numMc := (p.mcPorts env).length }
  match initNet p env with
  | .ok none => (s1, none)
  | .ok (some r) => ({ s1 with env := some e, red := some r, delays := attemptDelays p env }, none)
  | .error x => ({ s1 with delays := attemptDelays p env }, some x)

/-- The number of slots of the buffer made from `_delays`, `/repo/photontorch/networks/network.py:571-573`. -/
noncomputable def storedSlots (delays : List ℝ) (env : SimEnv) : Except PyErr ℕ :=
  if env.freqdomain then .ok 1
  else
    match env.dt with
    | none => .error .typeError
    | some dt => .ok ((realTrunc (delays.foldr max 0 / dt + 1 / 2)).toNat + 1)

/-- The simulation with what is stored, `/repo/photontorch/networks/network.py:748-789`.  Reading
`self.env.num_t` fails if the network was never initialized (`AttributeError`).  The buffer is made with `num_mc` and `_delays`
(561-584); if it does not fit the stored mask and matrices, the products or the concatenation in `step` fail
with a `RuntimeError`.  Simplifications: a buffer with a single slot would be broadcast along the mask by torch instead of
failing, and with an empty time axis there is no step that could fail. -/
noncomputable def runStored {Θ E W B : Type} (wd : World Θ E W) (s : CacheState Θ E W)
    (cs : List (Actor W B)) (src : ℕ → ℕ → W → B → ℝ × ℝ) : Except PyErr (List (W → B → List (ℝ × ℝ))) :=
  match s.env, s.red with
  | some e, some r =>
    (storedSlots s.delays (wd.sim e)).bind fun k =>
      if s.numMc = r.m ∧ k = r.maskLen then forwardReduced r (wd.sim e) cs src
      else .error .runtimeError
  | _, _ => .error .attributeError

/-- `Network.forward` in the environment `e`, with or without gradient tracking,
`/repo/photontorch/networks/network.py:745-789`. -/
noncomputable def forwardCall {Θ E W B : Type} (wd : World Θ E W) (s : CacheState Θ E W) (e : E) (grad : Bool)
    (cs : List (Actor W B)) (src : ℕ → ℕ → W → B → ℝ × ℝ) :
    CacheState Θ E W × Except PyErr (List (W → B → List (ℝ × ℝ))) :=
  open Classical in
  if s.env ≠ some e ∨ grad = true then
    match doInit wd s e with
    | (s', some x) => (s', .error x)
    | (s', none) => (s', runStored wd s' cs src)
  else (s, runStored wd s cs src)

/-- What a user does with a network: set its parameters, or call `forward` in some environment,
`/repo/photontorch/networks/network.py:722-789,1028-1033`. -/
inductive NetOp (Θ E : Type) where
  | set (θ : Θ)
  | call (e : E) (grad : Bool)

/-- The state after an operation (an exception raised by a call is caught by the user),
`/repo/photontorch/networks/network.py:722-789`. -/
noncomputable def NetOp.run {Θ E W : Type} (wd : World Θ E W) (s : CacheState Θ E W) : NetOp Θ E → CacheState Θ E W
  | .set θ => { s with params := θ }
  | .call e grad => (forwardCall (B := Unit) wd s e grad [] (fun _ _ _ _ => (0, 0))).1

end PT
