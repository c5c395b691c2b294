import Verif.Model.Topology
import Mathlib.LinearAlgebra.Matrix.NonsingularInverse
import Mathlib.Data.Complex.BigOperators
import Mathlib.Data.Matrix.ColumnRowPartitioned
import Mathlib.Algebra.Order.Archimedean.Real.Basic

/-!
# Model of the simulation: `Network.initialize`, `_simulation_buffer`, `step`, `action`, `forward`

`/repo/photontorch/networks/network.py:363-584,722-852`.  Floating point numbers are real numbers.
Tensors are functions of their indices: `W` is the set of wavelengths, `B` the set of batches; the
stacked real and imaginary parts are kept as separate real arrays, as in the code.
-/

namespace PT

open Matrix

/-- `.long()` of a tensor entry (and `int(x)`): truncation towards zero,
`/repo/photontorch/networks/network.py:427,573`. -/
noncomputable def realTrunc (x : ℝ) : ℤ := if 0 ≤ x then ⌊x⌋ else ⌈x⌉

/-- What a simulation reads from the current environment: `dt`, `freqdomain` and the time samples,
`/repo/photontorch/environment/environment.py:368-402`. -/
structure SimEnv where
  dt : Option ℝ
  freqdomain : Bool
  t : List ℝ

/-- What `initialize` reads from the network: number of ports, connection matrix, scattering matrix
(real and imaginary part per wavelength), delays in seconds and markings,
`/repo/photontorch/networks/network.py:415-440` and `/repo/photontorch/components/component.py:58-85`. -/
structure Plant (W : Type) where
  n : ℕ
  C : Matrix (Fin n) (Fin n) ℝ
  rS : W → Matrix (Fin n) (Fin n) ℝ
  iS : W → Matrix (Fin n) (Fin n) ℝ
  delay : Fin n → ℝ
  src : Fin n → Bool
  det : Fin n → Bool
  act : Fin n → Bool

namespace Plant
variable {W : Type} (p : Plant W)

/-- `terminated`, `/repo/photontorch/components/component.py:80-81`. -/
def terminated : Prop := ∀ i, 0 < ∑ k, p.C k i ∨ 0 < ∑ k, p.C i k

/-- `delays_in_seconds`, `/repo/photontorch/networks/network.py:424`. -/
noncomputable def seconds (env : SimEnv) (i : Fin p.n) : ℝ :=
  p.delay i * (if env.freqdomain then 0 else 1)

/-- `delays_in_timesteps`, `/repo/photontorch/networks/network.py:426-429` (`dt` is assumed to be
non-zero; the environment constructor divides by it). -/
noncomputable def steps (env : SimEnv) (i : Fin p.n) : ℤ :=
  match env.dt with
  | some dt => realTrunc (p.seconds env i / dt + 1 / 2)
  | none => 0

/-- `mc` as a mask, `/repo/photontorch/networks/network.py:433-438`. -/
noncomputable def mcAt (env : SimEnv) (i : Fin p.n) : Bool :=
  p.src i || p.det i || p.act i || decide (0 < p.steps env i)

/-- `mc = torch.where(mc)[0]`, `/repo/photontorch/networks/network.py:440`. -/
noncomputable def mcPorts (env : SimEnv) : List (Fin p.n) :=
  (List.finRange p.n).filter (p.mcAt env)

/-- `ml`, `/repo/photontorch/networks/network.py:439`. -/
noncomputable def mlPorts (env : SimEnv) : List (Fin p.n) :=
  (List.finRange p.n).filter fun i => !p.mcAt env i

/-- `mc[new_order]`: sources, active ports, others, detectors,
`/repo/photontorch/networks/network.py:456-466`. -/
noncomputable def mcOrder (env : SimEnv) : List (Fin p.n) :=
  (p.mcPorts env).filter p.src ++ (p.mcPorts env).filter p.act ++
    (p.mcPorts env).filter (fun i => !(p.src i || p.act i || p.det i)) ++
    (p.mcPorts env).filter p.det

/-- `num_sources`, `/repo/photontorch/components/component.py:82-84`. -/
def numSrc : ℕ := ((List.finRange p.n).filter p.src).length
/-- `num_detectors`, `/repo/photontorch/components/component.py:82-84`. -/
def numDet : ℕ := ((List.finRange p.n).filter p.det).length
/-- `num_actions`, `/repo/photontorch/components/component.py:82-84`. -/
def numAct : ℕ := ((List.finRange p.n).filter p.act).length

end Plant

/-- `M[rows, :][:, cols]`, e.g. `/repo/photontorch/networks/network.py:475-492`. -/
def sub {n : ℕ} (M : Matrix (Fin n) (Fin n) ℝ) (rows cols : List (Fin n)) :
    Matrix (Fin rows.length) (Fin cols.length) ℝ :=
  Matrix.of fun i j => M (rows.get i) (cols.get j)

/-- The real `2n × 2n` matrix of a complex one, `/repo/photontorch/networks/network.py:512-520`
(index `k < n` is `inl k`, index `n + k` is `inr k`). -/
def blockReal {ι : Type} (rP iP : Matrix ι ι ℝ) : Matrix (ι ⊕ ι) (ι ⊕ ι) ℝ :=
  Matrix.fromBlocks rP (-iP) iP rP

/-- `torch.cat([rCmlmc, zeros], 0)`, `/repo/photontorch/networks/network.py:521-523`. -/
def blockRhs {ι κ : Type} (M : Matrix ι κ ℝ) : Matrix (ι ⊕ ι) κ ℝ := Matrix.fromRows M 0

/-- `torch.linalg.solve` for all wavelengths, `/repo/photontorch/networks/network.py:524`: raises
(a `RuntimeError`) if one of the matrices is singular. -/
noncomputable def torchSolve {W ι κ : Type} [Fintype ι] [DecidableEq ι]
    (P : W → Matrix ι ι ℝ) (R : Matrix ι κ ℝ) : Except PyErr (W → Matrix ι κ ℝ) :=
  open Classical in
  if ∃ w, (P w).det = 0 then .error .runtimeError else .ok fun w => (P w)⁻¹ * R

/-- The reduced connection matrix (real part, imaginary part),
`/repo/photontorch/networks/network.py:480-540`. -/
noncomputable def reducedC {W : Type} {n : ℕ} (C : Matrix (Fin n) (Fin n) ℝ)
    (rS iS : W → Matrix (Fin n) (Fin n) ℝ) (mc ml : List (Fin n)) :
    Except PyErr ((W → Matrix (Fin mc.length) (Fin mc.length) ℝ) ×
      (W → Matrix (Fin mc.length) (Fin mc.length) ℝ)) :=
  if ml.length = 0 then .ok (fun _ => sub C mc mc, fun _ => 0)
  else
    let rP := fun w => 1 - sub C ml ml * sub (rS w) ml ml
    let iP := fun w => -(sub C ml ml * sub (iS w) ml ml)
    (torchSolve (fun w => blockReal (rP w) (iP w)) (blockRhs (sub C ml mc))).map fun x =>
      let rx : W → Matrix (Fin ml.length) (Fin mc.length) ℝ := fun w => Matrix.toRows₁ (x w)
      let ix : W → Matrix (Fin ml.length) (Fin mc.length) ℝ := fun w => Matrix.toRows₂ (x w)
      let rx' := fun w => sub (rS w) ml ml * rx w - sub (iS w) ml ml * ix w
      let ix' := fun w => sub (iS w) ml ml * rx w + sub (rS w) ml ml * ix w
      (fun w => sub C mc ml * rx' w + sub C mc mc, fun w => sub C mc ml * ix' w)

/-- The attributes set by `initialize`, `/repo/photontorch/networks/network.py:465-556`, together with
the numbers of sources, detectors and active ports. `tIdx k` is the buffer slot in which
`buffermask` is one for node `k`, `maskLen` its number of slots. -/
structure Reduced (W : Type) where
  m : ℕ
  rS : W → Matrix (Fin m) (Fin m) ℝ
  iS : W → Matrix (Fin m) (Fin m) ℝ
  rC : W → Matrix (Fin m) (Fin m) ℝ
  iC : W → Matrix (Fin m) (Fin m) ℝ
  seconds : Fin m → ℝ
  tIdx : Fin m → ℕ
  maskLen : ℕ
  numSrc : ℕ
  numDet : ℕ
  numAct : ℕ

/-- `int(max(...))` of finitely many integers (at least 0; delays are not negative),
`/repo/photontorch/networks/network.py:545-556`. -/
def maxSteps {n : ℕ} (f : Fin n → ℤ) : ℕ := Finset.univ.sup fun i => (f i).toNat

/-- Collecting the attributes, `/repo/photontorch/networks/network.py:465-477,542-556`, given the reduced
connection matrix. -/
noncomputable def reducedOf {W : Type} (p : Plant W) (env : SimEnv)
    (C : (W → Matrix (Fin (p.mcOrder env).length) (Fin (p.mcOrder env).length) ℝ) ×
      (W → Matrix (Fin (p.mcOrder env).length) (Fin (p.mcOrder env).length) ℝ)) : Reduced W :=
  { m := (p.mcOrder env).length
    rS := fun w => sub (p.rS w) (p.mcOrder env) (p.mcOrder env)
    iS := fun w => sub (p.iS w) (p.mcOrder env) (p.mcOrder env)
    rC := C.1
    iC := C.2
    seconds := fun k => p.seconds env ((p.mcOrder env).get k)
    tIdx := fun k => (max (p.steps env ((p.mcOrder env).get k) - 1) 0).toNat
    maskLen := maxSteps (p.steps env) + 1
    numSrc := p.numSrc
    numDet := p.numDet
    numAct := p.numAct }

/-- `Network.initialize`, `/repo/photontorch/networks/network.py:363-559`; `none` is the silent early
return at 444-446.  The warning at 449-454 is not modelled. -/
noncomputable def initNet {W : Type} (p : Plant W) (env : SimEnv) :
    Except PyErr (Option (Reduced W)) :=
  open Classical in
  if ¬ p.terminated ∨ (p.mcPorts env).length = 0 then .ok none
  else
    (reducedC p.C p.rS p.iS (p.mcOrder env) (p.mlPorts env)).map fun C => some (reducedOf p env C)

/-- Real and imaginary part of the field at every node, wavelength and batch: a tensor of shape
`(2, w, n, b)`, `/repo/photontorch/networks/network.py:791-838`. -/
structure Fields (m : ℕ) (W B : Type) where
  re : W → Matrix (Fin m) B ℝ
  im : W → Matrix (Fin m) B ℝ

/-- The largest of finitely many real numbers (0 if there are none, or all are negative),
`/repo/photontorch/networks/network.py:571-573`. -/
noncomputable def maxReal {n : ℕ} (f : Fin n → ℝ) : ℝ := (List.ofFn f).foldr max 0

/-- `_simulation_buffer`, `/repo/photontorch/networks/network.py:561-584`: the number of slots
(`TypeError` when dividing by `dt = None`). The slots are filled with zeros. -/
noncomputable def bufferLen {W : Type} (r : Reduced W) (env : SimEnv) : Except PyErr ℕ :=
  if env.freqdomain then .ok 1
  else
    match env.dt with
    | none => .error .typeError
    | some dt => .ok ((realTrunc (maxReal r.seconds / dt + 1 / 2)).toNat + 1)

/-- The empty buffer, `/repo/photontorch/networks/network.py:574-584`; slot 0 is the newest. -/
def emptyBuffer (len m : ℕ) (W B : Type) : List (Fields m W B) :=
  List.replicate len ⟨fun _ => 0, fun _ => 0⟩

/-- The field values of one node: real and imaginary part per wavelength and batch (`x[k]` after
`permute(2, 0, 1, 3)`), `/repo/photontorch/networks/network.py:819`. -/
abbrev NodeVal (W B : Type) := (W → B → ℝ) × (W → B → ℝ)

/-- What `Network.action` uses of a component: its number of ports, whether it has active ports, and
its action, which is given the time, `x_in` and the current contents of `x_out`, and leaves new contents in
`x_out`; `/repo/photontorch/networks/network.py:840-852`. -/
structure Actor (W B : Type) where
  numPorts : ℕ
  active : Bool
  action : ℝ → List (NodeVal W B) → List (NodeVal W B) → List (NodeVal W B)

/-- Overwriting `x[idx : idx + vs.length] = vs` (Python slices end at the end of the tensor),
`/repo/photontorch/networks/network.py:848-851`. -/
def writeAt {α : Type} (x : List α) (idx : ℕ) (vs : List α) : List α :=
  x.take idx ++ (vs.take (x.length - idx) ++ x.drop (idx + vs.length))

/-- The loop of `Network.action`, `/repo/photontorch/networks/network.py:844-852`. -/
def actionLoop {W B : Type} (t : ℝ) (xin : List (NodeVal W B)) :
    List (Actor W B) → ℕ → List (NodeVal W B) → List (NodeVal W B)
  | [], _, xout => xout
  | c :: cs, idx, xout =>
    if c.active then
      let slice := (xin.drop idx).take c.numPorts
      let zeros := slice.map fun _ => ((fun _ _ => 0, fun _ _ => 0) : NodeVal W B)
      actionLoop t xin cs (idx + c.numPorts) (writeAt xout idx (c.action t slice zeros))
    else actionLoop t xin cs idx xout

/-- `Network.action`, `/repo/photontorch/networks/network.py:840-852`. -/
def netAction {W B : Type} (numSrc : ℕ) (cs : List (Actor W B)) (t : ℝ)
    (xin _xout : List (NodeVal W B)) : List (NodeVal W B) :=
  actionLoop t xin cs numSrc xin

/-- `x.permute(2, 0, 1, 3)`, `/repo/photontorch/networks/network.py:819`. -/
def toNodes {m : ℕ} {W B : Type} (x : Fields m W B) : List (NodeVal W B) :=
  List.ofFn fun k => (fun w b => x.re w k b, fun w b => x.im w k b)

/-- `x.permute(1, 2, 0, 3)`, `/repo/photontorch/networks/network.py:822`. -/
def ofNodes (m : ℕ) {W B : Type} (l : List (NodeVal W B)) : Fields m W B :=
  ⟨fun w => Matrix.of fun k b => (l.getD k (fun _ _ => 0, fun _ _ => 0)).1 w b,
   fun w => Matrix.of fun k b => (l.getD k (fun _ _ => 0, fun _ _ => 0)).2 w b⟩

/-- `torch.sum(self.buffermask * buffer, dim=1)`, `/repo/photontorch/networks/network.py:804`
(that mask and buffer have the same number of slots is proved in `C28_buffer_size`). -/
def readBuffer {W B : Type} (r : Reduced W) (buf : List (Fields r.m W B)) : Fields r.m W B :=
  ⟨fun w => Matrix.of fun k b =>
      ((buf.zipIdx.map fun s => (if s.2 = r.tIdx k then 1 else 0) * s.1.re w k b).sum),
   fun w => Matrix.of fun k b =>
      ((buf.zipIdx.map fun s => (if s.2 = r.tIdx k then 1 else 0) * s.1.im w k b).sum)⟩

/-- Complex (batched) matrix product on real and imaginary parts,
`/repo/photontorch/networks/network.py:808-811,826-829`. -/
def cmul {m : ℕ} {W B : Type} (rM iM : W → Matrix (Fin m) (Fin m) ℝ) (x : Fields m W B) :
    Fields m W B :=
  ⟨fun w => rM w * x.re w - iM w * x.im w, fun w => rM w * x.im w + iM w * x.re w⟩

/-- Addition of the sources, `/repo/photontorch/networks/network.py:815-816,819`. -/
def Fields.add {m : ℕ} {W B : Type} (x y : Fields m W B) : Fields m W B :=
  ⟨fun w => x.re w + y.re w, fun w => x.im w + y.im w⟩

/-- The new field of `step`, `/repo/photontorch/networks/network.py:803-829`; `cs` are the
components of the network. -/
def stepField {W B : Type} (r : Reduced W) (cs : List (Actor W B)) (t : ℝ)
    (srcvalue : Fields r.m W B) (buf : List (Fields r.m W B)) : Fields r.m W B :=
  let x := cmul r.rS r.iS (readBuffer r buf)
  let x := x.add srcvalue
  let x :=
    if r.numAct = 0 then x
    else ofNodes r.m (netAction r.numSrc cs t (toNodes x) (toNodes x))
  cmul r.rC r.iC x

/-- `torch.cat((x[:, None], buffer[:, 0:-1]), dim=1)`, `/repo/photontorch/networks/network.py:833`. -/
def pushBuffer {α : Type} (x : α) (buf : List α) : List α := x :: buf.dropLast

/-- `x[:, :, -num_detectors:]`, `/repo/photontorch/networks/network.py:836`: Python's `-0` is `0`. -/
def detectNodes {m : ℕ} {W B : Type} (numDet : ℕ) (x : Fields m W B) (w : W) (b : B) : List (ℝ × ℝ) :=
  (List.ofFn fun k : Fin m => (x.re w k b, x.im w k b)).drop (if numDet = 0 then 0 else m - numDet)

/-- The loop over the time samples, `/repo/photontorch/networks/network.py:771-779`: the fields after
each step. `src i` is `source[:, i]`, `i` the index of the next step. -/
def simulate {W B : Type} (r : Reduced W) (cs : List (Actor W B)) (src : ℕ → Fields r.m W B) :
    List ℝ → ℕ → List (Fields r.m W B) → List (Fields r.m W B)
  | [], _, _ => []
  | t :: ts, i, buf =>
    let x := stepField r cs t (src i) buf
    x :: simulate r cs src ts (i + 1) (pushBuffer x buf)

/-- The source tensor extended by zeros to all nodes, `/repo/photontorch/networks/network.py:707-718`;
`s` gives real and imaginary part for source channel, wavelength and batch. -/
def padSource (m : ℕ) {W B : Type} (numSrc : ℕ) (s : ℕ → W → B → ℝ × ℝ) : Fields m W B :=
  ⟨fun w => Matrix.of fun k b => if (k : ℕ) < numSrc then (s k w b).1 else 0,
   fun w => Matrix.of fun k b => if (k : ℕ) < numSrc then (s k w b).2 else 0⟩

/-- The number of nodes selected by `x[:, :, -num_detectors:]`,
`/repo/photontorch/networks/network.py:836`. -/
def sliceLen (m numDet : ℕ) : ℕ := m - (if numDet = 0 then 0 else m - numDet)

/-- `Network.forward` with `power=False` after initialization and source handling,
`/repo/photontorch/networks/network.py:745-784`: for every time step, wavelength and batch the list of
detected fields.  The selected nodes are written into a preallocated tensor (774-777), which fails unless
their number is the number of detectors, or one (then it is broadcast to an axis of size 0). -/
noncomputable def forwardReduced {W B : Type} (r : Reduced W) (env : SimEnv) (cs : List (Actor W B))
    (src : ℕ → ℕ → W → B → ℝ × ℝ) : Except PyErr (List (W → B → List (ℝ × ℝ))) :=
  (bufferLen r env).bind fun len =>
    let xs := simulate r cs (fun i => padSource r.m r.numSrc (src i)) env.t 0 (emptyBuffer len r.m W B)
    if sliceLen r.m r.numDet = r.numDet ∨ env.t = [] then .ok (xs.map fun x => detectNodes r.numDet x)
    else if sliceLen r.m r.numDet = 1 then .ok (xs.map fun _ _ _ => [])
    else .error .runtimeError

/-- `Network.forward` with `power=True`, `/repo/photontorch/networks/network.py:774-775`:
`detected[i] = torch.sum(det ** 2, 0)`. -/
noncomputable def forwardPower {W B : Type} (r : Reduced W) (env : SimEnv) (cs : List (Actor W B))
    (src : ℕ → ℕ → W → B → ℝ × ℝ) : Except PyErr (List (W → B → List ℝ)) :=
  (forwardReduced r env cs src).map fun out =>
    out.map fun o w b => (o w b).map fun u => u.1 ^ 2 + u.2 ^ 2

end PT
