import Verif.Model.Components
import Verif.Model.Sim

/-!
# Model of components and networks together with their scattering matrices and delays

`/repo/photontorch/networks/network.py:408-440,854-887`.  This ties the topology (`Verif/Model/Topology.lean`), the
component matrices (`Verif/Model/Components.lean`) and the simulation (`Verif/Model/Sim.lean`) together.
-/

namespace PT

/-- A component or network as `initialize` sees it: buffers, and what `set_S` and `set_delays` write for a
wavelength and a speed of light into tensors of zeros, `/repo/photontorch/networks/network.py:408-424`. -/
structure Dev where
  comp : Comp
  rS : ℝ → ℕ → ℕ → ℝ
  iS : ℝ → ℕ → ℕ → ℝ
  delay : ℝ → ℕ → ℝ

/-- The buffers of a basic component, `/repo/photontorch/components/terms.py:28-72`,
`/repo/photontorch/components/component.py:58-105` (no other basic component has markings). -/
def Part.comp : Part → Comp
  | .term => PT.term
  | .source => PT.source
  | .detector => PT.detector
  | p => passive p.n

/-- A matrix on `Fin n` as a tensor indexed by numbers, with nothing outside; the slice of
`/repo/photontorch/networks/network.py:858`. -/
def ofFin {n : ℕ} (M : Matrix (Fin n) (Fin n) ℝ) (i j : ℕ) : ℝ :=
  if h : i < n ∧ j < n then M ⟨i, h.1⟩ ⟨j, h.2⟩ else 0

/-- A basic component, `/repo/photontorch/components/component.py:58-150`. -/
noncomputable def Part.dev (p : Part) : Dev :=
  ⟨p.comp, fun wl => ofFin (p.S wl).re, fun wl => ofFin (p.S wl).im,
    fun c i => if i < p.n then p.delay c else 0⟩

/-- The loop of `Network.set_S`, `/repo/photontorch/networks/network.py:854-859`: the children's matrices one after
the other on the diagonal. -/
def blockMat : List (ℕ × (ℕ → ℕ → ℝ)) → ℕ → ℕ → ℝ
  | [], _, _ => 0
  | (n, M) :: l, i, j =>
    if i < n then (if j < n then M i j else 0)
    else if j < n then 0 else blockMat l (i - n) (j - n)

/-- The loop of `Network.set_delays`, `/repo/photontorch/networks/network.py:861-866`. -/
def blockVec : List (ℕ × (ℕ → ℝ)) → ℕ → ℝ
  | [], _ => 0
  | (n, v) :: l, i => if i < n then v i else blockVec l (i - n)

/-- The children of a network in the order of `self.components`, `/repo/photontorch/networks/network.py:300-303`. -/
def usedDevs (modules : List (Str × Dev)) (names : List Str) : List (Str × Dev) :=
  names.filterMap fun x => (dictGet x modules).map fun d => (x, d)

/-- The scattering matrices and delays of a network with the given children,
`/repo/photontorch/networks/network.py:854-866`. -/
def netDev (c : Comp) (l : List (Str × Dev)) : Dev :=
  ⟨c, fun wl => blockMat (l.map fun p => (p.2.comp.n, p.2.rS wl)),
    fun wl => blockMat (l.map fun p => (p.2.comp.n, p.2.iS wl)),
    fun v => blockVec (l.map fun p => (p.2.comp.n, p.2.delay v))⟩

/-- The network made of the given modules and connections, `/repo/photontorch/networks/network.py:279-306,854-866`.
Simplification as for `mkNet`: every entry of the dictionary is a component of its own. -/
def mkDev (name : Option Str) (modules : List (Str × Dev)) (conns : List Str) : Except PyErr Dev :=
  (mkNet name (modules.map fun p => (p.1, p.2.comp)) conns).map fun c =>
    netDev c (usedDevs modules (usedNames (conns.map stripConn)))

/-- What `initialize` reads from the network in an environment with wavelengths `wl` and speed of light `v`,
`/repo/photontorch/networks/network.py:408-440`. -/
noncomputable abbrev Dev.plant {W : Type} (d : Dev) (v : ℝ) (wl : W → ℝ) : Plant W :=
  { n := d.comp.n
    C := Matrix.of fun i j => (d.comp.C i j : ℝ)
    rS := fun w => Matrix.of fun i j => d.rS (wl w) i j
    iS := fun w => Matrix.of fun i j => d.iS (wl w) i j
    delay := fun i => d.delay v i
    src := fun i => d.comp.src.getD i false
    det := fun i => d.comp.det.getD i false
    act := fun i => d.comp.act.getD i false }

end PT
