import Verif.Model.Train
import Verif.Model.Mesh

/-!
# Model of the default components of the meshes

`/repo/photontorch/networks/clements.py:27-36`; the random numbers of numpy are arguments.
-/

namespace PT

/-- `_wg_factory()`, `/repo/photontorch/networks/clements.py:27-28`, where `np.random.rand()` returned `r`; the other arguments are
the defaults of `/repo/photontorch/components/waveguides.py:33-44`. -/
noncomputable def wgFactory (r : ℝ) : Call := .waveguide 1e-5 0 2.34 1.55e-6 3.40 (2 * Real.pi * r) true

/-- `_mzi_factory()`, `/repo/photontorch/networks/clements.py:31-36`, where the calls of `np.random.rand()` returned `r` and `s`; the
other arguments are the defaults of `/repo/photontorch/components/mzis.py:44-55`. -/
noncomputable def mziFactory (r s : ℝ) : Call := .mzi (2 * Real.pi * r) (2 * Real.pi * s) 2.34 3.40 1.55e-6 1e-5 0 true

/-- `ClementsNxN(N, capacity=None)`, `/repo/photontorch/networks/clements.py:225-226`. -/
noncomputable def clementsOf (N : ℕ) (capacity : Option ℕ) (mz wg : ℕ → ℕ → Part) : Except PyErr Dev :=
  clements N (capacity.getD N) mz wg

end PT
