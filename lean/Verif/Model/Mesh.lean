import Verif.Model.Device
import Verif.Model.Network

/-!
# Model of the predefined meshes: Reck, Clements and ring networks

`/repo/photontorch/networks/reck.py`, `/repo/photontorch/networks/clements.py`, `/repo/photontorch/networks/rings.py`.

The factories are modelled by the components they return: `mz i` is what the `i`-th call of `mzi_factory` in a
constructor returned, `wg i` likewise for `wg_factory`.  The dictionaries `components` are written as lists of pairs;
all keys are different.
-/

namespace PT

/-- `"name%i" % i`, e.g. `/repo/photontorch/networks/reck.py:52`. -/
def lbl (s : Str) (i : ℕ) : Str := s ++ natStr i

/-- `"a:i:b:j"`, e.g. `/repo/photontorch/networks/reck.py:58`. -/
def conn4 (a : Str) (i : ℕ) (b : Str) (j : ℕ) : Str := joinColon [a, natStr i, b, natStr j]

/-- `"a:i:p"`, e.g. `/repo/photontorch/networks/reck.py:63`. -/
def conn3 (a : Str) (i p : ℕ) : Str := joinColon [a, natStr i, natStr p]

/-- `range(a, b, 2)`, e.g. `/repo/photontorch/networks/clements.py:152`. -/
def range2 (a b : ℕ) : List ℕ := (List.range ((b - a + 1) / 2)).map fun k => a + 2 * k

/-- `"mzi%i" % i`, `/repo/photontorch/networks/reck.py:52`. -/
def mziN (i : ℕ) : Str := lbl ['m', 'z', 'i'] i
/-- `"wg%i" % i`, `/repo/photontorch/networks/clements.py:56`. -/
def wgN (i : ℕ) : Str := lbl ['w', 'g'] i
/-- `"layer%i" % i`, `/repo/photontorch/networks/reck.py:131`. -/
def layerN (i : ℕ) : Str := lbl ['l', 'a', 'y', 'e', 'r'] i

/-! ### Reck -/

/-- The connections of `_ReckNxN`, `/repo/photontorch/networks/reck.py:55-69`. -/
def reckLayerConns (N : ℕ) : List Str :=
  ((List.range (N - 1 - 1)).map fun i => conn4 (mziN i) 3 (mziN (i + 1)) 1) ++
    [conn4 (mziN (N - 1 - 1)) 3 ['w', 'g'] 1] ++
    ((List.range (N - 1)).map fun i => conn3 (mziN i) 0 i) ++ [conn3 ['w', 'g'] 0 (N - 2 + 1)] ++
    [conn3 (mziN 0) 1 N] ++ (List.range (N - 1)).map fun i => conn3 (mziN i) 2 (N + i + 1)

/-- `_ReckNxN(N)`, `/repo/photontorch/networks/reck.py:34-71`.  For `N < 2` the loop variable `i` is unbound at line
64 (`UnboundLocalError`). -/
noncomputable def reckLayer (N : ℕ) (mz : ℕ → Part) (wg : Part) : Except PyErr Dev :=
  if N < 2 then .error .nameError
  else mkDev none (((List.range (N - 1)).map fun i => (mziN i, (mz i).dev)) ++ [(['w', 'g'], wg.dev)]) (reckLayerConns N)

/-- The connections of `ReckNxN`, `/repo/photontorch/networks/reck.py:136-139`. -/
def reckConns (N : ℕ) : List Str :=
  ((List.range (N - 1 - 1)).flatMap fun m' =>
    let m := m' + 1
    (List.range (N - m)).map fun n => conn4 (layerN (m - 1)) (N - m + 2 + n) (layerN m) n) ++
    [conn4 (layerN (N - 2)) (N - (N - 2) + 1) ['w', 'g'] 0]

/-- The layers of `ReckNxN`, `/repo/photontorch/networks/reck.py:130-133`. -/
noncomputable def reckLayers (N : ℕ) (mz : ℕ → ℕ → Part) (wg : ℕ → Part) : Except PyErr (List (Str × Dev)) :=
  mapE (fun m => (reckLayer (N - m) (mz m) (wg m)).map fun d => (layerN m, d)) (List.range (N - 1))

/-- `ReckNxN(N)`, `/repo/photontorch/networks/reck.py:101-141`.  For `N < 2` the connection of line 139 names a layer
that does not exist (`KeyError`). -/
noncomputable def reck (N : ℕ) (mz : ℕ → ℕ → Part) (wg : ℕ → Part) : Except PyErr Dev :=
  if N < 2 then .error .keyError
  else (reckLayers N mz wg).bind fun layers =>
    mkDev none (layers ++ [(['w', 'g'], (wg (N - 1)).dev)]) (reckConns N)

/-! ### Clements -/

/-- The connections of `_PhaseArray`, `/repo/photontorch/networks/clements.py:58-61`. -/
def phaseConns (N : ℕ) : List Str :=
  (List.range N).flatMap fun i => [conn3 (wgN i) 0 i, conn3 (wgN i) 1 (N + i)]

/-- `_PhaseArray(N)`, `/repo/photontorch/networks/clements.py:42-63`. -/
noncomputable def phaseArray (N : ℕ) (wg : ℕ → Part) : Except PyErr Dev :=
  mkDev none ((List.range N).map fun i => (wgN i, (wg i).dev)) (phaseConns N)

/-- The connections of `_MixingPhaseArrayClements`, `/repo/photontorch/networks/clements.py:92-108`. -/
def mixingConns (N : ℕ) : List Str :=
  ((List.range (N / 2)).flatMap fun i => [conn4 (mziN i) 1 (wgN (2 * i)) 0, conn4 (mziN i) 2 (wgN (2 * i + 1)) 0]) ++
    (if N % 2 = 1 then [conn4 ['w', 'g', '_'] 1 (wgN (N - 1)) 0] else []) ++
    ((List.range (N / 2)).flatMap fun i => [conn3 (mziN i) 0 (2 * i), conn3 (mziN i) 3 (2 * i + 1)]) ++
    (if N % 2 = 1 then [conn3 ['w', 'g', '_'] 0 (N - 1)] else []) ++
    (List.range N).map fun i => conn3 (wgN i) 1 (N + i)

/-- `_MixingPhaseArrayClements(N)`, `/repo/photontorch/networks/clements.py:69-112`. -/
noncomputable def mixingArray (N : ℕ) (mz wg : ℕ → Part) : Except PyErr Dev :=
  mkDev none (((List.range N).map fun i => (wgN i, (wg i).dev)) ++
    ((List.range (N / 2)).map fun i => (mziN i, (mz i).dev)) ++
    (if N % 2 = 1 then [(['w', 'g', '_'], (wg N).dev)] else [])) (mixingConns N)

/-- The connections of `_Capacity2ClementsNxN`, `/repo/photontorch/networks/clements.py:149-176`
(`k = i + 2 + N % 2` with the last `i` of `range(0, N - 1, 2)`). -/
def cap2Conns (N : ℕ) : List Str :=
  [conn4 (mziN 0) 1 (wgN 0) 0] ++
    ((range2 1 (N - 1 - 1)).flatMap fun i =>
      [conn4 (mziN (i - 1)) 2 (mziN i) 0, conn4 (mziN i) 3 (mziN (i + 1)) 1]) ++
    (if 1 < N - 1 ∧ N % 2 = 1 then [conn4 (mziN (N - 1 - 2)) 2 (mziN (N - 1 - 1)) 0] else []) ++
    (if N % 2 = 1 then [conn4 (wgN 1) 1 (mziN (N - 2)) 3] else [conn4 (mziN (N - 2)) 2 (wgN 1) 0]) ++
    ((range2 0 (N - 1)).flatMap fun i => [conn3 (mziN i) 0 i, conn3 (mziN i) 3 (i + 1)]) ++
    (if N % 2 = 1 then [conn3 (wgN 1) 0 (N - 1)] else []) ++
    [conn3 (wgN 0) 1 ((range2 0 (N - 1)).getLastD 0 + 2 + N % 2)] ++
    ((range2 1 (N - 1)).flatMap fun i => [conn3 (mziN i) 1 ((range2 0 (N - 1)).getLastD 0 + 2 + N % 2 + i),
      conn3 (mziN i) 2 ((range2 0 (N - 1)).getLastD 0 + 2 + N % 2 + i + 1)]) ++
    (if N % 2 = 0 then [conn3 (wgN 1) 1 (2 * N - 1)] else [])

/-- `_Capacity2ClementsNxN(N)`, `/repo/photontorch/networks/clements.py:130-179`.  Both waveguides are the same object
(line 147).  For `N < 2` the loop variable `i` is unbound at line 170 (`UnboundLocalError`). -/
noncomputable def cap2 (N : ℕ) (mz : ℕ → Part) (wg : Part) : Except PyErr Dev :=
  if N < 2 then .error .nameError
  else mkDev none (((List.range (N - 1)).map fun i => (mziN i, (mz i).dev)) ++ [(wgN 0, wg.dev), (wgN 1, wg.dev)])
    (cap2Conns N)

/-- The connections of `ClementsNxN` and `RingNetwork`, `/repo/photontorch/networks/clements.py:248-251`,
`/repo/photontorch/networks/rings.py:201-204`. -/
def layersConns (N k : ℕ) : List Str :=
  (List.range k).flatMap fun i => (List.range N).map fun j => conn4 (layerN i) (N + j) (layerN (i + 1)) j

/-- The last layer of `ClementsNxN`, `/repo/photontorch/networks/clements.py:238-245`. -/
noncomputable def clementsLast (N capacity : ℕ) (mz wg : ℕ → Part) : Except PyErr Dev :=
  if capacity % 2 = 0 then phaseArray N wg else mixingArray N mz wg

/-- `ClementsNxN(N, capacity)`, `/repo/photontorch/networks/clements.py:208-254`.  With `capacity < 2` there are no
connections, `_set_buffers` returns early and the buffers are missing: see `C57_no_connections`. -/
noncomputable def clements (N capacity : ℕ) (mz : ℕ → ℕ → Part) (wg : ℕ → ℕ → Part) : Except PyErr Dev :=
  (mapE (fun i => (cap2 N (mz i) (wg i 0)).map fun d => (layerN i, d)) (List.range (capacity / 2))).bind fun layers =>
    (clementsLast N capacity (mz (capacity / 2)) (wg (capacity / 2))).bind fun d =>
      mkDev none (layers ++ [(layerN (capacity / 2), d)]) (layersConns N (capacity / 2))

/-! ### Rings -/

/-- The connections of `_MixingPhaseArrayRings`, `/repo/photontorch/networks/rings.py:59-71`. -/
def mixingRingConns (N : ℕ) : List Str :=
  ((List.range (N / 2)).flatMap fun i => [conn4 (mziN i) 3 (wgN (2 * i)) 0, conn4 (mziN i) 2 (wgN (2 * i + 1)) 0]) ++
    ((List.range (N / 2)).flatMap fun i => [conn3 (mziN i) 0 (2 * i), conn3 (mziN i) 1 (2 * i + 1)]) ++
    (List.range N).map fun i => conn3 (wgN i) 1 (N + i)

/-- `_MixingPhaseArrayRings(N)`, `/repo/photontorch/networks/rings.py:36-73`. -/
noncomputable def mixingRing (N : ℕ) (mz wg : ℕ → Part) : Except PyErr Dev :=
  if N % 2 = 1 then .error .valueError
  else mkDev none (((List.range N).map fun i => (wgN i, (wg i).dev)) ++
    (List.range (N / 2)).map fun i => (mziN i, (mz i).dev)) (mixingRingConns N)

/-- The connections of `_UnclosedRingArray`, `/repo/photontorch/networks/rings.py:116-134`. -/
def ringArrayConns (N : ℕ) : List Str :=
  [conn4 (wgN 0) 0 (mziN 0) 3] ++
    ((range2 1 (2 * (N / 2) - 1)).flatMap fun i =>
      [conn4 (mziN i) 0 (mziN (i - 1)) 2, conn4 (mziN i) 3 (mziN (i + 1)) 3]) ++
    [conn4 (wgN 1) 0 (mziN (2 * (N / 2) - 1 - 1)) 2] ++
    ((range2 0 (2 * (N / 2) - 1)).flatMap fun i => [conn3 (mziN i) 0 i, conn3 (mziN i) 1 (i + 1)]) ++
    [conn3 (wgN 0) 1 (2 * (N / 2))] ++
    ((range2 1 (2 * (N / 2) - 1)).flatMap fun i =>
      [conn3 (mziN i) 1 (2 * (N / 2) + i), conn3 (mziN i) 2 (2 * (N / 2) + i + 1)]) ++
    [conn3 (wgN 1) 1 (4 * (N / 2) - 1)]

/-- `_UnclosedRingArray(N)`, `/repo/photontorch/networks/rings.py:90-137`, for `0 < N`. -/
noncomputable def ringArray (N : ℕ) (mz wg : ℕ → Part) : Except PyErr Dev :=
  if N % 2 = 1 then .error .valueError
  else mkDev none (((List.range 2).map fun i => (wgN i, (wg i).dev)) ++
    (List.range (2 * (N / 2) - 1)).map fun i => (mziN i, (mz i).dev)) (ringArrayConns N)

/-- `RingNetwork(N, capacity)`, `/repo/photontorch/networks/rings.py:163-207`, for `0 < N` and `2 ≤ capacity`
(see `clements` for smaller capacities). -/
noncomputable def ring (N capacity : ℕ) (mz : ℕ → ℕ → Part) (wg : ℕ → ℕ → Part) : Except PyErr Dev :=
  if N % 2 = 1 then .error .valueError
  else (mapE (fun i => (ringArray N (mz i) (wg i)).map fun d => (layerN i, d)) (List.range (capacity / 2))).bind
    fun layers => (mixingRing N (mz (capacity / 2)) (wg (capacity / 2))).bind fun d =>
      mkDev none (layers ++ [(layerN (capacity / 2), d)]) (layersConns N (capacity / 2))

/-! ### Termination -/

/-- The default terms of the meshes: sources `s0`, `s1`, … and detectors `d0`, `d1`, …,
`/repo/photontorch/networks/reck.py:154-156`, `/repo/photontorch/networks/clements.py:267-269`,
`/repo/photontorch/networks/rings.py:220-222`. -/
noncomputable def meshTerms (N : ℕ) : List (Str × Dev) :=
  ((List.range N).map fun i =>
    (lbl ['s'] i, { Part.dev .source with comp := { source with name := some (lbl ['s'] i) } })) ++
  (List.range N).map fun i =>
    (lbl ['d'] i, { Part.dev .detector with comp := { detector with name := some (lbl ['d'] i) } })

/-- The device `Network.terminate` makes of a device, `/repo/photontorch/networks/network.py:326-346` (its buffers are
those of `terminate`, see `C56_terminate`). -/
noncomputable def termDev (newName nw : Str) (d : Dev) (terms : List (Str × Dev)) : Except PyErr Dev :=
  mkDev (some newName) ((nw, { d with comp := { d.comp with name := some nw } }) :: terms)
    (termConns nw (terms.map Prod.fst))

end PT
