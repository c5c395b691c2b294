import Verif.Model.Graph
import Mathlib.Analysis.SpecialFunctions.Complex.Arg

/-!
# Model of the drawing of graphs

`/repo/photontorch/networks/visualize.py:179-287` and `/repo/photontorch/networks/network.py:1019-1026`. What is drawn is the list of calls of
`matplotlib`; the layout that `networkx` computes and the random numbers are arbitrary.
-/

namespace PT

/-- Calls of `matplotlib`: `plt.text` with the colour of its box, if there is one, `plt.plot` with its points, and `set_axis_off`;
`/repo/photontorch/networks/visualize.py:198,247-255,279-286`. Widths, styles and alignment are constants and left out. -/
inductive Drawn where
  | text (at_ : ℝ × ℝ) (label : Str) (box : Option Str)
  | line (points : List (ℝ × ℝ))
  | axisOff

/-- The table of boxes, `/repo/photontorch/networks/visualize.py:220-235`: names of classes and colours (`None` is not the name of a class;
the colour of the edge is that of the face, line 242). -/
def boxTable : List (Str × Option Str) :=
  [("object".toList, some "C1".toList), ("Component".toList, some "C1".toList), ("Waveguide".toList, none), ("Connection".toList, none),
    ("DirectionalCoupler".toList, some "C0".toList), ("DirectionalCouplerWithLength".toList, some "C0".toList),
    ("RealisticDirectionalCoupler".toList, some "C0".toList), ("Term".toList, none), ("Source".toList, some "C3".toList),
    ("Detector".toList, some "C2".toList), ("Mirror".toList, some "C0".toList), ("GratingCoupler".toList, some "C6".toList),
    ("Soa".toList, some "C4".toList)]

/-- `_get_bbox_properties`, `/repo/photontorch/networks/visualize.py:219-244`. A class is given by its name, the name of its first base class
and so on. -/
def boxOf : List Str → Except PyErr (Option Str)
  | [] => .error .indexError
  | c :: bases => match dictGet c boxTable with
    | some b => .ok b
    | none => boxOf bases

/-- `_draw_nodes`, `/repo/photontorch/networks/visualize.py:202-256`. -/
def drawNodes (nodes : List Str) (classes : List (List Str)) (pos : Str → ℝ × ℝ) : Except PyErr (List Drawn) :=
  mapE (fun nc => (boxOf nc.2).map fun b => .text (pos nc.1) nc.1 b) (graphLabels nodes classes)

/-- The keys of `G._adj[n]` with repetitions: for every edge at `n` its other end, in the order of insertion,
`/repo/photontorch/networks/visualize.py:192,273`. -/
def adjacent (edges : List (Str × Str)) (n : Str) : List Str :=
  edges.filterMap fun e => if e.1 = n then some e.2 else if e.2 = n then some e.1 else none

/-- `list(G.edges())` of a `networkx.MultiGraph`, `/repo/photontorch/networks/visualize.py:273`: for every node in turn, for every
neighbour in turn which was not a node before, all edges between them. -/
def edgeList (edges : List (Str × Str)) : List Str → List Str → List (Str × Str)
  | _, [] => []
  | seen, n :: nodes => ((dedupFirst (adjacent edges n)).filter fun m => m ∉ seen).flatMap (fun m =>
      List.replicate (edges.filter fun e => e = (n, m) || e = (m, n)).length (n, m)) ++ edgeList edges (n :: seen) nodes

/-- One turn of the loop of `_draw_edges`, `/repo/photontorch/networks/visualize.py:275-286`; `arctan2(y, x)` is the argument of `x + i y`. -/
noncomputable def drawEdge (p q : ℝ × ℝ) (u : ℝ) : Drawn :=
  let r := √((q.1 - p.1) ^ 2 + (q.2 - p.2) ^ 2)
  let a := Complex.arg ⟨q.1 - p.1, q.2 - p.2⟩ + (2 * u - 1) * Real.pi / 4
  .line [(p.1, p.2), (p.1 + 0.5 * r * Real.cos a, p.2 + 0.5 * r * Real.sin a), (q.1, q.2)]

/-- `_draw_edges`, `/repo/photontorch/networks/visualize.py:259-287`; `rand k` is the `k`-th random number. -/
noncomputable def drawEdges (edges : List (Str × Str)) (pos : Str → ℝ × ℝ) (rand : ℕ → ℝ) : List Drawn :=
  edges.mapIdx fun k e => drawEdge (pos e.1) (pos e.2) (rand k)

/-- The function `graph`, `/repo/photontorch/networks/visualize.py:179-200`: the nodes and edges of the graph, and what is drawn. `classes` are
the classes of the components. -/
noncomputable def graphDraw (keys : List Str) (classes : List (List Str)) (conns : List Str) (draw : Bool) (pos : Str → ℝ × ℝ) (rand : ℕ → ℝ) :
    Except PyErr ((List Str × List (Str × Str)) × List Drawn) := do
  let g ← graph keys conns
  if draw then
    let texts ← drawNodes g.1 classes pos
    .ok (g, texts ++ drawEdges (edgeList g.2 [] g.1) pos rand ++ [.axisOff])
  else .ok (g, [])

/-- The method `Network.graph`, `/repo/photontorch/networks/network.py:1019-1026`. -/
noncomputable def networkGraph (keys : List Str) (classes : List (List Str)) (conns : List Str) (_draw : Bool) (pos : Str → ℝ × ℝ)
    (rand : ℕ → ℝ) : Except PyErr ((List Str × List (Str × Str)) × List Drawn) :=
  graphDraw keys classes conns true pos rand

end PT
