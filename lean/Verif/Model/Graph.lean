import Verif.Model.Topology

/-!
# Model of `graph`

`/repo/photontorch/networks/visualize.py:179-200` (the graph; what is drawn is in `Verif/Model/Draw.lean`).
-/

namespace PT

/-- `l[::2]`, `/repo/photontorch/networks/visualize.py:192`. -/
def everySecond {α : Type} : List α → List α
  | [] => []
  | [x] => [x]
  | x :: _ :: l => x :: everySecond l

/-- The edges given to `add_edges_from`, `/repo/photontorch/networks/visualize.py:192`. Strings with other numbers of parts than 3 and
4 do not occur, since the network could not have been made (C16). -/
def graphEdges (conns : List Str) : Except PyErr (List (Str × Str)) :=
  mapE (fun c => match everySecond (splitColon c) with
    | [u, v] => .ok (u, v)
    | _ => .error .unmodelled) conns

/-- The nodes of the `networkx` graph, in order: those added first, then the ends of the edges that are new,
`/repo/photontorch/networks/visualize.py:190-192`. -/
def graphNodes (keys : List Str) (edges : List (Str × Str)) : List Str :=
  dedupFirst (keys ++ edges.flatMap fun e => [e.1, e.2])

/-- `graph` of a network with given components and (stripped) connections: its nodes and edges,
`/repo/photontorch/networks/visualize.py:179-200`. -/
def graph (keys : List Str) (conns : List Str) : Except PyErr (List Str × List (Str × Str)) :=
  (graphEdges conns).map fun e => (graphNodes keys e, e)

/-- The nodes that get a label, each with the component whose class decides about its colour: `zip(xy, nodelist, components)`,
`/repo/photontorch/networks/visualize.py:244-256`. -/
def graphLabels {α : Type} (nodes : List Str) (components : List α) : List (Str × α) := nodes.zip components

end PT
