import Verif.Model.Graph
import Verif.Proof.MeshWaves
import Verif.Props.Topology

/-!
# C78: the graph of a network
-/

namespace PT
open Spec

namespace Spec

/-- The links between components, as multi-edges are written: first end, second end. -/
def linkEdges (cs : List Conn) : List (Str × Str) :=
  cs.filterMap fun c => match c with
    | .inner a _ b _ => some (a, b)
    | .outer _ _ _ => none

/-- A graph shows a circuit: its nodes are the components and its edges the links between components. -/
def Shows (nodes : List Str) (edges : List (Str × Str)) (cs : List Conn) : Prop :=
  nodes = firstMentions cs ∧ edges.Perm (linkEdges cs)

/-- The text of the external numbers, in order. -/
def outerLabels (cs : List Conn) : List Str :=
  cs.filterMap fun c => match c with
    | .inner _ _ _ _ => none
    | .outer _ _ p => some (intStr p)

end Spec

/-- The edge made of a connection. -/
def edgeOf : Conn → Str × Str
  | .inner a _ b _ => (a, b)
  | .outer a _ p => (a, intStr p)

theorem graphEdges_text : ∀ {cs : List Conn}, GoodConns cs → graphEdges (cs.map Conn.text) = .ok (cs.map edgeOf)
  | [], _ => rfl
  | c :: cs, h => by
    have ih := graphEdges_text (cs := cs) fun d hd => h d (List.mem_cons_of_mem _ hd)
    unfold graphEdges at ih ⊢
    have hc := h c List.mem_cons_self
    cases c with
    | inner a i b j =>
      have ha := hc a (by simp [Conn.names])
      have hb := hc b (by simp [Conn.names])
      simp only [List.map_cons, mapE, splitColon_inner i j ha.1 hb.1, everySecond, ih, edgeOf]
    | outer a i p =>
      have ha := hc a (by simp [Conn.names])
      simp only [List.map_cons, mapE, splitColon_outer i p ha.1, everySecond, ih, edgeOf]

theorem graph_nodes {cs : List Conn} (h : GoodConns cs) : graphNodes (firstMentions cs) (cs.map edgeOf) =
    firstMentions cs ++ dedupFirst (outerLabels cs) := by
  have hnd : dedupFirst (firstMentions cs) = firstMentions cs := by
    rw [firstMentions_eq]
    exact dedupFirst_nodup _ (nodup_dedupFirst _)
  unfold graphNodes
  rw [dedupFirst_append, hnd, dedupFirst_filter]
  congr 2
  have hmem : ∀ c ∈ cs, ∀ x ∈ c.names, x ∈ firstMentions cs := by
    intro c hc x hx
    rw [firstMentions_eq, mem_dedupFirst]
    exact List.mem_flatMap.mpr ⟨c, hc, hx⟩
  have hgood : ∀ x ∈ firstMentions cs, GoodName x := by
    intro x hx
    rw [firstMentions_eq, mem_dedupFirst] at hx
    obtain ⟨c, hc, hx⟩ := List.mem_flatMap.mp hx
    exact h c hc x hx
  have hlab : ∀ p : ℤ, intStr p ∉ firstMentions cs := by
    intro p hp
    have := (hgood _ hp).2.2
    rw [pyInt_intStr] at this
    exact absurd this (by simp)
  generalize hK : firstMentions cs = K at hmem hlab
  clear hK h hnd hgood
  induction cs with
  | nil => rfl
  | cons c cs ih =>
    have ih' := ih fun d hd => hmem d (List.mem_cons_of_mem _ hd)
    rw [List.map_cons, List.flatMap_cons, List.filter_append, ih']
    have hc := hmem c List.mem_cons_self
    cases c with
    | inner a i b j =>
      have ha := hc a (by simp [Conn.names])
      have hb := hc b (by simp [Conn.names])
      simp [edgeOf, outerLabels, ha, hb]
    | outer a i p =>
      have ha := hc a (by simp [Conn.names])
      simp [edgeOf, outerLabels, ha, hlab p]

/-- The statement of C78: the graph of every network shows its components and the links between them. -/
def C78 : Prop := ∀ (modules : Comps) (cs : List Conn) (name : Option Str) (c : Comp), GoodConns cs →
  mkNet name modules (cs.map Conn.text) = .ok c → ∃ nodes edges, graph (firstMentions cs) (cs.map Conn.text) = .ok (nodes, edges) ∧
    Shows nodes edges cs

/-- C78: what the graph is: besides the components there is a node for every external port number, and besides the links
an edge to it. -/
theorem C78_graph (cs : List Conn) (h : GoodConns cs) : graph (firstMentions cs) (cs.map Conn.text) =
    .ok (firstMentions cs ++ dedupFirst (outerLabels cs), cs.map edgeOf) := by
  unfold graph
  rw [graphEdges_text h]
  show Except.ok (graphNodes _ _, _) = _
  rw [graph_nodes h]

/-- C78 for networks without external port declarations. Missing: networks with such declarations, for which C78 is
false. -/
theorem C78_closed_partial (cs : List Conn) (h : GoodConns cs) (ho : outs cs = []) : ∃ nodes edges,
    graph (firstMentions cs) (cs.map Conn.text) = .ok (nodes, edges) ∧ Shows nodes edges cs := by
  refine ⟨_, _, C78_graph cs h, ?_⟩
  have hin : ∀ c ∈ cs, ∃ a i b j, c = Conn.inner a i b j := by
    intro c hc
    cases c with
    | inner a i b j => exact ⟨a, i, b, j, rfl⟩
    | outer a i p =>
      exfalso
      have : ((a, i), p) ∈ outs cs := List.mem_filterMap.mpr ⟨_, hc, rfl⟩
      rw [ho] at this
      exact absurd this (by simp)
  have h1 : outerLabels cs = [] := by
    unfold outerLabels
    rw [List.filterMap_eq_nil_iff]
    intro c hc
    obtain ⟨a, i, b, j, rfl⟩ := hin c hc
    rfl
  have h2 : cs.map edgeOf = linkEdges cs := by
    unfold linkEdges
    rw [← List.filterMap_eq_map]
    apply List.filterMap_congr
    intro c hc
    obtain ⟨a, i, b, j, rfl⟩ := hin c hc
    rfl
  refine ⟨?_, ?_⟩
  · rw [h1]
    exact List.append_nil _
  · rw [h2]

/-- C78: in every drawing the label of a component has the colour of that component, and nothing else is labelled. -/
theorem C78_labels {α : Type} (cs : List Conn) (h : GoodConns cs) (comps : List α) (hl : comps.length = (firstMentions cs).length) :
    ∃ nodes edges, graph (firstMentions cs) (cs.map Conn.text) = .ok (nodes, edges) ∧
      graphLabels nodes comps = (firstMentions cs).zip comps := by
  refine ⟨_, _, C78_graph cs h, ?_⟩
  unfold graphLabels
  rw [List.zip_eq_zip_take_min]
  simp only [List.length_append, hl, Nat.min_eq_right (Nat.le_add_right _ _), List.take_left]
  rw [← hl, List.take_length]

/-- Two waveguides in a row with declared external ports. -/
def exGraphCs : List Conn := [.inner ['a'] 1 ['b'] 0, .outer ['a'] 0 0, .outer ['b'] 1 1]

theorem exGraphCs_good : GoodConns exGraphCs := goodConns_dec (by decide)

/-- C78 is false for every network with an external port declaration. -/
theorem C78_external (cs : List Conn) (h : GoodConns cs) (ho : outs cs ≠ []) (nodes : List Str) (edges : List (Str × Str))
    (hg : graph (firstMentions cs) (cs.map Conn.text) = .ok (nodes, edges)) : ¬Shows nodes edges cs := by
  rintro ⟨h1, -⟩
  rw [C78_graph cs h] at hg
  simp only [Except.ok.injEq, Prod.mk.injEq] at hg
  rw [← hg.1] at h1
  have h2 : dedupFirst (outerLabels cs) = [] := by
    have := congrArg List.length h1
    rw [List.length_append] at this
    exact List.eq_nil_of_length_eq_zero (by omega)
  obtain ⟨x, hx⟩ := List.exists_mem_of_ne_nil _ ho
  obtain ⟨c, hc, hcx⟩ := List.mem_filterMap.mp hx
  cases c with
  | inner a i b j => exact absurd hcx (by simp)
  | outer a i p =>
    have : intStr p ∈ dedupFirst (outerLabels cs) := by
      rw [mem_dedupFirst]
      exact List.mem_filterMap.mpr ⟨_, hc, rfl⟩
    rw [h2] at this
    exact absurd this (by simp)

/-- C78 is false. -/
theorem C78_violation : ¬C78 := by
  intro hC
  obtain ⟨c, hc⟩ : ∃ c, mkNet none [(['a'], passive 2), (['b'], passive 2)] (exGraphCs.map Conn.text) = .ok c := by
    cases h : mkNet none [(['a'], passive 2), (['b'], passive 2)] (exGraphCs.map Conn.text) with
    | ok c => exact ⟨c, rfl⟩
    | error e =>
      exfalso
      have : okAnd (mkNet none [(['a'], passive 2), (['b'], passive 2)] (exGraphCs.map Conn.text)) (fun _ => true) = true := by
        decide +kernel
      rw [h] at this
      exact absurd this (by simp [okAnd])
  obtain ⟨nodes, edges, h1, h2⟩ := hC _ exGraphCs none c exGraphCs_good hc
  exact C78_external exGraphCs exGraphCs_good (by decide) nodes edges h1 h2

/-- The graph of two waveguides in a row with declared external ports has four nodes. -/
example : graph (firstMentions exGraphCs) (exGraphCs.map Conn.text) =
    .ok ([['a'], ['b'], ['0'], ['1']], [(['a'], ['b']), (['a'], ['0']), (['b'], ['1'])]) := by
  rw [C78_graph _ exGraphCs_good]
  decide +kernel

/-- The graph of a closed ring of two components. -/
example : ∃ nodes edges, graph (firstMentions [.inner ['a'] 1 ['b'] 0, .inner ['b'] 1 ['a'] 0])
    ([Conn.inner ['a'] 1 ['b'] 0, .inner ['b'] 1 ['a'] 0].map Conn.text) = .ok (nodes, edges) ∧
    Shows nodes edges [.inner ['a'] 1 ['b'] 0, .inner ['b'] 1 ['a'] 0] :=
  C78_closed_partial _ (goodConns_dec (by decide)) (by decide)

/-- The labels of the first example. -/
example : ∃ nodes edges, graph (firstMentions exGraphCs) (exGraphCs.map Conn.text) = .ok (nodes, edges) ∧
    graphLabels nodes ["Waveguide", "Mirror"] = [(['a'], "Waveguide"), (['b'], "Mirror")] :=
  C78_labels exGraphCs exGraphCs_good ["Waveguide", "Mirror"] (by decide)

end PT
