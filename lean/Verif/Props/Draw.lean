import Verif.Model.Draw
import Verif.Props.Graph
import Mathlib.Data.Sym.Sym2
import Mathlib.Data.List.Count
import Mathlib.Algebra.BigOperators.Group.List.Basic
import Mathlib.Analysis.SpecialFunctions.Trigonometric.Basic

/-!
# C118: drawings of graphs
-/

namespace PT
open Spec

namespace Spec

/-- The colours of the boxes around the names of components: `some none` for no box, `none` for classes that have no colour of their own. -/
def boxColour (cls : Str) : Option (Option Str) :=
  if cls ∈ ["Waveguide", "Connection", "Term"].map String.toList then some none
  else if cls ∈ ["DirectionalCoupler", "DirectionalCouplerWithLength", "RealisticDirectionalCoupler", "Mirror"].map String.toList then
    some (some "C0".toList)
  else if cls ∈ ["Component", "object"].map String.toList then some (some "C1".toList)
  else if cls = "Detector".toList then some (some "C2".toList)
  else if cls = "Source".toList then some (some "C3".toList)
  else if cls = "Soa".toList then some (some "C4".toList)
  else if cls = "GratingCoupler".toList then some (some "C6".toList)
  else none

/-- The box is that of the nearest class with a box of its own, going from a class to its first base class. -/
def BoxOf (cls : List Str) (b : Option Str) : Prop :=
  ∃ before c after, cls = before ++ c :: after ∧ (∀ x ∈ before, boxColour x = none) ∧ boxColour c = some b

/-- The squared distance of two points. -/
noncomputable def distSq (p q : ℝ × ℝ) : ℝ := (q.1 - p.1) ^ 2 + (q.2 - p.2) ^ 2

/-- A line from `p` to `q` with one bend, half as far from `p` as `q` is, and closer to `q` than three quarters of the distance. -/
def BentLine (p q : ℝ × ℝ) (d : Drawn) : Prop :=
  ∃ m, d = .line [p, m, q] ∧ distSq p m = distSq p q / 4 ∧ distSq m q ≤ (3 / 4) ^ 2 * distSq p q

/-- The two ends of a connection as they are shown: components or external port numbers. -/
def ends : Conn → Sym2 Str
  | .inner a _ b _ => s(a, b)
  | .outer a _ p => s(a, intStr p)

end Spec

/-! ## Boxes -/

theorem boxTable_spec (c : Str) : dictGet c boxTable = boxColour c := by
  by_cases hc : c ∈ boxTable.map Prod.fst
  · revert c
    decide +kernel
  · have h1 : ∀ l : List (Str × Option Str), c ∉ l.map Prod.fst → dictGet c l = none := by
      intro l
      induction l with
      | nil => intro _; rfl
      | cons x l ih =>
        intro h
        simp only [List.map_cons, List.mem_cons, not_or] at h
        rw [dictGet, if_neg (fun e => h.1 e.symm), ih h.2]
    rw [h1 _ hc]
    simp only [boxTable, List.map_cons, List.map_nil, List.mem_cons, List.not_mem_nil, or_false, not_or] at hc
    obtain ⟨h1, h2, h3, h4, h5, h6, h7, h8, h9, h10, h11, h12, h13⟩ := hc
    unfold boxColour
    simp only [List.map_cons, List.map_nil, List.mem_cons, List.not_mem_nil, or_false, h1, h2, h3, h4, h5, h6, h7, h8, h9, h10, h11, h12, h13,
      if_false]

theorem boxOf_spec : ∀ {cls : List Str}, "object".toList ∈ cls → ∃ b, boxOf cls = .ok b ∧ BoxOf cls b
  | [], h => absurd h List.not_mem_nil
  | c :: cls, h => by
    have hs := boxTable_spec c
    cases hc : dictGet c boxTable with
    | some b =>
      refine ⟨b, by rw [boxOf, hc], [], c, cls, rfl, by simp, ?_⟩
      rw [← hs, hc]
    | none =>
      have hne : "object".toList ≠ c := by
        rintro rfl
        revert hc
        decide +kernel
      obtain ⟨b, h1, pre, c', post, h2, h3, h4⟩ := boxOf_spec ((List.mem_cons.1 h).resolve_left hne)
      refine ⟨b, by rw [boxOf, hc]; exact h1, c :: pre, c', post, by rw [h2]; rfl, ?_, h4⟩
      rintro x (_ | ⟨_, hx⟩)
      · rw [← hs, hc]
      · exact h3 x hx

/-! ## Lines -/

theorem drawEdge_spec (p q : ℝ × ℝ) {u : ℝ} (h0 : 0 ≤ u) (h1 : u < 1) : BentLine p q (drawEdge p q u) := by
  set r := √((q.1 - p.1) ^ 2 + (q.2 - p.2) ^ 2) with hr
  set z : ℂ := ⟨q.1 - p.1, q.2 - p.2⟩ with hz
  have hrn : r = ‖z‖ := by
    rw [hr, Complex.norm_def, Complex.normSq_apply, hz]
    congr 1
    simp only
    ring
  set θ := (2 * u - 1) * Real.pi / 4 with hθ
  have hpi := Real.pi_pos
  have hx : q.1 - p.1 = r * Real.cos z.arg := by rw [hrn, Complex.norm_mul_cos_arg]
  have hy : q.2 - p.2 = r * Real.sin z.arg := by rw [hrn, Complex.norm_mul_sin_arg]
  have hr2 : r ^ 2 = distSq p q := Real.sq_sqrt (by positivity)
  refine ⟨(p.1 + 0.5 * r * Real.cos (z.arg + θ), p.2 + 0.5 * r * Real.sin (z.arg + θ)), rfl, ?_, ?_⟩
  · rw [← hr2, distSq]
    have := Real.sin_sq_add_cos_sq (z.arg + θ)
    simp only
    linear_combination r ^ 2 / 4 * this
  · have hc : 3 / 4 - 1 / 20 ≤ Real.cos θ := by
      have h2 : Real.cos (Real.pi / 4) ≤ Real.cos |θ| := by
        apply Real.cos_le_cos_of_nonneg_of_le_pi (abs_nonneg _) (by linarith)
        rw [abs_le]
        constructor <;> rw [hθ] <;> nlinarith
      rw [Real.cos_abs, Real.cos_pi_div_four] at h2
      have h3 : (1.4 : ℝ) ≤ √2 := Real.le_sqrt_of_sq_le (by norm_num)
      linarith
    have e : distSq (p.1 + 0.5 * r * Real.cos (z.arg + θ), p.2 + 0.5 * r * Real.sin (z.arg + θ)) q = r ^ 2 * (5 / 4 - Real.cos θ) := by
      have e1 : q.1 = p.1 + r * Real.cos z.arg := by linarith
      have e2 : q.2 = p.2 + r * Real.sin z.arg := by linarith
      unfold distSq
      simp only
      rw [e1, e2]
      have s1 := Real.sin_sq_add_cos_sq (z.arg + θ)
      have s2 := Real.sin_sq_add_cos_sq z.arg
      have s3 : Real.cos θ = Real.cos (z.arg + θ) * Real.cos z.arg + Real.sin (z.arg + θ) * Real.sin z.arg := by
        rw [← Real.cos_sub, add_sub_cancel_left]
      rw [s3]
      linear_combination r ^ 2 / 4 * s1 + r ^ 2 * s2
    rw [e, ← hr2]
    nlinarith [sq_nonneg r]

/-! ## Edges -/

theorem sum_indicator {α : Type} [DecidableEq α] (a : α) (k : ℕ) : ∀ l : List α, l.Nodup →
    (l.map fun m => if m = a then k else 0).sum = if a ∈ l then k else 0
  | [], _ => by simp
  | m :: l, h => by
    obtain ⟨h1, h2⟩ := List.nodup_cons.1 h
    rw [List.map_cons, List.sum_cons, sum_indicator a k l h2]
    by_cases hm : m = a
    · subst hm
      simp [h1]
    · simp [hm, Ne.symm hm]

theorem replicate_perm {α : Type} [DecidableEq α] (l : List α) : ((dedupFirst l).flatMap fun m => List.replicate (l.count m) m).Perm l := by
  rw [List.perm_iff_count]
  intro a
  rw [List.count_flatMap]
  have : (List.count a ∘ fun m => List.replicate (l.count m) m) = fun m => if m = a then l.count a else 0 := by
    funext m
    simp only [Function.comp_apply, List.count_replicate, beq_iff_eq]
    split
    · rename_i h; rw [h]
    · rfl
  rw [this, sum_indicator a _ _ (nodup_dedupFirst l)]
  split
  · rfl
  · rename_i h
    rw [mem_dedupFirst] at h
    exact (List.count_eq_zero.2 h).symm

theorem replicate_filter {α : Type} [DecidableEq α] (l : List α) (p : α → Bool) :
    (((dedupFirst l).filter p).flatMap fun m => List.replicate (l.count m) m).Perm (l.filter p) := by
  have h := replicate_perm (l.filter p)
  rw [← dedupFirst_filter] at h
  have e : ((dedupFirst l).filter p).flatMap (fun m => List.replicate (l.count m) m) =
      ((dedupFirst l).filter p).flatMap fun m => List.replicate ((l.filter p).count m) m := by
    apply List.flatMap_congr
    intro m hm
    rw [List.count_filter (List.mem_filter.1 hm).2]
  rw [e]
  exact h

/-- The edges at a node. -/
theorem count_adjacent (edges : List (Str × Str)) (n m : Str) :
    (edges.filter fun e => e = (n, m) || e = (m, n)).length = (adjacent edges n).count m := by
  induction edges with
  | nil => rfl
  | cons e edges ih =>
    unfold adjacent at ih ⊢
    rw [List.filter_cons, List.filterMap_cons]
    obtain ⟨a, b⟩ := e
    simp only [Prod.mk.injEq, Bool.or_eq_true, decide_eq_true_eq]
    by_cases ha : a = n
    · subst ha
      by_cases hb : b = m
      · subst hb
        simp [ih]
      · have h1 : ¬((a = a ∧ b = m) ∨ a = m ∧ b = a) := by
          rintro (⟨-, h⟩ | ⟨h, h'⟩)
          · exact hb h
          · exact hb (h'.trans h)
        rw [if_neg h1, if_pos rfl]
        simp only
        rw [List.count_cons_of_ne hb, ih]
    · by_cases hb : b = n
      · subst hb
        by_cases hm : a = m
        · subst hm
          simp [ih, ha]
        · have h1 : ¬((a = b ∧ b = m) ∨ a = m ∧ b = b) := by
            rintro (⟨h, -⟩ | ⟨h, -⟩)
            · exact ha h
            · exact hm h
          rw [if_neg h1, if_neg ha, if_pos rfl]
          simp only
          rw [List.count_cons_of_ne hm, ih]
      · have h1 : ¬((a = n ∧ b = m) ∨ a = m ∧ b = n) := by
          rintro (⟨h, -⟩ | ⟨-, h⟩)
          · exact ha h
          · exact hb h
        rw [if_neg h1, if_neg ha, if_neg hb]
        exact ih

theorem adjacent_filter (edges : List (Str × Str)) {n : Str} {seen : List Str} (hn : n ∉ seen) :
    ((adjacent edges n).filter fun m => m ∉ seen).map (fun m => s(n, m)) =
      ((edges.filter fun e => e.1 ∉ seen ∧ e.2 ∉ seen).filter fun e => e.1 = n ∨ e.2 = n).map fun e => s(e.1, e.2) := by
  induction edges with
  | nil => rfl
  | cons e edges ih =>
    obtain ⟨a, b⟩ := e
    unfold adjacent at ih ⊢
    rw [List.filterMap_cons]
    by_cases ha : a = n
    · subst ha
      simp only [if_true]
      by_cases hb : b ∈ seen
      · rw [List.filter_cons_of_neg (by simpa using hb), List.filter_cons_of_neg (by simp [hb])]
        exact ih
      · rw [List.filter_cons_of_pos (by simpa using hb), List.filter_cons_of_pos (by simp [hb, hn]), List.filter_cons_of_pos (by simp),
          List.map_cons, List.map_cons, ih]
    · simp only [if_neg ha]
      by_cases hb : b = n
      · subst hb
        simp only [if_true]
        by_cases h : a ∈ seen
        · rw [List.filter_cons_of_neg (by simpa using h), List.filter_cons_of_neg (by simp [h])]
          exact ih
        · rw [List.filter_cons_of_pos (by simpa using h), List.filter_cons_of_pos (by simp [h, hn]), List.filter_cons_of_pos (by simp),
            List.map_cons, List.map_cons, ih, Sym2.eq_swap]
      · simp only [if_neg hb]
        by_cases h : a ∉ seen ∧ b ∉ seen
        · rw [List.filter_cons_of_pos (by simpa using h), List.filter_cons_of_neg (by simp [ha, hb])]
          exact ih
        · rw [List.filter_cons_of_neg (by simpa using h)]
          exact ih

theorem edgeList_perm (edges : List (Str × Str)) : ∀ (nodes seen : List Str), nodes.Nodup → (∀ n ∈ nodes, n ∉ seen) →
    (∀ e ∈ edges, e.1 ∈ seen ∨ e.1 ∈ nodes) →
    ((edgeList edges seen nodes).map fun e => s(e.1, e.2)).Perm
      ((edges.filter fun e => e.1 ∉ seen ∧ e.2 ∉ seen).map fun e => s(e.1, e.2))
  | [], seen, _, _, h1 => by
    rw [List.filter_eq_nil_iff.2]
    · exact List.Perm.refl _
    · intro e he
      have := (h1 e he).resolve_right List.not_mem_nil
      simp [this]
  | n :: nodes, seen, hd, hs, h1 => by
    obtain ⟨hd1, hd2⟩ := List.nodup_cons.1 hd
    have ih := edgeList_perm edges nodes (n :: seen) hd2 (fun m hm => by
      rw [List.mem_cons, not_or]
      exact ⟨fun e => hd1 (e ▸ hm), hs m (List.mem_cons_of_mem _ hm)⟩) (fun e he => by
      have := h1 e he
      simp only [List.mem_cons] at this ⊢
      tauto)
    rw [edgeList, List.map_append]
    have hp := (List.filter_append_perm (fun e : Str × Str => decide (e.1 = n ∨ e.2 = n))
      (edges.filter fun e => e.1 ∉ seen ∧ e.2 ∉ seen)).map fun e => s(e.1, e.2)
    rw [List.map_append] at hp
    refine List.Perm.trans (List.Perm.append ?_ ?_) hp
    · rw [← adjacent_filter edges (hs n List.mem_cons_self)]
      have := (replicate_filter (adjacent edges n) fun m => decide (m ∉ seen)).map fun m => s(n, m)
      refine List.Perm.trans (List.Perm.of_eq ?_) this
      rw [List.map_flatMap, List.map_flatMap]
      apply List.flatMap_congr
      intro m _
      rw [List.map_replicate, List.map_replicate, count_adjacent]
      congr 1
      exact congrFun (congrArg (fun i => @List.count Str i m) (@lawful_beq_subsingleton Str List.instBEq instBEqOfDecidableEq _ _)) _
    · refine ih.trans (List.Perm.of_eq ?_)
      congr 1
      rw [List.filter_filter]
      apply List.filter_congr
      intro e _
      simp only [List.mem_cons, not_or, Bool.decide_and, ← Bool.decide_or]
      by_cases h2 : e.1 = n <;> by_cases h3 : e.2 = n <;> simp [h2, h3]

/-! ## The drawing -/

theorem mapE_forall₂ {α β : Type} {f : α → Except PyErr β} {R : α → β → Prop} : ∀ {l : List α}, (∀ a ∈ l, ∃ b, f a = .ok b ∧ R a b) →
    ∃ l', mapE f l = .ok l' ∧ List.Forall₂ R l l'
  | [], _ => ⟨[], rfl, .nil⟩
  | a :: l, h => by
    obtain ⟨b, h1, h2⟩ := h a List.mem_cons_self
    obtain ⟨l', h3, h4⟩ := mapE_forall₂ fun x hx => h x (List.mem_cons_of_mem _ hx)
    exact ⟨b :: l', by simp only [mapE, h1, h3], .cons h2 h4⟩

theorem ends_edgeOf (c : Conn) : s((edgeOf c).1, (edgeOf c).2) = ends c := by cases c <;> rfl

theorem drawEdges_spec (pos : Str → ℝ × ℝ) : ∀ (es : List (Str × Str)) (rand : ℕ → ℝ), (∀ k, 0 ≤ rand k ∧ rand k < 1) →
    List.Forall₂ (fun e d => BentLine (pos e.1) (pos e.2) d) es (drawEdges es pos rand)
  | [], _, _ => .nil
  | e :: es, rand, h => by
    unfold drawEdges
    rw [List.mapIdx_cons]
    exact .cons (drawEdge_spec _ _ (h 0).1 (h 0).2) (drawEdges_spec pos es (fun k => rand (k + 1)) fun k => h (k + 1))

/-- C118: a drawing consists of the name of every component once, at its position and in the box of the nearest class with a box, and of a
line between the positions of the two ends for every connection; no error is raised. -/
theorem C118_drawing (cs : List Conn) (h : GoodConns cs) (classes : List (List Str)) (hl : classes.length = (firstMentions cs).length)
    (ho : ∀ c ∈ classes, "object".toList ∈ c) (pos : Str → ℝ × ℝ) (rand : ℕ → ℝ) (hr : ∀ k, 0 ≤ rand k ∧ rand k < 1) :
    ∃ g texts lines, graphDraw (firstMentions cs) classes (cs.map Conn.text) true pos rand = .ok (g, texts ++ lines ++ [.axisOff]) ∧
      graph (firstMentions cs) (cs.map Conn.text) = .ok g ∧
      List.Forall₂ (fun nc d => ∃ b, d = .text (pos nc.1) nc.1 b ∧ BoxOf nc.2 b) ((firstMentions cs).zip classes) texts ∧
      ∃ es : List (Str × Str), (es.map fun e => s(e.1, e.2)).Perm (cs.map ends) ∧
        List.Forall₂ (fun e d => BentLine (pos e.1) (pos e.2) d) es lines := by
  obtain ⟨nodes, edges, hg, hlab⟩ := C78_labels cs h classes hl
  have hg' := hg
  unfold graph at hg'
  rw [graphEdges_text h] at hg'
  simp only [Except.map, Except.ok.injEq, Prod.mk.injEq] at hg'
  obtain ⟨hn, he⟩ := hg'
  obtain ⟨texts, ht, hf⟩ := mapE_forall₂ (f := fun nc : Str × List Str => (boxOf nc.2).map fun b => Drawn.text (pos nc.1) nc.1 b)
    (R := fun nc d => ∃ b, d = .text (pos nc.1) nc.1 b ∧ BoxOf nc.2 b) (l := (firstMentions cs).zip classes) (by
      intro nc hnc
      obtain ⟨b, h1, h2⟩ := boxOf_spec (ho nc.2 (List.of_mem_zip hnc).2)
      exact ⟨_, by rw [h1]; rfl, b, rfl, h2⟩)
  refine ⟨(nodes, edges), texts, drawEdges (edgeList edges [] nodes) pos rand, ?_, hg, hf, edgeList edges [] nodes, ?_,
    drawEdges_spec pos _ rand hr⟩
  · unfold graphDraw
    rw [hg]
    simp only [bind, Except.bind, if_true]
    unfold drawNodes
    rw [hlab, ht]
  · have hp := edgeList_perm edges nodes [] (by rw [← hn]; exact nodup_dedupFirst _) (by simp) (by
      intro e hee
      right
      rw [← hn, graphNodes, mem_dedupFirst, List.mem_append]
      right
      rw [he]
      exact List.mem_flatMap.2 ⟨e, hee, by simp⟩)
    refine hp.trans (List.Perm.of_eq ?_)
    rw [List.filter_eq_self.2 (by simp), ← he, List.map_map]
    exact List.map_congr_left fun c _ => ends_edgeOf c

/-- The statement of C118 about `draw`: `Network.graph(draw=False)` draws nothing. -/
def C118 : Prop := ∀ (cs : List Conn), GoodConns cs → ∀ (classes : List (List Str)), classes.length = (firstMentions cs).length →
  ∀ pos rand g drawn, networkGraph (firstMentions cs) classes (cs.map Conn.text) false pos rand = .ok (g, drawn) → drawn = []

/-- C118 for the function `graph` instead of the method; the graph is the same. Missing: the method, for which it is false. -/
theorem C118_silent_partial (cs : List Conn) (h : GoodConns cs) (classes : List (List Str)) (pos : Str → ℝ × ℝ) (rand : ℕ → ℝ) :
    ∃ g, graph (firstMentions cs) (cs.map Conn.text) = .ok g ∧
      graphDraw (firstMentions cs) classes (cs.map Conn.text) false pos rand = .ok (g, []) := by
  refine ⟨_, C78_graph cs h, ?_⟩
  unfold graphDraw
  rw [C78_graph cs h]
  rfl

/-- C118 is false for every network: the method draws whatever its argument is. -/
theorem C118_always (cs : List Conn) (h : GoodConns cs) (classes : List (List Str)) (hl : classes.length = (firstMentions cs).length)
    (ho : ∀ c ∈ classes, "object".toList ∈ c) (draw : Bool) (pos : Str → ℝ × ℝ) (rand : ℕ → ℝ) :
    ∃ g drawn, networkGraph (firstMentions cs) classes (cs.map Conn.text) draw pos rand = .ok (g, drawn) ∧ drawn ≠ [] ∧
      graphDraw (firstMentions cs) classes (cs.map Conn.text) true pos rand = .ok (g, drawn) := by
  obtain ⟨nodes, edges, hg, hlab⟩ := C78_labels cs h classes hl
  obtain ⟨texts, ht, -⟩ := mapE_forall₂ (f := fun nc : Str × List Str => (boxOf nc.2).map fun b => Drawn.text (pos nc.1) nc.1 b)
    (R := fun _ _ => True) (l := (firstMentions cs).zip classes) (by
      intro nc hnc
      obtain ⟨b, h1, -⟩ := boxOf_spec (ho nc.2 (List.of_mem_zip hnc).2)
      exact ⟨_, by rw [h1]; rfl, trivial⟩)
  have key : graphDraw (firstMentions cs) classes (cs.map Conn.text) true pos rand =
      .ok ((nodes, edges), texts ++ drawEdges (edgeList edges [] nodes) pos rand ++ [.axisOff]) := by
    unfold graphDraw
    rw [hg]
    simp only [bind, Except.bind, if_true]
    unfold drawNodes
    rw [hlab, ht]
  exact ⟨_, _, key, by simp, key⟩

theorem C118_violation : ¬C118 := by
  intro hC
  obtain ⟨g, d, h1, h2, -⟩ := C118_always exGraphCs exGraphCs_good [["Waveguide".toList, "object".toList], ["Mirror".toList, "object".toList]]
    (by decide) (by decide +kernel) false (fun _ => (0, 0)) (fun _ => 0)
  exact h2 (hC exGraphCs exGraphCs_good _ (by decide) _ _ g d h1)

/-- A class of one's own derived from `Mirror` gets the box of `Mirror`. -/
example : ∃ b, boxOf [['M', 'i', 'n', 'e'], "Mirror".toList, "Component".toList, "object".toList] = .ok b ∧ b = some "C0".toList :=
  ⟨_, rfl, by decide +kernel⟩

/-- A ring of two components is drawn with two names and two lines. -/
example (pos : Str → ℝ × ℝ) (rand : ℕ → ℝ) (hr : ∀ k, 0 ≤ rand k ∧ rand k < 1) : ∃ g texts lines,
    graphDraw [['a'], ['b']] [["Waveguide".toList, "object".toList], ["Mirror".toList, "object".toList]]
      ([Conn.inner ['a'] 1 ['b'] 0, .inner ['b'] 1 ['a'] 0].map Conn.text) true pos rand = .ok (g, texts ++ lines ++ [.axisOff]) ∧
      texts.length = 2 ∧ lines.length = 2 := by
  have hm : firstMentions [Conn.inner ['a'] 1 ['b'] 0, .inner ['b'] 1 ['a'] 0] = [['a'], ['b']] := by decide
  obtain ⟨g, texts, lines, h1, -, h2, es, h3, h4⟩ := C118_drawing [.inner ['a'] 1 ['b'] 0, .inner ['b'] 1 ['a'] 0] (goodConns_dec (by decide))
    [["Waveguide".toList, "object".toList], ["Mirror".toList, "object".toList]] (by rw [hm]; rfl) (by decide +kernel) pos rand hr
  rw [hm] at h1 h2
  refine ⟨g, texts, lines, h1, h2.length_eq.symm, ?_⟩
  rw [← h4.length_eq]
  have := h3.length_eq
  rwa [List.length_map] at this

end PT
