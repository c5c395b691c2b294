import Verif.Proof.PortOrder

/-!
# C14, C15, C16, C24, C17, C18, C19: connection matrix and port numbering
-/

namespace PT
open Spec

theorem layout_of_pick {modules l : Comps} {cs : List Conn} (hg : GoodConns cs)
    (h : pickComps modules (usedNames ((cs.map Conn.text).map stripConn)) = .ok l) :
    Layout modules cs l := by
  have := pickComps_ok h
  rw [map_stripConn_text hg, usedNames_text hg] at this
  exact this

theorem layout_nodup {modules l : Comps} {cs : List Conn} (h : Layout modules cs l) :
    (l.map Prod.fst).Nodup := by
  rw [h.1, firstMentions_eq]; exact nodup_dedupFirst _

theorem mkNet_text_ok {name : Option Str} {modules : Comps} {cs : List Conn} {c : Comp}
    (hg : GoodConns cs) (h : mkNet name modules (cs.map Conn.text) = .ok c) :
    ∃ l, Layout modules cs l ∧ netBuffers name l (cs.map Conn.text) = .ok c := by
  obtain ⟨l, h1, h2⟩ := mkNet_ok h
  rw [map_stripConn_text hg] at h2
  exact ⟨l, layout_of_pick hg h1, h2⟩

theorem layout_children {modules l : Comps} {cs : List Conn} (h : Layout modules cs l)
    {P : Comp → Prop} (hP : ∀ d x, P d → P { d with name := x }) (hm : ∀ p ∈ modules, P p.2) :
    ∀ p ∈ l, P p.2 := by
  intro p hp
  obtain ⟨d, hd, he⟩ := h.2 p hp
  rw [he]; exact hP _ _ (hm _ (dictGet_mem hd))

theorem declared_iff {l : Comps} (hl : ChildrenOK l) {cs : List Conn} (hg : GoodConns cs)
    {C : ℕ → ℕ → ℚ} (h : setC l (cs.map Conn.text) = .ok C) (i j : ℕ) :
    (Declared l cs i j → C i j = 1) ∧ (¬ Declared l cs i j → C i j = blockC l i j) := by
  obtain ⟨ps, hps, hC⟩ := setC_ok h
  have hF := mapE_parseInternal_text hg hps
  have key : (∃ p ∈ ps.filterMap id, (i = p.1 ∧ j = p.2) ∨ (i = p.2 ∧ j = p.1)) ↔ Declared l cs i j := by
    constructor
    · rintro ⟨p, hp, hij⟩
      simp only [List.mem_filterMap, id] at hp
      obtain ⟨q, hq, rfl⟩ := hp
      obtain ⟨c, hc, hcq⟩ := forall₂_mem_right hF hq
      cases c with
      | outer a k p' => cases hcq
      | inner a k b m =>
        obtain ⟨x, y, hxy, he⟩ := hcq
        simp only [Option.some.injEq] at he
        subst he
        obtain ⟨h1, h2, -⟩ := internalPorts_ok hxy
        rw [globalPort_iff hl] at h1 h2
        refine ⟨a, k, b, m, hc, ?_⟩
        rcases hij with ⟨rfl, rfl⟩ | ⟨rfl, rfl⟩
        · exact .inl ⟨h1, h2⟩
        · exact .inr ⟨h1, h2⟩
    · rintro ⟨a, k, b, m, hc, hij⟩
      obtain ⟨p, hp, x, y, hxy, rfl⟩ := forall₂_mem_left hF hc
      obtain ⟨h1, h2, -⟩ := internalPorts_ok hxy
      rw [globalPort_iff hl] at h1 h2
      refine ⟨(x, y), List.mem_filterMap.mpr ⟨_, hp, rfl⟩, ?_⟩
      rcases hij with ⟨h3, h4⟩ | ⟨h3, h4⟩
      · exact .inl ⟨portOf_det hl h3 h1, portOf_det hl h4 h2⟩
      · exact .inr ⟨portOf_det hl h4 h2, portOf_det hl h3 h1⟩
  rw [hC]
  rw [← key]
  exact ⟨fun h => if_pos h, fun h => if_neg h⟩

/-! ## C14 -/

/-- C14. The connection matrix of everything that can be built, to any nesting depth and from any
connection strings the constructor accepts, is symmetric with entries 0 and 1. -/
theorem C14_reciprocal (c : Comp) (h : Built c) :
    (∀ i j, c.C i j = c.C j i) ∧ (∀ i j, c.C i j = 0 ∨ c.C i j = 1) ∧
      ∀ i j, c.C i j ≠ 0 → i < c.n ∧ j < c.n := built_reciprocal h

/-! ## C15 -/

/-- C15. In an accepted network two ports are connected exactly when they are connected inside one of
the sub-components or by a declared connection, and the free ports are exactly the ports without
any connection. -/
theorem C15_exact (name : Option Str) (modules : Comps) (cs : List Conn) (c : Comp)
    (hm : ∀ p ∈ modules, Built p.2) (hg : GoodConns cs)
    (h : mkNet name modules (cs.map Conn.text) = .ok c) :
    ∃ l, Layout modules cs l ∧ c.n = width l ∧
      (∀ i j, c.C i j ≠ 0 ↔ InsideConn l i j ∨ Declared l cs i j) ∧
      (∀ i, c.freeAt i = true ↔ i < c.n ∧ ∀ j, ¬ InsideConn l i j ∧ ¬ Declared l cs i j) := by
  obtain ⟨l, hl, hb⟩ := mkNet_text_ok hg h
  have hch : ChildrenOK l := layout_children hl (P := fun d => Reciprocal d.n d.C) (fun _ _ h => h)
    fun p hp => built_reciprocal (hm p hp)
  obtain ⟨-, hC, hn, -⟩ := netBuffers_ok hb
  have hrec := setC_reciprocal hch hC
  have key : ∀ i j, c.C i j ≠ 0 ↔ InsideConn l i j ∨ Declared l cs i j := by
    intro i j
    rw [← blockC_iff (layout_nodup hl)]
    have hd := declared_iff hch hg hC i j
    by_cases h : Declared l cs i j
    · simp [hd.1 h, h]
    · simp [hd.2 h, h]
  refine ⟨l, hl, hn, key, fun i => ?_⟩
  rw [freeAt_iff hrec.2.1]
  apply and_congr_right
  intro hi
  constructor
  · intro hu j
    rw [← not_or, ← key]
    by_cases hj : j < c.n
    · simp [(hu j hj).1]
    · intro hne; exact hj (hn ▸ (hrec.2.2 i j hne).2)
  · intro hu k hk
    have := hu k
    rw [← not_or, ← key, not_not] at this
    exact ⟨this, (hrec.1 k i).trans this⟩

/-- A ring: waveguide ports 0 and 1 connected to ports 2 and 3 of a coupler; ports 0 and 1 of the
coupler are external. -/
def ringModules : Comps := [(['w'], passive 2), (['d'], passive 4)]
def ringConns : List Conn :=
  [.inner ['d'] 2 ['w'] 0, .inner ['w'] 1 ['d'] 3, .outer ['d'] 0 0, .outer ['d'] 1 1]

theorem goodName_dec {x : Str} (h : (decide (':' ∉ x) && decide (strip x = x) && decide (pyInt x = none)) = true) :
    GoodName x := by
  simp only [Bool.and_eq_true, decide_eq_true_eq] at h
  exact ⟨h.1.1, h.1.2, h.2⟩

theorem goodConns_dec {cs : List Conn} (h : (cs.all fun c => c.names.all fun x =>
    decide (':' ∉ x) && decide (strip x = x) && decide (pyInt x = none)) = true) : GoodConns cs := by
  intro c hc x hx
  rw [List.all_eq_true] at h
  have := h c hc
  rw [List.all_eq_true] at this
  exact goodName_dec (this x hx)

theorem passive_check (n : ℕ) (hn : 0 < n) : (passive n).check = .ok () := by
  unfold passive
  have hov : ∀ m, overlap (List.replicate m false) (List.replicate m false) = false := by
    intro m; simp [overlap]
  have hs : (List.range n).insertionSort (· ≤ ·) = List.range n :=
    List.Pairwise.insertionSort_eq (List.pairwise_lt_range.imp fun h => le_of_lt h)
  unfold Comp.check
  rw [if_neg, if_neg, if_neg, if_neg, if_neg]
  · simp [leaf]
  · simp only [leaf, hs]
    cases n with
    | zero => omega
    | succ n => simp [List.range_succ_eq_map]
  all_goals simp [leaf, hov]

theorem passive_built (n : ℕ) (hn : 0 < n) : Built (passive n) :=
  .leaf n _ _ _ (by simp) (by simp) (by simp) (passive_check n hn)

example : (∀ p ∈ ringModules, Built p.2) ∧ GoodConns ringConns ∧
    okAnd (mkNet none ringModules (ringConns.map Conn.text)) (fun c =>
      decide (c.n = 6 ∧ c.C 2 4 = 1 ∧ c.C 5 3 = 1 ∧ c.C 0 4 = 0 ∧ c.free = [0, 1])) = true := by
  refine ⟨?_, goodConns_dec (by decide), by decide +kernel⟩
  intro p hp
  simp only [ringModules, List.mem_cons, List.not_mem_nil, or_false] at hp
  rcases hp with rfl | rfl
  · exact passive_built 2 (by decide)
  · exact passive_built 4 (by decide)

/-! ## Examples of use -/

theorem ring_built : ∀ p ∈ ringModules, Built p.2 := by
  intro p hp
  simp only [ringModules, List.mem_cons, List.not_mem_nil, or_false] at hp
  rcases hp with rfl | rfl
  · exact passive_built 2 (by decide)
  · exact passive_built 4 (by decide)

theorem ring_good : GoodConns ringConns := goodConns_dec (by decide)

/-- The ring with two free ports. -/
theorem ring_net : ∃ c, mkNet none ringModules (ringConns.map Conn.text) = .ok c ∧ c.n = 6 ∧ c.free = [0, 1] ∧
    freePorts c = [0, 1] := by
  have h : okAnd (mkNet none ringModules (ringConns.map Conn.text))
      (fun c => decide (c.n = 6 ∧ c.free = [0, 1] ∧ freePorts c = [0, 1])) = true := by decide +kernel
  obtain ⟨c, hc, h⟩ := okAnd_iff.mp h
  exact ⟨c, hc, of_decide_eq_true h⟩

example : ∃ c, mkNet none ringModules (ringConns.map Conn.text) = .ok c ∧ (∀ i j, c.C i j = c.C j i) ∧
    ∃ l, Layout ringModules ringConns l ∧ ∀ i j, c.C i j ≠ 0 ↔ InsideConn l i j ∨ Declared l ringConns i j := by
  obtain ⟨c, hc, -⟩ := ring_net
  obtain ⟨l, h1, -, h2, -⟩ := C15_exact none ringModules ringConns c ring_built ring_good hc
  exact ⟨c, hc, (C14_reciprocal c (.net none _ _ c ring_built hc)).1, l, h1, h2⟩

end PT
