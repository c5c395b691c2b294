import Verif.Props.Ports

/-! Proof support: well-formed networks are accepted. -/

namespace PT
open Spec

/-- The markings of a component: one per port, never two on the same port. -/
def MarksOK (c : Comp) : Prop :=
  c.src.length = c.n ∧ c.det.length = c.n ∧ c.act.length = c.n ∧
    overlap c.src c.det = false ∧ overlap c.src c.act = false ∧ overlap c.det c.act = false

theorem check_marks {c : Comp} (h : c.check = .ok ()) :
    overlap c.src c.det = false ∧ overlap c.src c.act = false ∧ overlap c.det c.act = false := by
  unfold Comp.check at h
  split at h
  · cases h
  split at h
  · cases h
  split at h
  · cases h
  simp_all

theorem marks_length {l : Comps} (f : Comp → List Bool) (h : ∀ p ∈ l, (f p.2).length = p.2.n) :
    (l.flatMap fun p => f p.2).length = width l := by
  induction l with
  | nil => rfl
  | cons p l ih =>
    simp only [List.flatMap_cons, List.length_append, ih fun q hq => h q (by simp [hq]), h p (by simp),
      width, List.map_cons, List.sum_cons]

theorem built_marks {c : Comp} (h : Built c) : MarksOK c := by
  induction h with
  | leaf n src det act h1 h2 h3 h4 => exact ⟨h1, h2, h3, check_marks h4⟩
  | soa => unfold MarksOK; decide
  | named c x _ ih => exact ih
  | net name modules conns c _ hk ih =>
    obtain ⟨l, h1, h2⟩ := mkNet_ok hk
    obtain ⟨-, -, hn, -, hs, hd, ha, -, hck⟩ := netBuffers_ok h2
    have hl : ∀ p ∈ l, MarksOK p.2 := by
      intro p hp
      obtain ⟨d, hd, he⟩ := (pickComps_ok h1).2 p hp
      rw [he]; exact ih _ (dictGet_mem hd)
    refine ⟨?_, ?_, ?_, check_marks hck⟩
    · rw [hs, hn]; exact marks_length (·.src) fun p hp => (hl p hp).1
    · rw [hd, hn]; exact marks_length (·.det) fun p hp => (hl p hp).2.1
    · rw [ha, hn]; exact marks_length (·.act) fun p hp => (hl p hp).2.2.1

theorem overlap_append {a b a' b' : List Bool} (h : a.length = b.length) :
    overlap (a ++ a') (b ++ b') = (overlap a b || overlap a' b') := by
  unfold overlap
  rw [List.zipWith_append h, List.any_append]

theorem overlap_flatMap {l : Comps} (f g : Comp → List Bool) (h : ∀ p ∈ l, (f p.2).length = (g p.2).length)
    (h' : ∀ p ∈ l, overlap (f p.2) (g p.2) = false) :
    overlap (l.flatMap fun p => f p.2) (l.flatMap fun p => g p.2) = false := by
  induction l with
  | nil => rfl
  | cons p l ih =>
    rw [List.flatMap_cons, List.flatMap_cons, overlap_append (h p (by simp)), h' p (by simp),
      ih (fun q hq => h q (by simp [hq])) fun q hq => h' q (by simp [hq])]
    rfl

theorem order_check {l : List ℕ} {n : ℕ} (h : l.Perm (List.range n)) (hn : 0 < n) :
    (List.zipWith (fun a b => decide (a ≠ b)) (l.insertionSort (· ≤ ·)) (List.range n)).all id = false := by
  have hs : l.insertionSort (· ≤ ·) = List.range n := by
    have h1 : (l.insertionSort (· ≤ ·)).Perm (List.range n) := (List.perm_insertionSort _ l).trans h
    exact h1.eq_of_pairwise (fun a b _ _ h h' => le_antisymm h h') (List.pairwise_insertionSort _ l)
      (List.pairwise_lt_range.imp fun h => le_of_lt h)
  rw [hs]
  cases n with
  | zero => omega
  | succ n => simp [List.range_succ_eq_map]

theorem check_ok {c : Comp} (hm : MarksOK c) (ho : OrderOK c) (hn : 0 < c.n) (hi : c.isNet = true) :
    c.check = .ok () := by
  obtain ⟨-, -, -, h1, h2, h3⟩ := hm
  unfold Comp.check
  rw [if_neg (by simp [h1]), if_neg (by simp [h2]), if_neg (by simp [h3]),
    if_neg (by rw [order_check ho hn]; decide), if_neg (by simp [hi])]

theorem layout_exists {modules : Comps} {names : List Str} (h : ∀ x ∈ names, x ∈ modules.map Prod.fst) :
    ∃ l, pickComps modules names = .ok l := by
  unfold pickComps
  cases hm : mapE (fun x => match dictGet x modules with
    | none => Except.error PyErr.keyError
    | some c => .ok (x, ({ c with name := some x } : Comp))) names with
  | ok l => exact ⟨l, rfl⟩
  | error e =>
    obtain ⟨x, hx, hxe⟩ := mapE_error hm
    have := h x hx
    cases hd : dictGet x modules with
    | none => rw [dictGet_none] at hd; exact absurd this hd
    | some d => rw [hd] at hxe; cases hxe

theorem mapE_exists {α β : Type} {f : α → Except PyErr β} {l : List α} (h : ∀ a ∈ l, ∃ b, f a = .ok b) :
    ∃ r, mapE f l = .ok r := by
  cases hm : mapE f l with
  | ok r => exact ⟨r, rfl⟩
  | error e =>
    obtain ⟨a, ha, hae⟩ := mapE_error hm
    obtain ⟨b, hb⟩ := h a ha
    rw [hb] at hae; cases hae

theorem hasPort_global {modules l : Comps} {cs : List Conn} (hm : ∀ p ∈ modules, Built p.2)
    (hl : Layout modules cs l) {a : Str} {i : ℤ} (ha : a ∈ firstMentions cs) (h : HasPort modules a i) :
    portTooHigh l a i = .ok () ∧ ∃ g, globalPort l a i = .ok g := by
  obtain ⟨d, hd, h0, hi⟩ := h
  obtain ⟨s, hs⟩ := layout_locate hl ha hd
  have hfree : ({ d with name := some a } : Comp).free = freePorts d :=
    free_eq (c := { d with name := some a }) (built_reciprocal (hm _ (dictGet_mem hd))).2.1
  constructor
  · unfold portTooHigh; rw [hs]; simp only [hfree]; rw [if_neg (by omega)]
  · unfold globalPort; rw [hs]
    have hk : i.toNat < (freePorts d).length := by omega
    have : pyIndex (freePorts d) i = some (freePorts d)[i.toNat] := by
      unfold pyIndex; rw [if_pos h0]; exact List.getElem?_eq_getElem hk
    exact ⟨s + (freePorts d)[i.toNat], by simp [hfree, this]⟩

theorem mkNet_accepts (name : Option Str) (modules : Comps) (cs : List Conn)
    (hm : ∀ p ∈ modules, Built p.2 ∧ OrderOK p.2) (hg : GoodConns cs) (hne : cs ≠ [])
    (hp : PortsExist modules cs) (hc : Contiguous cs) :
    ∃ c, mkNet name modules (cs.map Conn.text) = .ok c := by
  have hmention : ∀ d ∈ cs, ∀ x ∈ d.names, x ∈ firstMentions cs := by
    intro d hd x hx
    rw [firstMentions_eq, mem_dedupFirst, List.mem_flatMap]; exact ⟨d, hd, hx⟩
  have hmod : ∀ x i, HasPort modules x i → x ∈ modules.map Prod.fst := by
    rintro x i ⟨d, hd, -⟩
    by_contra hno
    rw [← dictGet_none, hd] at hno; cases hno
  have hin : ∀ x ∈ firstMentions cs, ∃ i, HasPort modules x i := by
    intro x hx
    rw [firstMentions_eq, mem_dedupFirst, List.mem_flatMap] at hx
    obtain ⟨d, hd, hx⟩ := hx
    have := hp d hd
    cases d with
    | inner a i b j =>
      simp only [Conn.names, List.mem_cons, List.not_mem_nil, or_false] at hx
      rcases hx with rfl | rfl
      · exact ⟨_, this.1⟩
      · exact ⟨_, this.2.1⟩
    | outer a i p =>
      simp only [Conn.names, List.mem_cons, List.not_mem_nil, or_false] at hx
      subst hx; exact ⟨_, this⟩
  obtain ⟨l, hpick⟩ := layout_exists (modules := modules) (names := firstMentions cs)
    fun x hx => (hin x hx).elim fun i h => hmod x i h
  have hpick' : pickComps modules (usedNames ((cs.map Conn.text).map stripConn)) = .ok l := by
    rw [map_stripConn_text hg, usedNames_text hg]; exact hpick
  have hl : Layout modules cs l := layout_of_pick hg hpick'
  have hch : ChildrenOK l := layout_children hl (P := fun d => Reciprocal d.n d.C) (fun _ _ h => h)
    fun p hp => built_reciprocal (hm p hp).1
  have hord : ∀ p ∈ l, OrderOK p.2 := layout_children hl (fun _ _ h => h) fun p hp => (hm p hp).2
  have hmarks : ∀ p ∈ l, MarksOK p.2 := layout_children hl (P := MarksOK) (fun _ _ h => h)
    fun p hp => built_marks (hm p hp).1
  have hHas : ∀ x i, x ∈ firstMentions cs → HasPort modules x i →
      portTooHigh l x i = .ok () ∧ ∃ g, globalPort l x i = .ok g := fun x i hx h =>
    hasPort_global (fun p hp => (hm p hp).1) hl hx h
  -- external ports
  obtain ⟨es0, hes⟩ : ∃ es0, mapE (parseExternal l) (cs.map Conn.text) = .ok es0 := by
    apply mapE_exists
    intro s hs
    obtain ⟨d, hd, rfl⟩ := List.mem_map.mp hs
    have hpd := hp d hd
    cases d with
    | inner a i b j =>
      exact ⟨none, parseExternal_inner l i j (hg _ hd a (by simp [Conn.names])) (hg _ hd b (by simp [Conn.names]))⟩
    | outer a i p =>
      obtain ⟨-, g, hg'⟩ := hHas a i (hmention _ hd a (by simp [Conn.names])) hpd
      exact ⟨some (g, p), by
        rw [parseExternal_outer l i p (hg _ hd a (by simp [Conn.names])), hg']; rfl⟩
  obtain ⟨es, -, -, -, -, hperm, hpo⟩ := setPortOrder_eval hg hch
    (fun p hp => by simpa using (hord p hp).length_eq)
    (fun p hp => (hord p hp).nodup_iff.mpr List.nodup_range) hc hes
  -- internal connections
  obtain ⟨ps, hps⟩ : ∃ ps, mapE (parseInternal l) (cs.map Conn.text) = .ok ps := by
    apply mapE_exists
    intro s hs
    obtain ⟨d, hd, rfl⟩ := List.mem_map.mp hs
    have hpd := hp d hd
    cases d with
    | outer a i p => exact ⟨none, parseInternal_outer l i p (hg _ hd a (by simp [Conn.names]))⟩
    | inner a i b j =>
      obtain ⟨ha, hb, hne⟩ := hpd
      obtain ⟨h1, x, hx⟩ := hHas a i (hmention _ hd a (by simp [Conn.names])) ha
      obtain ⟨h2, y, hy⟩ := hHas b j (hmention _ hd b (by simp [Conn.names])) hb
      refine ⟨some (x, y), ?_⟩
      rw [parseInternal_inner l i j (hg _ hd a (by simp [Conn.names])) (hg _ hd b (by simp [Conn.names]))]
      unfold internalPorts
      rw [if_neg hne, h1, h2, hx, hy]; rfl
  have hC : ∃ C, setC l (cs.map Conn.text) = .ok C := by unfold setC; rw [hps]; exact ⟨_, rfl⟩
  obtain ⟨C, hC⟩ := hC
  -- the final checks
  have hlen := blockOrder_length (l := l) fun p hp => by simpa using (hord p hp).length_eq
  have hw : 0 < width l := by
    cases cs with
    | nil => exact absurd rfl hne
    | cons d cs' =>
      have : ∃ x i, x ∈ firstMentions (d :: cs') ∧ HasPort modules x i := by
        have hpd := hp d (by simp)
        cases d with
        | inner a i b j => exact ⟨a, i, hmention _ List.mem_cons_self a (by simp [Conn.names]), hpd.1⟩
        | outer a i p => exact ⟨a, i, hmention _ List.mem_cons_self a (by simp [Conn.names]), hpd⟩
      obtain ⟨x, i, hx, hxi⟩ := this
      obtain ⟨-, g, hg'⟩ := hHas x i hx hxi
      have := ((globalPort_iff hch).mp hg').lt
      omega
  unfold mkNet
  rw [hpick', map_stripConn_text hg]
  simp only [Except.bind]
  unfold netBuffers
  rw [hpo, hC]
  simp only [Except.bind]
  rw [check_ok]
  · exact ⟨_, rfl⟩
  · refine ⟨marks_length (·.src) fun p hp => (hmarks p hp).1, marks_length (·.det) fun p hp => (hmarks p hp).2.1,
      marks_length (·.act) fun p hp => (hmarks p hp).2.2.1, ?_, ?_, ?_⟩
    · exact overlap_flatMap (·.src) (·.det) (fun p hp => (hmarks p hp).1.trans (hmarks p hp).2.1.symm)
        fun p hp => (hmarks p hp).2.2.2.1
    · exact overlap_flatMap (·.src) (·.act) (fun p hp => (hmarks p hp).1.trans (hmarks p hp).2.2.1.symm)
        fun p hp => (hmarks p hp).2.2.2.2.1
    · exact overlap_flatMap (·.det) (·.act) (fun p hp => (hmarks p hp).2.1.trans (hmarks p hp).2.2.1.symm)
        fun p hp => (hmarks p hp).2.2.2.2.2
  · unfold OrderOK
    refine (hperm.map _).trans ?_
    rw [← hlen, map_getD_range, hlen]
    exact blockOrder_perm hord
  · exact hw
  · rfl

end PT
