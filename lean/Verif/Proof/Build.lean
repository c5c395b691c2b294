import Verif.Proof.Accept

/-! Proof support: networks are accepted whatever numbers their external ports have, so that `link` may be called once per chain. -/

namespace PT
open Spec

/-- The external declarations are of different ports and have different numbers. -/
def OutsDiffer (cs : List Conn) : Prop :=
  ((outs cs).map Prod.snd).Nodup ∧ ((outs cs).map Prod.fst).Nodup ∧ ∀ o ∈ outs cs, 0 ≤ o.1.2

/-- A list of `n` numbers below `n`, sorted, agrees with `0, 1, …` somewhere. -/
theorem order_check_lt {l : List ℕ} {n : ℕ} (hl : l.length = n) (hlt : ∀ x ∈ l, x < n) (hn : 0 < n) :
    (List.zipWith (fun a b => decide (a ≠ b)) (l.insertionSort (· ≤ ·)) (List.range n)).all id = false := by
  set s := l.insertionSort (· ≤ ·) with hs
  have hperm : s.Perm l := List.perm_insertionSort _ l
  have hlen : s.length = n := by rw [hperm.length_eq, hl]
  have hsort : s.Pairwise (· ≤ ·) := List.pairwise_insertionSort _ l
  by_contra hne
  rw [Bool.not_eq_false] at hne
  have hall : ∀ i (h : i < s.length), s[i] ≠ i := by
    intro i h
    rw [List.all_eq_true] at hne
    have hz : i < (List.zipWith (fun a b => decide (a ≠ b)) s (List.range n)).length := by simp; omega
    have := hne _ (List.getElem_mem hz)
    simpa using this
  have hgt : ∀ i (h : i < s.length), i < s[i] := by
    intro i
    induction i with
    | zero => intro h; exact Nat.pos_of_ne_zero (hall 0 h)
    | succ i ih =>
      intro h
      have h1 := ih (by omega)
      have h2 : s[i] ≤ s[i + 1] := List.pairwise_iff_getElem.1 hsort i (i + 1) (by omega) h (by omega)
      have h3 := hall (i + 1) h
      omega
  have h1 := hgt (n - 1) (by omega)
  have h2 := hlt _ (hperm.mem_iff.1 (List.getElem_mem (by omega : n - 1 < s.length)))
  omega

theorem check_ok_lt {c : Comp} (hm : MarksOK c) (hl : c.portOrder.length = c.n) (hlt : ∀ x ∈ c.portOrder, x < c.n) (hn : 0 < c.n)
    (hi : c.isNet = true) : c.check = .ok () := by
  obtain ⟨-, -, -, h1, h2, h3⟩ := hm
  unfold Comp.check
  rw [if_neg (by simp [h1]), if_neg (by simp [h2]), if_neg (by simp [h3]),
    if_neg (by rw [order_check_lt hl hlt hn]; decide), if_neg (by simp [hi])]

theorem setPortOrder_accepts {l : Comps} {cs : List Conn} (hg : GoodConns cs) (hl : ChildrenOK l) (hord : ∀ p ∈ l, OrderOK p.2)
    (hc : OutsDiffer cs) {es0 : List (Option (ℕ × ℤ))} (hm : mapE (parseExternal l) (cs.map Conn.text) = .ok es0) :
    ∃ po, setPortOrder l (cs.map Conn.text) = .ok po ∧ po.length = width l ∧ ∀ x ∈ po, x < width l := by
  have hlen : ∀ p ∈ l, p.2.portOrder.length = p.2.n := fun p hp => by simpa using (hord p hp).length_eq
  have hnd : ∀ p ∈ l, p.2.portOrder.Nodup := fun p hp => (hord p hp).nodup_iff.mpr List.nodup_range
  unfold setPortOrder
  rw [hm]
  simp only [Except.bind]
  have hF := mapE_parseExternal_text hg hm
  set es := es0.filterMap id with hes
  have hF' : List.Forall₂ (fun o e => PortOf l o.1.1 o.1.2 e.1 ∧ e.2 = o.2) (outs cs) es :=
    hF.imp fun o e ⟨h1, h2⟩ => ⟨(globalPort_iff hl).mp h1, h2⟩
  have hs : es.map Prod.snd = (outs cs).map Prod.snd := by
    clear_value es
    clear hm hF hes
    generalize outs cs = os at hF'
    induction hF' with
    | nil => rfl
    | cons h1 _ ih => simp [h1.2, ih]
  have hnod : (es.map Prod.fst).Nodup := by
    have h1 := hc.2.1
    have h2 := hc.2.2
    clear_value es
    clear hm hF hes hs
    generalize outs cs = os at hF' h1 h2
    induction hF' with
    | nil => exact List.nodup_nil
    | @cons o e os es ho hrest ih =>
      simp only [List.map_cons, List.nodup_cons] at h1 ⊢
      refine ⟨?_, ih h1.2 fun o ho => h2 o (by simp [ho])⟩
      intro hmem
      obtain ⟨e', he', hee⟩ := List.mem_map.mp hmem
      obtain ⟨o', ho', ho2⟩ := forall₂_mem_right hrest he'
      rw [hee] at ho2
      have := portOf_inj hnd (h2 o (by simp)) (h2 o' (by simp [ho'])) ho.1 ho2.1
      exact h1.1 (List.mem_map.mpr ⟨o', ho', (Prod.ext this.1 this.2).symm⟩)
  have hlt : ∀ g ∈ es.map Prod.fst, g < width l := by
    intro g hgm
    obtain ⟨e, he, rfl⟩ := List.mem_map.mp hgm
    obtain ⟨o, -, ho⟩ := forall₂_mem_right hF' he
    exact ho.1.lt
  have hd : orderDict es = es.map Prod.swap := orderDict_nodup es (by rw [hs]; exact hc.1)
  have hv : (es.map Prod.swap).map Prod.snd = es.map Prod.fst := by simp [Function.comp_def]
  have hpc := perm_complement (l := es.map Prod.fst) (n := width l) hnod hlt
  have hblen := blockOrder_length (l := l) hlen
  have hbmem : ∀ x ∈ blockOrder l, x < width l := fun x hx => List.mem_range.1 ((blockOrder_perm hord).mem_iff.1 hx)
  set o1 := (List.range es.length).filterMap fun (j : ℕ) => dictGet (j : ℤ) (es.map Prod.swap) with ho1
  set o2 := (List.range (width l)).filter fun i => decide (i ∉ es.map Prod.fst) with ho2
  have hor : orderOf l.numPorts (orderDict es) = o1 ++ o2 := by
    unfold orderOf
    rw [hd, hv, numPorts_eq, List.length_map]
  have hle : (o1 ++ o2).length ≤ width l := by
    have h1 : o1.length ≤ es.length := by
      have := List.length_filterMap_le (fun (j : ℕ) => dictGet (j : ℤ) (es.map Prod.swap)) (List.range es.length)
      rwa [List.length_range] at this
    have h2 := hpc.length_eq
    rw [List.length_append, List.length_map, List.length_range] at h2
    rw [List.length_append]
    omega
  have hmem : ∀ i ∈ o1 ++ o2, i < width l := by
    intro i hi
    rcases List.mem_append.1 hi with h | h
    · obtain ⟨j, -, hj⟩ := List.mem_filterMap.1 h
      have := dictGet_mem hj
      obtain ⟨e, he, hee⟩ := List.mem_map.1 this
      exact hlt i (List.mem_map.2 ⟨e, he, (Prod.ext_iff.1 hee).2⟩)
    · exact List.mem_range.1 (List.mem_filter.1 h).1
  rw [hor]
  unfold applyOrder
  rw [if_neg (by omega)]
  obtain ⟨vs, hvs⟩ := mapE_exists (f := cloneAt (blockOrder l)) (l := o1 ++ o2) fun i hi => by
    unfold cloneAt
    rw [List.getElem?_eq_getElem (by rw [hblen]; exact hmem i hi)]
    exact ⟨_, rfl⟩
  rw [hvs]
  have hF2 := mapE_ok.1 hvs
  refine ⟨_, rfl, ?_, ?_⟩
  · rw [List.length_append, List.length_drop, ← hF2.length_eq, hblen]
    omega
  · intro x hx
    rcases List.mem_append.1 hx with h | h
    · obtain ⟨i, -, hi⟩ := forall₂_mem_right hF2 h
      unfold cloneAt at hi
      cases hb : (blockOrder l)[i]? with
      | none => rw [hb] at hi; cases hi
      | some v =>
        rw [hb] at hi
        cases hi
        exact hbmem _ (List.mem_of_getElem? hb)
    · exact hbmem _ (List.mem_of_mem_drop h)

/-- Well-formed networks are accepted, whatever numbers the external ports have. -/
theorem mkNet_accepts_any (name : Option Str) (modules : Comps) (cs : List Conn)
    (hm : ∀ p ∈ modules, Built p.2 ∧ OrderOK p.2) (hg : GoodConns cs) (hne : cs ≠ [])
    (hp : PortsExist modules cs) (hc : OutsDiffer cs) :
    ∃ c, mkNet name modules (cs.map Conn.text) = .ok c := by
  have hmention : ∀ d ∈ cs, ∀ x ∈ d.names, x ∈ firstMentions cs := by
    intro d hd x hx
    rw [firstMentions_eq, mem_dedupFirst, List.mem_flatMap]; exact ⟨d, hd, hx⟩
  have hmod : ∀ x i, HasPort modules x i → x ∈ modules.map Prod.fst := by
    rintro x i ⟨d, hd, -⟩
    by_contra hno
    rw [← dictGet_none, hd] at hno; cases hno
  have hin : ∀ x ∈ firstMentions cs, ∃ i, HasPort modules x i := by
    intro x hx
    rw [firstMentions_eq, mem_dedupFirst, List.mem_flatMap] at hx
    obtain ⟨d, hd, hx⟩ := hx
    have := hp d hd
    cases d with
    | inner a i b j =>
      simp only [Conn.names, List.mem_cons, List.not_mem_nil, or_false] at hx
      rcases hx with rfl | rfl
      · exact ⟨_, this.1⟩
      · exact ⟨_, this.2.1⟩
    | outer a i p =>
      simp only [Conn.names, List.mem_cons, List.not_mem_nil, or_false] at hx
      subst hx; exact ⟨_, this⟩
  obtain ⟨l, hpick⟩ := layout_exists (modules := modules) (names := firstMentions cs)
    fun x hx => (hin x hx).elim fun i h => hmod x i h
  have hpick' : pickComps modules (usedNames ((cs.map Conn.text).map stripConn)) = .ok l := by
    rw [map_stripConn_text hg, usedNames_text hg]; exact hpick
  have hl : Layout modules cs l := layout_of_pick hg hpick'
  have hch : ChildrenOK l := layout_children hl (P := fun d => Reciprocal d.n d.C) (fun _ _ h => h)
    fun p hp => built_reciprocal (hm p hp).1
  have hord : ∀ p ∈ l, OrderOK p.2 := layout_children hl (fun _ _ h => h) fun p hp => (hm p hp).2
  have hmarks : ∀ p ∈ l, MarksOK p.2 := layout_children hl (P := MarksOK) (fun _ _ h => h)
    fun p hp => built_marks (hm p hp).1
  have hHas : ∀ x i, x ∈ firstMentions cs → HasPort modules x i →
      portTooHigh l x i = .ok () ∧ ∃ g, globalPort l x i = .ok g := fun x i hx h =>
    hasPort_global (fun p hp => (hm p hp).1) hl hx h
  obtain ⟨es0, hes⟩ : ∃ es0, mapE (parseExternal l) (cs.map Conn.text) = .ok es0 := by
    apply mapE_exists
    intro s hs
    obtain ⟨d, hd, rfl⟩ := List.mem_map.mp hs
    have hpd := hp d hd
    cases d with
    | inner a i b j =>
      exact ⟨none, parseExternal_inner l i j (hg _ hd a (by simp [Conn.names])) (hg _ hd b (by simp [Conn.names]))⟩
    | outer a i p =>
      obtain ⟨-, g, hg'⟩ := hHas a i (hmention _ hd a (by simp [Conn.names])) hpd
      exact ⟨some (g, p), by
        rw [parseExternal_outer l i p (hg _ hd a (by simp [Conn.names])), hg']; rfl⟩
  obtain ⟨po, hpo, hpl, hplt⟩ := setPortOrder_accepts hg hch hord hc hes
  obtain ⟨ps, hps⟩ : ∃ ps, mapE (parseInternal l) (cs.map Conn.text) = .ok ps := by
    apply mapE_exists
    intro s hs
    obtain ⟨d, hd, rfl⟩ := List.mem_map.mp hs
    have hpd := hp d hd
    cases d with
    | outer a i p => exact ⟨none, parseInternal_outer l i p (hg _ hd a (by simp [Conn.names]))⟩
    | inner a i b j =>
      obtain ⟨ha, hb, hne⟩ := hpd
      obtain ⟨h1, x, hx⟩ := hHas a i (hmention _ hd a (by simp [Conn.names])) ha
      obtain ⟨h2, y, hy⟩ := hHas b j (hmention _ hd b (by simp [Conn.names])) hb
      refine ⟨some (x, y), ?_⟩
      rw [parseInternal_inner l i j (hg _ hd a (by simp [Conn.names])) (hg _ hd b (by simp [Conn.names]))]
      unfold internalPorts
      rw [if_neg hne, h1, h2, hx, hy]; rfl
  have hC : ∃ C, setC l (cs.map Conn.text) = .ok C := by unfold setC; rw [hps]; exact ⟨_, rfl⟩
  obtain ⟨C, hC⟩ := hC
  have hw : 0 < width l := by
    cases cs with
    | nil => exact absurd rfl hne
    | cons d cs' =>
      have : ∃ x i, x ∈ firstMentions (d :: cs') ∧ HasPort modules x i := by
        have hpd := hp d (by simp)
        cases d with
        | inner a i b j => exact ⟨a, i, hmention _ List.mem_cons_self a (by simp [Conn.names]), hpd.1⟩
        | outer a i p => exact ⟨a, i, hmention _ List.mem_cons_self a (by simp [Conn.names]), hpd⟩
      obtain ⟨x, i, hx, hxi⟩ := this
      obtain ⟨-, g, hg'⟩ := hHas x i hx hxi
      have := ((globalPort_iff hch).mp hg').lt
      omega
  unfold mkNet
  rw [hpick', map_stripConn_text hg]
  simp only [Except.bind]
  unfold netBuffers
  rw [hpo, hC]
  simp only [Except.bind]
  rw [check_ok_lt]
  · exact ⟨_, rfl⟩
  · refine ⟨marks_length (·.src) fun p hp => (hmarks p hp).1, marks_length (·.det) fun p hp => (hmarks p hp).2.1,
      marks_length (·.act) fun p hp => (hmarks p hp).2.2.1, ?_, ?_, ?_⟩
    · exact overlap_flatMap (·.src) (·.det) (fun p hp => (hmarks p hp).1.trans (hmarks p hp).2.1.symm)
        fun p hp => (hmarks p hp).2.2.2.1
    · exact overlap_flatMap (·.src) (·.act) (fun p hp => (hmarks p hp).1.trans (hmarks p hp).2.2.1.symm)
        fun p hp => (hmarks p hp).2.2.2.2.1
    · exact overlap_flatMap (·.det) (·.act) (fun p hp => (hmarks p hp).2.1.trans (hmarks p hp).2.2.1.symm)
        fun p hp => (hmarks p hp).2.2.2.2.2
  · exact hpl
  · exact hplt
  · exact hw
  · rfl

end PT
