import Verif.Proof.Topology

/-! Lemmas about the port order. -/

namespace PT
open Spec

theorem mapE_parseInternal_text {l : Comps} {cs : List Conn} (hg : GoodConns cs)
    {ps : List (Option (ℕ × ℕ))}
    (h : List.Forall₂ (fun s p => parseInternal l s = .ok p) (cs.map Conn.text) ps) :
    List.Forall₂ (fun c p => match c with
      | .inner a i b j => ∃ x y, internalPorts l a i b j = .ok (x, y) ∧ p = some (x, y)
      | .outer _ _ _ => p = none) cs ps := by
  rw [List.forall₂_map_left_iff] at h
  induction h with
  | nil => exact .nil
  | @cons c p cs ps hc _ ih =>
    refine .cons ?_ (ih fun d hd => hg d (by simp [hd]))
    have hgc := hg c (by simp)
    cases c with
    | inner a i b j =>
      rw [parseInternal_inner l i j (hgc a (by simp [Conn.names])) (hgc b (by simp [Conn.names]))] at hc
      cases h' : internalPorts l a i b j with
      | error e => rw [h'] at hc; cases hc
      | ok q =>
        rw [h'] at hc
        simp only [Except.map, Except.ok.injEq] at hc
        exact ⟨q.1, q.2, h', hc.symm⟩
    | outer a i p' =>
      rw [parseInternal_outer l i p' (hgc a (by simp [Conn.names]))] at hc
      simp only [Except.ok.injEq] at hc
      exact hc.symm

theorem mapE_parseExternal_text {l : Comps} {cs : List Conn} (hg : GoodConns cs)
    {es : List (Option (ℕ × ℤ))} (h : mapE (parseExternal l) (cs.map Conn.text) = .ok es) :
    List.Forall₂ (fun o e => globalPort l o.1.1 o.1.2 = .ok e.1 ∧ e.2 = o.2) (outs cs)
      (es.filterMap id) := by
  rw [mapE_ok, List.forall₂_map_left_iff] at h
  induction h with
  | nil => exact .nil
  | @cons c e cs es hc _ ih =>
    have ih' := ih fun d hd => hg d (by simp [hd])
    have hgc := hg c (by simp)
    cases c with
    | inner a i b j =>
      rw [parseExternal_inner l i j (hgc a (by simp [Conn.names])) (hgc b (by simp [Conn.names]))] at hc
      simp only [Except.ok.injEq] at hc
      subst hc
      simpa [outs] using ih'
    | outer a i p' =>
      rw [parseExternal_outer l i p' (hgc a (by simp [Conn.names]))] at hc
      cases h' : globalPort l a i with
      | error e => rw [h'] at hc; cases hc
      | ok g =>
        rw [h'] at hc
        simp only [Except.map, Except.ok.injEq] at hc
        subst hc
        simp only [outs, List.filterMap_cons, id]
        exact .cons ⟨h', rfl⟩ (by simpa [outs] using ih')

theorem portOf_det {l : Comps} {x : Str} {i : ℤ} {g g' : ℕ} (hl : ChildrenOK l)
    (h : PortOf l x i g) (h' : PortOf l x i g') : g = g' := by
  rw [← globalPort_iff hl] at h h'
  rw [h] at h'
  simpa using h'

theorem block_det {l : Comps} {x : Str} {c c' : Comp} {s s' : ℕ} (h : Block l x c s)
    (h' : Block l x c' s') : s = s' ∧ c = c' := by
  rw [← locate_iff] at h h'
  rw [h] at h'
  simpa using h'

/-- Blocks are disjoint. -/
theorem block_disjoint {l : Comps} {x x' : Str} {c c' : Comp} {s s' : ℕ} {i i' : ℕ}
    (h : Block l x c s) (h' : Block l x' c' s') (hi : i < c.n) (hi' : i' < c'.n)
    (he : s + i = s' + i') : x = x' ∧ c = c' ∧ s = s' ∧ i = i' := by
  have key : ∀ (l : Comps) (s s' : ℕ), Block l x c s → Block l x' c' s' → s + i = s' + i' → x = x' := by
    intro l
    induction l with
    | nil => rintro s s' ⟨pre, post, h, -⟩; simp at h
    | cons p l ih =>
      rintro s s' ⟨pre, post, h1, h2, rfl⟩ ⟨pre', post', h1', h2', rfl⟩ he
      cases pre with
      | nil =>
        cases pre' with
        | nil =>
          simp only [List.nil_append] at h1 h1'
          rw [h1] at h1'
          simp only [List.cons.injEq, Prod.mk.injEq] at h1'
          exact h1'.1.1
        | cons q' pre' =>
          simp only [List.nil_append, List.cons_append, List.cons.injEq] at h1 h1'
          rw [h1.1] at h1'
          simp only [width, ← h1'.1, List.map_nil, List.sum_nil, List.map_cons, List.sum_cons] at he
          omega
      | cons q pre =>
        cases pre' with
        | nil =>
          simp only [List.nil_append, List.cons_append, List.cons.injEq] at h1 h1'
          rw [h1'.1] at h1
          simp only [width, ← h1.1, List.map_nil, List.sum_nil, List.map_cons, List.sum_cons] at he
          omega
        | cons q' pre' =>
          simp only [List.cons_append, List.cons.injEq] at h1 h1'
          obtain ⟨rfl, h1⟩ := h1
          obtain ⟨rfl, h1'⟩ := h1'
          simp only [List.map_cons, List.mem_cons, not_or] at h2 h2'
          refine ih (width pre) (width pre') ⟨pre, post, h1, h2.2, rfl⟩ ⟨pre', post', h1', h2'.2, rfl⟩ ?_
          simp only [width, List.map_cons, List.sum_cons] at he ⊢
          omega
  have hx := key l s s' h h' he
  subst hx
  obtain ⟨rfl, rfl⟩ := block_det h h'
  exact ⟨rfl, rfl, rfl, by omega⟩

theorem at_inj {l : List ℕ} (hl : l.Nodup) {i j : ℤ} (hi : 0 ≤ i) (hj : 0 ≤ j) {p : ℕ}
    (h : At l i p) (h' : At l j p) : i = j := by
  rcases h with ⟨k, rfl, hk⟩ | ⟨k, -, hk, -⟩
  · rcases h' with ⟨m, rfl, hm⟩ | ⟨m, -, hm, -⟩
    · have hk' : k < l.length := (List.getElem?_eq_some_iff.mp hk).1
      have := List.nodup_iff_getElem?_ne_getElem?.mp hl
      rcases lt_trichotomy k m with h | h | h
      · exact absurd (hk.trans hm.symm) (this k m h (List.getElem?_eq_some_iff.mp hm).1)
      · rw [h]
      · exact absurd (hm.trans hk.symm) (this m k h hk')
    · omega
  · omega

theorem freePorts_nodup {c : Comp} (h : c.portOrder.Nodup) : (freePorts c).Nodup := h.filter _

theorem portOf_inj {l : Comps} (hnd : ∀ p ∈ l, p.2.portOrder.Nodup) {x y : Str} {i j : ℤ} {g : ℕ}
    (hi : 0 ≤ i) (hj : 0 ≤ j) (h : PortOf l x i g) (h' : PortOf l y j g) : x = y ∧ i = j := by
  obtain ⟨c, s, p, hb, hat, rfl⟩ := h
  obtain ⟨c', s', p', hb', hat', he⟩ := h'
  have hp : p < c.n := by
    have := hat.mem; unfold freePorts at this; simp only [List.mem_filter, decide_eq_true_eq] at this
    exact this.2.1
  have hp' : p' < c'.n := by
    have := hat'.mem; unfold freePorts at this; simp only [List.mem_filter, decide_eq_true_eq] at this
    exact this.2.1
  obtain ⟨rfl, rfl, rfl, rfl⟩ := block_disjoint hb hb' hp hp' he
  exact ⟨rfl, at_inj (freePorts_nodup (hnd _ hb.mem)) hi hj hat hat'⟩

/-! ### orderDict -/

theorem orderDict_nodup (es : List (ℕ × ℤ)) (h : (es.map Prod.snd).Nodup) :
    orderDict es = es.map Prod.swap := by
  unfold orderDict
  have key : ∀ (es : List (ℕ × ℤ)) (d : List (ℤ × ℕ)), (es.map Prod.snd).Nodup →
      (∀ e ∈ es, e.2 ∉ d.map Prod.fst) →
      es.foldl (fun d e => dictSet e.2 e.1 d) d = d ++ es.map Prod.swap := by
    intro es
    induction es with
    | nil => intro d _ _; simp
    | cons e es ih =>
      intro d hn hd
      simp only [List.map_cons, List.nodup_cons] at hn
      rw [List.foldl_cons, dictSet_new (hd e (by simp)), ih _ hn.2]
      · simp [Prod.swap]
      · intro e' he'
        simp only [List.map_append, List.map_cons, List.map_nil, List.mem_append, List.mem_singleton, not_or]
        refine ⟨hd e' (by simp [he']), ?_⟩
        intro heq
        exact hn.1 (List.mem_map.mpr ⟨e', he', heq⟩)
  simpa using key es [] h (by simp)

theorem dictGet_of_mem {κ β : Type} [DecidableEq κ] {k : κ} {v : β} {l : List (κ × β)}
    (hn : (l.map Prod.fst).Nodup) (h : (k, v) ∈ l) : dictGet k l = some v := by
  induction l with
  | nil => cases h
  | cons p l ih =>
    obtain ⟨k', v'⟩ := p
    simp only [List.map_cons, List.nodup_cons] at hn
    rcases List.mem_cons.mp h with h | h
    · simp only [Prod.mk.injEq] at h; obtain ⟨rfl, rfl⟩ := h; simp [dictGet]
    · have : k' ≠ k := by rintro rfl; exact hn.1 (List.mem_map.mpr ⟨_, h, rfl⟩)
      simp [dictGet, this, ih hn.2 h]

theorem filterMap_dictGet {κ β : Type} [DecidableEq κ] (l : List (κ × β)) (hn : (l.map Prod.fst).Nodup) :
    (l.map Prod.fst).filterMap (fun k => dictGet k l) = l.map Prod.snd := by
  have : ∀ m : List (κ × β), (∀ p ∈ m, p ∈ l) →
      (m.map Prod.fst).filterMap (fun k => dictGet k l) = m.map Prod.snd := by
    intro m
    induction m with
    | nil => intro _; rfl
    | cons p m ih =>
      intro h
      have hp := dictGet_of_mem hn (k := p.1) (v := p.2) (h p (by simp))
      simp only [List.map_cons, List.filterMap_cons, hp]
      rw [ih fun q hq => h q (by simp [hq])]
  exact this l fun _ h => h

/-- The externally numbered ports: entry `j` is the port declared as `j`. -/
def extList (es : List (ℕ × ℤ)) : List ℕ :=
  (List.range es.length).filterMap fun (j : ℕ) => dictGet (j : ℤ) (es.map Prod.swap)

theorem extList_perm {es : List (ℕ × ℤ)}
    (h : (es.map Prod.snd).Perm ((List.range es.length).map fun (j : ℕ) => (j : ℤ))) :
    (extList es).Perm (es.map Prod.fst) := by
  have hn : (es.map Prod.snd).Nodup := h.nodup_iff.mpr (List.nodup_range.map Nat.cast_injective)
  have hk : (es.map Prod.swap).map Prod.fst = es.map Prod.snd := by simp [Function.comp_def]
  have hv : (es.map Prod.swap).map Prod.snd = es.map Prod.fst := by simp [Function.comp_def]
  have h1 := filterMap_dictGet (es.map Prod.swap) (by rw [hk]; exact hn)
  rw [hk, hv] at h1
  rw [← h1]
  have : extList es = ((List.range es.length).map fun (j : ℕ) => (j : ℤ)).filterMap
      (fun k => dictGet k (es.map Prod.swap)) := by
    unfold extList; rw [List.filterMap_map]; rfl
  rw [this]
  exact (h.filterMap _).symm

theorem extList_get {es : List (ℕ × ℤ)}
    (h : (es.map Prod.snd).Perm ((List.range es.length).map fun (j : ℕ) => (j : ℤ))) {g : ℕ} {j : ℕ}
    (hm : (g, (j : ℤ)) ∈ es) : (extList es)[j]? = some g := by
  have hn : (es.map Prod.snd).Nodup := h.nodup_iff.mpr (List.nodup_range.map Nat.cast_injective)
  have hk : ((es.map Prod.swap).map Prod.fst).Nodup := by simpa [Function.comp_def] using hn
  have hall : ∀ i < es.length, ∃ v, dictGet (i : ℤ) (es.map Prod.swap) = some v := by
    intro i hi
    have : (i : ℤ) ∈ es.map Prod.snd := by
      rw [h.mem_iff]; exact List.mem_map.mpr ⟨i, List.mem_range.mpr hi, rfl⟩
    obtain ⟨e, he, hei⟩ := List.mem_map.mp this
    exact ⟨e.1, dictGet_of_mem hk (List.mem_map.mpr ⟨e, he, by simp [Prod.swap, hei]⟩)⟩
  have hj : j < es.length := by
    have : (j : ℤ) ∈ es.map Prod.snd := List.mem_map.mpr ⟨_, hm, rfl⟩
    rw [h.mem_iff] at this
    obtain ⟨i, hi, hij⟩ := List.mem_map.mp this
    have : i = j := by exact_mod_cast hij
    rw [← this]; exact List.mem_range.mp hi
  have hmap : extList es = (List.range es.length).map
      fun (i : ℕ) => (dictGet (i : ℤ) (es.map Prod.swap)).getD 0 := by
    unfold extList
    have : ∀ L : List ℕ, (∀ i ∈ L, i < es.length) → L.filterMap (fun (j : ℕ) => dictGet (j : ℤ) (es.map Prod.swap)) =
        L.map fun (i : ℕ) => (dictGet (i : ℤ) (es.map Prod.swap)).getD 0 := by
      intro L
      induction L with
      | nil => intro _; rfl
      | cons a L ih =>
        intro hL
        obtain ⟨v, hv⟩ := hall a (hL a (by simp))
        simp only [List.filterMap_cons, hv, List.map_cons, Option.getD_some]
        rw [ih fun i hi => hL i (by simp [hi])]
    exact this _ fun i hi => List.mem_range.mp hi
  rw [hmap]
  have hd := dictGet_of_mem hk (k := (j : ℤ)) (v := g) (List.mem_map.mpr ⟨_, hm, rfl⟩)
  simp [hj, hd]

theorem perm_complement {l : List ℕ} {n : ℕ} (hn : l.Nodup) (hl : ∀ x ∈ l, x < n) :
    (l ++ (List.range n).filter fun i => decide (i ∉ l)).Perm (List.range n) := by
  apply (List.perm_ext_iff_of_nodup ?_ List.nodup_range).mpr
  · intro a
    simp only [List.mem_append, List.mem_filter, List.mem_range, decide_eq_true_eq]
    constructor
    · rintro (h | h)
      · exact hl a h
      · exact h.1
    · intro h
      by_cases ha : a ∈ l
      · exact .inl ha
      · exact .inr ⟨h, ha⟩
  · rw [List.nodup_append]
    refine ⟨hn, List.nodup_range.filter _, ?_⟩
    intro a ha b hb hab
    simp only [List.mem_filter, decide_eq_true_eq] at hb
    exact hb.2 (hab ▸ ha)

theorem applyOrder_ok {clone order : List ℕ} (hlen : order.length = clone.length)
    (hlt : ∀ i ∈ order, i < clone.length) :
    applyOrder clone order = .ok (order.map fun i => clone.getD i 0) := by
  unfold applyOrder
  rw [if_neg (by omega)]
  have : mapE (cloneAt clone) order = .ok (order.map fun i => clone.getD i 0) := by
    have := mapE_map_ok (f := cloneAt clone) (g := id) (h := fun i => clone.getD i 0) order (by
        intro a ha
        have := hlt a ha
        simp [cloneAt, List.getElem?_eq_getElem this])
    simpa using this
  rw [this]
  simp [Except.map, hlen]

theorem map_getD_range (l : List ℕ) : (List.range l.length).map (fun i => l.getD i 0) = l := by
  apply List.ext_getElem
  · simp
  · intro i h1 h2
    simp [List.getD_eq_getElem?_getD, List.getElem?_eq_getElem h2]

theorem blockOrder_length {l : Comps} (h : ∀ p ∈ l, p.2.portOrder.length = p.2.n) :
    (blockOrder l).length = width l := by
  induction l with
  | nil => rfl
  | cons p l ih =>
    obtain ⟨m, c⟩ := p
    have := ih fun p hp => h p (by simp [hp])
    have hc := h (m, c) (by simp)
    simp only [blockOrder, List.length_append, List.length_map, this, hc, width, List.map_cons, List.sum_cons]

theorem range_add (a b : ℕ) : List.range (a + b) = List.range a ++ (List.range b).map (a + ·) :=
  List.range_add

theorem blockOrder_perm {l : Comps} (h : ∀ p ∈ l, OrderOK p.2) :
    (blockOrder l).Perm (List.range (width l)) := by
  induction l with
  | nil => exact .refl _
  | cons p l ih =>
    obtain ⟨m, c⟩ := p
    have ih' := ih fun p hp => h p (by simp [hp])
    have hc := h (m, c) (by simp)
    have hw : width ((m, c) :: l) = c.n + width l := by simp [width]
    simp only [blockOrder, hw, List.range_add]
    exact hc.append (ih'.map _)

theorem blockOrder_id {l : Comps} (h : ∀ p ∈ l, p.2.portOrder = List.range p.2.n) :
    blockOrder l = List.range (width l) := by
  induction l with
  | nil => rfl
  | cons p l ih =>
    obtain ⟨m, c⟩ := p
    have ih' := ih fun p hp => h p (by simp [hp])
    have hc : c.portOrder = List.range c.n := h (m, c) (by simp)
    have hw : width ((m, c) :: l) = c.n + width l := by simp [width]
    simp only [blockOrder, hw, List.range_add, hc, ih']

theorem numPorts_eq (l : Comps) : l.numPorts = width l := rfl

/-- What `set_port_order` computes when the external numbers are contiguous and the strings parse. -/
theorem setPortOrder_eval {l : Comps} {cs : List Conn} (hg : GoodConns cs)
    (hl : ChildrenOK l) (hlen : ∀ p ∈ l, p.2.portOrder.length = p.2.n)
    (hnd : ∀ p ∈ l, p.2.portOrder.Nodup) (hc : Contiguous cs) {es0 : List (Option (ℕ × ℤ))}
    (hm : mapE (parseExternal l) (cs.map Conn.text) = .ok es0) :
    ∃ es : List (ℕ × ℤ), List.Forall₂ (fun o e => PortOf l o.1.1 o.1.2 e.1 ∧ e.2 = o.2) (outs cs) es ∧
      (es.map Prod.snd).Perm ((List.range es.length).map fun (j : ℕ) => (j : ℤ)) ∧
      (es.map Prod.fst).Nodup ∧ (∀ g ∈ es.map Prod.fst, g < width l) ∧
      (extList es ++ (List.range (width l)).filter fun i => decide (i ∉ extList es)).Perm
        (List.range (width l)) ∧
      setPortOrder l (cs.map Conn.text) = .ok ((extList es ++ (List.range (width l)).filter
        fun i => decide (i ∉ extList es)).map fun i => (blockOrder l).getD i 0) := by
  unfold setPortOrder
  rw [hm]
  simp only [Except.bind]
  have hF := mapE_parseExternal_text hg hm
  set es := es0.filterMap id with hes
  have hF' : List.Forall₂ (fun o e => PortOf l o.1.1 o.1.2 e.1 ∧ e.2 = o.2) (outs cs) es :=
    hF.imp fun o e ⟨h1, h2⟩ => ⟨(globalPort_iff hl).mp h1, h2⟩
  have hl2 : es.length = (outs cs).length := hF'.length_eq.symm
  have hs : es.map Prod.snd = (outs cs).map Prod.snd := by
    clear_value es
    clear hm hF hl2 hes
    generalize outs cs = os at hF'
    induction hF' with
    | nil => rfl
    | cons h1 _ ih => simp [h1.2, ih]
  have hperm : (es.map Prod.snd).Perm ((List.range es.length).map fun (j : ℕ) => (j : ℤ)) := by
    rw [hs, hl2]; exact hc.1
  have hnod : (es.map Prod.fst).Nodup := by
    have h1 := hc.2.1
    have h2 := hc.2.2
    clear_value es
    clear hm hF hl2 hes hs hperm
    generalize outs cs = os at hF' h1 h2
    induction hF' with
    | nil => exact List.nodup_nil
    | @cons o e os es ho hrest ih =>
      simp only [List.map_cons, List.nodup_cons] at h1 ⊢
      refine ⟨?_, ih h1.2 fun o ho => h2 o (by simp [ho])⟩
      intro hmem
      obtain ⟨e', he', hee⟩ := List.mem_map.mp hmem
      obtain ⟨o', ho', ho2⟩ := forall₂_mem_right hrest he'
      rw [hee] at ho2
      have := portOf_inj hnd (h2 o (by simp)) (h2 o' (by simp [ho'])) ho.1 ho2.1
      exact h1.1 (List.mem_map.mpr ⟨o', ho', (Prod.ext this.1 this.2).symm⟩)
  have hlt : ∀ g ∈ es.map Prod.fst, g < width l := by
    intro g hgm
    obtain ⟨e, he, rfl⟩ := List.mem_map.mp hgm
    obtain ⟨o, -, ho⟩ := forall₂_mem_right hF' he
    exact ho.1.lt
  have hep := extList_perm hperm
  have hpc := perm_complement (l := extList es) (n := width l) (hep.nodup_iff.mpr hnod)
    fun x hx => hlt x (hep.mem_iff.mp hx)
  refine ⟨es, hF', hperm, hnod, hlt, hpc, ?_⟩
  have hd : orderDict es = es.map Prod.swap :=
    orderDict_nodup es (hperm.nodup_iff.mpr (List.nodup_range.map Nat.cast_injective))
  have hord : orderOf l.numPorts (orderDict es) =
      extList es ++ (List.range (width l)).filter fun i => decide (i ∉ extList es) := by
    unfold orderOf
    rw [hd]
    congr 1
    · unfold extList; simp
    · rw [numPorts_eq]
      apply List.filter_congr
      intro i _
      have : (es.map Prod.swap).map Prod.snd = es.map Prod.fst := by simp [Function.comp_def]
      rw [this]
      simp only [decide_eq_decide, hep.mem_iff]
  rw [hord, applyOrder_ok]
  · rw [hpc.length_eq, List.length_range, blockOrder_length hlen]
  · intro i hi
    rw [blockOrder_length hlen]
    exact List.mem_range.mp (hpc.mem_iff.mp hi)

/-- What `set_port_order` computes when the external numbers are contiguous. -/
theorem setPortOrder_contiguous {l : Comps} {cs : List Conn} (hg : GoodConns cs)
    (hl : ChildrenOK l) (hlen : ∀ p ∈ l, p.2.portOrder.length = p.2.n)
    (hnd : ∀ p ∈ l, p.2.portOrder.Nodup) (hc : Contiguous cs) {po : List ℕ}
    (h : setPortOrder l (cs.map Conn.text) = .ok po) :
    ∃ es : List (ℕ × ℤ), List.Forall₂ (fun o e => PortOf l o.1.1 o.1.2 e.1 ∧ e.2 = o.2) (outs cs) es ∧
      (es.map Prod.snd).Perm ((List.range es.length).map fun (j : ℕ) => (j : ℤ)) ∧
      (es.map Prod.fst).Nodup ∧ (∀ g ∈ es.map Prod.fst, g < width l) ∧
      (extList es ++ (List.range (width l)).filter fun i => decide (i ∉ extList es)).Perm
        (List.range (width l)) ∧
      po = (extList es ++ (List.range (width l)).filter fun i => decide (i ∉ extList es)).map
        fun i => (blockOrder l).getD i 0 := by
  unfold setPortOrder at h
  cases hm : mapE (parseExternal l) (cs.map Conn.text) with
  | error e => rw [hm] at h; cases h
  | ok es0 =>
    obtain ⟨es, h1, h2, h3, h4, h5, h6⟩ := setPortOrder_eval hg hl hlen hnd hc hm
    unfold setPortOrder at h6
    rw [h] at h6
    simp only [Except.ok.injEq] at h6
    exact ⟨es, h1, h2, h3, h4, h5, h6⟩

end PT
