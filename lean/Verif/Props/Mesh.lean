import Verif.Proof.MeshTerm

/-!
# C56, C57, C58: Reck, Clements and ring networks of every size
-/

namespace PT
open Spec Matrix

/-- The lower-case class names under which unnamed meshes are terminated. -/
def reckCls : Str := ['r', 'e', 'c', 'k', 'n', 'x', 'n']
def clementsCls : Str := ['c', 'l', 'e', 'm', 'e', 'n', 't', 's', 'n', 'x', 'n']

/-- A lossless mesh through which light travels in one direction, terminated with sources on the front and detectors
on the back. -/
theorem mesh_unitary {N : ℕ} (hN : 0 < N) {d : Dev} (hd : LayerOK LosslessPart N d)
    (ho : Oriented d fun j => decide (j < N)) (nw newName : Str) (hg : GoodName nw) (hs : nw.head? ≠ some 's')
    (hdd : nw.head? ≠ some 'd') :
    ∃ d', termDev newName nw d (meshTerms N) = .ok d' ∧ d'.comp.terminated = true ∧ UnitaryDevice N d' := by
  obtain ⟨d', h1, hm, ht, ⟨front, rank, hff, hsrc⟩, c1, c2, -⟩ := term_made (fun _ => lossless_ne) hN hd ho nw newName hg hs hdd
  refine ⟨d', h1, ht, fun W v wl env hf ht1 => ?_⟩
  obtain ⟨m1, m2, -⟩ := built_marks hm.ok.1
  have e1 : (portsWith (d'.plant v wl).src).length = N := by rw [← c1]; exact count_marks _ _ m1
  have e2 : (portsWith (d'.plant v wl).det).length = N := by rw [← c2]; exact count_marks _ _ m2
  refine ⟨e1, e2, ?_⟩
  exact C75_unitary d' hm ht front rank hff v wl (fun i hi => hsrc i hi) N hN e1 e2 env hf ht1

/-- C56. Reck networks of every size, of lossless four-port components numbered anti-clockwise and lossless
waveguides, whatever their phases, are unitary. -/
theorem C56_unitary (N : ℕ) (hN : 2 ≤ N) (mz : ℕ → ℕ → Part) (wg : ℕ → Part)
    (hm : ∀ m i, LosslessPart (mz m i) ∧ FourPort (mz m i)) (hw : ∀ m, LosslessPart (wg m) ∧ TwoPort (wg m))
    (newName : Str) :
    ∃ d d', reck N mz wg = .ok d ∧ (freePorts d.comp).length = 2 * N ∧
      termDev newName reckCls d (meshTerms N) = .ok d' ∧ d'.comp.terminated = true ∧ UnitaryDevice N d' := by
  obtain ⟨d, h, hd, ho⟩ := reck_made (P := LosslessPart) hN hm hw
  obtain ⟨d', h'⟩ := mesh_unitary (by omega) hd ho reckCls newName (attr_of (by decide)).1 (by decide) (by decide)
  exact ⟨d, d', h, hd.len, h'⟩

/-- C57. Likewise for Clements networks of every size and capacity. -/
theorem C57_unitary (N capacity : ℕ) (hN : 2 ≤ N) (hc : 2 ≤ capacity) (mz wg : ℕ → ℕ → Part)
    (hm : ∀ m i, LosslessPart (mz m i) ∧ FourPort (mz m i)) (hw : ∀ m i, LosslessPart (wg m i) ∧ TwoPort (wg m i))
    (newName : Str) :
    ∃ d d', clements N capacity mz wg = .ok d ∧ (freePorts d.comp).length = 2 * N ∧
      termDev newName clementsCls d (meshTerms N) = .ok d' ∧ d'.comp.terminated = true ∧ UnitaryDevice N d' := by
  obtain ⟨d, h, hd, ho⟩ := clements_made (P := LosslessPart) hN hc hm hw
  obtain ⟨d', h'⟩ := mesh_unitary (by omega) hd ho clementsCls newName (attr_of (by decide)).1 (by decide) (by decide)
  exact ⟨d, d', h, hd.len, h'⟩

/-! ## The devices and the network objects of the model of `Network` -/

/-- `Network(components, connections)` has the buffers of the device made of the same components. -/
theorem C56_constructor (cls : Str) (modules : List (Str × Dev)) (conns : List Str) (d : Dev) (hc : conns ≠ [])
    (hne : modules ≠ []) (hn : (modules.map Prod.fst).Nodup)
    (hx : ∀ p ∈ modules, p.1 ≠ [] ∧ '.' ∉ p.1 ∧ (p.2.comp.name = none ∨ p.2.comp.name = some p.1))
    (h : mkDev none modules conns = .ok d) :
    ∃ s, newNetwork none cls (comps modules) conns = .ok s ∧ s.buf = some d.comp ∧ s.name = none ∧ s.cls = cls := by
  unfold newNetwork
  rw [addAll_ok _ _ rfl]
  · have hk : mkNet none (comps modules) conns = .ok d.comp := by
      unfold mkDev at h
      rw [← comps] at h
      cases hk : mkNet none (comps modules) conns with
      | error e => rw [hk] at h; cases h
      | ok c =>
        rw [hk] at h
        simp only [Except.map, Except.ok.injEq] at h
        rw [← h]; rfl
    have hfold : (comps modules).foldl (fun d p => dictSet p.1 p.2 d) [] = comps modules := by
      rw [foldl_dictSet _ _ (by simpa [comps, Function.comp_def] using hn)]; rfl
    simp only [hfold, List.nil_append]
    unfold netSetBuffers
    simp only
    rw [if_neg hc, if_neg (by simpa [comps] using hne)]
    simp only [hk]
    exact ⟨_, rfl, rfl, rfl, rfl⟩
  · intro p hp
    simp only [comps, List.mem_map] at hp
    obtain ⟨q, hq, rfl⟩ := hp
    exact hx q hq

/-- The sources and detectors given to `terminate`. -/
theorem meshTerms_ok (N : ℕ) (nw : Str) (hg : AttrName nw) (hs : nw.head? ≠ some 's') (hdd : nw.head? ≠ some 'd')
    (hb : nw ≠ ['b', 'a', 's', 'e']) : TermsOK nw (comps (meshTerms N)) := by
  have hfst : (comps (meshTerms N)).map Prod.fst = termNames N := by
    rw [← meshTerms_names]; simp [comps, Function.comp_def]
  refine ⟨by rw [hfst]; exact termNames_nodup N, ?_, hg, ?_, hb⟩
  · rw [hfst]
    intro h
    rcases mem_termNames.mp h with ⟨i, -, rfl⟩ | ⟨i, -, rfl⟩
    · exact hs rfl
    · exact hdd rfl
  · intro p hp
    simp only [comps, List.mem_map] at hp
    obtain ⟨q, hq, rfl⟩ := hp
    simp only [meshTerms, List.mem_append, List.mem_map] at hq
    rcases hq with ⟨i, -, rfl⟩ | ⟨i, -, rfl⟩
    · refine ⟨lbl_attr (by decide) i, ?_, ?_, .inr rfl⟩
      · intro h; exact absurd (congrArg List.head? h) (by simp only [head_lbl]; decide)
      · obtain ⟨h1, h2, h3, h4⟩ := leaf_onePort.2.1
        exact ⟨.named _ _ h1, h2, h3, h4⟩
    · refine ⟨lbl_attr (by decide) i, ?_, ?_, .inr rfl⟩
      · intro h; exact absurd (congrArg List.head? h) (by simp only [head_lbl]; decide)
      · obtain ⟨h1, h2, h3, h4⟩ := leaf_onePort.2.2
        exact ⟨.named _ _ h1, h2, h3, h4⟩

/-- `terminate()` of an unnamed mesh gives a network with the buffers of the device with sources and detectors. -/
theorem C56_terminate (N : ℕ) (hN : 0 < N) (s : NetState) (d : Dev) (hd : MadeOf (fun _ => True) d)
    (hb : s.buf = some d.comp) (hn : s.name = none) (hg : AttrName s.cls) (hs : s.cls.head? ≠ some 's')
    (hdd : s.cls.head? ≠ some 'd') (hba : s.cls ≠ ['b', 'a', 's', 'e']) (hf : freePorts d.comp ≠ []) (name : Option Str) :
    ∃ newName, ∀ d', termDev newName s.cls d (meshTerms N) = .ok d' →
      ∃ nw, terminate s (.list ((meshTerms N).map fun p => p.2.comp)) name = .ok nw ∧ nw.buf = some d'.comp := by
  have ht := meshTerms_ok N s.cls hg hs hdd hba
  have hfst : (comps (meshTerms N)).map Prod.fst = (meshTerms N).map Prod.fst := by simp [comps, Function.comp_def]
  obtain ⟨newName, hev⟩ := terminate_eval s d.comp (comps (meshTerms N)) name hb hd.ok.1 hd.ok.2 hf
    (by rw [hn]; exact ht) (by
      intro h0
      have := congrArg List.length h0
      simp [comps, meshTerms] at this
      omega)
  refine ⟨newName, fun d' hd' => ?_⟩
  have hl : (meshTerms N).map (fun p => p.2.comp) = (comps (meshTerms N)).map Prod.snd := by
    simp [comps, Function.comp_def]
  rw [hl, C20_list s (comps (meshTerms N)) name ht.1, hev]
  · rw [hn]
    simp only [Option.getD_none]
    have hk : mkNet (some newName) (termComps s.cls d.comp (comps (meshTerms N)))
        ((termLinks s.cls ((comps (meshTerms N)).map Prod.fst)).map Conn.text) = .ok d'.comp := by
      unfold termDev mkDev at hd'
      rw [termConns_text] at hd'
      rw [hfst]
      have e : ((s.cls, { d with comp := { d.comp with name := some s.cls } }) :: meshTerms N).map
          (fun p => (p.1, p.2.comp)) = termComps s.cls d.comp (comps (meshTerms N)) := by
        simp [termComps, comps]
      rw [e] at hd'
      cases hk : mkNet (some newName) (termComps s.cls d.comp (comps (meshTerms N)))
        ((termLinks s.cls ((meshTerms N).map Prod.fst)).map Conn.text) with
      | error e => rw [hk] at hd'; cases hd'
      | ok c =>
        rw [hk] at hd'
        simp only [Except.map, Except.ok.injEq] at hd'
        rw [← hd']; rfl
    rw [hk]
    exact ⟨_, rfl, rfl⟩
  · intro p hp
    simp only [comps, List.mem_map] at hp
    obtain ⟨q, hq, rfl⟩ := hp
    simp only [meshTerms, List.mem_append, List.mem_map] at hq
    rcases hq with ⟨i, -, rfl⟩ | ⟨i, -, rfl⟩ <;> rfl

theorem mkDev_name {name : Option Str} {modules : List (Str × Dev)} {conns : List Str} {d : Dev}
    (h : mkDev name modules conns = .ok d) : d.comp.name = name := by
  unfold mkDev mkNet at h
  cases hp : pickComps (modules.map fun p => (p.1, p.2.comp)) (usedNames (conns.map stripConn)) with
  | error e => rw [hp] at h; cases h
  | ok l =>
    rw [hp] at h
    simp only [Except.bind] at h
    cases hb : netBuffers name l (conns.map stripConn) with
    | error e => rw [hb] at h; cases h
    | ok c =>
      rw [hb] at h
      simp only [Except.map, Except.ok.injEq] at h
      rw [← h]
      exact (netBuffers_ok hb).2.2.2.1

theorem reckLayer_name {N : ℕ} {mz : ℕ → Part} {wg : Part} {d : Dev} (h : reckLayer N mz wg = .ok d) :
    d.comp.name = none := by
  unfold reckLayer at h
  split at h
  · cases h
  · exact mkDev_name h

theorem cap2_name {N : ℕ} {mz : ℕ → Part} {wg : Part} {d : Dev} (h : cap2 N mz wg = .ok d) : d.comp.name = none := by
  unfold cap2 at h
  split at h
  · cases h
  · exact mkDev_name h

theorem clementsLast_name {N c : ℕ} {mz wg : ℕ → Part} {d : Dev} (h : clementsLast N c mz wg = .ok d) :
    d.comp.name = none := by
  unfold clementsLast at h
  split at h
  · exact mkDev_name h
  · exact mkDev_name h

/-- The layers made in a loop. -/
theorem layer_list {g : ℕ → Except PyErr Dev} (hg : ∀ i d, g i = .ok d → d.comp.name = none) {K : ℕ}
    {layers : List (Str × Dev)} (h : mapE (fun i => (g i).map fun d => (layerN i, d)) (List.range K) = .ok layers) :
    layers.map Prod.fst = (List.range K).map layerN ∧ ∀ p ∈ layers, (∃ i < K, p.1 = layerN i) ∧ p.2.comp.name = none := by
  rw [mapE_ok] at h
  have key : ∀ (l : List ℕ) (r : List (Str × Dev)),
      List.Forall₂ (fun i b => ((g i).map fun d => (layerN i, d)) = .ok b) l r →
      r.map Prod.fst = l.map layerN ∧ ∀ p ∈ r, (∃ i ∈ l, p.1 = layerN i) ∧ p.2.comp.name = none := by
    intro l r h
    induction h with
    | nil => exact ⟨rfl, by simp⟩
    | @cons i b l r hib _ ih =>
      cases hd : g i with
      | error e => rw [hd] at hib; cases hib
      | ok d =>
        rw [hd] at hib
        simp only [Except.map, Except.ok.injEq] at hib
        subst hib
        refine ⟨by simp [ih.1], ?_⟩
        intro p hp
        rcases List.mem_cons.mp hp with rfl | hp
        · exact ⟨⟨i, by simp, rfl⟩, hg i d hd⟩
        · obtain ⟨⟨j, hj, h1⟩, h2⟩ := ih.2 p hp
          exact ⟨⟨j, by simp [hj], h1⟩, h2⟩
  obtain ⟨h1, h2⟩ := key _ _ h
  refine ⟨h1, fun p hp => ?_⟩
  obtain ⟨⟨i, hi, e⟩, e2⟩ := h2 p hp
  exact ⟨⟨i, List.mem_range.mp hi, e⟩, e2⟩

/-- C56. The same for the network objects: constructing the network from its layers and terminating it succeeds and
gives the buffers of a unitary device. -/
theorem C56_network (N : ℕ) (hN : 2 ≤ N) (mz : ℕ → ℕ → Part) (wg : ℕ → Part)
    (hm : ∀ m i, LosslessPart (mz m i) ∧ FourPort (mz m i)) (hw : ∀ m, LosslessPart (wg m) ∧ TwoPort (wg m))
    (name : Option Str) :
    ∃ layers s nw d, reckLayers N mz wg = .ok layers ∧
      newNetwork none reckCls (comps (layers ++ [(['w', 'g'], (wg (N - 1)).dev)])) (reckConns N) = .ok s ∧
      terminate s (.list ((meshTerms N).map fun p => p.2.comp)) name = .ok nw ∧ nw.buf = some d.comp ∧
      d.comp.terminated = true ∧ UnitaryDevice N d := by
  obtain ⟨d, h, hd, ho⟩ := reck_made (P := LosslessPart) hN hm hw
  have hk := h
  unfold reck at hk
  rw [if_neg (by omega)] at hk
  cases hl : reckLayers N mz wg with
  | error e => rw [hl] at hk; cases hk
  | ok layers =>
    rw [hl] at hk
    simp only [Except.bind] at hk
    obtain ⟨n1, n2⟩ := layer_list (g := fun m => reckLayer (N - m) (mz m) (wg m)) (fun i d hd => reckLayer_name hd) hl
    have hcon := C56_constructor reckCls _ (reckConns N) d (by simp [reckConns]) (by simp) ?_ ?_ hk
    · obtain ⟨s, hs, hb, hn, hc⟩ := hcon
      obtain ⟨newName, ht⟩ := C56_terminate N (by omega) s d (hd.made.mono fun _ _ => trivial) hb hn
        (by rw [hc]; exact attr_of (by decide)) (by rw [hc]; decide) (by rw [hc]; decide) (by rw [hc]; decide)
        (by intro h0; have := hd.len; rw [h0] at this; simp at this; omega) name
      obtain ⟨d', h1, h2, h3⟩ := mesh_unitary (by omega) hd ho reckCls newName (attr_of (by decide)).1 (by decide)
        (by decide)
      rw [hc] at ht
      obtain ⟨nw, hnw, hbuf⟩ := ht d' h1
      exact ⟨layers, s, nw, d', rfl, hs, hnw, hbuf, h2, h3⟩
    · rw [List.map_append, n1, List.nodup_append']
      refine ⟨lbl_nodup _ _, by simp, ?_⟩
      intro x h1 h2
      obtain ⟨i, -, rfl⟩ := List.mem_map.mp h1
      simp only [List.map_cons, List.map_nil, List.mem_singleton] at h2
      exact absurd (congrArg List.head? h2) (by simp [layerN, lbl])
    · intro p hp
      rcases List.mem_append.mp hp with hp | hp
      · obtain ⟨⟨i, -, e⟩, e2⟩ := n2 p hp
        rw [e]
        have := lbl_attr (s := ['l', 'a', 'y', 'e', 'r']) (by decide) i
        exact ⟨this.2.1, this.2.2, .inl e2⟩
      · rw [List.mem_singleton] at hp
        subst hp
        refine ⟨by simp, by simp, .inl ?_⟩
        show (Part.comp (wg (N - 1))).name = none
        have hne := lossless_ne (hw (N - 1)).1
        cases wg (N - 1) <;> rfl

/-- C57. The same for the network objects. -/
theorem C57_network (N capacity : ℕ) (hN : 2 ≤ N) (hcap : 2 ≤ capacity) (mz wg : ℕ → ℕ → Part)
    (hm : ∀ m i, LosslessPart (mz m i) ∧ FourPort (mz m i)) (hw : ∀ m i, LosslessPart (wg m i) ∧ TwoPort (wg m i))
    (name : Option Str) :
    ∃ layers last s nw d,
      mapE (fun i => (cap2 N (mz i) (wg i 0)).map fun d => (layerN i, d)) (List.range (capacity / 2)) = .ok layers ∧
      clementsLast N capacity (mz (capacity / 2)) (wg (capacity / 2)) = .ok last ∧
      newNetwork none clementsCls (comps (layers ++ [(layerN (capacity / 2), last)])) (layersConns N (capacity / 2)) =
        .ok s ∧
      terminate s (.list ((meshTerms N).map fun p => p.2.comp)) name = .ok nw ∧ nw.buf = some d.comp ∧
      d.comp.terminated = true ∧ UnitaryDevice N d := by
  obtain ⟨d, h, hd, ho⟩ := clements_made (P := LosslessPart) hN hcap hm hw
  have hk := h
  unfold clements at hk
  cases hl : mapE (fun i => (cap2 N (mz i) (wg i 0)).map fun d => (layerN i, d)) (List.range (capacity / 2)) with
  | error e => rw [hl] at hk; cases hk
  | ok layers =>
    rw [hl] at hk
    simp only [Except.bind] at hk
    cases hla : clementsLast N capacity (mz (capacity / 2)) (wg (capacity / 2)) with
    | error e => rw [hla] at hk; cases hk
    | ok last =>
      rw [hla] at hk
      simp only at hk
      obtain ⟨n1, n2⟩ := layer_list (g := fun i => cap2 N (mz i) (wg i 0)) (fun i d hd => cap2_name hd) hl
      have hne : layersConns N (capacity / 2) ≠ [] := by
        obtain ⟨k, hk'⟩ : ∃ k, capacity / 2 = k + 1 := ⟨capacity / 2 - 1, by omega⟩
        obtain ⟨n, rfl⟩ : ∃ n, N = n + 1 := ⟨N - 1, by omega⟩
        rw [hk']
        unfold layersConns
        simp only [List.range_succ_eq_map, List.flatMap_cons, List.map_cons, List.cons_append]
        exact List.cons_ne_nil _ _
      have hcon := C56_constructor clementsCls _ _ d hne (by simp) ?_ ?_ hk
      · obtain ⟨s, hs, hb, hn, hc⟩ := hcon
        obtain ⟨newName, ht⟩ := C56_terminate N (by omega) s d (hd.made.mono fun _ _ => trivial) hb hn
          (by rw [hc]; exact attr_of (by decide)) (by rw [hc]; decide) (by rw [hc]; decide) (by rw [hc]; decide)
          (by intro h0; have := hd.len; rw [h0] at this; simp at this; omega) name
        obtain ⟨d', h1, h2, h3⟩ := mesh_unitary (by omega) hd ho clementsCls newName (attr_of (by decide)).1 (by decide)
          (by decide)
        rw [hc] at ht
        obtain ⟨nw, hnw, hbuf⟩ := ht d' h1
        exact ⟨layers, last, s, nw, d', rfl, rfl, hs, hnw, hbuf, h2, h3⟩
      · rw [List.map_append, n1]
        have : (List.range (capacity / 2)).map layerN ++ [layerN (capacity / 2)] =
            (List.range (capacity / 2 + 1)).map layerN := by rw [List.range_succ, List.map_append]; rfl
        rw [show [(layerN (capacity / 2), last)].map Prod.fst = [layerN (capacity / 2)] from rfl, this]
        exact lbl_nodup _ _
      · intro p hp
        rcases List.mem_append.mp hp with hp | hp
        · obtain ⟨⟨i, -, e⟩, e2⟩ := n2 p hp
          rw [e]
          have := lbl_attr (s := ['l', 'a', 'y', 'e', 'r']) (by decide) i
          exact ⟨this.2.1, this.2.2, .inl e2⟩
        · rw [List.mem_singleton] at hp
          subst hp
          have := lbl_attr (s := ['l', 'a', 'y', 'e', 'r']) (by decide) (capacity / 2)
          exact ⟨this.2.1, this.2.2, .inl (clementsLast_name hla)⟩

/-- C57. With capacity 0 or 1 there are no connections: the network is constructed without buffers, and neither a
Clements nor a ring network can then be terminated. -/
theorem C57_no_connections (N capacity : ℕ) (hc : capacity < 2) (cls : Str) (layers : Comps)
    (hx : ∀ p ∈ layers, p.1 ≠ [] ∧ '.' ∉ p.1 ∧ (p.2.name = none ∨ p.2.name = some p.1)) :
    ∃ s, newNetwork none cls layers (layersConns N (capacity / 2)) = .ok s ∧ s.buf = none ∧
      ∀ arg name, terminate s arg name = .error .attributeError := by
  have h0 : layersConns N (capacity / 2) = [] := by
    rw [show capacity / 2 = 0 by omega]; rfl
  rw [h0]
  unfold newNetwork
  rw [addAll_ok _ _ rfl hx]
  exact ⟨_, rfl, rfl, fun _ _ => rfl⟩

/-! ## C58 -/

/-- The components of a network of layers, with the names they get. -/
def layerComps (devs : ℕ → Dev) (k : ℕ) : Comps :=
  (List.range (k + 1)).map fun i => (layerN i, { (devs i).comp with name := some (layerN i) })

theorem paired_of_clean {c : Comp} (h : Clean c) {g : ℕ} (hg : g < c.n) (hf : g ∉ freePorts c) : ∃! k, c.C g k ≠ 0 := by
  obtain ⟨ho, ha⟩ := C19_clean_partial _ h
  have hrec := built_reciprocal h.built
  have : ¬ Unconnected c g := by
    intro hu
    refine hf (List.mem_filter.mpr ⟨ho.mem_iff.mpr (List.mem_range.mpr hg), ?_⟩)
    rw [decide_eq_true_eq]; exact ⟨hg, hu⟩
  unfold Unconnected at this
  push Not at this
  obtain ⟨k, hk, hk'⟩ := this
  have hne : c.C g k ≠ 0 := by
    intro h0; exact hk' h0 ((hrec.1 k g).trans h0)
  exact ⟨k, hne, fun j hj => ha g j k hj hne⟩

/-- C58. Ring networks of every even size and every capacity from 2 on: 2N free ports, first the `N` inputs of the
first layer, then the `N` outputs of the last layer; every other port is connected to exactly one port. -/
theorem C58_ring (N capacity : ℕ) (hN : 0 < N) (heven : N % 2 = 0) (hc : 2 ≤ capacity) (mz wg : ℕ → ℕ → Part)
    (hm : ∀ m i, (mz m i).n = 4) (hw : ∀ m i, (wg m i).n = 2) :
    ∃ (d : Dev) (devs : ℕ → Dev), ring N capacity mz wg = .ok d ∧
      (∀ i < capacity / 2, ringArray N (mz i) (wg i) = .ok (devs i)) ∧
      mixingRing N (mz (capacity / 2)) (wg (capacity / 2)) = .ok (devs (capacity / 2)) ∧
      (freePorts d.comp).length = 2 * N ∧
      (∀ j < N, (∃ g, (freePorts d.comp)[j]? = some g ∧ PortOf (layerComps devs (capacity / 2)) (layerN 0) (j : ℕ) g) ∧
        ∃ g, (freePorts d.comp)[N + j]? = some g ∧
          PortOf (layerComps devs (capacity / 2)) (layerN (capacity / 2)) ((N + j : ℕ) : ℤ) g) ∧
      ∀ g < d.comp.n, g ∉ freePorts d.comp → ∃! k, d.comp.C g k ≠ 0 := by
  obtain ⟨d, devs, h1, h2, h3, h⟩ := ring_made (P := fun _ => True) hN heven hc (fun m i => ⟨trivial, hm m i⟩)
    fun m i => ⟨trivial, hw m i⟩
  have hlay : Layout (comps ((List.range (capacity / 2 + 1)).map fun i => (layerN i, devs i)))
      (chainCs (capacity / 2) (fun _ => N) (fun _ => N) layerN) (layerComps devs (capacity / 2)) := by
    constructor
    · rw [chain_mentions (f := layerN) (idx := numOf 5) (by omega) (layer_names _) fun _ _ => hN]
      simp [layerComps, Function.comp_def]
    · intro p hp
      obtain ⟨i, hi, rfl⟩ := List.mem_map.mp hp
      refine ⟨(devs i).comp, ?_, rfl⟩
      refine dictGet_of_mem ?_ (List.mem_map.mpr ⟨(layerN i, devs i), List.mem_map.mpr ⟨i, hi, rfl⟩, rfl⟩)
      simp only [comps, List.map_map, Function.comp_def]
      exact lbl_nodup _ _
  have hlen := h.len
  rw [ioList_length] at hlen
  refine ⟨d, devs, h1, h2, h3, hlen, ?_, fun g hg hgf => paired_of_clean h.made.clean hg hgf⟩
  · intro j hj
    have hp := h.ports _ hlay
    have hget : ∀ (k : ℕ) e, (ioList N (fun j => (layerN 0, j)) (fun j => (layerN (capacity / 2), N + j)))[k]? = some e →
        ∃ g, (freePorts d.comp)[k]? = some g ∧ PortOf (layerComps devs (capacity / 2)) e.1 e.2 g := by
      intro k e hk
      have hlt : k < (freePorts d.comp).length := by
        rw [h.len]; exact (List.getElem?_eq_some_iff.mp hk).1
      refine ⟨_, List.getElem?_eq_getElem hlt, ?_⟩
      have := List.Forall₂.get hp (i := k) (List.getElem?_eq_some_iff.mp hk).1 hlt
      simp only [List.get_eq_getElem] at this
      rw [(List.getElem?_eq_some_iff.mp hk).2] at this
      exact this
    have hel : ∀ k : ℕ, k < 2 * N → ∃ e, (ioList N (fun j => (layerN 0, j))
        (fun j => (layerN (capacity / 2), N + j)))[k]? = some e :=
      fun k hk => ⟨_, List.getElem?_eq_getElem (by rw [ioList_length]; exact hk)⟩
    constructor
    · obtain ⟨e, he⟩ := hel j (by omega)
      obtain ⟨g, hg, hgp⟩ := hget j e he
      rcases ioList_get he with ⟨-, rfl⟩ | ⟨h', -⟩
      · exact ⟨g, hg, hgp⟩
      · omega
    · obtain ⟨e, he⟩ := hel (N + j) (by omega)
      obtain ⟨g, hg, hgp⟩ := hget (N + j) e he
      rcases ioList_get he with ⟨h', -⟩ | ⟨-, -, rfl⟩
      · omega
      · rw [show N + j - N = j by omega] at hgp
        exact ⟨g, hg, hgp⟩

/-- C58. An odd size is refused. -/
theorem C58_odd (N capacity : ℕ) (hN : N % 2 = 1) (mz wg : ℕ → ℕ → Part) :
    ring N capacity mz wg = .error .valueError := if_pos hN

/-! ## The components of the default factories -/

theorem cross4_sides (a b c d : ℂ) : ∀ i j : Fin 4, cross4 a b c d i j ≠ 0 → leftOf4 i ≠ leftOf4 j := by
  intro i j h
  fin_cases i <;> fin_cases j <;> first | exact absurd rfl h | (intro h'; exact absurd h' (by simp [leftOf4]))

theorem cross2_sides (t : ℂ) : ∀ i j : Fin 2, cross2 0 t 0 i j ≠ 0 → i ≠ j := by
  rintro i j h rfl
  fin_cases i <;> exact h rfl

/-- The Mach-Zehnder interferometers of the library, for all parameters. -/
theorem mzi_four (φ θ neff ng wl0 l loss : ℝ) :
    LosslessPart (.mzi φ θ neff ng wl0 l loss) ∧ FourPort (.mzi φ θ neff ng wl0 l loss) := by
  refine ⟨fun wl => C42_unitary (.mzi φ θ neff ng wl0 l loss) trivial wl, rfl, ?_⟩
  intro wl i j h
  obtain ⟨x, -, hx⟩ := mzi_shape φ θ l neff wl0 ng wl
  have e := congrFun (congrFun hx i) j
  exact cross4_sides _ _ _ _ i j (ne_of_eq_of_ne e.symm h)

/-- Waveguides without loss, for all other parameters. -/
theorem waveguide_two (l neff wl0 ng φ : ℝ) :
    LosslessPart (.waveguide l 0 neff wl0 ng φ) ∧ TwoPort (.waveguide l 0 neff wl0 ng φ) := by
  refine ⟨fun wl => C42_unitary (.waveguide l 0 neff wl0 ng φ) rfl wl, rfl, ?_⟩
  intro wl i j h
  have e := congrFun (congrFun (waveguide_shape l 0 neff wl0 ng φ wl) i) j
  exact cross2_sides _ i j (ne_of_eq_of_ne e.symm h)

/-- A Reck mesh of size 5 with different phases everywhere. -/
example : ∃ d d', reck 5 (fun m i => .mzi (m + 1) (i + 2) 2.34 3.4 1.55e-6 0 0)
    (fun m => .waveguide 0 0 2.34 1.55e-6 3.4 m) = .ok d ∧ (freePorts d.comp).length = 2 * 5 ∧
      termDev [] reckCls d (meshTerms 5) = .ok d' ∧ d'.comp.terminated = true ∧ UnitaryDevice 5 d' :=
  C56_unitary 5 (by omega) _ _ (fun _ _ => mzi_four ..) (fun _ => waveguide_two ..) []

/-- A Clements mesh of size 5 and capacity 7. -/
example : ∃ d d', clements 5 7 (fun m i => .mzi (m + 1) (i + 2) 2.34 3.4 1.55e-6 0 0)
    (fun m i => .waveguide 0 0 2.34 1.55e-6 3.4 (m + i)) = .ok d ∧ (freePorts d.comp).length = 2 * 5 ∧
      termDev [] clementsCls d (meshTerms 5) = .ok d' ∧ d'.comp.terminated = true ∧ UnitaryDevice 5 d' :=
  C57_unitary 5 7 (by omega) (by omega) _ _ (fun _ _ => mzi_four ..) (fun _ _ => waveguide_two ..) []

/-- A ring network of size 4 and capacity 5. -/
example : ∃ d, ring 4 5 (fun _ _ => .coupler 0.3) (fun _ _ => .connection) = .ok d ∧ (freePorts d.comp).length = 2 * 4 := by
  obtain ⟨d, -, h, -, -, h', -⟩ := C58_ring 4 5 (by omega) (by omega) (by omega) (fun _ _ => .coupler 0.3)
    (fun _ _ => .connection) (fun _ _ => rfl) (fun _ _ => rfl)
  exact ⟨d, h, h'⟩

/-! ## Examples of use -/

example (name : Option Str) : ∃ layers s nw d, reckLayers 5 (fun m i => .mzi (m + 1) (i + 2) 2.34 3.4 1.55e-6 0 0)
      (fun m => .waveguide 0 0 2.34 1.55e-6 3.4 m) = .ok layers ∧
    newNetwork none reckCls (comps (layers ++ [(['w', 'g'], (Part.waveguide 0 0 2.34 1.55e-6 3.4 (5 - 1 : ℕ)).dev)])) (reckConns 5) = .ok s ∧
    terminate s (.list ((meshTerms 5).map fun p => p.2.comp)) name = .ok nw ∧ nw.buf = some d.comp ∧
    d.comp.terminated = true ∧ UnitaryDevice 5 d :=
  C56_network 5 (by omega) _ (fun m : ℕ => .waveguide 0 0 2.34 1.55e-6 3.4 (m : ℝ)) (fun _ _ => mzi_four ..) (fun _ => waveguide_two ..) name

example (name : Option Str) : ∃ last s nw d, clementsLast 5 7 (fun i => .mzi (7 / 2 + 1) (i + 2) 2.34 3.4 1.55e-6 0 0)
      (fun i => .waveguide 0 0 2.34 1.55e-6 3.4 i) = .ok last ∧
    terminate s (.list ((meshTerms 5).map fun p => p.2.comp)) name = .ok nw ∧ nw.buf = some d.comp ∧ d.comp.terminated = true ∧
    UnitaryDevice 5 d := by
  obtain ⟨layers, last, s, nw, d, -, h1, -, h2, h3, h4, h5⟩ := C57_network 5 7 (by omega) (by omega)
    (fun _ i => .mzi (7 / 2 + 1) (i + 2) 2.34 3.4 1.55e-6 0 0) (fun _ i => .waveguide 0 0 2.34 1.55e-6 3.4 i)
    (fun _ _ => mzi_four ..) (fun _ _ => waveguide_two ..) name
  exact ⟨last, s, nw, d, h1, h2, h3, h4, h5⟩

/-- A Clements mesh of capacity 1 has no connections and cannot be terminated. -/
example (layer : Comp) (h : layer.name = none) : ∃ s, newNetwork none clementsCls [(layerN 0, layer)] (layersConns 4 (1 / 2)) = .ok s ∧
    s.buf = none ∧ ∀ arg name, terminate s arg name = .error .attributeError :=
  C57_no_connections 4 1 (by omega) clementsCls _ fun p hp => by
    obtain rfl := List.mem_singleton.mp hp
    exact ⟨(by decide +kernel : layerN 0 ≠ []), (by decide +kernel : '.' ∉ layerN 0), .inl h⟩

example (mz wg : ℕ → ℕ → Part) : ring 5 4 mz wg = .error .valueError := C58_odd 5 4 rfl mz wg

end PT
