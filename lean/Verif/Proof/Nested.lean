import Verif.Proof.Named
import Verif.Spec.Nested

/-! Proof support: the ports of networks of networks, by name. -/

namespace PT
open Spec Matrix

/-- Devices side by side are their components side by side. -/
theorem netDev_sheets (c : Comp) (l : List (Str × Dev)) (f : Str × Dev → List Part)
    (h : ∀ p ∈ l, Flat p.2 (f p)) (hn : c.n = (l.map fun p => p.2.comp.n).sum)
    (hs : c.src = l.flatMap fun p => p.2.comp.src) (hd : c.det = l.flatMap fun p => p.2.comp.det)
    (ha : c.act = l.flatMap fun p => p.2.comp.act) : Flat (netDev c l) (l.flatMap fun p => f p) := by
  have hN : ∀ l : List (Str × Dev), (∀ p ∈ l, Flat p.2 (f p)) →
      (l.map fun p => p.2.comp.n).sum = partsN (l.flatMap fun p => f p) := by
    intro l h
    induction l with
    | nil => rfl
    | cons p l ih =>
      rw [List.flatMap_cons, partsN_append, List.map_cons, List.sum_cons, ih fun q hq => h q (by simp [hq]),
        (h p (by simp)).n]
  have hB : ∀ (l : List (Str × Dev)) (F : Dev → ℕ → ℕ → ℝ) (G : Part → ℕ → ℕ → ℝ), (∀ p ∈ l, Flat p.2 (f p)) →
      (∀ p ∈ l, F p.2 = blockMat ((f p).map fun q => (q.n, G q))) →
      blockMat (l.map fun p => (p.2.comp.n, F p.2)) =
        blockMat ((l.flatMap fun p => f p).map fun q => (q.n, G q)) := by
    intro l F G h hF
    induction l with
    | nil => rfl
    | cons p l ih =>
      rw [List.flatMap_cons, List.map_append, blockMat_append, sum_fst_map, List.map_cons,
        ← (h p (by simp)).n, hF p (by simp)]
      funext i j
      unfold blockMat
      rw [ih (fun q hq => h q (by simp [hq])) fun q hq => hF q (by simp [hq])]
  have hV : ∀ (l : List (Str × Dev)) (F : Dev → ℕ → ℝ) (G : Part → ℕ → ℝ), (∀ p ∈ l, Flat p.2 (f p)) →
      (∀ p ∈ l, F p.2 = blockVec ((f p).map fun q => (q.n, G q))) →
      blockVec (l.map fun p => (p.2.comp.n, F p.2)) =
        blockVec ((l.flatMap fun p => f p).map fun q => (q.n, G q)) := by
    intro l F G h hF
    induction l with
    | nil => rfl
    | cons p l ih =>
      rw [List.flatMap_cons, List.map_append, blockVec_append, sum_fst_map, List.map_cons,
        ← (h p (by simp)).n, hF p (by simp)]
      funext i
      unfold blockVec
      rw [ih (fun q hq => h q (by simp [hq])) fun q hq => hF q (by simp [hq])]
  have hM : ∀ (F G : Comp → List Bool), True → ∀ l : List (Str × Dev),
      (∀ p ∈ l, F p.2.comp = (f p).flatMap fun q => F q.comp) →
      (l.flatMap fun p => F p.2.comp) = (l.flatMap fun p => f p).flatMap fun q => F q.comp := by
    intro F _ _ l h
    induction l with
    | nil => rfl
    | cons p l ih =>
      rw [List.flatMap_cons, List.flatMap_cons, List.flatMap_append, h p (by simp),
        ih fun q hq => h q (by simp [hq])]
  refine ⟨?_, ?_, ?_, ?_, ?_, ?_, ?_⟩
  · show c.n = _
    rw [hn, hN l h]
  · intro wl
    exact hB l (fun d => d.rS wl) _ h fun p hp => (h p hp).rS wl
  · intro wl
    exact hB l (fun d => d.iS wl) _ h fun p hp => (h p hp).iS wl
  · intro v
    exact hV l (fun d => d.delay v) _ h fun p hp => (h p hp).delay v
  · show c.src = _
    rw [hs]; exact hM (·.src) (·.src) trivial l fun p hp => (h p hp).src
  · show c.det = _
    rw [hd]; exact hM (·.det) (·.det) trivial l fun p hp => (h p hp).det
  · show c.act = _
    rw [ha]; exact hM (·.act) (·.act) trivial l fun p hp => (h p hp).act

/-- How a circuit on a sheet lies in a network. -/
structure Lies (d : Dev) (s : Sheet) : Prop where
  sized : ∀ q ∈ s.parts, 0 < q.2.n
  flat : Flat d (s.parts.map Prod.snd)
  once : (endpoints s.conns ++ s.free).Perm (portNames s.parts)
  inner : outs s.conns = []
  conn : ∀ a (i : ℕ) b (j : ℕ), PT.Spec.Joined s.conns a i b j → d.comp.C (pos s.parts a + i) (pos s.parts b + j) ≠ 0
  free : freePorts d.comp = s.free.map fun e => pos s.parts e.1 + e.2.toNat

theorem pos_append_right {A B : List (Str × Part)} {a : Str} (h : a ∉ A.map Prod.fst) :
    pos (A ++ B) a = partsN (A.map Prod.snd) + pos B a := by
  induction A with
  | nil => simp [partsN]
  | cons q A ih =>
    obtain ⟨x, p⟩ := q
    simp only [List.map_cons, List.mem_cons, not_or] at h
    rw [List.cons_append, pos, if_neg fun e => h.1 e.symm, ih h.2]
    simp [partsN, Nat.add_assoc]

theorem pos_append_left {A B : List (Str × Part)} {a : Str} (h : a ∈ A.map Prod.fst) : pos (A ++ B) a = pos A a := by
  induction A with
  | nil => cases h
  | cons q A ih =>
    obtain ⟨x, p⟩ := q
    rw [List.cons_append, pos, pos]
    split
    · rfl
    · rename_i hne
      rw [List.map_cons, List.mem_cons] at h
      rw [ih (h.resolve_left fun e => hne e.symm)]

theorem firstMentions_nodup (cs : List Conn) : (firstMentions cs).Nodup := by
  rw [firstMentions_eq]; exact nodup_dedupFirst _

theorem endpoints_wires (sheet : Str → Sheet) : ∀ cs, endpoints (wires sheet cs) = (endpoints cs).map (portAt sheet)
  | [] => rfl
  | .inner a i b j :: cs => by
    have ih := endpoints_wires sheet cs
    simp only [endpoints, wires] at ih ⊢
    simp only [List.filterMap_cons, List.flatMap_cons, List.map_append, ih, Conn.ends, List.map_cons, List.map_nil]
  | .outer a i p :: cs => by
    have ih := endpoints_wires sheet cs
    simp only [endpoints, wires] at ih ⊢
    simp only [List.filterMap_cons, List.flatMap_cons, List.map_append, ih, Conn.ends, List.map_nil, List.nil_append]

theorem outs_wires (sheet : Str → Sheet) : ∀ cs, outs (wires sheet cs) = []
  | [] => rfl
  | .inner a i b j :: cs => by
    have ih := outs_wires sheet cs
    simp only [outs, wires] at ih ⊢
    simp only [List.filterMap_cons, ih]
  | .outer a i p :: cs => by
    have ih := outs_wires sheet cs
    simp only [outs, wires] at ih ⊢
    simp only [List.filterMap_cons, ih]

theorem boxPorts_portAt (sheet : Str → Sheet) (cs : List Conn) :
    (boxPorts sheet cs).map (portAt sheet) = (firstMentions cs).flatMap fun x => (sheet x).free := by
  unfold boxPorts
  rw [List.map_flatMap]
  congr 1
  funext x
  rw [List.map_map]
  apply List.ext_getElem
  · simp
  · intro i h1 h2
    simp [portAt, h2]

theorem mem_boxPorts {sheet : Str → Sheet} {cs : List Conn} {e : Str × ℤ} :
    e ∈ boxPorts sheet cs ↔ e.1 ∈ firstMentions cs ∧ ∃ i : ℕ, i < (sheet e.1).free.length ∧ e.2 = i :=
  mem_allPorts (X := firstMentions cs) (n := fun x => (sheet x).free.length)

theorem portAt_get (sheet : Str → Sheet) (x : Str) {i : ℕ} {e : Str × ℤ} (h : (sheet x).free[i]? = some e) :
    portAt sheet (x, (i : ℤ)) = e := by
  unfold portAt
  simp [h]

theorem portNames_flatMap {α : Type} (l : List α) (f : α → List (Str × Part)) :
    portNames (l.flatMap f) = l.flatMap fun x => portNames (f x) := by
  unfold portNames
  rw [List.flatMap_assoc]

theorem flatMap_perm {α β : Type} : ∀ (l : List α) (f g : α → List β), (∀ x ∈ l, (f x).Perm (g x)) → (l.flatMap f).Perm (l.flatMap g)
  | [], _, _, _ => .refl _
  | x :: l, f, g, h => by
    rw [List.flatMap_cons, List.flatMap_cons]
    exact (h x List.mem_cons_self).append (flatMap_perm l f g fun y hy => h y (List.mem_cons_of_mem _ hy))

theorem flatMap_append_perm {α β : Type} : ∀ (l : List α) (f g : α → List β),
    (l.flatMap fun x => f x ++ g x).Perm (l.flatMap f ++ l.flatMap g)
  | [], _, _ => .refl _
  | x :: l, f, g => by
    simp only [List.flatMap_cons]
    refine ((List.Perm.refl _).append (flatMap_append_perm l f g)).trans ?_
    rw [List.append_assoc, List.append_assoc]
    refine (List.Perm.refl _).append ?_
    rw [← List.append_assoc, ← List.append_assoc]
    exact List.perm_append_comm.append_right _

theorem forall₂_map {α β : Type} {R : α → β → Prop} {f : α → β} (hR : ∀ e g g', R e g → R e g' → g = g') {D : List α} {F : List β}
    (h : List.Forall₂ R D F) (hf : ∀ e ∈ D, R e (f e)) : F = D.map f := by
  induction h with
  | nil => rfl
  | cons hh ht ih =>
    rw [List.map_cons, ← ih fun e he => hf e (List.mem_cons_of_mem _ he), hR _ _ _ hh (hf _ List.mem_cons_self)]

/-- The sheets of the boxes make the sheet of the network. -/
theorem lies_merge {modules : List (Str × Dev)} {cs : List Conn} {sheet : Str → Sheet} {d : Dev} {D : List (Str × ℤ)}
    {name : Option Str} (hm : ∀ q ∈ modules, MadeOf (fun _ => True) q.2) (hg : GoodConns cs)
    (hd : mkDev name modules (cs.map Conn.text) = .ok d)
    (hsub : ∀ x ∈ firstMentions cs, ∀ e, dictGet x modules = some e → Lies e (sheet x))
    (hp : PortsAre (comps modules) cs d.comp D) (honce : (endpoints cs ++ D).Perm (boxPorts sheet cs))
    (hnd : (((Sheet.merge sheet cs D).parts).map Prod.fst).Nodup) : Lies d (.merge sheet cs D) := by
  obtain ⟨l, hl, hlay, hk, hb, hdev⟩ := mkDev_ok hg hd
  have horder : l.map Prod.fst = firstMentions cs := by
    have := hlay.1
    simp only [List.map_map] at this
    exact this
  have hlies : ∀ q ∈ l, Lies q.2 (sheet q.1) := fun q hq =>
    hsub q.1 (by rw [← horder]; exact List.mem_map.mpr ⟨q, hq, rfl⟩) q.2 (hl q hq)
  have hch : ChildrenOK (l.map fun p => (p.1, { p.2.comp with name := some p.1 })) :=
    layout_children hlay (P := fun d => Reciprocal d.n d.C) (fun _ _ h => h) fun p hp => by
      simp only [comps, List.mem_map] at hp
      obtain ⟨q, hq, rfl⟩ := hp
      exact built_reciprocal (hm q hq).ok.1
  have hparts : (Sheet.merge sheet cs D).parts = l.flatMap fun q => (sheet q.1).parts := by
    show (firstMentions cs).flatMap _ = _
    rw [← horder, List.flatMap_map]
  have hconns : (firstMentions cs).flatMap (fun x => (sheet x).conns) = l.flatMap fun q => (sheet q.1).conns := by
    rw [← horder, List.flatMap_map]
  have hflat : Flat d ((Sheet.merge sheet cs D).parts.map Prod.snd) := by
    obtain ⟨-, -, hw, -, hs, hdt, ha, -, -⟩ := netBuffers_ok hb
    rw [hdev, hparts, List.map_flatMap]
    refine netDev_sheets _ l (fun q => (sheet q.1).parts.map Prod.snd) (fun q hq => (hlies q hq).flat) ?_ ?_ ?_ ?_
    · rw [hw, width, List.map_map]; rfl
    · rw [hs, List.flatMap_map]
    · rw [hdt, List.flatMap_map]
    · rw [ha, List.flatMap_map]
  have hones : (endpoints (Sheet.merge sheet cs D).conns ++ (Sheet.merge sheet cs D).free).Perm
      (portNames (Sheet.merge sheet cs D).parts) := by
    show (endpoints (wires sheet cs ++ (firstMentions cs).flatMap fun x => (sheet x).conns) ++ D.map (portAt sheet)).Perm _
    rw [endpoints_append, endpoints_wires, List.append_assoc]
    have h1 : ((endpoints cs).map (portAt sheet) ++ (endpoints ((firstMentions cs).flatMap fun x => (sheet x).conns) ++
        D.map (portAt sheet))).Perm ((endpoints cs ++ D).map (portAt sheet) ++
          endpoints ((firstMentions cs).flatMap fun x => (sheet x).conns)) := by
      rw [List.map_append, List.append_assoc]
      exact (List.Perm.refl _).append List.perm_append_comm
    refine h1.trans (((honce.map (portAt sheet)).append_right _).trans ?_)
    rw [boxPorts_portAt, hparts, portNames_flatMap, hconns, ← horder, List.flatMap_map]
    have h2 : endpoints (l.flatMap fun q => (sheet q.1).conns) = l.flatMap fun q => endpoints (sheet q.1).conns := by
      unfold endpoints
      rw [List.flatMap_assoc]
    rw [h2]
    refine (flatMap_append_perm l _ _).symm.trans (flatMap_perm l _ _ fun q hq => ?_)
    exact List.perm_append_comm.trans (hlies q hq).once
  have hinner : outs (Sheet.merge sheet cs D).conns = [] := by
    show outs (wires sheet cs ++ (firstMentions cs).flatMap fun x => (sheet x).conns) = []
    rw [outs_append, outs_wires, List.nil_append, hconns, List.eq_nil_iff_forall_not_mem]
    rintro ⟨⟨a, i⟩, p⟩ ho
    rw [mem_outs, List.mem_flatMap] at ho
    obtain ⟨q, hq, ho⟩ := ho
    have := mem_outs.mpr ho
    rw [(hlies q hq).inner] at this
    cases this
  -- where the parts of a box are
  have hpos : ∀ q ∈ l, ∃ s, Block (l.map fun p => (p.1, { p.2.comp with name := some p.1 })) q.1
      { q.2.comp with name := some q.1 } s ∧
      ∀ a ∈ (sheet q.1).parts.map Prod.fst, pos (Sheet.merge sheet cs D).parts a = s + pos (sheet q.1).parts a := by
    intro q hq
    obtain ⟨pre, post, rfl⟩ := List.append_of_mem hq
    rw [hparts, List.flatMap_append, List.flatMap_cons] at hnd ⊢
    refine ⟨width (pre.map fun p => (p.1, { p.2.comp with name := some p.1 })), ⟨_, _, by rw [List.map_append, List.map_cons], ?_, rfl⟩, ?_⟩
    · have := layout_nodup hlay
      rw [List.map_map, List.map_append, List.map_cons, List.nodup_append'] at this
      rw [List.map_map]
      exact fun hx => this.2.2 hx List.mem_cons_self
    · intro a ha
      rw [List.map_append, List.map_append, List.nodup_append'] at hnd
      rw [pos_append_right fun hx => hnd.2.2 hx (List.mem_append_left _ ha), pos_append_left ha]
      congr 1
      have : ∀ l' : List (Str × Dev), (∀ q ∈ l', Lies q.2 (sheet q.1)) →
          partsN ((l'.flatMap fun q => (sheet q.1).parts).map Prod.snd) = width (l'.map fun p => (p.1, { p.2.comp with name := some p.1 })) := by
        intro l' h
        induction l' with
        | nil => rfl
        | cons r l' ih =>
          rw [List.flatMap_cons, List.map_append, partsN_append, ih fun q hq => h q (List.mem_cons_of_mem _ hq),
            ← (h r List.mem_cons_self).flat.n]
          simp [width]
      exact this pre fun q hq => hlies q (List.mem_append_left _ hq)
  -- where the ports of a box are
  have hport : ∀ e ∈ boxPorts sheet cs, PortOf (l.map fun p => (p.1, { p.2.comp with name := some p.1 })) e.1 e.2
      (pos (Sheet.merge sheet cs D).parts (portAt sheet e).1 + (portAt sheet e).2.toNat) ∧ 0 ≤ (portAt sheet e).2 := by
    rintro ⟨x, k⟩ he
    obtain ⟨hx, i, hi, hk⟩ := mem_boxPorts.mp he
    simp only at hx hi hk
    subst hk
    rw [← horder, List.mem_map] at hx
    obtain ⟨q, hq, rfl⟩ := hx
    obtain ⟨s, hbl, hps⟩ := hpos q hq
    have hget := List.getElem?_eq_getElem hi
    rw [portAt_get sheet q.1 hget]
    have hmem : (sheet q.1).free[i] ∈ portNames (sheet q.1).parts :=
      (hlies q hq).once.mem_iff.mp (List.mem_append_right _ (List.getElem_mem hi))
    obtain ⟨r, hr, j, hj, hej⟩ := mem_portNames.mp hmem
    refine ⟨?_, by rw [hej]; simp⟩
    rw [hps _ (by rw [hej]; exact List.mem_map.mpr ⟨r, hr, rfl⟩), Nat.add_assoc]
    refine ⟨_, s, _, hbl, .inl ⟨i, rfl, ?_⟩, rfl⟩
    have hf : freePorts { q.2.comp with name := some q.1 } = freePorts q.2.comp := rfl
    rw [hf, (hlies q hq).free, List.getElem?_map, hget]
    rfl
  obtain ⟨l', hl', -, hC, -⟩ := C15_exact name _ cs d.comp (by
    intro p hp
    simp only [comps, List.mem_map] at hp
    obtain ⟨q, hq, rfl⟩ := hp
    exact (hm q hq).ok.1) hg hk
  obtain rfl := layout_unique hlay hl'
  refine ⟨?_, hflat, hones, hinner, ?_, ?_⟩
  · intro q hq
    rw [hparts, List.mem_flatMap] at hq
    obtain ⟨r, hr, hq⟩ := hq
    exact (hlies r hr).sized q hq
  · have key : ∀ a (i : ℕ) b (j : ℕ), Conn.inner a i b j ∈ (Sheet.merge sheet cs D).conns →
        d.comp.C (pos (Sheet.merge sheet cs D).parts a + i) (pos (Sheet.merge sheet cs D).parts b + j) ≠ 0 ∧
        d.comp.C (pos (Sheet.merge sheet cs D).parts b + j) (pos (Sheet.merge sheet cs D).parts a + i) ≠ 0 := by
      intro a i b j hc
      rcases List.mem_append.mp hc with hc | hc
      · unfold wires at hc
        rw [List.mem_filterMap] at hc
        obtain ⟨c, hc, he⟩ := hc
        cases c with
        | outer _ _ _ => cases he
        | inner x k y m =>
          simp only [Option.some.injEq, Conn.inner.injEq] at he
          obtain ⟨e1, e2, e3, e4⟩ := he
          have hx := hport (x, k) (honce.mem_iff.mp (List.mem_append_left _ (mem_endpoints.mpr ⟨_, _, _, _, hc, .inl rfl⟩)))
          have hy := hport (y, m) (honce.mem_iff.mp (List.mem_append_left _ (mem_endpoints.mpr ⟨_, _, _, _, hc, .inr rfl⟩)))
          rw [e1, e2, Int.toNat_natCast] at hx
          rw [e3, e4, Int.toNat_natCast] at hy
          exact ⟨(hC _ _).mpr (.inr ⟨_, _, _, _, hc, .inl ⟨hx.1, hy.1⟩⟩), (hC _ _).mpr (.inr ⟨_, _, _, _, hc, .inr ⟨hx.1, hy.1⟩⟩)⟩
      · rw [hconns, List.mem_flatMap] at hc
        obtain ⟨q, hq, hc⟩ := hc
        obtain ⟨s, hbl, hps⟩ := hpos q hq
        have hin : ∀ z (k : ℕ), (z, (k : ℤ)) ∈ endpoints (sheet q.1).conns → z ∈ (sheet q.1).parts.map Prod.fst := by
          intro z k hz
          obtain ⟨r, hr, k', -, he⟩ := mem_portNames.mp ((hlies q hq).once.mem_iff.mp (List.mem_append_left _ hz))
          simp only [Prod.mk.injEq] at he
          rw [he.1]
          exact List.mem_map.mpr ⟨r, hr, rfl⟩
        rw [hps a (hin a i (mem_endpoints.mpr ⟨_, _, _, _, hc, .inl rfl⟩)),
          hps b (hin b j (mem_endpoints.mpr ⟨_, _, _, _, hc, .inr rfl⟩)), Nat.add_assoc, Nat.add_assoc]
        have c1 := (hlies q hq).conn a i b j (.inl hc)
        have c2 := (hlies q hq).conn b j a i (.inr hc)
        have hr := (built_reciprocal (hm _ (dictGet_mem (hl q hq))).ok.1).2.2
        exact ⟨(hC _ _).mpr (.inl ⟨_, _, s, _, _, hbl, (hr _ _ c1).1, (hr _ _ c1).2, rfl, rfl, c1⟩),
          (hC _ _).mpr (.inl ⟨_, _, s, _, _, hbl, (hr _ _ c2).1, (hr _ _ c2).2, rfl, rfl, c2⟩)⟩
    intro a i b j hj
    rcases hj with hj | hj
    · exact (key _ _ _ _ hj).1
    · exact (key _ _ _ _ hj).2
  · show _ = (D.map (portAt sheet)).map _
    rw [List.map_map]
    have h2 := hp _ hlay
    have h3 : ∀ e ∈ D, e ∈ boxPorts sheet cs := fun e he => honce.mem_iff.mp (List.mem_append_right _ he)
    exact forall₂_map (R := fun e g => PortOf (l.map fun p => (p.1, { p.2.comp with name := some p.1 })) e.1 e.2 g)
      (fun e g g' h h' => portOf_det hch h h') h2 fun e he => (hport e (h3 e he)).1

theorem filter_rest_perm {α : Type} {E l : List α} {f : α → Bool} (hf : ∀ e, f e = true ↔ e ∉ E) (hE : E.Nodup) (hl : l.Nodup)
    (hs : ∀ e ∈ E, e ∈ l) : (E ++ l.filter f).Perm l := by
  refine (List.perm_ext_iff_of_nodup ?_ hl).mpr fun e => ?_
  · rw [List.nodup_append']
    refine ⟨hE, hl.filter _, ?_⟩
    intro e h1 h2
    exact (hf e).mp (List.mem_filter.mp h2).2 h1
  · rw [List.mem_append, List.mem_filter, hf]
    constructor
    · rintro (h | h)
      · exact hs e h
      · exact h.1
    · intro h
      rcases Classical.em (e ∈ E) with he | he
      · exact .inl he
      · exact .inr ⟨h, he⟩

theorem boxPorts_nodup (sheet : Str → Sheet) (cs : List Conn) : (boxPorts sheet cs).Nodup :=
  allPorts_nodup (fun x => (sheet x).free.length) (firstMentions_nodup cs)

theorem sheet_plan {cs : List Conn} {sheet : Str → Sheet} {D : List (Str × ℤ)} (hg : GoodConns cs)
    (h : (endpoints cs ++ D).Perm (boxPorts sheet cs)) :
    Plan (firstMentions cs) (fun x => (sheet x).free.length) cs D := by
  refine ⟨firstMentions_nodup cs, fun x hx => ?_, fun x hx i hi => ?_, ?_⟩
  · obtain ⟨c, hc, hxc⟩ := mem_firstMentions.mp hx
    exact hg c hc x hxc
  · exact List.mem_append.mp (h.mem_iff.mpr (mem_boxPorts.mpr ⟨hx, i, hi, rfl⟩))
  · have := h.length_eq
    rw [List.length_append] at this
    rw [this, ← allPorts_length]
    exact le_refl _

theorem zip_declared {cs : List Conn} {D : List (Str × ℤ)} (h : (outs cs).Perm (D.zipIdx.map fun e => (e.1, (e.2 : ℤ)))) :
    (∀ (j : ℕ) e, D[j]? = some e → Conn.outer e.1 e.2 j ∈ cs) ∧ (outs cs).length ≤ D.length := by
  constructor
  · intro j e he
    refine mem_outs.mp (h.mem_iff.mpr (List.mem_map.mpr ⟨(e, j), ?_, rfl⟩))
    rw [List.mem_zipIdx_iff_getElem?]
    exact he
  · rw [h.length_eq]; simp

theorem contiguous_nil {cs : List Conn} (h : outs cs = []) : Contiguous cs := by
  unfold Contiguous
  rw [h]
  simp

theorem drawn_made {d : Dev} {s : Sheet} (h : Drawn d s) : MadeOf (fun _ => True) d := by
  induction h with
  | part x p hp => exact .part p trivial hp
  | net name modules cs sheet d hm hg hne hno hn hs hd ih =>
    refine .net name modules cs d ih hg ⟨hn, fun e he => ?_⟩ (contiguous_nil hno) hd
    obtain ⟨-, i, -, hi⟩ := mem_boxPorts.mp (hs e he)
    omega
  | declared name modules cs sheet d D hm hg hne hp ho hd =>
    have hpl := sheet_plan hg hp
    obtain ⟨h1, h2⟩ := zip_declared ho
    refine .net name modules cs d (fun q hq => ?_) hg hpl.usedOnce (hpl.contiguous h1 h2).1 hd
    obtain ⟨x, p, hp, he, -⟩ := hm q hq
    rw [he]
    exact .part p trivial hp

theorem single_lies (x : Str) (p : Part) (hp : 0 < p.n) : Lies p.dev (.single x p) := by
  refine ⟨?_, part_flat p, .refl _, rfl, ?_, ?_⟩
  · intro q hq
    rw [List.mem_singleton.mp hq]
    exact hp
  · rintro a i b j (h | h) <;> cases h
  · show freePorts p.comp = _
    rw [part_free]
    simp [Sheet.single, portNames, pos, Function.comp_def]

theorem merge_nodup {cs : List Conn} {sheet : Str → Sheet} {D : List (Str × ℤ)}
    (h : ((Sheet.merge sheet cs D).parts.map Prod.fst).Nodup) {x : Str} (hx : x ∈ firstMentions cs) :
    ((sheet x).parts.map Prod.fst).Nodup := by
  have h' : (((firstMentions cs).flatMap fun x => (sheet x).parts).map Prod.fst).Nodup := h
  rw [List.map_flatMap, List.nodup_flatMap] at h'
  exact h'.1 x hx

/-- Networks of networks lie as drawn. -/
theorem drawn_lies {d : Dev} {s : Sheet} (h : Drawn d s) : (s.parts.map Prod.fst).Nodup → Lies d s := by
  induction h with
  | part x p hp => exact fun _ => single_lies x p hp
  | net name modules cs sheet d hm hg hne hno hn hs hd ih =>
    intro hnd
    have hperm := filter_rest_perm (f := fun e => decide (e ∉ endpoints cs)) (fun e => decide_eq_true_iff) hn (boxPorts_nodup sheet cs) hs
    have hsub : ∀ x ∈ firstMentions cs, ∀ e, dictGet x modules = some e → Lies e (sheet x) :=
      fun x hx e he => ih (x, e) (dictGet_mem he) (merge_nodup hnd hx)
    have hmade : ∀ q ∈ modules, MadeOf (fun _ => True) q.2 := fun q hq => drawn_made (hm q hq)
    obtain ⟨l, hl, hlay, -⟩ := mkDev_ok hg hd
    have hmod : ∀ x ∈ firstMentions cs, ∃ e, dictGet x modules = some e ∧ (freePorts e.comp).length = (sheet x).free.length := by
      intro x hx
      rw [← hlay.1, List.map_map, List.mem_map] at hx
      obtain ⟨q, hq, rfl⟩ := hx
      have hq' := hl q hq
      refine ⟨q.2, hq', ?_⟩
      rw [(hsub q.1 (by rw [← hlay.1, List.map_map]; exact List.mem_map.mpr ⟨q, hq, rfl⟩) q.2 hq').free, List.length_map]
      rfl
    obtain ⟨d', hd', hM⟩ := open_made (P := fun _ => True) name (sheet_plan hg hperm) rfl hmade hmod hno hne rfl
    rw [hd] at hd'
    cases hd'
    exact lies_merge hmade hg hd hsub hM.ports hperm hnd
  | declared name modules cs sheet d D hm hg hne hp ho hd =>
    intro hnd
    have hpl := sheet_plan hg hp
    obtain ⟨h1, h2⟩ := zip_declared ho
    have hmade : ∀ q ∈ modules, MadeOf (fun _ => True) q.2 := by
      intro q hq
      obtain ⟨x, p, hp, he, -⟩ := hm q hq
      rw [he]
      exact .part p trivial hp
    have hsub : ∀ x ∈ firstMentions cs, ∀ e, dictGet x modules = some e → Lies e (sheet x) := by
      intro x hx e he
      obtain ⟨y, p, hp, he', hs⟩ := hm (x, e) (dictGet_mem he)
      simp only at he' hs
      rw [he', hs]
      exact single_lies y p hp
    obtain ⟨l, hl, hlay, -⟩ := mkDev_ok hg hd
    have hmod : ∀ x ∈ firstMentions cs, ∃ c, dictGet x (comps modules) = some c ∧ (freePorts c).length = (sheet x).free.length := by
      intro x hx
      rw [← hlay.1, List.map_map, List.mem_map] at hx
      obtain ⟨q, hq, rfl⟩ := hx
      have hq' := hl q hq
      refine ⟨q.2.comp, comps_get hq', ?_⟩
      rw [(hsub q.1 (by rw [← hlay.1, List.map_map]; exact List.mem_map.mpr ⟨q, hq, rfl⟩) q.2 hq').free, List.length_map]
      rfl
    obtain ⟨d', hd', hM⟩ := plan_made (P := fun _ => True) hpl rfl hmade (wire_declared name hpl (by
      intro p hp
      simp only [comps, List.mem_map] at hp
      obtain ⟨q, hq, rfl⟩ := hp
      obtain ⟨x, p, hp, he, -⟩ := hm q hq
      exact ⟨(hmade q hq).ok.1, by rw [he]; exact part_order p⟩) hmod h1 h2 hne)
    rw [hd] at hd'
    cases hd'
    exact lies_merge hmade hg hd hsub hM.ports hp hnd

/-- Without ports left, it is a closed circuit with parts in known places. -/
theorem drawn_placed {d : Dev} {s : Sheet} (h : Drawn d s) (hf : s.free = []) (hn : (s.parts.map Prod.fst).Nodup) :
    Placed (s.parts.map Prod.fst) s.parts s.conns s.parts d := by
  have hL := drawn_lies h hn
  have honce := hL.once
  rw [hf, List.append_nil] at honce
  have hmade := drawn_made h
  have hfits : ∀ a i b j, PT.Spec.Joined s.conns a i b j → ∃ p, (a, p) ∈ s.parts ∧ i < p.n := by
    intro a i b j hj
    obtain ⟨q, hq, i', hi', he⟩ := mem_portNames.mp (honce.mem_iff.mp (joined_ends hj).1)
    simp only [Prod.mk.injEq] at he
    obtain ⟨rfl, he⟩ := he
    have : i = i' := by exact_mod_cast he
    subst this
    exact ⟨q.2, hq, hi'⟩
  refine ⟨hmade, hL.flat, ?_, rfl, hn, fun _ => .rfl, hL.conn, ?_, hfits⟩
  · exact terminated_of_free hmade.ok.1 hmade.ok.2 (by rw [hL.free, hf]; rfl)
  · intro q hq i hi
    obtain ⟨a, i', b, j', hc, hy⟩ := mem_endpoints.mp (honce.mem_iff.mpr (mem_portNames.mpr ⟨q, hq, i, hi, rfl⟩))
    obtain ⟨qa, hqa, ia, hia, ea⟩ := mem_portNames.mp (honce.mem_iff.mp (mem_endpoints.mpr ⟨_, _, _, _, hc, .inl rfl⟩))
    obtain ⟨qb, hqb, ib, hib, eb⟩ := mem_portNames.mp (honce.mem_iff.mp (mem_endpoints.mpr ⟨_, _, _, _, hc, .inr rfl⟩))
    simp only [Prod.mk.injEq] at ea eb hy
    obtain ⟨rfl, rfl⟩ := ea
    obtain ⟨rfl, rfl⟩ := eb
    rcases hy with ⟨h1, h2⟩ | ⟨h1, h2⟩
    · have h2' : i = ia := by exact_mod_cast h2
      subst h2'
      exact ⟨qb.1, qb.2, ib, hqb, hib, by rw [h1]; exact .inl hc⟩
    · have h2' : i = ib := by exact_mod_cast h2
      subst h2'
      exact ⟨qa.1, qa.2, ia, hqa, hia, by rw [h1]; exact .inr hc⟩

end PT
