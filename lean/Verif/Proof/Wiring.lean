import Verif.Proof.Device
import Verif.Props.Terminate

/-! Proof support: networks all of whose ports are used, and which of them stay free. -/

namespace PT
open Spec

/-- All numbered ports of the components called `X`, `n x` being the number of ports of `x`. -/
def allPorts (X : List Str) (n : Str → ℕ) : List (Str × ℤ) :=
  X.flatMap fun x => (List.range (n x)).map fun (i : ℕ) => (x, (i : ℤ))

theorem mem_allPorts {X : List Str} {n : Str → ℕ} {e : Str × ℤ} :
    e ∈ allPorts X n ↔ e.1 ∈ X ∧ ∃ i : ℕ, i < n e.1 ∧ e.2 = i := by
  unfold allPorts
  simp only [List.mem_flatMap, List.mem_map, List.mem_range]
  constructor
  · rintro ⟨x, hx, i, hi, rfl⟩
    exact ⟨hx, i, hi, rfl⟩
  · rintro ⟨hx, i, hi, he⟩
    exact ⟨e.1, hx, i, hi, Prod.ext rfl he.symm⟩

theorem allPorts_length (X : List Str) (n : Str → ℕ) : (allPorts X n).length = (X.map n).sum := by
  unfold allPorts
  rw [List.length_flatMap]
  simp

theorem allPorts_nodup {X : List Str} (n : Str → ℕ) (h : X.Nodup) : (allPorts X n).Nodup := by
  unfold allPorts
  rw [List.nodup_flatMap]
  refine ⟨fun x _ => ?_, ?_⟩
  · refine (List.nodup_map_iff ?_).mpr List.nodup_range
    intro i j hij
    simp only [Prod.mk.injEq, true_and] at hij
    exact_mod_cast hij
  · refine h.imp ?_
    intro x y hxy e h1 h2
    simp only [List.mem_map, List.mem_range] at h1 h2
    obtain ⟨_, _, rfl⟩ := h1
    obtain ⟨_, _, h2⟩ := h2
    exact hxy (congrArg Prod.fst h2).symm

/-- A list that mentions everything and is not too long mentions everything once. -/
theorem perm_of_cover {α : Type} [DecidableEq α] {a b : List α} (ha : a.Nodup) (hs : ∀ x ∈ a, x ∈ b)
    (hl : b.length ≤ a.length) : b.Perm a :=
  ((ha.subperm hs).perm_of_length_le hl).symm

theorem forall₂_filter {α β : Type} {R : α → β → Prop} {p : α → Bool} {q : β → Bool}
    (hpq : ∀ a b, R a b → p a = q b) : ∀ {l : List α} {r : List β}, List.Forall₂ R l r →
    List.Forall₂ R (l.filter p) (r.filter q) := by
  intro l r h
  induction h with
  | nil => exact .nil
  | @cons a b l r hab h ih =>
    rw [List.filter_cons, List.filter_cons, hpq a b hab]
    split
    · exact .cons hab ih
    · exact ih

/-- What the proofs below need to know about a network of modules. -/
structure Net (modules : Comps) (cs : List Conn) (l : Comps) (c : Comp) : Prop where
  built : ∀ p ∈ modules, Built p.2 ∧ OrderOK p.2
  good : GoodConns cs
  layout : Layout modules cs l
  n : c.n = width l
  conn : ∀ i j, c.C i j ≠ 0 ↔ InsideConn l i j ∨ Declared l cs i j
  symm : ∀ i j, c.C i j = c.C j i

theorem Net.of_mk {name : Option Str} {modules : Comps} {cs : List Conn} {c : Comp}
    (hm : ∀ p ∈ modules, Built p.2 ∧ OrderOK p.2) (hg : GoodConns cs)
    (h : mkNet name modules (cs.map Conn.text) = .ok c) : ∃ l, Net modules cs l c := by
  obtain ⟨l, hl, hn, hC, -⟩ := C15_exact name modules cs c (fun p hp => (hm p hp).1) hg h
  exact ⟨l, hm, hg, hl, hn, hC, (built_reciprocal (.net name modules _ c (fun p hp => (hm p hp).1) h)).1⟩

section
variable {modules : Comps} {cs : List Conn} {l : Comps} {c : Comp}

theorem Net.orders (h : Net modules cs l c) : ∀ p ∈ l, OrderOK p.2 :=
  layout_children h.layout (fun _ _ h => h) fun p hp => (h.built p hp).2

theorem Net.nodups (h : Net modules cs l c) : ∀ p ∈ l, p.2.portOrder.Nodup :=
  fun p hp => (h.orders p hp).nodup_iff.mpr List.nodup_range

theorem unconnected_iff {c : Comp} (hs : ∀ i j, c.C i j = c.C j i) {g : ℕ} :
    Unconnected c g ↔ ∀ k < c.n, c.C g k = 0 :=
  ⟨fun h k hk => (h k hk).1, fun h k hk => ⟨h k hk, (hs k g).trans (h k hk)⟩⟩

/-- An open port is a numbered port of a component. -/
theorem Net.free_port (h : Net modules cs l c) {g : ℕ} (hg : g < c.n) (hu : Unconnected c g) :
    ∃ (x : Str) (d : Comp) (i : ℕ), (x, d) ∈ l ∧ i < (freePorts d).length ∧ PortOf l x i g := by
  obtain ⟨x, d, s, p, hbl, hp, rfl⟩ := block_of_port (layout_nodup h.layout) (h.n ▸ hg)
  have hup : Unconnected d p := by
    rw [unconnected_iff]
    · intro k hk
      by_contra hne
      have h1 := (h.conn (s + p) (s + k)).mpr (.inl ⟨x, d, s, p, k, hbl, hp, hk, rfl, rfl, hne⟩)
      have hlt : s + k < c.n := by
        rw [h.n]
        have := hbl.le
        omega
      exact h1 (hu _ hlt).1
    · have : ∀ p ∈ l, ∀ i j, p.2.C i j = p.2.C j i := layout_children h.layout (P := fun d => ∀ i j, d.C i j = d.C j i)
        (fun _ _ h => h) fun p hp => (built_reciprocal (h.built p hp).1).1
      exact this _ hbl.mem
  have hmem : p ∈ freePorts d := by
    unfold freePorts
    rw [List.mem_filter]
    refine ⟨(h.orders _ hbl.mem).mem_iff.mpr (List.mem_range.mpr hp), by simp [hp, hup]⟩
  obtain ⟨i, hi, hget⟩ := List.getElem_of_mem hmem
  exact ⟨x, d, i, hbl.mem, hi, d, s, p, hbl, .inl ⟨i, rfl, by rw [List.getElem?_eq_getElem hi, hget]⟩, rfl⟩

theorem mem_endpoints {e : Str × ℤ} : e ∈ endpoints cs ↔ ∃ a i b j, Conn.inner a i b j ∈ cs ∧ (e = (a, i) ∨ e = (b, j)) := by
  unfold endpoints
  rw [List.mem_flatMap]
  constructor
  · rintro ⟨d, hd, he⟩
    cases d with
    | inner a i b j => exact ⟨a, i, b, j, hd, by simpa [Conn.ends] using he⟩
    | outer a i p => simp [Conn.ends] at he
  · rintro ⟨a, i, b, j, hd, he⟩
    exact ⟨_, hd, by simpa [Conn.ends] using he⟩

/-- Ports mentioned by an internal connection are not open. -/
theorem Net.endpoint_connected (h : Net modules cs l c) {a b : Str} {i j : ℤ} (hc : Conn.inner a i b j ∈ cs) {ga gb : ℕ}
    (ha : PortOf l a i ga) (hb : PortOf l b j gb) : ¬ Unconnected c ga ∧ ¬ Unconnected c gb := by
  have h1 := (h.conn ga gb).mpr (.inr ⟨a, i, b, j, hc, .inl ⟨ha, hb⟩⟩)
  have h2 : c.C gb ga ≠ 0 := by rw [h.symm]; exact h1
  exact ⟨fun hu => h1 (hu _ (h.n ▸ hb.lt)).1, fun hu => h2 (hu _ (h.n ▸ ha.lt)).1⟩

/-- Ports not mentioned by any internal connection are open. -/
theorem Net.open_unconnected (h : Net modules cs l c) (hpos : ∀ e ∈ endpoints cs, 0 ≤ e.2) {x : Str} {i : ℤ} (hi : 0 ≤ i)
    (hx : (x, i) ∉ endpoints cs) {g : ℕ} (hp : PortOf l x i g) : Unconnected c g := by
  rw [unconnected_iff h.symm]
  intro k _
  by_contra hne
  rcases (h.conn g k).mp hne with hin | hdec
  · obtain ⟨y, d, s, i', j', hbl, hi', hj', he, -, hne⟩ := hin
    obtain ⟨d', s', q, hbl', hat, he'⟩ := hp
    have hpf := hat.mem
    unfold freePorts at hpf
    simp only [List.mem_filter, decide_eq_true_eq] at hpf
    obtain ⟨-, rfl, -, rfl⟩ := block_disjoint hbl hbl' hi' hpf.2.1 (he.symm.trans he')
    exact hne (hpf.2.2 _ hj').1
  · obtain ⟨a, m, b, m', hmem, hh⟩ := hdec
    have ha : (a, m) ∈ endpoints cs := mem_endpoints.mpr ⟨_, _, _, _, hmem, .inl rfl⟩
    have hb : (b, m') ∈ endpoints cs := mem_endpoints.mpr ⟨_, _, _, _, hmem, .inr rfl⟩
    rcases hh with ⟨h1, -⟩ | ⟨-, h1⟩
    · obtain ⟨rfl, rfl⟩ := portOf_inj h.nodups hi (hpos _ ha) hp h1
      exact hx ha
    · obtain ⟨rfl, rfl⟩ := portOf_inj h.nodups hi (hpos _ hb) hp h1
      exact hx hb

/-- Every existing numbered port is somewhere. -/
theorem Net.port_exists (h : Net modules cs l c) {x : Str} {d : Comp} {i : ℕ} (hx : (x, d) ∈ l)
    (hi : i < (freePorts d).length) : ∃ g, PortOf l x i g := by
  obtain ⟨pre, post, hl⟩ := List.append_of_mem hx
  refine ⟨width pre + (freePorts d)[i], d, width pre, (freePorts d)[i], ⟨pre, post, hl, ?_, rfl⟩,
    .inl ⟨i, rfl, List.getElem?_eq_getElem hi⟩, rfl⟩
  have := layout_nodup h.layout
  rw [hl, List.map_append, List.map_cons, List.nodup_append'] at this
  exact fun hx => this.2.2 hx (by simp)

end

theorem mem_firstMentions {cs : List Conn} {x : Str} : x ∈ firstMentions cs ↔ ∃ c ∈ cs, x ∈ c.names := by
  rw [firstMentions_eq, mem_dedupFirst, List.mem_flatMap]

theorem mem_outs {cs : List Conn} {a : Str} {i p : ℤ} : ((a, i), p) ∈ outs cs ↔ Conn.outer a i p ∈ cs := by
  unfold outs
  rw [List.mem_filterMap]
  constructor
  · rintro ⟨d, hd, he⟩
    cases d with
    | inner a i b j => cases he
    | outer a' i' p' =>
      simp only [Option.some.injEq, Prod.mk.injEq] at he
      obtain ⟨⟨rfl, rfl⟩, rfl⟩ := he
      exact hd
  · intro h
    exact ⟨_, h, rfl⟩

/-- A wiring plan: components `X` with `n x` ports each, the connections, and the list `D` of the ports that stay
free; connections and free ports together mention every port, and not more often than there are ports. -/
structure Plan (X : List Str) (n : Str → ℕ) (cs : List Conn) (D : List (Str × ℤ)) : Prop where
  nodup : X.Nodup
  good : ∀ x ∈ X, GoodName x
  cover : ∀ x ∈ X, ∀ i < n x, (x, (i : ℤ)) ∈ endpoints cs ∨ (x, (i : ℤ)) ∈ D
  count : (endpoints cs).length + D.length ≤ (X.map n).sum

section
variable {X : List Str} {n : Str → ℕ} {cs : List Conn} {D : List (Str × ℤ)}

theorem Plan.perm (h : Plan X n cs D) : (endpoints cs ++ D).Perm (allPorts X n) := by
  refine perm_of_cover (allPorts_nodup n h.nodup) ?_ ?_
  · intro e he
    obtain ⟨hx, i, hi, hei⟩ := mem_allPorts.mp he
    have := h.cover _ hx i hi
    rw [List.mem_append, ← hei] at *
    exact this
  · rw [List.length_append, allPorts_length]
    exact h.count

theorem Plan.all_nodup (h : Plan X n cs D) : (endpoints cs ++ D).Nodup :=
  h.perm.nodup_iff.mpr (allPorts_nodup n h.nodup)

theorem Plan.mem (h : Plan X n cs D) {e : Str × ℤ} (he : e ∈ endpoints cs ∨ e ∈ D) :
    e.1 ∈ X ∧ ∃ i : ℕ, i < n e.1 ∧ e.2 = i :=
  mem_allPorts.mp (h.perm.mem_iff.mp (List.mem_append.mpr he))

theorem Plan.usedOnce (h : Plan X n cs D) : UsedOnce cs := by
  refine ⟨(List.nodup_append'.mp h.all_nodup).1, fun e he => ?_⟩
  obtain ⟨-, i, -, hi⟩ := h.mem (.inl he)
  omega

theorem Plan.names (h : Plan X n cs D) (ho : ∀ a i p, Conn.outer a i p ∈ cs → a ∈ X) {x : Str} :
    (∃ c ∈ cs, x ∈ c.names) → x ∈ X := by
  rintro ⟨d, hd, hx⟩
  cases d with
  | inner a i b j =>
    simp only [Conn.names, List.mem_cons, List.not_mem_nil, or_false] at hx
    rcases hx with rfl | rfl
    · exact (h.mem (e := (x, i)) (.inl (mem_endpoints.mpr ⟨_, _, _, _, hd, .inl rfl⟩))).1
    · exact (h.mem (e := (x, j)) (.inl (mem_endpoints.mpr ⟨_, _, _, _, hd, .inr rfl⟩))).1
  | outer a i p =>
    simp only [Conn.names, List.mem_cons, List.not_mem_nil, or_false] at hx
    subst hx
    exact ho _ _ _ hd

theorem Plan.goodConns (h : Plan X n cs D) (ho : ∀ a i p, Conn.outer a i p ∈ cs → a ∈ X) : GoodConns cs :=
  fun c hc x hx => h.good x (h.names ho ⟨c, hc, hx⟩)

theorem Plan.portsExist (h : Plan X n cs D) {modules : Comps}
    (hmod : ∀ x ∈ X, ∃ d, dictGet x modules = some d ∧ (freePorts d).length = n x)
    (ho : ∀ a i p, Conn.outer a i p ∈ cs → (a, i) ∈ D) : PortsExist modules cs := by
  have key : ∀ e, e ∈ endpoints cs ∨ e ∈ D → HasPort modules e.1 e.2 := by
    intro e he
    obtain ⟨hx, i, hi, hei⟩ := h.mem he
    obtain ⟨d, hd, hl⟩ := hmod _ hx
    exact ⟨d, hd, by omega, by omega⟩
  intro d hd
  cases d with
  | inner a i b j =>
    refine ⟨key (a, i) (.inl (mem_endpoints.mpr ⟨_, _, _, _, hd, .inl rfl⟩)),
      key (b, j) (.inl (mem_endpoints.mpr ⟨_, _, _, _, hd, .inr rfl⟩)), ?_⟩
    rintro ⟨rfl, rfl⟩
    obtain ⟨-, h2, -⟩ := endpoint_unique h.usedOnce.1 hd hd
    exact h2 rfl rfl
  | outer a i p => exact key (a, i) (.inr (ho _ _ _ hd))

/-- External declarations in the order of their numbers. -/
theorem outs_perm (hD : ∀ (j : ℕ) e, D[j]? = some e → Conn.outer e.1 e.2 j ∈ cs) (hl : (outs cs).length ≤ D.length) :
    (outs cs).Perm (D.zipIdx.map fun p => (p.1, (p.2 : ℤ))) := by
  refine perm_of_cover ?_ ?_ (by simpa using hl)
  · refine List.Nodup.of_map Prod.snd ?_
    rw [List.map_map]
    have : (Prod.snd ∘ fun p : (Str × ℤ) × ℕ => (p.1, (p.2 : ℤ))) = (fun (k : ℕ) => (k : ℤ)) ∘ Prod.snd := rfl
    rw [this, ← List.map_map, List.zipIdx_map_snd]
    exact (List.nodup_map_iff (fun a b h => by exact_mod_cast h)).mpr (List.nodup_range' ..)
  · intro o ho
    rw [List.mem_map] at ho
    obtain ⟨⟨e, j⟩, he, rfl⟩ := ho
    rw [List.mem_zipIdx_iff_getElem?] at he
    exact mem_outs.mpr (hD j e he)

theorem outer_mem (hD : ∀ (j : ℕ) e, D[j]? = some e → Conn.outer e.1 e.2 j ∈ cs) (hl : (outs cs).length ≤ D.length)
    {a : Str} {i p : ℤ} (h : Conn.outer a i p ∈ cs) : ∃ j : ℕ, p = j ∧ D[j]? = some (a, i) := by
  have := (outs_perm hD hl).mem_iff.mp (mem_outs.mpr h)
  rw [List.mem_map] at this
  obtain ⟨⟨e, j⟩, he, heq⟩ := this
  simp only [Prod.mk.injEq] at heq
  rw [List.mem_zipIdx_iff_getElem?] at he
  exact ⟨j, heq.2.symm, by rw [← heq.1]; exact he⟩

theorem Plan.contiguous (h : Plan X n cs D) (hD : ∀ (j : ℕ) e, D[j]? = some e → Conn.outer e.1 e.2 j ∈ cs)
    (hl : (outs cs).length ≤ D.length) : Contiguous cs ∧ Separate cs := by
  have hp := outs_perm hD hl
  have hlen : (outs cs).length = D.length := by simpa using hp.length_eq
  have hsub : ∀ o ∈ outs cs, o.1 ∈ D := by
    rintro ⟨⟨a, i⟩, p⟩ ho
    obtain ⟨j, -, hj⟩ := outer_mem hD hl (mem_outs.mp ho)
    exact List.mem_of_getElem? hj
  refine ⟨⟨?_, ?_, ?_⟩, ?_, h.usedOnce.2⟩
  · refine (hp.map Prod.snd).trans ?_
    rw [List.map_map, hlen]
    have : (Prod.snd ∘ fun p : (Str × ℤ) × ℕ => (p.1, (p.2 : ℤ))) = (fun (k : ℕ) => (k : ℤ)) ∘ Prod.snd := rfl
    rw [this, ← List.map_map, List.zipIdx_map_snd, List.range_eq_range']
  · refine (hp.map Prod.fst).nodup_iff.mpr ?_
    rw [List.map_map]
    have : (Prod.fst ∘ fun p : (Str × ℤ) × ℕ => (p.1, (p.2 : ℤ))) = Prod.fst := rfl
    rw [this, List.zipIdx_map_fst]
    exact (List.nodup_append'.mp h.all_nodup).2.1
  · intro o ho
    obtain ⟨-, i, -, hi⟩ := h.mem (.inr (hsub o ho))
    omega
  · intro o ho he
    exact (List.nodup_append'.mp h.all_nodup).2.2 he (hsub o ho)

end

theorem layout_get {modules l : Comps} {cs : List Conn} (hl : Layout modules cs l) {x : Str} {d : Comp}
    (h : (x, d) ∈ l) : ∃ e, dictGet x modules = some e ∧ freePorts e = freePorts d ∧ x ∈ firstMentions cs := by
  obtain ⟨e, he, hd⟩ := hl.2 _ h
  refine ⟨e, he, ?_, ?_⟩
  · simp only at hd
    rw [hd]; rfl
  · rw [← hl.1]; exact List.mem_map.mpr ⟨_, h, rfl⟩

/-- The ports of the network, in their numbering. -/
def PortsAre (modules : Comps) (cs : List Conn) (c : Comp) (D : List (Str × ℤ)) : Prop :=
  ∀ l, Layout modules cs l → List.Forall₂ (fun e g => PortOf l e.1 e.2 g) D (freePorts c)

/-- Networks with declared external ports, made of components numbering their ports in order. -/
theorem wire_declared {X : List Str} {n : Str → ℕ} {cs : List Conn} {D : List (Str × ℤ)} {modules : Comps}
    (name : Option Str) (h : Plan X n cs D)
    (hm : ∀ p ∈ modules, Built p.2 ∧ p.2.portOrder = List.range p.2.n)
    (hmod : ∀ x ∈ X, ∃ d, dictGet x modules = some d ∧ (freePorts d).length = n x)
    (hD : ∀ (j : ℕ) e, D[j]? = some e → Conn.outer e.1 e.2 j ∈ cs) (hl : (outs cs).length ≤ D.length) (hne : cs ≠ []) :
    GoodConns cs ∧ UsedOnce cs ∧ Contiguous cs ∧
      ∃ c, mkNet name modules (cs.map Conn.text) = .ok c ∧ PortsAre modules cs c D := by
  have hm' : ∀ p ∈ modules, Built p.2 ∧ OrderOK p.2 :=
    fun p hp => ⟨(hm p hp).1, by unfold OrderOK; rw [(hm p hp).2]⟩
  have ho : ∀ a i p, Conn.outer a i p ∈ cs → (a, i) ∈ D := by
    intro a i p hc
    obtain ⟨j, -, hj⟩ := outer_mem hD hl hc
    exact List.mem_of_getElem? hj
  have hg := h.goodConns fun a i p hc => (h.mem (.inr (ho a i p hc))).1
  obtain ⟨hcont, hsep⟩ := h.contiguous hD hl
  obtain ⟨c, hc⟩ := mkNet_accepts name modules cs hm' hg hne (h.portsExist hmod ho) hcont
  refine ⟨hg, h.usedOnce, hcont, c, hc, ?_⟩
  intro l hlay
  obtain ⟨-, hnum⟩ := C17_numbering name modules cs c hm hg hcont hsep hc
  obtain ⟨h1, -, h3⟩ := hnum l hlay
  obtain ⟨l', hnet⟩ := Net.of_mk hm' hg hc
  obtain rfl := layout_unique hnet.layout hlay
  have hlen : (outs cs).length = D.length := by simpa using (outs_perm hD hl).length_eq
  have hdrop : (freePorts c).drop D.length = [] := by
    rw [← hlen, List.eq_nil_iff_forall_not_mem]
    intro g hg'
    obtain ⟨⟨hlt, hu⟩, hno⟩ := (h3 g).mp hg'
    obtain ⟨x, d, i, hxd, hi, hp⟩ := hnet.free_port hlt hu
    obtain ⟨e, he, hfe, hx⟩ := layout_get hlay hxd
    have hxX : x ∈ X := h.names (fun a i p hc => (h.mem (.inr (ho a i p hc))).1) (mem_firstMentions.mp hx)
    obtain ⟨d', hd', hn'⟩ := hmod x hxX
    rw [he] at hd'
    simp only [Option.some.injEq] at hd'
    subst hd'
    rcases h.cover x hxX i (by rw [← hn', hfe]; exact hi) with hend | hend
    · obtain ⟨a, i', b, j', hcc, hab⟩ := mem_endpoints.mp hend
      have hex : ∀ y m, (y, m) ∈ endpoints cs → ∃ g, PortOf l' y m g := by
        intro y m hy
        obtain ⟨hyX, k, hk, rfl⟩ := h.mem (.inl hy)
        have hyf : y ∈ firstMentions cs := by
          rw [mem_firstMentions]
          obtain ⟨a, i, b, j, hc, hy⟩ := mem_endpoints.mp hy
          refine ⟨_, hc, ?_⟩
          rcases hy with hy | hy <;> simp only [Prod.mk.injEq] at hy <;> simp [Conn.names, hy.1]
        rw [← hlay.1, List.mem_map] at hyf
        obtain ⟨⟨y', dy⟩, hyl, rfl⟩ := hyf
        obtain ⟨e', he', hfe', -⟩ := layout_get hlay hyl
        obtain ⟨d'', hd'', hn''⟩ := hmod _ hyX
        rw [he'] at hd''
        simp only [Option.some.injEq] at hd''
        subst hd''
        exact hnet.port_exists hyl (by rw [← hfe', hn'']; exact hk)
      obtain ⟨ga, hga⟩ := hex a i' (mem_endpoints.mpr ⟨_, _, _, _, hcc, .inl rfl⟩)
      obtain ⟨gb, hgb⟩ := hex b j' (mem_endpoints.mpr ⟨_, _, _, _, hcc, .inr rfl⟩)
      obtain ⟨u1, u2⟩ := hnet.endpoint_connected hcc hga hgb
      have hch : ChildrenOK l' := layout_children hlay (P := fun d => Reciprocal d.n d.C) (fun _ _ h => h)
        fun p hp => built_reciprocal (hm p hp).1
      rcases hab with hab | hab <;> simp only [Prod.mk.injEq] at hab <;> obtain ⟨rfl, rfl⟩ := hab
      · rw [portOf_det hch hp hga] at hu; exact u1 hu
      · rw [portOf_det hch hp hgb] at hu; exact u2 hu
    · obtain ⟨j, hj⟩ := List.getElem?_of_mem hend
      exact hno ⟨x, i, j, hD j _ hj, hp⟩
  have hat : ∀ (j : ℕ) (e : Str × ℤ), D[j]? = some e → ∃ g, PortOf l' e.1 e.2 g ∧ (freePorts c)[j]? = some g := by
    intro j e he
    obtain ⟨j', g, hjj, hp, hg'⟩ := h1 _ _ _ (hD j e he)
    have : j = j' := by exact_mod_cast hjj
    subst this
    exact ⟨g, hp, hg'⟩
  have hle : (freePorts c).length ≤ D.length := List.drop_eq_nil_iff.mp hdrop
  have hge : D.length ≤ (freePorts c).length := by
    by_contra hlt
    push Not at hlt
    obtain ⟨g, -, hg'⟩ := hat (freePorts c).length D[(freePorts c).length] (List.getElem?_eq_getElem hlt)
    rw [List.getElem?_eq_none (le_refl _)] at hg'
    cases hg'
  rw [List.forall₂_iff_get]
  refine ⟨by omega, fun j hj hj' => ?_⟩
  obtain ⟨g, hp, hg'⟩ := hat j D[j] (List.getElem?_eq_getElem hj)
  rw [List.getElem?_eq_getElem hj'] at hg'
  simp only [Option.some.injEq] at hg'
  simpa [hg'] using hp

/-- The numbered ports of a layout, one component after the other. -/
def chainNames : Comps → List (Str × ℤ)
  | [] => []
  | (x, c) :: l => ((List.range (freePorts c).length).map fun (i : ℕ) => (x, (i : ℤ))) ++ chainNames l

theorem chain_forall₂ {l : Comps} (hnd : (l.map Prod.fst).Nodup) : ∀ (post pre : Comps), l = pre ++ post →
    List.Forall₂ (fun e g => PortOf l e.1 e.2 g ∧ 0 ≤ e.2) (chainNames post) (chainPorts post (width pre)) := by
  intro post
  induction post with
  | nil => intro pre _; exact .nil
  | cons q post ih =>
    obtain ⟨x, c⟩ := q
    intro pre hl
    have hbl : Block l x c (width pre) := by
      refine ⟨pre, post, hl, ?_, rfl⟩
      rw [hl, List.map_append, List.map_cons, List.nodup_append'] at hnd
      exact fun hx => hnd.2.2 hx (by simp)
    refine List.rel_append ?_ ?_
    · rw [List.forall₂_iff_get]
      refine ⟨by simp, fun j hj hj' => ?_⟩
      simp only [List.get_eq_getElem, List.getElem_map, List.getElem_range]
      simp only [List.length_map] at hj'
      exact ⟨⟨c, width pre, _, hbl, .inl ⟨j, rfl, List.getElem?_eq_getElem hj'⟩, rfl⟩, by omega⟩
    · have hw : width (pre ++ [(x, c)]) = width pre + c.n := by simp [width]
      rw [← hw]
      exact ih (pre ++ [(x, c)]) (by rw [hl]; simp)

/-- Networks without external declarations, to any depth. -/
theorem wire_open {X : List Str} {n : Str → ℕ} {cs : List Conn} {D : List (Str × ℤ)} {modules : Comps}
    (name : Option Str) (h : Plan X n cs D)
    (hm : ∀ p ∈ modules, Built p.2 ∧ OrderOK p.2)
    (hmod : ∀ x ∈ X, ∃ d, dictGet x modules = some d ∧ (freePorts d).length = n x)
    (hno : outs cs = []) (hne : cs ≠ [])
    (hD : D = (allPorts (firstMentions cs) n).filter fun e => decide (e ∉ endpoints cs)) :
    GoodConns cs ∧ UsedOnce cs ∧ Contiguous cs ∧
      ∃ c, mkNet name modules (cs.map Conn.text) = .ok c ∧ PortsAre modules cs c D := by
  have hnoo : ∀ a i p, Conn.outer a i p ∉ cs := by
    intro a i p hc
    have := mem_outs.mpr hc
    rw [hno] at this
    cases this
  have hg := h.goodConns fun a i p hc => absurd hc (hnoo a i p)
  have hcont : Contiguous cs := by unfold Contiguous; rw [hno]; simp
  obtain ⟨c, hc⟩ := mkNet_accepts name modules cs hm hg hne
    (h.portsExist hmod fun a i p hc => absurd hc (hnoo a i p)) hcont
  refine ⟨hg, h.usedOnce, hcont, c, hc, ?_⟩
  intro l hlay
  obtain ⟨l', hnet⟩ := Net.of_mk hm hg hc
  obtain rfl := layout_unique hnet.layout hlay
  have hfree := C18_numbering_partial name modules cs c hm hg hno hc l' hlay
  have hrec := built_reciprocal (.net name modules _ c (fun p hp => (hm p hp).1) hc)
  rw [free_eq hrec.2.1] at hfree
  have hexp : ∀ q ∈ l', (freePorts q.2).length = n q.1 := by
    intro q hq
    obtain ⟨e, he, hfe, hx⟩ := layout_get hlay (x := q.1) (d := q.2) hq
    have hxX : q.1 ∈ X := h.names (fun a i p hc => absurd hc (hnoo a i p)) (mem_firstMentions.mp hx)
    obtain ⟨d', hd', hn'⟩ := hmod _ hxX
    rw [he] at hd'
    simp only [Option.some.injEq] at hd'
    subst hd'
    rw [← hfe, hn']
  have hnames : chainNames l' = allPorts (firstMentions cs) n := by
    rw [← hlay.1]
    clear hfree hnet hlay
    induction l' with
    | nil => rfl
    | cons q l' ih =>
      have h1 := hexp q (by simp)
      have h2 := ih fun q hq => hexp q (by simp [hq])
      obtain ⟨x, d⟩ := q
      simp only [chainNames, allPorts, List.map_cons, List.flatMap_cons] at h1 h2 ⊢
      rw [h1, h2]
  have hF := chain_forall₂ (layout_nodup hlay) l' [] rfl
  rw [hnames] at hF
  have hF2 := forall₂_filter (p := fun e => decide (e ∉ endpoints cs))
    (q := fun g => decide (g < c.n ∧ Unconnected c g)) ?_ hF
  · rw [show width ([] : Comps) = 0 from rfl, ← hfree, ← hD] at hF2
    exact hF2.imp fun _ _ h => h.1
  · rintro ⟨x, i⟩ g ⟨hp, hi⟩
    apply decide_eq_decide.mpr
    constructor
    · intro hx
      exact ⟨hnet.n ▸ hp.lt, hnet.open_unconnected h.usedOnce.2 hi hx hp⟩
    · rintro ⟨-, hu⟩ hx
      obtain ⟨a, i', b, j', hcc, hab⟩ := mem_endpoints.mp hx
      have hex : ∀ y m, (y, m) ∈ endpoints cs → ∃ g, PortOf l' y m g := by
        intro y m hy
        obtain ⟨hyX, k, hk, rfl⟩ := h.mem (.inl hy)
        have hyf : y ∈ firstMentions cs := by
          rw [mem_firstMentions]
          obtain ⟨a, i, b, j, hc, hy⟩ := mem_endpoints.mp hy
          refine ⟨_, hc, ?_⟩
          rcases hy with hy | hy <;> simp only [Prod.mk.injEq] at hy <;> simp [Conn.names, hy.1]
        rw [← hlay.1, List.mem_map] at hyf
        obtain ⟨⟨y', dy⟩, hyl, rfl⟩ := hyf
        exact hnet.port_exists hyl (by rw [hexp _ hyl]; exact hk)
      obtain ⟨ga, hga⟩ := hex a i' (mem_endpoints.mpr ⟨_, _, _, _, hcc, .inl rfl⟩)
      obtain ⟨gb, hgb⟩ := hex b j' (mem_endpoints.mpr ⟨_, _, _, _, hcc, .inr rfl⟩)
      obtain ⟨u1, u2⟩ := hnet.endpoint_connected hcc hga hgb
      have hch : ChildrenOK l' := layout_children hlay (P := fun d => Reciprocal d.n d.C) (fun _ _ h => h)
        fun p hp => built_reciprocal (hm p hp).1
      rcases hab with hab | hab <;> simp only [Prod.mk.injEq] at hab <;> obtain ⟨rfl, rfl⟩ := hab
      · rw [portOf_det hch hp hga] at hu; exact u1 hu
      · rw [portOf_det hch hp hgb] at hu; exact u2 hu

end PT
