import Verif.Proof.MeshTerm
import Verif.Proof.NetEqs
import Verif.Spec.Named

/-! Proof support: the ports of a circuit of named components, by name. -/

namespace PT
open Spec Matrix

/-- The first port of a component. -/
def pos : List (Str × Part) → Str → ℕ
  | [], _ => 0
  | (y, p) :: l, x => if y = x then 0 else p.n + pos l x

/-- Waves given by names, by the numbers of the ports. -/
def laid : List (Str × Part) → (Str → ℕ → ℂ) → ℕ → ℂ
  | [], _, _ => 0
  | (x, p) :: l, A, g => if g < p.n then A x g else laid l A (g - p.n)

variable {l : List (Str × Part)}

theorem pos_partAt : ∀ {l : List (Str × Part)}, (l.map Prod.fst).Nodup → ∀ {x : Str} {p : Part}, (x, p) ∈ l →
    ∃ k, ∀ i < p.n, partAt (l.map Prod.snd) (pos l x + i) = some (k, p, i)
  | [], _, _, _, h => by cases h
  | (y, q) :: l, hn, x, p, h => by
    simp only [List.map_cons, List.nodup_cons] at hn
    rcases List.mem_cons.mp h with h | h
    · simp only [Prod.mk.injEq] at h
      obtain ⟨rfl, rfl⟩ := h
      refine ⟨0, fun i hi => ?_⟩
      simp only [pos, if_pos, Nat.zero_add, List.map_cons, partAt]
      rw [if_pos hi]
    · have hne : y ≠ x := by
        rintro rfl
        exact hn.1 (List.mem_map.mpr ⟨_, h, rfl⟩)
      obtain ⟨k, hk⟩ := pos_partAt hn.2 h
      refine ⟨k + 1, fun i hi => ?_⟩
      simp only [pos, if_neg hne, List.map_cons, partAt]
      rw [if_neg (by omega), show q.n + pos l x + i - q.n = pos l x + i by omega, hk i hi]
      rfl

theorem pos_laid : ∀ {l : List (Str × Part)}, (l.map Prod.fst).Nodup → ∀ {x : Str} {p : Part}, (x, p) ∈ l →
    ∀ (A : Str → ℕ → ℂ) i, i < p.n → laid l A (pos l x + i) = A x i
  | [], _, _, _, h => by cases h
  | (y, q) :: l, hn, x, p, h => by
    simp only [List.map_cons, List.nodup_cons] at hn
    intro A i hi
    rcases List.mem_cons.mp h with h | h
    · simp only [Prod.mk.injEq] at h
      obtain ⟨rfl, rfl⟩ := h
      simp only [pos, if_pos, Nat.zero_add, laid]
      rw [if_pos hi]
    · have hne : y ≠ x := by
        rintro rfl
        exact hn.1 (List.mem_map.mpr ⟨_, h, rfl⟩)
      simp only [pos, if_neg hne, laid]
      rw [if_neg (by omega), show q.n + pos l x + i - q.n = pos l x + i by omega, pos_laid hn.2 h A i hi]

theorem partAt_pos : ∀ {l : List (Str × Part)}, (l.map Prod.fst).Nodup → ∀ {g k : ℕ} {p : Part} {i : ℕ},
    partAt (l.map Prod.snd) g = some (k, p, i) → ∃ x, (x, p) ∈ l ∧ g = pos l x + i ∧ i < p.n
  | [], _, _, _, _, _, h => by cases h
  | (y, q) :: l, hn, g, k, p, i, h => by
    simp only [List.map_cons, List.nodup_cons] at hn
    simp only [List.map_cons, partAt] at h
    split at h
    · rename_i hg
      simp only [Option.some.injEq, Prod.mk.injEq] at h
      obtain ⟨-, rfl, rfl⟩ := h
      exact ⟨y, List.mem_cons_self, by simp [pos], hg⟩
    · rename_i hg
      rw [Option.map_eq_some_iff] at h
      obtain ⟨⟨k', p', i'⟩, h1, h2⟩ := h
      simp only [Prod.mk.injEq] at h2
      obtain ⟨-, rfl, rfl⟩ := h2
      obtain ⟨x, hx, he, hi⟩ := partAt_pos hn.2 h1
      have hne : y ≠ x := by
        rintro rfl
        exact hn.1 (List.mem_map.mpr ⟨_, hx, rfl⟩)
      exact ⟨x, List.mem_cons_of_mem _ hx, by simp only [pos, if_neg hne]; omega, hi⟩

theorem pos_inj : ∀ {l : List (Str × Part)}, (l.map Prod.fst).Nodup → ∀ {x y : Str} {p q : Part} {i j : ℕ}, (x, p) ∈ l →
    (y, q) ∈ l → i < p.n → j < q.n → pos l x + i = pos l y + j → x = y ∧ i = j := by
  intro l hn x y p q i j hx hy hi hj h
  have h1 := pos_laid hn hx (fun z k => if z = x then (1 : ℂ) else 0) i hi
  have h2 := pos_laid hn hy (fun z k => if z = x then (1 : ℂ) else 0) j hj
  have h3 := pos_laid hn hx (fun z k => (k : ℂ)) i hi
  have h4 := pos_laid hn hy (fun z k => (k : ℂ)) j hj
  rw [h] at h1 h3
  have e1 := h1.symm.trans h2
  have e2 : (i : ℂ) = j := h3.symm.trans h4
  refine ⟨?_, by exact_mod_cast e2⟩
  by_contra hne
  rw [if_pos rfl, if_neg fun e => hne e.symm] at e1
  exact one_ne_zero e1

/-- How the parts of a circuit come to lie in a network. -/
structure Placed (ord : List Str) (parts : List (Str × Part)) (cs : List Conn) (l : List (Str × Part)) (d : Dev) : Prop where
  made : MadeOf (fun _ => True) d
  flat : Flat d (l.map Prod.snd)
  term : d.comp.terminated = true
  order : l.map Prod.fst = ord
  nodup : (l.map Prod.fst).Nodup
  mem : ∀ q, q ∈ l ↔ q ∈ parts
  conn : ∀ a i b j, Joined cs a i b j → d.comp.C (pos l a + i) (pos l b + j) ≠ 0
  cover : ∀ q ∈ parts, ∀ i < q.2.n, ∃ b p j, (b, p) ∈ parts ∧ j < p.n ∧ Joined cs q.1 i b j
  fits : ∀ a i b j, Joined cs a i b j → ∃ p, (a, p) ∈ parts ∧ i < p.n

theorem block_pos : ∀ (l : List (Str × Part)), (l.map Prod.fst).Nodup → ∀ {x : Str} {p : Part}, (x, p) ∈ l →
    Block (l.map fun q => (q.1, { q.2.comp with name := some q.1 })) x { p.comp with name := some x } (pos l x)
  | [], _, _, _, h => by cases h
  | (y, q) :: l, hn, x, p, h => by
    simp only [List.map_cons, List.nodup_cons] at hn
    rcases List.mem_cons.mp h with h | h
    · simp only [Prod.mk.injEq] at h
      obtain ⟨rfl, rfl⟩ := h
      exact ⟨[], _, rfl, by simp, by simp [pos, width]⟩
    · have hne : y ≠ x := by
        rintro rfl
        exact hn.1 (List.mem_map.mpr ⟨_, h, rfl⟩)
      obtain ⟨pre, post, h1, h2, h3⟩ := block_pos l hn.2 h
      refine ⟨(y, { q.comp with name := some y }) :: pre, post, by rw [List.map_cons, h1]; rfl, ?_, ?_⟩
      · simp only [List.map_cons, List.mem_cons, not_or]
        exact ⟨fun e => hne e.symm, h2⟩
      · simp only [pos, if_neg hne, h3, width, List.map_cons, List.sum_cons]
        rw [← part_n q]

theorem mem_portNames {parts : List (Str × Part)} {e : Str × ℤ} :
    e ∈ portNames parts ↔ ∃ q ∈ parts, ∃ i : ℕ, i < q.2.n ∧ e = (q.1, (i : ℤ)) := by
  unfold portNames
  simp only [List.mem_flatMap, List.mem_map, List.mem_range]
  constructor
  · rintro ⟨q, hq, i, hi, rfl⟩
    exact ⟨q, hq, i, hi, rfl⟩
  · rintro ⟨q, hq, i, hi, rfl⟩
    exact ⟨q, hq, i, hi, rfl⟩

theorem joined_ends {cs : List Conn} {a b : Str} {i j : ℕ} (h : Joined cs a i b j) :
    (a, (i : ℤ)) ∈ endpoints cs ∧ (b, (j : ℤ)) ∈ endpoints cs := by
  rcases h with h | h
  · exact ⟨mem_endpoints.mpr ⟨_, _, _, _, h, .inl rfl⟩, mem_endpoints.mpr ⟨_, _, _, _, h, .inr rfl⟩⟩
  · exact ⟨mem_endpoints.mpr ⟨_, _, _, _, h, .inr rfl⟩, mem_endpoints.mpr ⟨_, _, _, _, h, .inl rfl⟩⟩

theorem joined_symm {cs : List Conn} {a b : Str} {i j : ℕ} (h : Joined cs a i b j) : Joined cs b j a i := h.symm

/-- A closed circuit can be built, and its parts lie in the network in the order in which they are mentioned. -/
theorem closed_placed {parts : List (Str × Part)} {cs : List Conn} (h : Closed parts cs) (name : Option Str) :
    ∃ d l, mkDev name (parts.map fun q => (q.1, q.2.dev)) (cs.map Conn.text) = .ok d ∧ Placed (firstMentions cs) parts cs l d := by
  have hget : ∀ q ∈ parts, dictGet q.1 parts = some q.2 := fun q hq => dictGet_of_mem h.names hq
  let n : Str → ℕ := fun x => ((dictGet x parts).map Part.n).getD 0
  have hn : ∀ q ∈ parts, n q.1 = q.2.n := by
    intro q hq
    show ((dictGet q.1 parts).map Part.n).getD 0 = _
    rw [hget q hq]
    rfl
  have hplan : Plan (parts.map Prod.fst) n cs [] := by
    refine ⟨h.names, ?_, ?_, ?_⟩
    · intro x hx
      obtain ⟨q, hq, rfl⟩ := List.mem_map.mp hx
      exact h.good q hq
    · intro x hx i hi
      obtain ⟨q, hq, rfl⟩ := List.mem_map.mp hx
      left
      exact h.ports.mem_iff.mpr (mem_portNames.mpr ⟨q, hq, i, by rw [← hn q hq]; exact hi, rfl⟩)
    · have e1 := h.ports.length_eq
      have e2 : (portNames parts).length = (parts.map fun q => q.2.n).sum := by
        unfold portNames
        rw [List.length_flatMap]
        simp
      have e3 : ((parts.map Prod.fst).map n) = parts.map fun q => q.2.n := by
        rw [List.map_map]
        exact List.map_congr_left fun q hq => hn q hq
      rw [e3, e1, e2]
      simp
  have hne : cs ≠ [] := by
    rintro rfl
    have := h.ports.length_eq
    cases hp : parts with
    | nil => exact h.nonempty hp
    | cons q l =>
      have hq : q ∈ parts := by rw [hp]; exact List.mem_cons_self
      have : (q.1, ((0 : ℕ) : ℤ)) ∈ endpoints [] := h.ports.mem_iff.mpr (mem_portNames.mpr ⟨q, hq, 0, h.sized q hq, rfl⟩)
      cases this
  obtain ⟨d, hd, hmade⟩ := leaf_made (P := fun _ => True) (parts := parts) name hplan rfl
    (fun q hq => ⟨trivial, h.sized q hq⟩) (by
      intro x hx
      obtain ⟨q, hq, rfl⟩ := List.mem_map.mp hx
      exact ⟨q.2, hget q hq, (hn q hq).symm⟩) (by simp) (by simp [h.inner]) hne
  have hg : GoodConns cs := hplan.goodConns (fun a i p hc => by
    have : ((a, i), p) ∈ outs cs := mem_outs.mpr hc
    rw [h.inner] at this
    cases this)
  obtain ⟨l₀, hl₀, hlay, hk, hb, hdev⟩ := mkDev_ok hg hd
  -- the children are parts
  have hparts : ∃ l : List (Str × Part), l₀ = l.map (fun q => (q.1, q.2.dev)) ∧ ∀ q ∈ l, q ∈ parts := by
    clear hlay hk hb hdev
    induction l₀ with
    | nil => exact ⟨[], rfl, by simp⟩
    | cons q l₀ ih =>
      obtain ⟨l, h1, h2⟩ := ih fun p hp => hl₀ p (List.mem_cons_of_mem _ hp)
      have hq := hl₀ q List.mem_cons_self
      rw [dictGet_map, Option.map_eq_some_iff] at hq
      obtain ⟨p, hp, hpq⟩ := hq
      refine ⟨(q.1, p) :: l, by rw [List.map_cons, ← h1, hpq], ?_⟩
      intro r hr
      rcases List.mem_cons.mp hr with rfl | hr
      · exact dictGet_mem hp
      · exact h2 r hr
  obtain ⟨l, rfl, hlp⟩ := hparts
  have horder : l.map Prod.fst = firstMentions cs := by
    have := hlay.1
    simp only [List.map_map] at this
    exact this
  have hnd : (l.map Prod.fst).Nodup := by
    have := layout_nodup hlay
    simp only [List.map_map] at this
    exact this
  have hmem : ∀ q, q ∈ l ↔ q ∈ parts := by
    refine fun q => ⟨hlp q, fun hq => ?_⟩
    have he : (q.1, ((0 : ℕ) : ℤ)) ∈ endpoints cs := h.ports.mem_iff.mpr (mem_portNames.mpr ⟨q, hq, 0, h.sized q hq, rfl⟩)
    have hf : q.1 ∈ firstMentions cs := by
      rw [mem_firstMentions]
      obtain ⟨a, i, b, j, hc, hy⟩ := mem_endpoints.mp he
      refine ⟨_, hc, ?_⟩
      rcases hy with hy | hy <;> simp only [Prod.mk.injEq] at hy <;> simp [Conn.names, hy.1]
    rw [← horder, List.mem_map] at hf
    obtain ⟨⟨x, p⟩, hr, hx⟩ := hf
    have h1 := hget _ (hlp _ hr)
    simp only at hx h1
    rw [hx, hget q hq] at h1
    simp only [Option.some.injEq] at h1
    have : q = (x, p) := Prod.ext hx.symm h1
    rw [this]
    exact hr
  have hfits : ∀ a i b j, Joined cs a i b j → ∃ p, (a, p) ∈ parts ∧ i < p.n := by
    intro a i b j hj
    obtain ⟨q, hq, i', hi', he⟩ := mem_portNames.mp (h.ports.mem_iff.mp (joined_ends hj).1)
    simp only [Prod.mk.injEq] at he
    obtain ⟨rfl, he⟩ := he
    have : i = i' := by exact_mod_cast he
    subst this
    exact ⟨q.2, hq, hi'⟩
  have hport : ∀ a p i, (a, p) ∈ l → i < p.n → PortOf (l.map fun q => (q.1, { q.2.comp with name := some q.1 })) a (i : ℕ) (pos l a + i) := by
    intro a p i ha hi
    refine ⟨_, _, i, block_pos l hnd ha, .inl ⟨i, rfl, ?_⟩, rfl⟩
    have : freePorts { p.comp with name := some a } = List.range p.n := part_free p
    rw [this, List.getElem?_range hi]
  have hlay' : Layout (comps (parts.map fun q => (q.1, q.2.dev))) cs (l.map fun q => (q.1, { q.2.comp with name := some q.1 })) := by
    rw [List.map_map] at hlay
    exact hlay
  obtain ⟨l', hl', -, hC, -⟩ := C15_exact name _ cs d.comp (by
    intro p hp
    simp only [comps, List.map_map, List.mem_map] at hp
    obtain ⟨q, hq, rfl⟩ := hp
    exact (MadeOf.part (P := fun _ => True) q.2 trivial (h.sized q hq)).ok.1) hg hk
  obtain rfl := layout_unique hlay' hl'
  refine ⟨d, l, hd, hmade.made, ?_, ?_, horder, hnd, hmem, ?_, ?_, hfits⟩
  · obtain ⟨-, -, hw, -, hs, hdt, ha, -, -⟩ := netBuffers_ok hb
    rw [hdev]
    refine netDev_parts _ l ?_ ?_ ?_ ?_
    · rw [hw, width, List.map_map, List.map_map]; rfl
    · rw [hs, List.map_map, List.flatMap_map]; rfl
    · rw [hdt, List.map_map, List.flatMap_map]; rfl
    · rw [ha, List.map_map, List.flatMap_map]; rfl
  · exact terminated_of_free hmade.made.ok.1 hmade.made.ok.2 (by rw [hmade.len]; rfl)
  · intro a i b j hj
    obtain ⟨p, hp, hi⟩ := hfits a i b j hj
    obtain ⟨p', hp', hi'⟩ := hfits b j a i (joined_symm hj)
    have ha := hport a p i ((hmem _).mpr hp) hi
    have hb := hport b p' j ((hmem _).mpr hp') hi'
    rw [hC]
    right
    rcases hj with hj | hj
    · exact ⟨_, _, _, _, hj, .inl ⟨ha, hb⟩⟩
    · exact ⟨_, _, _, _, hj, .inr ⟨hb, ha⟩⟩
  · intro q hq i hi
    have he : (q.1, (i : ℤ)) ∈ endpoints cs := h.ports.mem_iff.mpr (mem_portNames.mpr ⟨q, hq, i, hi, rfl⟩)
    obtain ⟨a, i', b, j', hc, hy⟩ := mem_endpoints.mp he
    obtain ⟨qa, hqa, ia, hia, ea⟩ := mem_portNames.mp (h.ports.mem_iff.mp (mem_endpoints.mpr ⟨_, _, _, _, hc, .inl rfl⟩))
    obtain ⟨qb, hqb, ib, hib, eb⟩ := mem_portNames.mp (h.ports.mem_iff.mp (mem_endpoints.mpr ⟨_, _, _, _, hc, .inr rfl⟩))
    simp only [Prod.mk.injEq] at ea eb hy
    obtain ⟨rfl, rfl⟩ := ea
    obtain ⟨rfl, rfl⟩ := eb
    rcases hy with ⟨h1, h2⟩ | ⟨h1, h2⟩
    · have h2' : i = ia := by exact_mod_cast h2
      subst h2'
      exact ⟨qb.1, qb.2, ib, hqb, hib, by rw [h1]; exact .inl hc⟩
    · have h2' : i = ib := by exact_mod_cast h2
      subst h2'
      exact ⟨qa.1, qa.2, ia, hqa, hia, by rw [h1]; exact .inr hc⟩


variable {W : Type} {ord : List Str} {parts : List (Str × Part)} {cs : List Conn} {d : Dev}

theorem entry_sum (p : Part) (wl : ℝ) (i : Fin p.n) (x : ℕ → ℂ) :
    ∑ q ∈ Finset.range p.n, p.dev.entry wl i q * x q = ∑ j, scattering p wl i j * x j := by
  rw [Finset.sum_range]
  exact Finset.sum_congr rfl fun j _ => by rw [entry_scattering]

/-- Every port has a name. -/
theorem Placed.name (h : Placed ord parts cs l d) (g : Fin d.comp.n) :
    ∃ x p k i, (x, p) ∈ parts ∧ i < p.n ∧ g = pos l x + i ∧ partAt (l.map Prod.snd) g = some (k, p, i) := by
  obtain ⟨k, p, i, hg⟩ := partAt_exists (l.map Prod.snd) (i := g) (by rw [← h.flat.n]; exact g.2)
  obtain ⟨x, hx, he, hi⟩ := partAt_pos h.nodup hg
  exact ⟨x, p, k, i, (h.mem _).mp hx, hi, he, hg⟩

theorem Placed.lt (h : Placed ord parts cs l d) {x : Str} {p : Part} (hx : (x, p) ∈ parts) {i : ℕ} (hi : i < p.n) :
    pos l x + i < d.comp.n := by
  obtain ⟨k, hk⟩ := pos_partAt h.nodup ((h.mem _).mpr hx)
  exact partAt_bound h.flat (hk i hi)

theorem Placed.seq_laid (h : Placed ord parts cs l d) (A : Str → ℕ → ℂ) {x : Str} {p : Part} (hx : (x, p) ∈ parts) {i : ℕ}
    (hi : i < p.n) : seq (fun g : Fin d.comp.n => laid l A g) (pos l x + i) = A x i := by
  unfold seq
  rw [dif_pos (h.lt hx hi)]
  exact pos_laid h.nodup ((h.mem _).mpr hx) A i hi

/-- What leaves a named port. -/
theorem Placed.scatter (h : Placed ord parts cs l d) (v : ℝ) (wl : W → ℝ) (w : W) (x : Fin d.comp.n → ℂ) {q : Str × Part}
    (hq : q ∈ parts) (i : Fin q.2.n) : (cx ((d.plant v wl).rS w) ((d.plant v wl).iS w) *ᵥ x) ⟨pos l q.1 + i, h.lt hq i.2⟩ =
      ∑ j, scattering q.2 (wl w) i j * seq x (pos l q.1 + j) := by
  obtain ⟨k, hk⟩ := pos_partAt h.nodup ((h.mem _).mpr hq)
  rw [scatter_eq h.flat v wl w x ⟨pos l q.1 + i, h.lt hq i.2⟩ (hk i i.2)]
  simp only [Nat.add_sub_cancel]
  exact entry_sum q.2 (wl w) i fun j => seq x (pos l q.1 + j)

/-- What enters a named port. -/
theorem Placed.enter (h : Placed ord parts cs l d) (v : ℝ) (wl : W → ℝ) (x : Fin d.comp.n → ℂ) {a b : Str} {i j : ℕ}
    (hj : Joined cs a i b j) : seq (cx (d.plant v wl).C 0 *ᵥ x) (pos l a + i) = seq x (pos l b + j) := by
  obtain ⟨p, hp, hi⟩ := h.fits a i b j hj
  obtain ⟨p', hp', hi'⟩ := h.fits b j a i (joined_symm hj)
  have := enter_eq (madeOf_flat h.made).1 h.term v wl x ⟨pos l a + i, h.lt hp hi⟩ ⟨pos l b + j, h.lt hp' hi'⟩ (h.conn a i b j hj)
  unfold seq
  rw [dif_pos (h.lt hp hi), dif_pos (h.lt hp' hi')]
  exact this

theorem Placed.seq_at (h : Placed ord parts cs l d) (x : Fin d.comp.n → ℂ) {a : Str} {p : Part} (hp : (a, p) ∈ parts) {i : ℕ}
    (hi : i < p.n) : seq x (pos l a + i) = x ⟨pos l a + i, h.lt hp hi⟩ := dif_pos _

theorem Placed.ext (h : Placed ord parts cs l d) {x y : Fin d.comp.n → ℂ}
    (hxy : ∀ q ∈ parts, ∀ i < q.2.n, seq x (pos l q.1 + i) = seq y (pos l q.1 + i)) : x = y := by
  funext g
  obtain ⟨a, p, -, i, hp, hi, hg, -⟩ := h.name g
  have := hxy (a, p) hp i hi
  rw [h.seq_at x hp hi, h.seq_at y hp hi] at this
  have e : g = ⟨pos l a + i, h.lt hp hi⟩ := Fin.ext hg
  rw [e]
  exact this

theorem Placed.unique (h : Placed ord parts cs l d) {x : Str} {p q : Part} (hp : (x, p) ∈ parts) (hq : (x, q) ∈ parts) : p = q := by
  have h1 := dictGet_of_mem h.nodup ((h.mem _).mpr hp)
  rw [dictGet_of_mem h.nodup ((h.mem _).mpr hq)] at h1
  exact (Option.some.inj h1).symm

/-- The marks of the ports, by name. -/
theorem marks_pos (f : Part → List Bool) (g : Part → Bool) (hlen : ∀ p, (f p).length = p.n)
    (hf : ∀ p, ∀ i < p.n, (f p).getD i false = (g p && decide (i = 0))) (hg : ∀ p, g p = true → 0 < p.n) :
    ∀ l : List (Str × Part), (l.map Prod.fst).Nodup →
    (List.range (partsN (l.map Prod.snd))).filter (fun i => (l.flatMap fun q => f q.2).getD i false) =
      (l.filter fun q => g q.2).map fun q => pos l q.1
  | [], _ => rfl
  | (x, p) :: l, hn => by
    simp only [List.map_cons, List.nodup_cons] at hn
    have ih := marks_pos f g hlen hf hg l hn.2
    have e1 : partsN (((x, p) :: l).map Prod.snd) = p.n + partsN (l.map Prod.snd) := by
      simp [partsN]
    rw [e1, List.range_add, List.filter_append, List.filter_map, List.flatMap_cons]
    have e2 : (List.range p.n).filter (fun i => (f p ++ l.flatMap fun q => f q.2).getD i false) = if g p then [0] else [] := by
      have : (List.range p.n).filter (fun i => (f p ++ l.flatMap fun q => f q.2).getD i false) =
          (List.range p.n).filter fun i => g p && decide (i = 0) := by
        refine List.filter_congr fun i hi => ?_
        have hi := List.mem_range.mp hi
        rw [List.getD_eq_getElem?_getD, List.getElem?_append_left (by rw [hlen]; exact hi), ← List.getD_eq_getElem?_getD, hf p i hi]
      rw [this]
      cases hgp : g p with
      | false => simp
      | true =>
        obtain ⟨m, hm⟩ := Nat.exists_eq_succ_of_ne_zero (hg p hgp).ne'
        rw [hm, List.range_succ_eq_map, List.filter_cons, List.filter_map]
        simp [Function.comp_def]
    have e3 : ((fun i => (f p ++ l.flatMap fun q => f q.2).getD i false) ∘ fun i => p.n + i) =
        fun i => (l.flatMap fun q => f q.2).getD i false := by
      funext i
      rw [Function.comp_apply, List.getD_eq_getElem?_getD, List.getElem?_append_right (by rw [hlen]; omega), hlen,
        Nat.add_sub_cancel_left, ← List.getD_eq_getElem?_getD]
    rw [e2, e3, ih, List.map_map, List.filter_cons]
    have e4 : (l.filter fun q => g q.2).map ((fun i => p.n + i) ∘ fun q => pos l q.1) =
        (l.filter fun q => g q.2).map fun q => pos ((x, p) :: l) q.1 := by
      refine List.map_congr_left fun q hq => ?_
      have hne : x ≠ q.1 := fun e => hn.1 (e ▸ List.mem_map.mpr ⟨q, (List.mem_filter.mp hq).1, rfl⟩)
      simp [pos, hne]
    rw [e4]
    cases g p <;> simp [pos]

theorem part_marked (p : Part) : p.comp.src.length = p.n ∧ p.comp.det.length = p.n ∧
    (∀ i < p.n, p.comp.src.getD i false = (isSource p && decide (i = 0))) ∧
    (∀ i < p.n, p.comp.det.getD i false = (isDetector p && decide (i = 0))) ∧
    (isSource p = true → 0 < p.n) ∧ (isDetector p = true → 0 < p.n) := by
  have rep : ∀ n i : ℕ, (List.replicate n false).getD i false = false := by
    intro n i
    rw [List.getD_eq_getElem?_getD]
    by_cases h : i < n
    · simp [h]
    · simp [List.getElem?_eq_none, h]
  cases p <;>
    simp [Part.comp, isSource, isDetector, Part.n, PT.term, PT.source, PT.detector, passive, leaf] <;>
    first
    | exact fun i _ => List.getD_eq_getElem?_getD.symm.trans (rep _ i)
    | (intro i hi; interval_cases i <;> rfl)

/-- The numbers of the sources and detectors. -/
theorem Placed.marks (h : Placed ord parts cs l d) :
    (portsWith fun i : Fin d.comp.n => d.comp.src.getD i false).map Fin.val = (emittersIn ord parts).map (pos l) ∧
    (portsWith fun i : Fin d.comp.n => d.comp.det.getD i false).map Fin.val = (listenersIn ord parts).map (pos l) := by
  have key : ∀ g : Part → Bool, (l.filter fun q => g q.2).map (fun q => pos l q.1) =
      (ord.filter fun x => parts.any fun q => decide (q.1 = x) && g q.2).map (pos l) := by
    intro g
    rw [← h.order, List.filter_map, List.map_map]
    have : l.filter ((fun x => parts.any fun q => decide (q.1 = x) && g q.2) ∘ Prod.fst) = l.filter fun q => g q.2 := by
      refine List.filter_congr fun q hq => ?_
      rw [Function.comp_apply, Bool.eq_iff_iff, List.any_eq_true]
      constructor
      · rintro ⟨r, hr, he⟩
        simp only [Bool.and_eq_true, decide_eq_true_eq] at he
        have : r.2 = q.2 := h.unique (x := q.1) (by rw [← he.1]; exact hr) ((h.mem _).mp hq)
        rw [← this]
        exact he.2
      · intro he
        exact ⟨q, (h.mem _).mp hq, by simp [he]⟩
    rw [this]
    rfl
  constructor
  · rw [portsWith_vals _ _ _ _ _ h.flat.n h.flat.src rfl, List.flatMap_map]
    exact (marks_pos (fun p => p.comp.src) isSource (fun p => (part_marked p).1) (fun p => (part_marked p).2.2.1)
      (fun p => (part_marked p).2.2.2.2.1) l h.nodup).trans (key isSource)
  · rw [portsWith_vals _ _ _ _ _ h.flat.n h.flat.det rfl, List.flatMap_map]
    exact (marks_pos (fun p => p.comp.det) isDetector (fun p => (part_marked p).2.1) (fun p => (part_marked p).2.2.2.1)
      (fun p => (part_marked p).2.2.2.2.2) l h.nodup).trans (key isDetector)

theorem mem_emitters (h : Placed ord parts cs l d) {q : Str × Part} (hq : q ∈ parts) :
    (q.1 ∈ emittersIn ord parts ↔ isSource q.2 = true) ∧ (q.1 ∈ listenersIn ord parts ↔ isDetector q.2 = true) := by
  have hf : q.1 ∈ ord := by
    rw [← h.order]
    exact List.mem_map.mpr ⟨q, (h.mem _).mpr hq, rfl⟩
  have key : ∀ g : Part → Bool, (q.1 ∈ (ord.filter fun x => parts.any fun q => decide (q.1 = x) && g q.2)) ↔ g q.2 = true := by
    intro g
    rw [List.mem_filter, List.any_eq_true]
    constructor
    · rintro ⟨-, r, hr, he⟩
      simp only [Bool.and_eq_true, decide_eq_true_eq] at he
      have : r.2 = q.2 := h.unique (x := q.1) (by rw [← he.1]; exact hr) hq
      rw [← this]
      exact he.2
    · intro he
      exact ⟨hf, q, hq, by simp [he]⟩
  exact ⟨key _, key _⟩

theorem idxOf_map_on {α β : Type} [BEq α] [LawfulBEq α] [BEq β] [LawfulBEq β] (f : α → β) (a : α) : ∀ l : List α,
    (∀ b ∈ l, f b = f a → b = a) → (l.map f).idxOf (f a) = l.idxOf a
  | [], _ => rfl
  | b :: l, h => by
    rw [List.map_cons, List.idxOf_cons, List.idxOf_cons, idxOf_map_on f a l fun c hc => h c (List.mem_cons_of_mem _ hc)]
    have : (f b == f a) = (b == a) := by
      rw [Bool.eq_iff_iff, beq_iff_eq, beq_iff_eq]
      exact ⟨h b List.mem_cons_self, fun e => by rw [e]⟩
    rw [this]

/-- What a named port emits. -/
theorem Placed.emits (h : Placed ord parts cs l d) (hs : ∀ q ∈ parts, 0 < q.2.n) (v : ℝ) (wl : W → ℝ) (ch : ℕ → ℂ) {q : Str × Part}
    (hq : q ∈ parts) {i : ℕ} (hi : i < q.2.n) : seq (emitted (d.plant v wl).src ch) (pos l q.1 + i) =
      if isSource q.2 then ch ((emittersIn ord parts).idxOf q.1) else 0 := by
  have hm : ∀ x ∈ emittersIn ord parts, ∃ p, (x, p) ∈ parts ∧ isSource p = true := by
    intro x hx
    unfold emittersIn at hx
    rw [List.mem_filter, List.any_eq_true] at hx
    obtain ⟨-, r, hr, he⟩ := hx
    simp only [Bool.and_eq_true, decide_eq_true_eq] at he
    exact ⟨r.2, by rw [← he.1]; exact hr, he.2⟩
  rw [emitted_seq _ _ _ h.marks.1]
  cases hsrc : isSource q.2 with
  | true =>
    have h1 : q.2 = .source := by
      cases hq2 : q.2 <;> rw [hq2] at hsrc <;> simp [isSource] at hsrc ⊢
    have hi0 : i = 0 := by rw [h1] at hi; have : i < 1 := hi; omega
    subst hi0
    rw [Nat.add_zero, if_pos (List.mem_map.mpr ⟨_, ((mem_emitters h hq).1).mpr hsrc, rfl⟩), if_pos rfl]
    congr 1
    refine idxOf_map_on (pos l) q.1 _ fun b hb he => ?_
    obtain ⟨p, hp, -⟩ := hm b hb
    exact (pos_inj h.nodup ((h.mem _).mpr hp) ((h.mem _).mpr hq) (hs _ hp) hi he).1
  | false =>
    rw [if_neg, if_neg (by simp)]
    intro hmem
    obtain ⟨b, hb, he⟩ := List.mem_map.mp hmem
    obtain ⟨p, hp, hps⟩ := hm b hb
    obtain ⟨rfl, -⟩ := pos_inj h.nodup ((h.mem _).mpr hp) ((h.mem _).mpr hq) (hs _ hp) hi ((Nat.add_zero _).trans he)
    rw [h.unique hq hp, hps] at hsrc
    cases hsrc


/-- The circuit equations, by name: the frequency domain. -/
theorem Placed.static (h : Placed ord parts cs l d) (hs : ∀ q ∈ parts, 0 < q.2.n) (v : ℝ) (wl : W → ℝ) (w : W) (ch : ℕ → ℂ)
    (a b : Fin d.comp.n → ℂ) :
    SolvesStatic (cx (d.plant v wl).C 0) (cx ((d.plant v wl).rS w) ((d.plant v wl).iS w)) (emitted (d.plant v wl).src ch) a b ↔
    Steady parts cs (wl w) (fun x => ch ((emittersIn ord parts).idxOf x)) (fun x i => seq a (pos l x + i))
      (fun x i => seq b (pos l x + i)) := by
  constructor
  · intro hab
    refine ⟨fun x i y j hj => ?_, fun q hq i => ?_⟩
    · show seq a _ = seq b _
      rw [← h.enter v wl b hj, ← hab.incoming]
    · show seq b _ = _
      rw [h.seq_at b hq i.2, hab.outgoing, Pi.add_apply, h.scatter v wl w a hq i, ← h.emits hs v wl ch hq i.2,
        h.seq_at _ hq i.2]
  · intro hab
    refine ⟨h.ext fun q hq i hi => ?_, h.ext fun q hq i hi => ?_⟩
    · obtain ⟨y, p, j, -, -, hj⟩ := h.cover q hq i hi
      rw [h.enter v wl b hj]
      exact hab.joined _ _ _ _ hj
    · have e := hab.scattered q hq ⟨i, hi⟩
      simp only at e
      rw [e, h.seq_at _ hq hi, Pi.add_apply, h.scatter v wl w a hq ⟨i, hi⟩, ← h.emits hs v wl ch hq hi, h.seq_at _ hq hi]

/-- The delay of a named port, unless it scatters nothing. -/
theorem Placed.late (h : Placed ord parts cs l d) (v : ℝ) (wl : W → ℝ) (dt : ℝ) {q : Str × Part} (hq : q ∈ parts)
    {i : ℕ} (hi : i < q.2.n) (hm : isSource q.2 = false) (hm' : isDetector q.2 = false) :
    circuitDelay d v wl dt ⟨pos l q.1 + i, h.lt hq hi⟩ = roundSteps (q.2.delay v / dt) := by
  obtain ⟨k, hk⟩ := pos_partAt h.nodup ((h.mem _).mpr hq)
  obtain ⟨k', p', j', e1, -, -, e2, e3, e4, -⟩ := plant_port h.flat v wl ⟨pos l q.1 + i, h.lt hq hi⟩
  have := (hk i hi).symm.trans e1
  simp only [Option.some.injEq, Prod.mk.injEq] at this
  obtain ⟨-, rfl, rfl⟩ := this
  obtain ⟨-, -, m1, m2, -⟩ := part_marked q.2
  unfold circuitDelay portDelay
  rw [e2, e3, e4, m1 i hi, m2 i hi, hm, hm']
  rfl

theorem ends_dark (p : Part) (wl : ℝ) (h : isSource p = true ∨ isDetector p = true) (i j : Fin p.n) : scattering p wl i j = 0 := by
  rw [← entry_scattering]
  cases p <;> simp [isSource, isDetector] at h
  · exact end_entry' .source (.inl rfl) wl i j
  · exact end_entry' .detector (.inr rfl) wl i j
where
  end_entry' (p : Part) (hp : p = .source ∨ p = .detector) (wl : ℝ) (i j : ℕ) : p.dev.entry wl i j = 0 := by
    have h0 : ∀ i j, ofFin (0 : Matrix (Fin 1) (Fin 1) ℝ) i j = 0 := by
      intro i j
      unfold ofFin
      split <;> rfl
    rcases hp with rfl | rfl <;> apply Complex.ext <;> exact h0 i j

/-- The circuit equations, by name: the time domain. -/
theorem Placed.moving (h : Placed ord parts cs l d) (hs : ∀ q ∈ parts, 0 < q.2.n) (v : ℝ) (wl : W → ℝ) (w : W) (dt : ℝ) (T : ℕ)
    (ch : ℕ → ℕ → ℂ) (a b : ℕ → Fin d.comp.n → ℂ) :
    Solves (cx (d.plant v wl).C 0) (cx ((d.plant v wl).rS w) ((d.plant v wl).iS w)) (circuitDelay d v wl dt) T
      (fun t => emitted (d.plant v wl).src (ch t)) a b ↔
    Moving parts cs (wl w) v dt T (fun t x => ch t ((emittersIn ord parts).idxOf x)) (fun t x i => seq (a t) (pos l x + i))
      (fun t x i => seq (b t) (pos l x + i)) := by
  have hdel : ∀ (t : ℕ) (q : Str × Part) (hq : q ∈ parts) (i : Fin q.2.n),
      (cx ((d.plant v wl).rS w) ((d.plant v wl).iS w) *ᵥ delayed (circuitDelay d v wl dt) a t) ⟨pos l q.1 + i, h.lt hq i.2⟩ =
      ∑ j, scattering q.2 (wl w) i j *
        if roundSteps (q.2.delay v / dt) ≤ t then seq (a (t - roundSteps (q.2.delay v / dt))) (pos l q.1 + j) else 0 := by
    intro t q hq i
    rw [h.scatter v wl w _ hq i]
    refine Finset.sum_congr rfl fun j _ => ?_
    by_cases hm : isSource q.2 = true ∨ isDetector q.2 = true
    · rw [ends_dark q.2 (wl w) hm, zero_mul, zero_mul]
    · simp only [not_or, Bool.not_eq_true] at hm
      congr 1
      rw [h.seq_at _ hq j.2]
      unfold delayed
      rw [h.late v wl dt hq j.2 hm.1 hm.2]
      split
      · rw [h.seq_at _ hq j.2]
      · rfl
  constructor
  · intro hab
    refine ⟨fun t ht x i y j hj => ?_, fun t ht q hq i => ?_⟩
    · show seq (a t) _ = seq (b t) _
      rw [← h.enter v wl (b t) hj, ← hab.incoming t ht]
    · show seq (b t) _ = _
      rw [h.seq_at (b t) hq i.2, hab.outgoing t ht, Pi.add_apply, hdel t q hq i, ← h.emits hs v wl (ch t) hq i.2,
        h.seq_at _ hq i.2]
  · intro hab
    refine ⟨fun t ht => h.ext fun q hq i hi => ?_, fun t ht => h.ext fun q hq i hi => ?_⟩
    · obtain ⟨y, p, j, -, -, hj⟩ := h.cover q hq i hi
      rw [h.enter v wl (b t) hj]
      exact hab.joined t ht _ _ _ _ hj
    · have e := hab.scattered t ht q hq ⟨i, hi⟩
      simp only at e
      rw [e, h.seq_at _ hq hi, Pi.add_apply, hdel t q hq ⟨i, hi⟩, ← h.emits hs v wl (ch t) hq hi, h.seq_at _ hq hi]

theorem holds_iff (env : SimEnv) (v : ℝ) (p : Part) : Holds env v p ↔ Remembers env v p := by
  unfold Holds Remembers
  have h1 : isSource p = true ↔ p = .source := by cases p <;> simp [isSource]
  have h2 : isDetector p = true ↔ p = .detector := by cases p <;> simp [isDetector]
  rw [h1, h2]

/-- The ports that `initialize` does not eliminate. -/
theorem Placed.mem_ml (h : Placed ord parts cs l d) (v : ℝ) (wl : W → ℝ) (env : SimEnv) {q : Str × Part} (hq : q ∈ parts) {i : ℕ}
    (hi : i < q.2.n) : (⟨pos l q.1 + i, h.lt hq hi⟩ : Fin d.comp.n) ∈ (d.plant v wl).mlPorts env ↔ ¬Holds env v q.2 := by
  obtain ⟨k, hk⟩ := pos_partAt h.nodup ((h.mem _).mpr hq)
  rw [mem_mlPorts, holds_iff, ← mcAt_part h.flat v wl env ⟨pos l q.1 + i, h.lt hq hi⟩ (hk i hi)]
  simp

/-- Trapped light, by name. -/
theorem Placed.trapped (h : Placed ord parts cs l d) (v : ℝ) (wl : W → ℝ) (w : W) (env : SimEnv) (u y : Fin d.comp.n → ℂ) :
    ((∀ i, i ∉ (d.plant v wl).mlPorts env → u i = 0 ∧ y i = 0) ∧ (∀ i ∈ (d.plant v wl).mlPorts env,
      u i = (cx (d.plant v wl).C 0 *ᵥ y) i ∧ y i = (cx ((d.plant v wl).rS w) ((d.plant v wl).iS w) *ᵥ u) i)) ↔
    Trapped env v parts cs (wl w) (fun x i => seq u (pos l x + i)) (fun x i => seq y (pos l x + i)) := by
  constructor
  · rintro ⟨h1, h2⟩
    refine ⟨fun q hq hh i hi => ?_, fun q hq hh i b j hj => ?_, fun q hq hh i => ?_⟩
    · simp only [h.seq_at _ hq hi]
      exact h1 _ fun hm => (h.mem_ml v wl env hq hi).mp hm hh
    · obtain ⟨p, hp, hi⟩ := h.fits _ _ _ _ hj
      have hi' : i < q.2.n := by rw [h.unique (p := q.2) (q := p) hq hp]; exact hi
      show seq u _ = seq y _
      rw [← h.enter v wl y hj, h.seq_at u hq hi', h.seq_at _ hq hi']
      exact (h2 _ ((h.mem_ml v wl env hq hi').mpr hh)).1
    · simp only [h.seq_at y hq i.2]
      rw [(h2 _ ((h.mem_ml v wl env hq i.2).mpr hh)).2, h.scatter v wl w u hq i]
  · intro ht
    refine ⟨fun g hg => ?_, fun g hg => ?_⟩
    · obtain ⟨a, p, -, i, hp, hi, he, -⟩ := h.name g
      have e : g = ⟨pos l a + i, h.lt hp hi⟩ := Fin.ext he
      subst e
      have hh : Holds env v p := by
        by_contra hh
        exact hg ((h.mem_ml v wl env (q := (a, p)) hp hi).mpr hh)
      have := ht.held (a, p) hp hh i hi
      simp only [h.seq_at _ hp hi] at this
      exact this
    · obtain ⟨a, p, -, i, hp, hi, he, -⟩ := h.name g
      have e : g = ⟨pos l a + i, h.lt hp hi⟩ := Fin.ext he
      subst e
      have hh := (h.mem_ml v wl env (q := (a, p)) hp hi).mp hg
      obtain ⟨b, p', j, -, -, hj⟩ := h.cover (a, p) hp i hi
      have e1 := ht.joined (a, p) hp hh i b j hj
      have e2 := ht.scattered (a, p) hp hh ⟨i, hi⟩
      simp only at e1 e2
      rw [← h.enter v wl y hj, h.seq_at u hp hi, h.seq_at _ hp hi] at e1
      rw [h.seq_at y hp hi, ← h.scatter v wl w u (q := (a, p)) hp ⟨i, hi⟩] at e2
      exact ⟨e1, e2⟩

end PT
