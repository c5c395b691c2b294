import Verif.Proof.Named
import Verif.Proof.ActiveSim
import Verif.Spec.Gear

/-! Proof support: the ports of a circuit of named components of any kind, by name. -/

namespace PT
open Spec Matrix

namespace Gears

variable {W B : Type}

/-- The devices of named components. -/
def devs (l : List (Str × Gear W B)) : List (Str × Dev) := l.map fun q => (q.1, q.2.dev)

/-- The first port of a component. -/
def gpos : List (Str × Gear W B) → Str → ℕ
  | [], _ => 0
  | (y, g) :: l, x => if y = x then 0 else g.dev.comp.n + gpos l x

theorem ne_of_mem {y x : Str} {g : Gear W B} {l : List (Str × Gear W B)} (hn : y ∉ l.map Prod.fst) (h : (x, g) ∈ l) : y ≠ x := by
  rintro rfl
  exact hn (List.mem_map.mpr ⟨_, h, rfl⟩)

theorem gpos_devAt : ∀ {l : List (Str × Gear W B)}, (l.map Prod.fst).Nodup → ∀ {x : Str} {g : Gear W B}, (x, g) ∈ l →
    ∀ i < g.dev.comp.n, devAt (devs l) (gpos l x + i) = some (x, g.dev, i)
  | [], _, _, _, h => by cases h
  | (y, q) :: l, hn, x, g, h => by
    simp only [List.map_cons, List.nodup_cons] at hn
    intro i hi
    rcases List.mem_cons.mp h with h | h
    · simp only [Prod.mk.injEq] at h
      obtain ⟨rfl, rfl⟩ := h
      simp only [gpos, if_pos, Nat.zero_add, devs, List.map_cons, devAt]
      rw [if_pos hi]
    · have hne := ne_of_mem hn.1 h
      have ih := gpos_devAt hn.2 h i hi
      simp only [gpos, if_neg hne, devs, List.map_cons, devAt]
      rw [if_neg (by omega), show q.dev.comp.n + gpos l x + i - q.dev.comp.n = gpos l x + i by omega]
      exact ih

theorem devAt_gpos : ∀ {l : List (Str × Gear W B)}, (l.map Prod.fst).Nodup → ∀ {k : ℕ} {x : Str} {e : Dev} {i : ℕ},
    devAt (devs l) k = some (x, e, i) → ∃ g, (x, g) ∈ l ∧ e = g.dev ∧ k = gpos l x + i ∧ i < g.dev.comp.n
  | [], _, _, _, _, _, h => by cases h
  | (y, q) :: l, hn, k, x, e, i, h => by
    simp only [List.map_cons, List.nodup_cons] at hn
    simp only [devs, List.map_cons, devAt] at h
    split at h
    · rename_i hk
      simp only [Option.some.injEq, Prod.mk.injEq] at h
      obtain ⟨rfl, rfl, rfl⟩ := h
      exact ⟨q, List.mem_cons_self, rfl, by simp [gpos], hk⟩
    · rename_i hk
      obtain ⟨g, hg, he, hk', hi⟩ := devAt_gpos hn.2 h
      have hne := ne_of_mem hn.1 hg
      exact ⟨g, List.mem_cons_of_mem _ hg, he, by simp only [gpos, if_neg hne]; omega, hi⟩

theorem gpos_lt {l : List (Str × Gear W B)} (hn : (l.map Prod.fst).Nodup) {x : Str} {g : Gear W B} (h : (x, g) ∈ l) {i : ℕ}
    (hi : i < g.dev.comp.n) : gpos l x + i < ((devs l).map fun q => q.2.comp.n).sum := by
  have key : ∀ (l : List (Str × Dev)) {k : ℕ} {r}, devAt l k = some r → k < (l.map fun q => q.2.comp.n).sum := by
    intro l
    induction l with
    | nil => intro k r h; cases h
    | cons q l ih =>
      intro k r h
      unfold devAt at h
      rw [List.map_cons, List.sum_cons]
      split at h
      · omega
      · have := ih h
        omega
  exact key _ (gpos_devAt hn h i hi)

theorem gpos_inj {l : List (Str × Gear W B)} (hn : (l.map Prod.fst).Nodup) {x y : Str} {g h : Gear W B} {i j : ℕ} (hx : (x, g) ∈ l)
    (hy : (y, h) ∈ l) (hi : i < g.dev.comp.n) (hj : j < h.dev.comp.n) (he : gpos l x + i = gpos l y + j) : x = y ∧ i = j := by
  have h1 := gpos_devAt hn hx i hi
  have h2 := gpos_devAt hn hy j hj
  rw [he, h2] at h1
  simp only [Option.some.injEq, Prod.mk.injEq] at h1
  exact ⟨h1.1.symm, h1.2.2.symm⟩

/-- Marks of the ports. -/
theorem flatMap_at {f : Comp → List Bool} : ∀ {l : List (Str × Gear W B)}, (l.map Prod.fst).Nodup →
    (∀ q ∈ l, (f q.2.dev.comp).length = q.2.dev.comp.n) → ∀ {x : Str} {g : Gear W B}, (x, g) ∈ l → ∀ i < g.dev.comp.n,
    (l.flatMap fun q => f q.2.dev.comp).getD (gpos l x + i) false = (f g.dev.comp).getD i false
  | [], _, _, _, _, h => by cases h
  | (y, q) :: l, hn, hl, x, g, h => by
    simp only [List.map_cons, List.nodup_cons] at hn
    intro i hi
    rw [List.flatMap_cons, List.getD_eq_getElem?_getD, List.getD_eq_getElem?_getD]
    have hy := hl (y, q) (by simp)
    rcases List.mem_cons.mp h with h | h
    · simp only [Prod.mk.injEq] at h
      obtain ⟨rfl, rfl⟩ := h
      simp only [gpos, if_pos, Nat.zero_add]
      rw [List.getElem?_append_left (by rw [hy]; exact hi)]
    · have hne := ne_of_mem hn.1 h
      have ih := flatMap_at hn.2 (fun q hq => hl q (List.mem_cons_of_mem _ hq)) h i hi
      simp only [gpos, if_neg hne]
      rw [List.getElem?_append_right (by rw [hy]; simp only; omega), hy]
      simp only
      rw [show q.dev.comp.n + gpos l x + i - q.dev.comp.n = gpos l x + i by omega, ← List.getD_eq_getElem?_getD,
        ← List.getD_eq_getElem?_getD, ih]

theorem blockVec_at (f : Dev → ℕ → ℝ) : ∀ {l : List (Str × Dev)} {k : ℕ} {x : Str} {e : Dev} {i : ℕ}, devAt l k = some (x, e, i) →
    blockVec (l.map fun q => (q.2.comp.n, f q.2)) k = f e i
  | [], _, _, _, _, h => by cases h
  | (y, q) :: l, k, x, e, i, h => by
    unfold devAt at h
    rw [List.map_cons, blockVec]
    split at h
    · rename_i hk
      simp only [Option.some.injEq, Prod.mk.injEq] at h
      obtain ⟨rfl, rfl, rfl⟩ := h
      rw [if_pos hk]
    · rename_i hk
      rw [if_neg hk]
      exact blockVec_at f h

/-- The marked ports, by name. -/
theorem marks_gpos (f : Comp → List Bool) : ∀ l : List (Str × Gear W B), (l.map Prod.fst).Nodup →
    (∀ q ∈ l, (f q.2.dev.comp).length = q.2.dev.comp.n) →
    (List.range (((devs l).map fun q => q.2.comp.n).sum)).filter (fun i => (l.flatMap fun q => f q.2.dev.comp).getD i false) =
      (l.flatMap fun q => ((List.range q.2.dev.comp.n).filter fun i => (f q.2.dev.comp).getD i false).map fun i => (q.1, i)).map
        fun e => gpos l e.1 + e.2
  | [], _, _ => rfl
  | (x, g) :: l, hn, hl => by
    simp only [List.map_cons, List.nodup_cons] at hn
    have ih := marks_gpos f l hn.2 fun q hq => hl q (List.mem_cons_of_mem _ hq)
    have hx := hl (x, g) (by simp)
    have e1 : ((devs ((x, g) :: l)).map fun q => q.2.comp.n).sum = g.dev.comp.n + ((devs l).map fun q => q.2.comp.n).sum := by
      simp [devs]
    rw [e1, List.range_add, List.filter_append, List.filter_map, List.flatMap_cons, List.flatMap_cons, List.map_append, List.map_map]
    have e2 : (List.range g.dev.comp.n).filter (fun i => (f g.dev.comp ++ l.flatMap fun q => f q.2.dev.comp).getD i false) =
        (List.range g.dev.comp.n).filter fun i => (f g.dev.comp).getD i false := by
      refine List.filter_congr fun i hi => ?_
      have hi := List.mem_range.mp hi
      rw [List.getD_eq_getElem?_getD, List.getElem?_append_left (by rw [hx]; exact hi), ← List.getD_eq_getElem?_getD]
    have e3 : ((fun i => (f g.dev.comp ++ l.flatMap fun q => f q.2.dev.comp).getD i false) ∘ fun i => g.dev.comp.n + i) =
        fun i => (l.flatMap fun q => f q.2.dev.comp).getD i false := by
      funext i
      rw [Function.comp_apply, List.getD_eq_getElem?_getD, List.getElem?_append_right (by rw [hx]; simp only; omega), hx]
      simp only
      rw [Nat.add_sub_cancel_left, ← List.getD_eq_getElem?_getD]
    rw [e2, e3, ih]
    congr 1
    · refine (List.map_id _).symm.trans (List.map_congr_left fun i _ => ?_)
      simp [gpos]
    · rw [List.map_map]
      refine List.map_congr_left fun e he => ?_
      obtain ⟨q, hq, he⟩ := List.mem_flatMap.mp he
      obtain ⟨i, -, rfl⟩ := List.mem_map.mp he
      have hne := ne_of_mem hn.1 (show (q.1, q.2) ∈ l from hq)
      simp only [Function.comp_apply, gpos, if_neg hne]
      omega

/-- How components of any kind come to lie in a network. -/
structure Geared (ord : List Str) (parts : List (Str × Gear W B)) (cs : List Conn) (l : List (Str × Gear W B)) (d : Dev)
    (acts : List (Actor W B)) : Prop where
  clean : Clean d.comp
  term : d.comp.terminated = true
  dev : d = netDev d.comp (devs l)
  n : d.comp.n = ((devs l).map fun q => q.2.comp.n).sum
  src : d.comp.src = l.flatMap fun q => q.2.dev.comp.src
  det : d.comp.det = l.flatMap fun q => q.2.dev.comp.det
  act : d.comp.act = l.flatMap fun q => q.2.dev.comp.act
  acts : acts = l.map fun q => q.2.actor
  order : l.map Prod.fst = ord
  nodup : (l.map Prod.fst).Nodup
  mem : ∀ q, q ∈ l ↔ q ∈ parts
  names : (parts.map Prod.fst).Nodup
  proper : ∀ q ∈ parts, Proper q.2
  inside : ∀ q ∈ parts, ∀ i j, q.2.dev.comp.C i j ≠ 0 → d.comp.C (gpos l q.1 + i) (gpos l q.1 + j) ≠ 0
  joined : ∀ a i b j, Joined cs a i b j → ∀ g h p q, (a, g) ∈ parts → (b, h) ∈ parts →
    (freePorts g.dev.comp)[i]? = some p → (freePorts h.dev.comp)[j]? = some q → d.comp.C (gpos l a + p) (gpos l b + q) ≠ 0
  conn : ∀ k m, d.comp.C k m ≠ 0 → (∃ q ∈ parts, ∃ i j, i < q.2.dev.comp.n ∧ j < q.2.dev.comp.n ∧ k = gpos l q.1 + i ∧ m = gpos l q.1 + j ∧
      q.2.dev.comp.C i j ≠ 0) ∨
    ∃ a i b j g h p q, Joined cs a i b j ∧ (a, g) ∈ parts ∧ (b, h) ∈ parts ∧ (freePorts g.dev.comp)[i]? = some p ∧
      (freePorts h.dev.comp)[j]? = some q ∧ k = gpos l a + p ∧ m = gpos l b + q

theorem block_gpos : ∀ (l : List (Str × Gear W B)), (l.map Prod.fst).Nodup → ∀ {x : Str} {g : Gear W B}, (x, g) ∈ l →
    Block (layoutOf (devs l)) x { g.dev.comp with name := some x } (gpos l x)
  | [], _, _, _, h => by cases h
  | (y, q) :: l, hn, x, g, h => by
    simp only [List.map_cons, List.nodup_cons] at hn
    rcases List.mem_cons.mp h with h | h
    · simp only [Prod.mk.injEq] at h
      obtain ⟨rfl, rfl⟩ := h
      exact ⟨[], _, rfl, by simp, by simp [gpos, width]⟩
    · have hne := ne_of_mem hn.1 h
      obtain ⟨pre, post, h1, h2, h3⟩ := block_gpos l hn.2 h
      refine ⟨(y, { q.dev.comp with name := some y }) :: pre, post, ?_, ?_, ?_⟩
      · simp only [layoutOf, devs, List.map_cons] at h1 ⊢
        rw [h1]; rfl
      · simp only [List.map_cons, List.mem_cons, not_or]
        exact ⟨fun e => hne e.symm, h2⟩
      · simp only [gpos, if_neg hne, h3, width, List.map_cons, List.sum_cons]

theorem block_unique {l : Comps} {x : Str} {c c' : Comp} {s s' : ℕ} (h : Block l x c s) (h' : Block l x c' s') : c = c' ∧ s = s' := by
  obtain ⟨pre, post, h1, h2, h3⟩ := h
  obtain ⟨pre', post', h1', h2', h3'⟩ := h'
  have key : ∀ (pre pre' : Comps), pre ++ (x, c) :: post = pre' ++ (x, c') :: post' → x ∉ pre.map Prod.fst → x ∉ pre'.map Prod.fst →
      pre = pre' ∧ c = c' := by
    intro pre
    induction pre with
    | nil =>
      intro pre' h _ h2
      cases pre' with
      | nil => simp at h; exact ⟨rfl, h.1⟩
      | cons q pre' =>
        simp only [List.nil_append, List.cons_append, List.cons.injEq] at h
        exact absurd (by rw [List.map_cons, ← h.1]; exact List.mem_cons_self) h2
    | cons q pre ih =>
      intro pre' h h1 h2
      cases pre' with
      | nil =>
        simp only [List.nil_append, List.cons_append, List.cons.injEq] at h
        exact absurd (by rw [List.map_cons, h.1]; exact List.mem_cons_self) h1
      | cons q' pre' =>
        simp only [List.cons_append, List.cons.injEq] at h
        obtain ⟨rfl, h⟩ := h
        obtain ⟨e1, e2⟩ := ih pre' h (fun hm => h1 (by simp [hm])) fun hm => h2 (by simp [hm])
        exact ⟨by rw [e1], e2⟩
  obtain ⟨e1, e2⟩ := key pre pre' (h1.symm.trans h1') h2 h2'
  exact ⟨e2, by rw [h3, h3', e1]⟩

theorem mem_gearPorts {parts : List (Str × Gear W B)} {e : Str × ℤ} :
    e ∈ gearPorts parts ↔ ∃ q ∈ parts, ∃ i : ℕ, i < (freePorts q.2.dev.comp).length ∧ e = (q.1, (i : ℤ)) := by
  unfold gearPorts
  simp only [List.mem_flatMap, List.mem_map, List.mem_range]
  constructor
  · rintro ⟨q, hq, i, hi, rfl⟩
    exact ⟨q, hq, i, hi, rfl⟩
  · rintro ⟨q, hq, i, hi, rfl⟩
    exact ⟨q, hq, i, hi, rfl⟩

/-- A shut circuit can be built, and its components lie in the network in the order in which they are mentioned. -/
theorem shut_geared {parts : List (Str × Gear W B)} {cs : List Conn} (h : Shut parts cs) (name : Option Str) :
    ∃ d l, mkDev name (devs parts) (cs.map Conn.text) = .ok d ∧
      Geared (firstMentions cs) parts cs l d (gearActors parts (cs.map Conn.text)) := by
  have hget : ∀ q ∈ parts, dictGet q.1 parts = some q.2 := fun q hq => dictGet_of_mem h.names hq
  have hgetc : ∀ q ∈ parts, dictGet q.1 (comps (devs parts)) = some q.2.dev.comp := by
    intro q hq
    refine comps_get ?_
    rw [devs, dictGet_map (fun g : Gear W B => g.dev), hget q hq]
    rfl
  let n : Str → ℕ := fun x => ((dictGet x parts).map fun g => (freePorts g.dev.comp).length).getD 0
  have hn : ∀ q ∈ parts, n q.1 = (freePorts q.2.dev.comp).length := by
    intro q hq
    show ((dictGet q.1 parts).map fun g => (freePorts g.dev.comp).length).getD 0 = _
    rw [hget q hq]
    rfl
  have hplan : Plan (parts.map Prod.fst) n cs [] := by
    refine ⟨h.names, ?_, ?_, ?_⟩
    · intro x hx
      obtain ⟨q, hq, rfl⟩ := List.mem_map.mp hx
      exact h.good q hq
    · intro x hx i hi
      obtain ⟨q, hq, rfl⟩ := List.mem_map.mp hx
      left
      exact h.ports.mem_iff.mpr (mem_gearPorts.mpr ⟨q, hq, i, by rw [← hn q hq]; exact hi, rfl⟩)
    · have e1 := h.ports.length_eq
      have e2 : (gearPorts parts).length = (parts.map fun q => (freePorts q.2.dev.comp).length).sum := by
        unfold gearPorts
        rw [List.length_flatMap]
        simp
      have e3 : ((parts.map Prod.fst).map n) = parts.map fun q => (freePorts q.2.dev.comp).length := by
        rw [List.map_map]
        exact List.map_congr_left fun q hq => hn q hq
      rw [e3, e1, e2]
      simp
  have hfree : ∀ q ∈ parts, 0 < (freePorts q.2.dev.comp).length := fun q hq => List.length_pos_iff.mpr (h.reachable q hq)
  have hend : ∀ q ∈ parts, (q.1, ((0 : ℕ) : ℤ)) ∈ endpoints cs := fun q hq =>
    h.ports.mem_iff.mpr (mem_gearPorts.mpr ⟨q, hq, 0, hfree q hq, rfl⟩)
  have hne : cs ≠ [] := by
    rintro rfl
    cases hp : parts with
    | nil => exact h.nonempty hp
    | cons q l =>
      have hq : q ∈ parts := by rw [hp]; exact List.mem_cons_self
      have := hend q hq
      cases this
  have hno : ∀ a i p, Conn.outer a i p ∉ cs := by
    intro a i p hc
    have : ((a, i), p) ∈ outs cs := mem_outs.mpr hc
    rw [h.inner] at this
    cases this
  have hg : GoodConns cs := hplan.goodConns fun a i p hc => absurd hc (hno a i p)
  obtain ⟨hcont, -⟩ := hplan.contiguous (by simp) (by simp [h.inner])
  have hm : ∀ p ∈ comps (devs parts), Clean p.2 := by
    intro p hp
    simp only [comps, devs, List.map_map, List.mem_map] at hp
    obtain ⟨q, hq, rfl⟩ := hp
    exact (h.proper q hq).clean
  obtain ⟨c, hc⟩ := mkNet_accepts name (comps (devs parts)) cs (fun p hp => ⟨(hm p hp).built, (C19_clean_partial _ (hm p hp)).1⟩) hg hne
    (hplan.portsExist (fun x hx => by
      obtain ⟨q, hq, rfl⟩ := List.mem_map.mp hx
      exact ⟨_, hgetc q hq, (hn q hq).symm⟩) fun a i p hc => absurd hc (hno a i p)) hcont
  obtain ⟨d, hd, rfl⟩ := mkDev_of_mkNet hc
  have hclean : Clean d.comp := .net name _ cs d.comp hm hg hplan.usedOnce hcont hc
  obtain ⟨l₀, hl₀, hlay, hk, hb, hdev⟩ := mkDev_ok hg hd
  have hparts : ∃ l : List (Str × Gear W B), l₀ = devs l ∧ ∀ q ∈ l, q ∈ parts := by
    clear hlay hk hb hdev
    induction l₀ with
    | nil => exact ⟨[], rfl, by simp⟩
    | cons q l₀ ih =>
      obtain ⟨l, h1, h2⟩ := ih fun p hp => hl₀ p (List.mem_cons_of_mem _ hp)
      have hq := hl₀ q List.mem_cons_self
      rw [devs, dictGet_map (fun g : Gear W B => g.dev), Option.map_eq_some_iff] at hq
      obtain ⟨p, hp, hpq⟩ := hq
      refine ⟨(q.1, p) :: l, by rw [devs, List.map_cons, h1, hpq]; rfl, ?_⟩
      intro r hr
      rcases List.mem_cons.mp hr with rfl | hr
      · exact dictGet_mem hp
      · exact h2 r hr
  obtain ⟨l, rfl, hlp⟩ := hparts
  have horder : l.map Prod.fst = firstMentions cs := by
    have := hlay.1
    simp only [devs, List.map_map] at this
    exact this
  have hnd : (l.map Prod.fst).Nodup := by
    have := layout_nodup hlay
    simp only [devs, List.map_map] at this
    exact this
  have hmem : ∀ q, q ∈ l ↔ q ∈ parts := by
    refine fun q => ⟨hlp q, fun hq => ?_⟩
    have hf : q.1 ∈ firstMentions cs := by
      rw [mem_firstMentions]
      obtain ⟨a, i, b, j, hc, hy⟩ := mem_endpoints.mp (hend q hq)
      refine ⟨_, hc, ?_⟩
      rcases hy with hy | hy <;> simp only [Prod.mk.injEq] at hy <;> simp [Conn.names, hy.1]
    rw [← horder, List.mem_map] at hf
    obtain ⟨⟨x, p⟩, hr, hx⟩ := hf
    have h1 := hget _ (hlp _ hr)
    simp only at hx h1
    rw [hx, hget q hq] at h1
    simp only [Option.some.injEq] at h1
    have : q = (x, p) := Prod.ext hx.symm h1
    rw [this]
    exact hr
  have hlay' : Layout (comps (devs parts)) cs (layoutOf (devs l)) := hlay
  obtain ⟨l', hl', -, hC, hF⟩ := C15_exact name _ cs d.comp (fun p hp => (hm p hp).built) hg hk
  obtain rfl := layout_unique hlay' hl'
  have hblock : ∀ {x c s}, Block (layoutOf (devs l)) x c s → ∃ g, (x, g) ∈ parts ∧ c = { g.dev.comp with name := some x } ∧ s = gpos l x := by
    intro x c s hB
    obtain ⟨pre, post, h1, h2, h3⟩ := id hB
    have : (x, c) ∈ layoutOf (devs l) := by rw [h1]; simp
    simp only [layoutOf, devs, List.map_map, List.mem_map, Function.comp_def, Prod.mk.injEq] at this
    obtain ⟨q, hq, rfl, rfl⟩ := this
    exact ⟨q.2, (hmem q).mp hq, rfl, (block_unique hB (block_gpos l hnd hq)).2⟩
  have hport : ∀ a g i p, (a, g) ∈ parts → (freePorts g.dev.comp)[i]? = some p → PortOf (layoutOf (devs l)) a ((i : ℕ) : ℤ) (gpos l a + p) :=
    fun a g i p ha hi => ⟨_, _, p, block_gpos l hnd ((hmem _).mpr ha), .inl ⟨i, rfl, hi⟩, rfl⟩
  have hjoined : ∀ a i b j, Joined cs a i b j → ∀ g h p q, (a, g) ∈ parts → (b, h) ∈ parts →
      (freePorts g.dev.comp)[i]? = some p → (freePorts h.dev.comp)[j]? = some q → d.comp.C (gpos l a + p) (gpos l b + q) ≠ 0 := by
    intro a i b j hj g k p q ha hb hp hq
    rw [hC]
    right
    rcases hj with hj | hj
    · exact ⟨_, _, _, _, hj, .inl ⟨hport _ _ _ _ ha hp, hport _ _ _ _ hb hq⟩⟩
    · exact ⟨_, _, _, _, hj, .inr ⟨hport _ _ _ _ hb hq, hport _ _ _ _ ha hp⟩⟩
  have hinside : ∀ q ∈ parts, ∀ i j, q.2.dev.comp.C i j ≠ 0 → d.comp.C (gpos l q.1 + i) (gpos l q.1 + j) ≠ 0 := by
    intro q hq i j hne
    have := (built_reciprocal (h.proper q hq).clean.built).2.2 i j hne
    rw [hC]
    exact .inl ⟨_, _, _, i, j, block_gpos l hnd ((hmem _).mpr hq), this.1, this.2, rfl, rfl, hne⟩
  have hside : ∀ {a : Str} {k : ℤ} {b : Str} {m : ℤ}, Conn.inner a k b m ∈ cs → ∃ (i j : ℕ), k = i ∧ m = j ∧ ∃ g h p q,
      (a, g) ∈ parts ∧ (b, h) ∈ parts ∧ (freePorts g.dev.comp)[i]? = some p ∧ (freePorts h.dev.comp)[j]? = some q := by
    intro a k b m hc
    obtain ⟨qa, hqa, ia, hia, ea⟩ := mem_gearPorts.mp (h.ports.mem_iff.mp (mem_endpoints.mpr ⟨_, _, _, _, hc, .inl rfl⟩))
    obtain ⟨qb, hqb, ib, hib, eb⟩ := mem_gearPorts.mp (h.ports.mem_iff.mp (mem_endpoints.mpr ⟨_, _, _, _, hc, .inr rfl⟩))
    simp only [Prod.mk.injEq] at ea eb
    obtain ⟨rfl, rfl⟩ := ea
    obtain ⟨rfl, rfl⟩ := eb
    exact ⟨ia, ib, rfl, rfl, qa.2, qb.2, _, _, hqa, hqb, List.getElem?_eq_getElem hia, List.getElem?_eq_getElem hib⟩
  have hat : ∀ {a : Str} {g : Gear W B} {i p k : ℕ}, (a, g) ∈ parts → (freePorts g.dev.comp)[i]? = some p →
      PortOf (layoutOf (devs l)) a ((i : ℕ) : ℤ) k → k = gpos l a + p := by
    rintro a g i p k ha hp ⟨c, s, p', hB, hA, rfl⟩
    obtain ⟨rfl, rfl⟩ := block_unique hB (block_gpos l hnd ((hmem _).mpr ha))
    rcases hA with ⟨i', hi', hp'⟩ | ⟨i', hi', hneg, -⟩
    · have : i = i' := by exact_mod_cast hi'
      subst this
      have e : (freePorts g.dev.comp)[i]? = some p' := hp'
      rw [hp] at e
      rw [Option.some.inj e]
    · omega
  refine ⟨d, l, hd, ⟨hclean, ?_, hdev, ?_, ?_, ?_, ?_, ?_, horder, hnd, hmem, h.names, h.proper, hinside, hjoined, ?_⟩⟩
  · unfold Comp.terminated
    rw [Bool.not_eq_true', List.any_eq_false]
    intro k hk hf
    obtain ⟨-, hf⟩ := (hF k).mp hf
    have hw : d.comp.n = ((devs l).map fun q => q.2.comp.n).sum := by
      rw [(netBuffers_ok hb).2.2.1, width, List.map_map]
      rfl
    obtain ⟨x, e, i, hx⟩ := devAt_lt (devs l) (i := k) (by rw [← hw]; exact List.mem_range.mp hk)
    obtain ⟨g, hxl, rfl, rfl, hi⟩ := devAt_gpos hnd hx
    have hxp := (hmem _).mp hxl
    have hcl := (h.proper _ hxp).clean
    by_cases hu : Unconnected g.dev.comp i
    · have hin : i ∈ freePorts g.dev.comp := by
        unfold freePorts
        rw [List.mem_filter]
        exact ⟨(C19_clean_partial _ hcl).1.mem_iff.mpr (List.mem_range.mpr hi), by simp [hi, hu]⟩
      obtain ⟨i', hi', rfl⟩ := List.mem_iff_getElem.mp hin
      have he := h.ports.mem_iff.mpr (mem_gearPorts.mpr ⟨_, hxp, i', hi', rfl⟩)
      obtain ⟨a, ia, b, ib, hc, hy⟩ := mem_endpoints.mp he
      obtain ⟨ja, jb, rfl, rfl, ga, gb, pa, pb, hga, hgb, hpa, hpb⟩ := hside hc
      have hpi : (freePorts g.dev.comp)[i']? = some (freePorts g.dev.comp)[i'] := List.getElem?_eq_getElem hi'
      rcases hy with hy | hy <;> simp only [Prod.mk.injEq] at hy <;> obtain ⟨rfl, hy⟩ := hy
      · have : i' = ja := by exact_mod_cast hy
        subst this
        exact (hf (gpos l b + pb)).2 ⟨_, _, _, _, hc, .inl ⟨hport _ _ _ _ hxp hpi, hport _ _ _ _ hgb hpb⟩⟩
      · have : i' = jb := by exact_mod_cast hy
        subst this
        exact (hf (gpos l a + pa)).2 ⟨_, _, _, _, hc, .inr ⟨hport _ _ _ _ hga hpa, hport _ _ _ _ hxp hpi⟩⟩
    · have hrec := built_reciprocal hcl.built
      have : ∃ j, g.dev.comp.C i j ≠ 0 := by
        unfold Unconnected at hu
        push Not at hu
        obtain ⟨j, -, hj⟩ := hu
        by_cases h0 : g.dev.comp.C i j = 0
        · exact ⟨j, by rw [hrec.1]; exact hj h0⟩
        · exact ⟨j, h0⟩
      obtain ⟨j, hj⟩ := this
      have hb := hrec.2.2 i j hj
      exact (hf (gpos l x + j)).1 ⟨_, _, _, i, j, block_gpos l hnd hxl, hb.1, hb.2, rfl, rfl, hj⟩
  · rw [(netBuffers_ok hb).2.2.1, width, List.map_map]
    rfl
  · rw [(netBuffers_ok hb).2.2.2.2.1, devs, List.map_map, List.flatMap_map]
    rfl
  · rw [(netBuffers_ok hb).2.2.2.2.2.1, devs, List.map_map, List.flatMap_map]
    rfl
  · rw [(netBuffers_ok hb).2.2.2.2.2.2.1, devs, List.map_map, List.flatMap_map]
    rfl
  · unfold gearActors
    rw [map_stripConn_text hg, usedNames_text hg, ← horder, List.filterMap_map]
    have : ∀ l : List (Str × Gear W B), (∀ q ∈ l, q ∈ parts) →
        l.filterMap ((fun x => (dictGet x parts).map fun g => g.actor) ∘ Prod.fst) = l.map fun q => q.2.actor := by
      intro l hl
      induction l with
      | nil => rfl
      | cons q l ih =>
        rw [List.filterMap_cons, Function.comp_apply, hget q (hl q List.mem_cons_self), List.map_cons,
          ih fun p hp => hl p (List.mem_cons_of_mem _ hp)]
        rfl
    exact this l hlp
  · intro k m hkm
    rcases (hC k m).mp hkm with hI | hD
    · obtain ⟨x, c, s, i, j, hB, hi, hj, rfl, rfl, hne⟩ := hI
      obtain ⟨g, hgp, rfl, rfl⟩ := hblock hB
      exact .inl ⟨_, hgp, i, j, hi, hj, rfl, rfl, hne⟩
    · right
      obtain ⟨a, ka, b, mb, hc, hP⟩ := hD
      obtain ⟨i, j, rfl, rfl, ga, gb, pa, pb, hga, hgb, hpa, hpb⟩ := hside hc
      rcases hP with ⟨h1, h2⟩ | ⟨h1, h2⟩
      · exact ⟨a, i, b, j, ga, gb, pa, pb, .inl hc, hga, hgb, hpa, hpb, hat hga hpa h1, hat hgb hpb h2⟩
      · exact ⟨b, j, a, i, gb, ga, pb, pa, .inr hc, hgb, hga, hpb, hpa, hat hgb hpb h2, hat hga hpa h1⟩

end Gears

end PT
