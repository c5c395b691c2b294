import Verif.Proof.MeshTerm
import Verif.Proof.Waves

/-! Proof support: the number of components one after the other in a mesh. -/

namespace PT
open Spec

/-- As `Oriented`, and no more than `K + 1` components follow each other. Port number `j` belongs to component number `rk j`. -/
def OrientedAt (K : ℕ) (d : Dev) (side : ℕ → Bool) (rk : ℕ → ℕ) : Prop :=
  ∃ front rank, FeedForward d front rank ∧ (∀ j p : ℕ, (freePorts d.comp)[j]? = some p → front p = side j ∧ rank p = rk j) ∧
    (∀ i, d.comp.src.getD i false = true → front i = false) ∧ ∀ i < d.comp.n, rank i ≤ K

/-- Connections from the back of a device to the front of a device, towards higher numbers. -/
def DirectedAt (cs : List Conn) (side : Str → ℕ → Bool) (lv : Str → ℕ → ℕ) : Prop :=
  ∀ a i b j, Conn.inner a i b j ∈ cs → ∃ i' j' : ℕ, i = i' ∧ j = j' ∧ side a i' ≠ side b j' ∧
    (side a i' = false → lv a i' < lv b j') ∧ (side b j' = false → lv b j' < lv a i')

theorem OrientedAt.bounded {K : ℕ} {d : Dev} {side : ℕ → Bool} {rk : ℕ → ℕ} (h : OrientedAt K d side rk) :
    OrientedAt K d side fun j => min (rk j) K := by
  obtain ⟨f, r, h1, h2, h3, h4⟩ := h
  refine ⟨f, r, h1, fun j p hp => ?_, h3, h4⟩
  obtain ⟨e1, e2⟩ := h2 j p hp
  have hmem : p ∈ freePorts d.comp := List.mem_of_getElem? hp
  have hlt : p < d.comp.n := by
    unfold freePorts at hmem
    simp only [List.mem_filter, decide_eq_true_eq] at hmem
    exact hmem.2.1
  have := h4 p hlt
  exact ⟨e1, by show r p = min (rk j) K; omega⟩

theorem orientedAt_named {K : ℕ} {d : Dev} {side : ℕ → Bool} {rk : ℕ → ℕ} (h : OrientedAt K d side rk) (x : Option Str) :
    OrientedAt K { d with comp := { d.comp with name := x } } side rk := by
  obtain ⟨f, r, h1, h2, h3, h4⟩ := h
  exact ⟨f, r, ⟨h1.scatter, h1.connect⟩, h2, h3, h4⟩

theorem depth_compose {name : Option Str} {modules : List (Str × Dev)} {cs : List Conn} {d : Dev}
    (hm : ∀ p ∈ modules, Built p.2.comp ∧ OrderOK p.2.comp) (hg : GoodConns cs)
    (hk : mkDev name modules (cs.map Conn.text) = .ok d) (side : Str → ℕ → Bool) (rk : Str → ℕ → ℕ) (off : Str → ℕ) (K : ℕ)
    (ho : ∀ x e, dictGet x modules = some e → ∃ k, off x + k ≤ K ∧ OrientedAt k e (side x) (rk x))
    (hdir : DirectedAt cs side fun x j => off x + rk x j)
    (D : List (Str × ℤ)) (hD : PortsAre (comps modules) cs d.comp D) (hpos : ∀ e ∈ D, 0 ≤ e.2) (S : ℕ → Bool) (RK : ℕ → ℕ)
    (hS : ∀ (j : ℕ) x (i : ℕ), D[j]? = some (x, (i : ℤ)) → S j = side x i ∧ RK j = off x + rk x i) : OrientedAt K d S RK := by
  obtain ⟨l, hl, hlay, hnet, hb, hd⟩ := mkDev_ok hg hk
  have hch : ∀ x : Str, ∃ (front : ℕ → Bool) (rank : ℕ → ℕ), ∀ e, dictGet x modules = some e →
      FeedForward e front rank ∧ (∀ j p : ℕ, (freePorts e.comp)[j]? = some p → front p = side x j ∧ rank p = rk x j) ∧
        (∀ i, e.comp.src.getD i false = true → front i = false) ∧ ∀ i < e.comp.n, off x + rank i ≤ K := by
    intro x
    cases hx : dictGet x modules with
    | none => exact ⟨fun _ => false, fun _ => 0, fun e h => by cases h⟩
    | some e =>
      obtain ⟨k, hk, f, r, h1, h2, h3, h4⟩ := ho x e hx
      refine ⟨f, r, fun e' h => ?_⟩
      simp only [Option.some.injEq] at h
      subst h
      exact ⟨h1, h2, h3, fun i hi => (Nat.add_le_add_left (h4 i hi) _).trans hk⟩
  choose F R hFR using hch
  have hm' : ∀ p ∈ comps modules, Built p.2 ∧ OrderOK p.2 := by
    intro p hp
    simp only [comps, List.mem_map] at hp
    obtain ⟨q, hq, rfl⟩ := hp
    exact hm q hq
  obtain ⟨l', hN⟩ := Net.of_mk hm' hg hnet
  have hl' : l' = layoutOf l := layout_unique hN.layout hlay
  subst hl'
  have hport : ∀ {x : Str} {i : ℕ} {g : ℕ}, PortOf (layoutOf l) x i g →
      ∃ e p, devAt l g = some (x, e, p) ∧ F x p = side x i ∧ R x p = rk x i := by
    rintro x i g ⟨c, s, p, hbl, hat, rfl⟩
    have hp : p ∈ freePorts c := hat.mem
    have hlt : p < c.n := by
      unfold freePorts at hp
      simp only [List.mem_filter, decide_eq_true_eq] at hp
      exact hp.2.1
    obtain ⟨e, he, hc, hdev⟩ := devAt_block l hbl hlt
    refine ⟨e, p, hdev, (hFR x e (hl _ he)).2.1 i p ?_⟩
    have hfe : freePorts c = freePorts e.comp := by rw [hc]; rfl
    rw [← hfe]
    rcases hat with ⟨k, hk, h⟩ | ⟨k, hk, h0, _⟩
    · have : i = k := by exact_mod_cast hk
      rw [this]; exact h
    · omega
  refine ⟨spread l F, spread l fun x p => off x + R x p, ⟨?_, ?_⟩, ?_, ?_, ?_⟩
  · intro wl i j hi hj h
    have hex : ∃ x e p q, devAt l i = some (x, e, p) ∧ devAt l j = some (x, e, q) ∧
        (e.rS wl p q ≠ 0 ∨ e.iS wl p q ≠ 0) := by
      rcases h with h | h
      · rw [hd] at h
        obtain ⟨x, e, p, q, h1, h2, h3⟩ := blockMat_devAt (fun e => e.rS wl) l h
        exact ⟨x, e, p, q, h1, h2, .inl h3⟩
      · rw [hd] at h
        obtain ⟨x, e, p, q, h1, h2, h3⟩ := blockMat_devAt (fun e => e.iS wl) l h
        exact ⟨x, e, p, q, h1, h2, .inr h3⟩
    obtain ⟨x, e, p, q, h1, h2, h3⟩ := hex
    obtain ⟨m1, l1⟩ := devAt_mem l h1
    obtain ⟨-, l2⟩ := devAt_mem l h2
    rw [spread_at h1, spread_at h2, spread_at h1, spread_at h2]
    obtain ⟨f1, f2⟩ := (hFR x e (hl _ m1)).1.scatter wl p q l1 l2 h3
    exact ⟨f1, by rw [f2]⟩
  · intro i j h
    rcases (hN.conn i j).mp h with hin | hdec
    · obtain ⟨x, c, s, i', j', hbl, hi', hj', rfl, rfl, hne⟩ := hin
      obtain ⟨e, he, hc, h1⟩ := devAt_block l hbl hi'
      obtain ⟨e', he', hc', h2⟩ := devAt_block l hbl hj'
      rw [spread_at h1, spread_at h2, spread_at h1, spread_at h2]
      have hne' : e.comp.C i' j' ≠ 0 := by rw [hc] at hne; exact hne
      obtain ⟨f1, f2⟩ := (hFR x e (hl _ he)).1.connect i' j' hne'
      exact ⟨f1, fun h => by have := f2 h; omega⟩
    · obtain ⟨a, k, b, m, hmem, hh⟩ := hdec
      obtain ⟨i', j', rfl, rfl, s1, s2, s3⟩ := hdir a k b m hmem
      rcases hh with ⟨h1, h2⟩ | ⟨h1, h2⟩
      · obtain ⟨e, p, d1, f1⟩ := hport h1
        obtain ⟨e', p', d2, f2⟩ := hport h2
        rw [spread_at d1, spread_at d2, spread_at d1, spread_at d2, f1.1, f2.1, f1.2, f2.2]
        exact ⟨s1, s2⟩
      · obtain ⟨e, p, d1, f1⟩ := hport h1
        obtain ⟨e', p', d2, f2⟩ := hport h2
        rw [spread_at d1, spread_at d2, spread_at d1, spread_at d2, f1.1, f2.1, f1.2, f2.2]
        exact ⟨s1.symm, s3⟩
  · intro j g hg'
    have hF := hD (layoutOf l) hlay
    rw [List.forall₂_iff_get] at hF
    have hj : j < (freePorts d.comp).length := by
      by_contra hlt
      rw [List.getElem?_eq_none (by omega)] at hg'
      cases hg'
    have hj' : j < D.length := by rw [hF.1]; exact hj
    have hp := hF.2 j hj' hj
    rw [List.getElem?_eq_getElem hj] at hg'
    simp only [Option.some.injEq] at hg'
    simp only [List.get_eq_getElem] at hp
    rw [hg'] at hp
    obtain ⟨k, hk⟩ := Int.eq_ofNat_of_zero_le (hpos _ (List.getElem_mem hj'))
    rw [hk] at hp
    obtain ⟨e, p, d1, f1⟩ := hport hp
    have hSj := hS j D[j].1 k (by rw [List.getElem?_eq_getElem hj', ← hk])
    rw [spread_at d1, spread_at d1, f1.1, f1.2, hSj.1, hSj.2]
    exact ⟨rfl, rfl⟩
  · intro i hi
    obtain ⟨-, -, -, -, hsrc, -⟩ := netBuffers_ok hb
    rw [hsrc, List.flatMap_map] at hi
    obtain ⟨x, e, p, h1, h2⟩ := mark_devAt (fun c => c.src) l
      (fun q hq => (built_marks (hm _ (dictGet_mem (hl q hq))).1).1) hi
    rw [spread_at h1]
    exact (hFR x e (hl _ (devAt_mem l h1).1)).2.2.1 p h2
  · intro i hi
    obtain ⟨-, -, hn, -⟩ := netBuffers_ok hb
    obtain ⟨x, e, p, h1⟩ := devAt_lt l (by rw [hn, width, List.map_map] at hi; exact hi)
    rw [spread_at h1]
    obtain ⟨m1, l1⟩ := devAt_mem l h1
    exact (hFR x e (hl _ m1)).2.2.2 p l1

theorem Made.orientedAt {P : Part → Prop} {modules : List (Str × Dev)} {cs : List Conn} {D : List (Str × ℤ)} {d : Dev}
    (h : Made P modules cs D d) (side : Str → ℕ → Bool) (rk : Str → ℕ → ℕ) (off : Str → ℕ) (K : ℕ)
    (ho : ∀ x e, dictGet x modules = some e → ∃ k, off x + k ≤ K ∧ OrientedAt k e (side x) (rk x))
    (hdir : DirectedAt cs side fun x j => off x + rk x j) (S : ℕ → Bool) (RK : ℕ → ℕ)
    (hS : ∀ (j : ℕ) x (i : ℕ), D[j]? = some (x, (i : ℤ)) → S j = side x i ∧ RK j = off x + rk x i) : OrientedAt K d S RK := by
  obtain ⟨hm, hg, hpos, name, hk⟩ := h.ready
  exact depth_compose (fun p hp => (hm p hp).ok) hg hk side rk off K ho hdir D h.ports hpos S RK hS

/-- A basic component is one component. -/
theorem part_orientedAt {p : Part} {side : ℕ → Bool} (h : Oriented p.dev side) : OrientedAt 0 p.dev side fun _ => 0 := by
  obtain ⟨f, r, h1, h2, h3⟩ := h
  refine ⟨f, fun _ => 0, ⟨fun wl i j hi hj hne => ⟨(h1.scatter wl i j hi hj hne).1, rfl⟩, fun i j hne => ?_⟩,
    fun j q hq => ⟨h2 j q hq, rfl⟩, h3, fun _ _ => le_refl _⟩
  obtain ⟨_, _, _, h, -⟩ := part_leaf p
  have : p.dev.comp = p.comp := rfl
  rw [this, h] at hne
  exact absurd rfl hne

theorem OrientedAt.congr {K : ℕ} {d : Dev} {side : ℕ → Bool} {rk rk' : ℕ → ℕ} (h : OrientedAt K d side rk)
    (he : ∀ j < (freePorts d.comp).length, rk' j = rk j) : OrientedAt K d side rk' := by
  obtain ⟨f, r, h1, h2, h3, h4⟩ := h
  refine ⟨f, r, h1, fun j p hp => ?_, h3, h4⟩
  rw [he j (List.getElem?_eq_some_iff.mp hp).1]
  exact h2 j p hp

theorem OrientedAt.oriented {K : ℕ} {d : Dev} {side : ℕ → Bool} {rk : ℕ → ℕ} (h : OrientedAt K d side rk) : Oriented d side := by
  obtain ⟨f, r, h1, h2, h3, -⟩ := h
  exact ⟨f, r, h1, fun j p hp => (h2 j p hp).1, h3⟩

variable {P : Part → Prop}

/-- The number of the component at a port. -/
def portRank (D : List (Str × ℤ)) (lv : Str → ℕ → ℕ) (j : ℕ) : ℕ :=
  match D[j]? with
  | some (x, i) => lv x i.toNat
  | none => 0

theorem portRank_get {D : List (Str × ℤ)} {lv : Str → ℕ → ℕ} {j : ℕ} {x : Str} {i : ℕ} (h : D[j]? = some (x, (i : ℤ))) :
    portRank D lv j = lv x i := by
  unfold portRank
  rw [h]
  simp

/-- Networks of basic components. -/
theorem leaf_depth {parts : List (Str × Part)} (h2 : PartsFit parts) {cs : List Conn} {D : List (Str × ℤ)} {d : Dev}
    (h : Made P (parts.map fun q => (q.1, q.2.dev)) cs D d) (level : Str → ℕ) (K : ℕ) (hK : ∀ q ∈ parts, level q.1 ≤ K)
    (hdir : Directed cs leafSide level) (S : ℕ → Bool)
    (hS : ∀ (j : ℕ) x (i : ℕ), D[j]? = some (x, (i : ℤ)) → S j = leafSide x i) :
    OrientedAt K d S (portRank D fun x _ => level x) := by
  refine h.orientedAt leafSide (fun _ _ => 0) level K ?_ hdir S _ fun j x i hj => ⟨hS j x i hj, portRank_get hj⟩
  intro x e hx
  have ho := h2.oriented x e hx
  rw [dictGet_map, Option.map_eq_some_iff] at hx
  obtain ⟨p, hp, rfl⟩ := hx
  exact ⟨0, hK _ (dictGet_mem hp), part_orientedAt ho⟩

/-- Columns of `_Capacity2ClementsNxN`. -/
def cap2Column (N : ℕ) (x : Str) : ℕ :=
  if x.head? = some 'm' then numOf 3 x % 2 else if numOf 2 x = 1 ∧ N % 2 = 1 then 0 else 1

theorem cap2Column_le (N : ℕ) (x : Str) : cap2Column N x ≤ 1 := by
  unfold cap2Column
  split
  · omega
  · split <;> omega

theorem cap2_columns {N : ℕ} (hN : 2 ≤ N) : Directed (cap2Cs N) leafSide (cap2Column N) := by
  have hm : ∀ i, cap2Column N (mziN i) = i % 2 := fun i => by
    unfold cap2Column
    rw [if_pos (head_mzi i), numOf_mzi]
  have hw0 : cap2Column N (wgN 0) = 1 := by
    unfold cap2Column
    rw [if_neg (by simp [head_wg]), numOf_wg, if_neg (by omega)]
  have hw1 : cap2Column N (wgN 1) = if N % 2 = 1 then 0 else 1 := by
    unfold cap2Column
    rw [if_neg (by simp [head_wg]), numOf_wg]
    simp
  intro a i b j h
  simp only [cap2Cs, List.mem_append, List.mem_flatMap, List.mem_cons, List.not_mem_nil,
    reduceCtorEq, and_false, exists_false, or_false, Conn.inner.injEq, List.mem_ite_nil_right, mem_range2] at h
  rcases h with ((⟨rfl, rfl, rfl, rfl⟩ | ⟨k, hk, ⟨rfl, rfl, rfl, rfl⟩ | ⟨rfl, rfl, rfl, rfl⟩⟩) |
    ⟨hk, rfl, rfl, rfl, rfl⟩) | h
  · refine dir_fwd rfl rfl ?_
    rw [hm, hw0]; omega
  · refine dir_fwd rfl rfl ?_
    rw [hm, hm]; omega
  · refine dir_bwd rfl rfl ?_
    rw [hm, hm]; omega
  · refine dir_fwd rfl rfl ?_
    rw [hm, hm]; omega
  · split at h
    · rename_i hodd
      simp only [List.mem_singleton, Conn.inner.injEq] at h
      obtain ⟨rfl, rfl, rfl, rfl⟩ := h
      refine dir_fwd rfl rfl ?_
      rw [hm, hw1, if_pos hodd]; omega
    · rename_i hodd
      simp only [List.mem_singleton, Conn.inner.injEq] at h
      obtain ⟨rfl, rfl, rfl, rfl⟩ := h
      refine dir_fwd rfl rfl ?_
      rw [hm, hw1, if_neg hodd]; omega

/-- Columns of `_ReckNxN`. -/
def reckColumn (N : ℕ) (x : Str) : ℕ := if x.head? = some 'm' then N - 1 - numOf 3 x else 0

theorem reckLayer_columns {N : ℕ} (hN : 2 ≤ N) : Directed (reckLayerCs N) leafSide (reckColumn N) := by
  intro a i b j h
  simp only [reckLayerCs, List.mem_append, List.mem_map, List.mem_range, List.mem_singleton, reduceCtorEq, and_false,
    exists_false, or_false, Conn.inner.injEq] at h
  rcases h with ⟨k, hk, rfl, rfl, rfl, rfl⟩ | ⟨rfl, rfl, rfl, rfl⟩
  · refine dir_bwd rfl rfl ?_
    simp only [reckColumn, head_mzi, if_pos, numOf_mzi]
    omega
  · refine dir_bwd rfl rfl ?_
    simp only [reckColumn, head_mzi, if_pos, numOf_mzi]
    rw [if_neg (by decide)]
    omega

theorem phase_deep {N : ℕ} (hN : 0 < N) {wg : ℕ → Part} (hw : ∀ i, TwoOf P (wg i)) :
    ∃ d, phaseArray N wg = .ok d ∧ LayerOK P N d ∧ ∃ rk, OrientedAt 0 d (fun j => decide (j < N)) rk := by
  obtain ⟨h1, h2⟩ := fit_split (P := P) (parts := phaseParts N wg) (by
    intro q hq
    simp only [phaseParts, List.mem_map] at hq
    obtain ⟨i, -, rfl⟩ := hq
    exact two_fit (by simp [head_wg]) (hw i))
  obtain ⟨d, hd, h⟩ := phase_made hN h1
  exact ⟨d, hd, ⟨h.made, by rw [h.len, ioList_length]⟩, _,
    leaf_depth h2 h (fun _ => 0) 0 (fun _ _ => le_refl _) (phase_directed N _ _) _ (phase_side N)⟩

theorem mixing_deep {N : ℕ} (hN : 0 < N) {mz wg : ℕ → Part} (hm : ∀ i, FourOf P (mz i)) (hw : ∀ i, TwoOf P (wg i)) :
    ∃ d, mixingArray N mz wg = .ok d ∧ LayerOK P N d ∧ ∃ rk, OrientedAt 1 d (fun j => decide (j < N)) rk := by
  obtain ⟨h1, h2⟩ := fit_split (P := P) (parts := mixingParts N mz wg) (by
    intro q hq
    simp only [mixingParts, List.mem_append, List.mem_map, List.mem_ite_nil_right, List.mem_singleton] at hq
    rcases hq with (⟨i, -, rfl⟩ | ⟨i, -, rfl⟩) | ⟨-, rfl⟩
    · exact two_fit (by simp [head_wg]) (hw i)
    · exact four_fit (head_mzi i) (hm i)
    · exact two_fit (by simp) (hw N))
  obtain ⟨d, hd, h⟩ := mixing_made hN h1
  exact ⟨d, hd, ⟨h.made, by rw [h.len, ioList_length]⟩, _,
    leaf_depth h2 h mixingLevel 1 (fun q _ => by unfold mixingLevel; split <;> omega) (mixing_directed N) _ (mixing_side N)⟩

theorem cap2_deep {N : ℕ} (hN : 2 ≤ N) {mz : ℕ → Part} {wg : Part} (hm : ∀ i, FourOf P (mz i)) (hw : TwoOf P wg) :
    ∃ d, cap2 N mz wg = .ok d ∧ LayerOK P N d ∧ ∃ rk, OrientedAt 1 d (fun j => decide (j < N)) rk := by
  obtain ⟨h1, h2⟩ := fit_split (P := P) (parts := cap2Parts N mz wg) (by
    intro q hq
    simp only [cap2Parts, List.mem_append, List.mem_map, List.mem_cons, List.not_mem_nil, or_false] at hq
    rcases hq with ⟨i, -, rfl⟩ | rfl | rfl
    · exact four_fit (head_mzi i) (hm i)
    · exact two_fit (by simp [head_wg]) hw
    · exact two_fit (by simp [head_wg]) hw)
  obtain ⟨d, hd, h⟩ := cap2_made hN h1
  exact ⟨d, hd, ⟨h.made, by rw [h.len, ioList_length]⟩, _,
    leaf_depth h2 h (cap2Column N) 1 (fun q _ => cap2Column_le N _) (cap2_columns hN) _ (cap2_side N)⟩

/-- The columns at the ports of `_ReckNxN`. -/
def reckRank (N j : ℕ) : ℕ := if j < N then N - 1 - j else if j = N then N - 1 else N - (j - N)

theorem reckLayer_deep {N : ℕ} (hN : 2 ≤ N) {mz : ℕ → Part} {wg : Part} (hm : ∀ i, FourOf P (mz i)) (hw : TwoOf P wg) :
    ∃ d, reckLayer N mz wg = .ok d ∧ OrientedAt (N - 1) d (fun j => decide (j < N)) (reckRank N) := by
  obtain ⟨h1, h2⟩ := fit_split (P := P) (parts := reckLayerParts N mz wg) (by
    intro q hq
    simp only [reckLayerParts, List.mem_append, List.mem_map, List.mem_singleton] at hq
    rcases hq with ⟨i, -, rfl⟩ | rfl
    · exact four_fit (head_mzi i) (hm i)
    · exact two_fit (by simp) hw)
  obtain ⟨d, hd, h⟩ := reckLayer_made hN h1
  refine ⟨d, hd, (leaf_depth h2 h (reckColumn N) (N - 1) (fun q _ => by unfold reckColumn; split <;> omega) (reckLayer_columns hN) _
    (reckLayer_side N)).congr ?_⟩
  intro j hj
  rw [h.len] at hj
  have hget := List.getElem?_eq_getElem hj
  have hmz : ∀ i, reckColumn N (mziN i) = N - 1 - i := fun i => by
    unfold reckColumn
    rw [if_pos (head_mzi i), numOf_mzi]
  have hwg : reckColumn N ['w', 'g'] = 0 := if_neg (by decide)
  unfold reckRank
  rcases ioList_get hget with ⟨h1, he⟩ | ⟨h1, h2, he⟩
  · rw [he] at hget
    rw [portRank_get hget, if_pos h1]
    unfold reckIn
    split
    · exact (hmz j).symm
    · rw [hwg]; omega
  · rw [he] at hget
    rw [portRank_get hget, if_neg (by omega)]
    unfold reckOut
    split
    · rw [if_pos (by omega), hmz]; omega
    · rw [if_neg (by omega), hmz]; omega

/-- Columns of a mesh of layers of two columns each. -/
theorem layers_deep {N k L : ℕ} {devs : ℕ → Dev} {d : Dev}
    (h : Made P ((List.range (k + 1)).map fun i => (layerN i, devs i)) (chainCs k (fun _ => N) (fun _ => N) layerN)
        (ioList N (fun j => (layerN 0, j)) (fun j => (layerN k, N + j))) d) (hL : L ≤ 1)
    (ho : ∀ i < k, ∃ rk, OrientedAt 1 (devs i) (fun j => decide (j < N)) rk)
    (hl : ∃ rk, OrientedAt L (devs k) (fun j => decide (j < N)) rk) :
    ∃ rk, OrientedAt (2 * k + L) d (fun j => decide (j < N)) rk := by
  have hch : ∀ i, ∃ rk : ℕ → ℕ, (∀ j, rk j ≤ 1) ∧ (i ≤ k → ∃ m, 2 * i + m ≤ 2 * k + L ∧ OrientedAt m (devs i) (fun j => decide (j < N)) rk) := by
    intro i
    rcases lt_trichotomy i k with hi | rfl | hi
    · obtain ⟨rk, hrk⟩ := ho i hi
      exact ⟨_, fun j => min_le_right _ _, fun _ => ⟨1, by omega, hrk.bounded⟩⟩
    · obtain ⟨rk, hrk⟩ := hl
      exact ⟨_, fun j => (min_le_right _ _).trans hL, fun _ => ⟨L, le_refl _, hrk.bounded⟩⟩
    · exact ⟨fun _ => 0, fun _ => Nat.zero_le _, fun h => by omega⟩
  choose rk hrk1 hrk2 using hch
  refine ⟨_, h.orientedAt (fun x j => decide (j < N)) (fun x => rk (numOf 5 x)) (fun x => 2 * numOf 5 x) _ ?_ ?_ _ _ fun j x i hj => ⟨?_, portRank_get (lv := fun x i => 2 * numOf 5 x + rk (numOf 5 x) i) hj⟩⟩
  · intro x e hx
    obtain ⟨i, hi, he⟩ := List.mem_map.mp (dictGet_mem hx)
    rw [List.mem_range] at hi
    simp only [Prod.mk.injEq] at he
    obtain ⟨rfl, rfl⟩ := he
    rw [numOf_layer]
    exact hrk2 i (by omega)
  · intro a i b j hab
    simp only [chainCs, List.mem_flatMap, List.mem_map, List.mem_range, Conn.inner.injEq] at hab
    obtain ⟨m, hm, l, hl, rfl, rfl, rfl, rfl⟩ := hab
    refine ⟨N + l, l, rfl, rfl, ?_, ?_, ?_⟩
    · show decide (N + l < N) ≠ decide (l < N)
      rw [decide_eq_false (by omega), decide_eq_true (by omega)]
      decide
    · intro _
      simp only [numOf_layer]
      have := hrk1 m (N + l)
      omega
    · intro h
      simp only [decide_eq_false_iff_not] at h
      omega
  · refine ioList_side (side := fun _ j => decide (j < N)) ?_ ?_ j x i hj
    · intro j hj
      simpa using hj
    · intro j hj
      simp

/-- A Clements network of `capacity` columns of Mzis has one more column, of waveguides. -/
theorem clements_deep {N capacity : ℕ} (hN : 2 ≤ N) (hcap : 2 ≤ capacity) {mz wg : ℕ → ℕ → Part}
    (hm : ∀ m i, FourOf P (mz m i)) (hw : ∀ m i, TwoOf P (wg m i)) :
    ∃ d, clements N capacity mz wg = .ok d ∧ LayerOK P N d ∧ ∃ rk, OrientedAt capacity d (fun j => decide (j < N)) rk := by
  have hlast : ∃ d, clementsLast N capacity (mz (capacity / 2)) (wg (capacity / 2)) = .ok d ∧ LayerOK P N d ∧
      ∃ rk, OrientedAt (capacity % 2) d (fun j => decide (j < N)) rk := by
    unfold clementsLast
    split
    · rename_i h
      rw [h]
      exact phase_deep (by omega) (hw _)
    · rename_i h
      rw [Nat.mod_two_ne_zero.mp h]
      exact mixing_deep (by omega) (hm _) (hw _)
  obtain ⟨dl, hdl, hdl1, hdl2⟩ := hlast
  have hlay : ∀ m, ∃ d, cap2 N (mz m) (wg m 0) = .ok d ∧ LayerOK P N d ∧ ∃ rk, OrientedAt 1 d (fun j => decide (j < N)) rk :=
    fun m => cap2_deep hN (hm m) (hw m 0)
  choose D hD using hlay
  let devs : ℕ → Dev := fun i => if i < capacity / 2 then D i else dl
  have hdev : ∀ i ≤ capacity / 2, LayerOK P N (devs i) := by
    intro i hi
    simp only [devs]
    split
    · exact (hD i).2.1
    · exact hdl1
  obtain ⟨d, hd, h⟩ := layers_made (by omega) (by omega) hdev
  refine ⟨d, ?_, ⟨h.made, by rw [h.len, ioList_length]⟩, ?_⟩
  · unfold clements
    have hl : mapE (fun i => (cap2 N (mz i) (wg i 0)).map fun d => (layerN i, d)) (List.range (capacity / 2)) =
        .ok ((List.range (capacity / 2)).map fun i => (layerN i, D i)) := by
      have := mapE_map_ok (f := fun i => (cap2 N (mz i) (wg i 0)).map fun d => (layerN i, d)) (g := id)
        (h := fun i => (layerN i, D i)) (List.range (capacity / 2)) (by
          intro m _
          simp only [id, (hD m).1, Except.map])
      simpa using this
    rw [hl, hdl]
    show mkDev none _ _ = _
    rw [← hd]
    congr 1
    congr 1
    · apply List.map_congr_left
      intro i hi
      rw [List.mem_range] at hi
      simp only [devs]
      rw [if_pos hi]
    · simp [devs]
  · have := layers_deep (L := capacity % 2) h (by omega) (fun i hi => by simp only [devs]; rw [if_pos hi]; exact (hD i).2.2)
      (by simp only [devs]; rw [if_neg (by omega)]; exact hdl2)
    rw [Nat.div_add_mod] at this
    exact this

/-- A Reck network has `2 * N - 1` columns. -/
theorem reck_deep {N : ℕ} (hN : 2 ≤ N) {mz : ℕ → ℕ → Part} {wg : ℕ → Part} (hm : ∀ m i, FourOf P (mz m i))
    (hw : ∀ m, TwoOf P (wg m)) :
    ∃ d, reck N mz wg = .ok d ∧ LayerOK P N d ∧ ∃ rk, OrientedAt (2 * N - 2) d (fun j => decide (j < N)) rk := by
  obtain ⟨D, hD⟩ := reckLayer_exists (N := N) hm hw
  obtain ⟨d, hd, h⟩ := reck_chain hN hm hw hD
  refine ⟨d, hd, ⟨h.made, by rw [h.len, ioList_length]⟩, _, h.orientedAt (fun x j => decide (j < N - reckIdx N x))
    (fun x => reckRank (N - reckIdx N x)) (fun x => 2 * reckIdx N x) _ ?_ ?_ _ _ fun j x i hj =>
      ⟨?_, portRank_get (lv := fun x i => 2 * reckIdx N x + reckRank (N - reckIdx N x) i) hj⟩⟩
  · intro x e hx
    obtain ⟨i, hi, he⟩ := List.mem_map.mp (dictGet_mem hx)
    rw [List.mem_range] at hi
    simp only [Prod.mk.injEq] at he
    obtain ⟨rfl, rfl⟩ := he
    rw [reckIdx_name i (by omega)]
    by_cases hlt : i < N - 1
    · obtain ⟨e, he, ho⟩ := reckLayer_deep (P := P) (N := N - i) (by omega) (hm i) (hw i)
      rw [hD i hlt] at he
      simp only [Except.ok.injEq] at he
      subst he
      refine ⟨N - i - 1, by omega, ?_⟩
      unfold reckDevs
      rw [if_pos hlt]
      exact ho
    · have ho := (reckDevs_ok hN hm hw hD i (by omega)).2
      have hlen := (reckDevs_ok hN hm hw hD i (by omega)).1.len
      refine ⟨0, by omega, ?_⟩
      unfold reckDevs at ho hlen ⊢
      rw [if_neg hlt] at ho hlen ⊢
      refine (part_orientedAt ho).congr fun j hj => ?_
      rw [hlen] at hj
      unfold reckRank
      split
      · omega
      · split <;> omega
  · intro a i b j hab
    simp only [chainCs, List.mem_flatMap, List.mem_map, List.mem_range, Conn.inner.injEq] at hab
    obtain ⟨m, hm, l, hl, rfl, rfl, rfl, rfl⟩ := hab
    have e1 := reckIdx_name (N := N) m (by omega)
    have e2 := reckIdx_name (N := N) (m + 1) (by omega)
    refine ⟨N - m + 1 + l, l, rfl, rfl, ?_, ?_, ?_⟩
    · simp only [e1, e2]
      rw [decide_eq_false (by omega), decide_eq_true (by omega)]
      decide
    · intro _
      simp only [e1, e2]
      unfold reckRank
      rw [if_neg (by omega), if_neg (by omega), if_pos (by omega)]
      omega
    · intro h
      simp only [e2, decide_eq_false_iff_not] at h
      omega
  · refine ioList_side (N := N) (side := fun x j => decide (j < N - reckIdx N x)) ?_ ?_ j x i hj
    · intro j hj
      simp only [reckIdx_name 0 (Nat.zero_le _)]
      simpa using hj
    · intro j hj
      have hx := reckIdx_name (N := N) j (by omega)
      simp only [hx]
      simp

/-- Columns of a terminated mesh. -/
theorem term_deep (hblank : ∀ p, P p → p ≠ .source ∧ p ≠ .detector) {N : ℕ} (hN : 0 < N) {d : Dev}
    (hd : LayerOK P N d) {K : ℕ} (ho : ∃ rk, OrientedAt K d (fun j => decide (j < N)) rk) (nw newName : Str) (hg : GoodName nw)
    (hs : nw.head? ≠ some 's') (hdd : nw.head? ≠ some 'd') :
    ∃ d', termDev newName nw d (meshTerms N) = .ok d' ∧ MadeOf (OrEnd P) d' ∧ d'.comp.terminated = true ∧
      (∃ front rank, FeedForward d' front rank ∧ ∀ i < d'.comp.n, rank i ≤ K + 2) ∧ d'.comp.det.count true = N := by
  obtain ⟨rk, ho⟩ := ho
  have hb := ho.bounded
  obtain ⟨d', hd', hM, ht, -, -, hdet, h⟩ := term_made hblank hN hd ho.oriented nw newName hg hs hdd
  refine ⟨d', hd', hM, ht, ?_, hdet⟩
  have hnw : nw ∉ termNames N := by
    intro h
    rcases mem_termNames.mp h with ⟨i, -, rfl⟩ | ⟨i, -, rfl⟩
    · exact hs rfl
    · exact hdd rfl
  have key := h.orientedAt (termSide N nw) (fun x j => if x = nw then min (rk j) K else 0)
    (fun x => if x = nw then 1 else if x.head? = some 's' then 0 else K + 2) (K + 2) ?_ ?_ (fun _ => true) (fun _ => 0)
    (by intro j x i hj; simp at hj)
  · obtain ⟨f, r, h1, -, -, h4⟩ := key
    exact ⟨f, r, h1, h4⟩
  · intro x e hx
    rcases mem_termMods (dictGet_mem hx) with he | ⟨i, he⟩ | ⟨i, he⟩
    · simp only [Prod.mk.injEq] at he
      obtain ⟨rfl, rfl⟩ := he
      refine ⟨K, by rw [if_pos rfl]; omega, ?_⟩
      unfold termSide
      simp only [if_pos]
      exact orientedAt_named hb _
    · simp only [Prod.mk.injEq] at he
      obtain ⟨rfl, rfl⟩ := he
      have h1 : lbl ['s'] i ≠ nw := by rintro rfl; exact hs rfl
      have : termSide N nw (lbl ['s'] i) = fun _ => false := by
        funext j
        rw [termSide, if_neg h1, if_pos (head_lbl 's' i)]
      refine ⟨0, by rw [if_neg h1, if_pos (head_lbl 's' i)]; omega, ?_⟩
      rw [this]
      simp only [if_neg h1]
      exact orientedAt_named (part_orientedAt (part_oriented .source _ (fun wl a b hab => absurd (scattering_source wl a b) hab)
        fun _ _ => rfl)) _
    · simp only [Prod.mk.injEq] at he
      obtain ⟨rfl, rfl⟩ := he
      have h1 : lbl ['d'] i ≠ nw := by rintro rfl; exact hdd rfl
      have : termSide N nw (lbl ['d'] i) = fun _ => true := by
        funext j
        rw [termSide, if_neg h1, if_neg (by rw [head_lbl]; decide)]
      refine ⟨0, by rw [if_neg h1, if_neg (by rw [head_lbl]; decide)], ?_⟩
      rw [this]
      simp only [if_neg h1]
      refine orientedAt_named (part_orientedAt (part_oriented .detector _ (fun wl a b hab => absurd (scattering_detector wl a b) hab)
        fun k hk => ?_)) _
      exact absurd (part_src _ k hk) (by simp)
  · intro a i b j hab
    obtain ⟨k, t, ht, he⟩ := mem_termLinks.mp hab
    simp only [Conn.inner.injEq] at he
    obtain ⟨rfl, rfl, rfl, rfl⟩ := he
    have hne : a ≠ b := fun h => hnw (h ▸ List.mem_of_getElem? ht)
    rcases termNames_get ht with ⟨hk, rfl⟩ | ⟨hk, rfl⟩
    · have e1 : termSide N b (lbl ['s'] k) 0 = false := by rw [termSide, if_neg hne, if_pos (head_lbl 's' k)]
      have e2 : termSide N b b k = true := by rw [termSide, if_pos rfl, decide_eq_true hk]
      refine ⟨0, k, rfl, rfl, by rw [e1, e2]; decide, fun _ => ?_, fun h => by rw [e2] at h; cases h⟩
      simp only [if_neg hne, if_pos (head_lbl 's' k), if_pos]
      omega
    · have e1 : termSide N b (lbl ['d'] (k - N)) 0 = true := by
        rw [termSide, if_neg hne, if_neg (by rw [head_lbl]; decide)]
      have e2 : termSide N b b k = false := by rw [termSide, if_pos rfl, decide_eq_false (by omega)]
      have e3 : (lbl ['d'] (k - N)).head? ≠ some 's' := by rw [head_lbl]; decide
      refine ⟨0, k, rfl, rfl, by rw [e1, e2]; decide, fun h => (by rw [e1] at h; cases h), fun _ => ?_⟩
      simp only [if_neg hne, if_neg e3, if_pos]
      omega

end PT
