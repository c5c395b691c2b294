import Verif.Proof.Wiring
import Verif.Proof.FeedForward

/-! Proof support: feed-forward devices connected in a feed-forward way are feed-forward. -/

namespace PT
open Spec

/-- Name, device and local port of a port of devices side by side. -/
def devAt : List (Str × Dev) → ℕ → Option (Str × Dev × ℕ)
  | [], _ => none
  | (x, d) :: l, i => if i < d.comp.n then some (x, d, i) else devAt l (i - d.comp.n)

/-- The layout of a list of devices. -/
def layoutOf (l : List (Str × Dev)) : Comps := l.map fun p => (p.1, { p.2.comp with name := some p.1 })

theorem devAt_block : ∀ (l : List (Str × Dev)) {x : Str} {c : Comp} {s p : ℕ}, Block (layoutOf l) x c s → p < c.n →
    ∃ d, (x, d) ∈ l ∧ c = { d.comp with name := some x } ∧ devAt l (s + p) = some (x, d, p)
  | [], x, c, s, p, ⟨pre, post, h, _, _⟩, _ => by simp [layoutOf] at h
  | (y, e) :: l, x, c, s, p, ⟨pre, post, h, hx, hs⟩, hp => by
    cases pre with
    | nil =>
      simp only [layoutOf, List.map_cons, List.nil_append, List.cons.injEq, Prod.mk.injEq] at h
      obtain ⟨⟨rfl, rfl⟩, -⟩ := h
      refine ⟨e, by simp, rfl, ?_⟩
      simp only [width, List.map_nil, List.sum_nil] at hs
      subst hs
      simp only [Nat.zero_add, devAt]
      rw [if_pos hp]
    | cons q pre =>
      simp only [layoutOf, List.map_cons, List.cons_append, List.cons.injEq] at h
      obtain ⟨rfl, h⟩ := h
      obtain ⟨d, hd, hc, hat⟩ := devAt_block l (x := x) (c := c) (s := width pre) (p := p)
        ⟨pre, post, h, fun hx' => hx (by simp [hx']), rfl⟩ hp
      refine ⟨d, by simp [hd], hc, ?_⟩
      simp only [width, List.map_cons, List.sum_cons] at hs
      subst hs
      unfold devAt
      rw [if_neg (by omega), ← hat]
      congr 1
      simp only [width]
      omega

theorem devAt_mem : ∀ (l : List (Str × Dev)) {i : ℕ} {x : Str} {d : Dev} {p : ℕ}, devAt l i = some (x, d, p) →
    (x, d) ∈ l ∧ p < d.comp.n
  | [], _, _, _, _, h => by cases h
  | (y, e) :: l, i, x, d, p, h => by
    unfold devAt at h
    split at h
    · simp only [Option.some.injEq, Prod.mk.injEq] at h
      obtain ⟨rfl, rfl, rfl⟩ := h
      exact ⟨by simp, by assumption⟩
    · obtain ⟨h1, h2⟩ := devAt_mem l h
      exact ⟨by simp [h1], h2⟩

theorem blockMat_devAt (F : Dev → ℕ → ℕ → ℝ) : ∀ (l : List (Str × Dev)) {i j : ℕ},
    blockMat (l.map fun p => (p.2.comp.n, F p.2)) i j ≠ 0 →
    ∃ x d p q, devAt l i = some (x, d, p) ∧ devAt l j = some (x, d, q) ∧ F d p q ≠ 0
  | [], _, _, h => absurd rfl h
  | (y, e) :: l, i, j, h => by
    rw [List.map_cons, blockMat] at h
    unfold devAt
    split at h
    · split at h
      · rename_i h1 h2
        exact ⟨y, e, i, j, by rw [if_pos h1], by rw [if_pos h2], h⟩
      · exact absurd rfl h
    · split at h
      · exact absurd rfl h
      · rename_i h1 h2
        obtain ⟨x, d, p, q, a, b, c⟩ := blockMat_devAt F l h
        exact ⟨x, d, p, q, by rw [if_neg h1]; exact a, by rw [if_neg h2]; exact b, c⟩

theorem mark_devAt (f : Comp → List Bool) : ∀ (l : List (Str × Dev)) {i : ℕ}, (∀ q ∈ l, (f q.2.comp).length = q.2.comp.n) →
    (l.flatMap fun q => f q.2.comp).getD i false = true →
    ∃ x d p, devAt l i = some (x, d, p) ∧ (f d.comp).getD p false = true
  | [], i, _, h => by simp at h
  | (y, e) :: l, i, hlen, h => by
    have hy := hlen (y, e) (by simp)
    simp only at hy
    rw [List.flatMap_cons, List.getD_eq_getElem?_getD, List.getElem?_append] at h
    unfold devAt
    split at h
    · rename_i hi
      rw [hy] at hi
      rw [if_pos hi]
      exact ⟨y, e, i, rfl, by rw [List.getD_eq_getElem?_getD]; exact h⟩
    · rename_i hi
      rw [hy] at hi h
      rw [if_neg hi]
      exact mark_devAt f l (fun q hq => hlen q (by simp [hq])) (by rw [List.getD_eq_getElem?_getD]; exact h)

theorem exists_bound (R : Str → ℕ → ℕ) : ∀ l : List (Str × Dev),
    ∃ K, ∀ x d, (x, d) ∈ l → ∀ p < d.comp.n, R x p ≤ K
  | [] => ⟨0, by simp⟩
  | (y, e) :: l => by
    obtain ⟨K, hK⟩ := exists_bound R l
    refine ⟨K + ((List.range e.comp.n).map (R y)).sum, ?_⟩
    intro x d h p hp
    rcases List.mem_cons.mp h with h | h
    · simp only [Prod.mk.injEq] at h
      obtain ⟨rfl, rfl⟩ := h
      have : R x p ≤ ((List.range d.comp.n).map (R x)).sum :=
        List.single_le_sum (by simp) _ (List.mem_map.mpr ⟨p, List.mem_range.mpr hp, rfl⟩)
      omega
    · have := hK x d h p hp
      omega

/-- A value for every port of devices side by side. -/
def spread {α : Type} [Inhabited α] (l : List (Str × Dev)) (f : Str → ℕ → α) (i : ℕ) : α :=
  match devAt l i with
  | some (x, _, p) => f x p
  | none => default

theorem spread_at {α : Type} [Inhabited α] {l : List (Str × Dev)} {f : Str → ℕ → α} {i : ℕ} {x : Str} {d : Dev} {p : ℕ}
    (h : devAt l i = some (x, d, p)) : spread l f i = f x p := by
  unfold spread
  rw [h]

/-- Connections from the back of a device to the front of a device of higher level. -/
def Directed (cs : List Conn) (side : Str → ℕ → Bool) (level : Str → ℕ) : Prop :=
  ∀ a i b j, Conn.inner a i b j ∈ cs → ∃ i' j' : ℕ, i = i' ∧ j = j' ∧ side a i' ≠ side b j' ∧
    (side a i' = false → level a < level b) ∧ (side b j' = false → level b < level a)

theorem ff_compose {name : Option Str} {modules : List (Str × Dev)} {cs : List Conn} {d : Dev}
    (hm : ∀ p ∈ modules, Built p.2.comp ∧ OrderOK p.2.comp) (hg : GoodConns cs)
    (hk : mkDev name modules (cs.map Conn.text) = .ok d) (side : Str → ℕ → Bool) (level : Str → ℕ)
    (ho : ∀ x e, dictGet x modules = some e → Oriented e (side x)) (hdir : Directed cs side level)
    (D : List (Str × ℤ)) (hD : PortsAre (comps modules) cs d.comp D) (hpos : ∀ e ∈ D, 0 ≤ e.2) (S : ℕ → Bool)
    (hS : ∀ (j : ℕ) x (i : ℕ), D[j]? = some (x, (i : ℤ)) → S j = side x i) : Oriented d S := by
  obtain ⟨l, hl, hlay, hnet, hb, hd⟩ := mkDev_ok hg hk
  have hch : ∀ x : Str, ∃ (front : ℕ → Bool) (rank : ℕ → ℕ), ∀ e, dictGet x modules = some e →
      FeedForward e front rank ∧ (∀ j p : ℕ, (freePorts e.comp)[j]? = some p → front p = side x j) ∧
        ∀ i, e.comp.src.getD i false = true → front i = false := by
    intro x
    cases hx : dictGet x modules with
    | none => exact ⟨fun _ => false, fun _ => 0, fun e h => by cases h⟩
    | some e =>
      obtain ⟨f, r, h1, h2, h3⟩ := ho x e hx
      refine ⟨f, r, fun e' h => ?_⟩
      simp only [Option.some.injEq] at h
      subst h
      exact ⟨h1, h2, h3⟩
  choose F R hFR using hch
  obtain ⟨K, hK⟩ := exists_bound R l
  have hm' : ∀ p ∈ comps modules, Built p.2 ∧ OrderOK p.2 := by
    intro p hp
    simp only [comps, List.mem_map] at hp
    obtain ⟨q, hq, rfl⟩ := hp
    exact hm q hq
  obtain ⟨l', hN⟩ := Net.of_mk hm' hg hnet
  have hl' : l' = layoutOf l := layout_unique hN.layout hlay
  subst hl'
  have hport : ∀ {x : Str} {i : ℕ} {g : ℕ}, PortOf (layoutOf l) x i g →
      ∃ e p, devAt l g = some (x, e, p) ∧ F x p = side x i := by
    rintro x i g ⟨c, s, p, hbl, hat, rfl⟩
    have hp : p ∈ freePorts c := hat.mem
    have hlt : p < c.n := by
      unfold freePorts at hp
      simp only [List.mem_filter, decide_eq_true_eq] at hp
      exact hp.2.1
    obtain ⟨e, he, hc, hdev⟩ := devAt_block l hbl hlt
    refine ⟨e, p, hdev, (hFR x e (hl _ he)).2.1 i p ?_⟩
    have hfe : freePorts c = freePorts e.comp := by rw [hc]; rfl
    rw [← hfe]
    rcases hat with ⟨k, hk, h⟩ | ⟨k, hk, h0, _⟩
    · have : i = k := by exact_mod_cast hk
      rw [this]; exact h
    · omega
  refine ⟨spread l F, spread l fun x p => level x * (K + 1) + R x p, ⟨?_, ?_⟩, ?_, ?_⟩
  · intro wl i j hi hj h
    have hex : ∃ x e p q, devAt l i = some (x, e, p) ∧ devAt l j = some (x, e, q) ∧
        (e.rS wl p q ≠ 0 ∨ e.iS wl p q ≠ 0) := by
      rcases h with h | h
      · rw [hd] at h
        obtain ⟨x, e, p, q, h1, h2, h3⟩ := blockMat_devAt (fun e => e.rS wl) l h
        exact ⟨x, e, p, q, h1, h2, .inl h3⟩
      · rw [hd] at h
        obtain ⟨x, e, p, q, h1, h2, h3⟩ := blockMat_devAt (fun e => e.iS wl) l h
        exact ⟨x, e, p, q, h1, h2, .inr h3⟩
    obtain ⟨x, e, p, q, h1, h2, h3⟩ := hex
    obtain ⟨m1, l1⟩ := devAt_mem l h1
    obtain ⟨-, l2⟩ := devAt_mem l h2
    rw [spread_at h1, spread_at h2, spread_at h1, spread_at h2]
    obtain ⟨f1, f2⟩ := (hFR x e (hl _ m1)).1.scatter wl p q l1 l2 h3
    exact ⟨f1, by rw [f2]⟩
  · intro i j h
    rcases (hN.conn i j).mp h with hin | hdec
    · obtain ⟨x, c, s, i', j', hbl, hi', hj', rfl, rfl, hne⟩ := hin
      obtain ⟨e, he, hc, h1⟩ := devAt_block l hbl hi'
      obtain ⟨e', he', hc', h2⟩ := devAt_block l hbl hj'
      rw [spread_at h1, spread_at h2, spread_at h1, spread_at h2]
      have hne' : e.comp.C i' j' ≠ 0 := by rw [hc] at hne; exact hne
      obtain ⟨f1, f2⟩ := (hFR x e (hl _ he)).1.connect i' j' hne'
      exact ⟨f1, fun h => by have := f2 h; omega⟩
    · obtain ⟨a, k, b, m, hmem, hh⟩ := hdec
      obtain ⟨i', j', rfl, rfl, s1, s2, s3⟩ := hdir a k b m hmem
      have harith : ∀ {u v r t : ℕ}, u < v → r ≤ K → u * (K + 1) + r < v * (K + 1) + t := by
        intro u v r t huv hr
        have := Nat.mul_le_mul_right (K + 1) (Nat.succ_le_of_lt huv)
        rw [Nat.succ_mul] at this
        omega
      rcases hh with ⟨h1, h2⟩ | ⟨h1, h2⟩
      · obtain ⟨e, p, d1, f1⟩ := hport h1
        obtain ⟨e', p', d2, f2⟩ := hport h2
        rw [spread_at d1, spread_at d2, spread_at d1, spread_at d2, f1, f2]
        obtain ⟨m1, n1⟩ := devAt_mem l d1
        exact ⟨s1, fun h => harith (s2 h) (hK _ _ m1 _ n1)⟩
      · obtain ⟨e, p, d1, f1⟩ := hport h1
        obtain ⟨e', p', d2, f2⟩ := hport h2
        rw [spread_at d1, spread_at d2, spread_at d1, spread_at d2, f1, f2]
        obtain ⟨m2, n2⟩ := devAt_mem l d2
        exact ⟨s1.symm, fun h => harith (s3 h) (hK _ _ m2 _ n2)⟩
  · intro j g hg'
    have hF := hD (layoutOf l) hlay
    rw [List.forall₂_iff_get] at hF
    have hj : j < (freePorts d.comp).length := by
      by_contra hlt
      rw [List.getElem?_eq_none (by omega)] at hg'
      cases hg'
    have hj' : j < D.length := by rw [hF.1]; exact hj
    have hp := hF.2 j hj' hj
    rw [List.getElem?_eq_getElem hj] at hg'
    simp only [Option.some.injEq] at hg'
    simp only [List.get_eq_getElem] at hp
    rw [hg'] at hp
    obtain ⟨k, hk⟩ := Int.eq_ofNat_of_zero_le (hpos _ (List.getElem_mem hj'))
    rw [hk] at hp
    obtain ⟨e, p, d1, f1⟩ := hport hp
    rw [spread_at d1, f1, hS j D[j].1 k]
    rw [List.getElem?_eq_getElem hj', ← hk]
  · intro i hi
    obtain ⟨-, -, -, -, hsrc, -⟩ := netBuffers_ok hb
    rw [hsrc, List.flatMap_map] at hi
    obtain ⟨x, e, p, h1, h2⟩ := mark_devAt (fun c => c.src) l
      (fun q hq => (built_marks (hm _ (dictGet_mem (hl q hq))).1).1) hi
    rw [spread_at h1]
    exact (hFR x e (hl _ (devAt_mem l h1).1)).2.2 p h2

end PT
