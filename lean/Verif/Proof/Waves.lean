import Verif.Proof.Compose

/-! Proof support: waves through devices, and through devices connected to each other. -/

namespace PT
open Spec

/-- Entry of the scattering matrix of a device. -/
noncomputable def Dev.entry (d : Dev) (wl : ℝ) (i j : ℕ) : ℂ := ⟨d.rS wl i j, d.iS wl i j⟩

/-- How the waves are described: a wavelength, a speed of light, and what an entry of a scattering matrix together with a
delay does to a wave. -/
structure Look (R : Type) [CommRing R] where
  wl : ℝ
  v : ℝ
  by_ : ℂ → ℝ → R
  zero : ∀ δ, by_ 0 δ = 0

/-- Steady waves, given by their amplitudes. -/
def Look.steady (wl v : ℝ) : Look ℂ := ⟨wl, v, fun c _ => c, fun _ => rfl⟩

/-- Where there is no port there is no wave. -/
instance (priority := low) noWave (R : Type) [CommRing R] : Inhabited R := ⟨0⟩

variable {R : Type} [CommRing R]

/-- What becomes of a wave between two ports of a device. -/
noncomputable def Dev.gain (d : Dev) (u : Look R) (i j : ℕ) : R := u.by_ (d.entry u.wl i j) (d.delay u.v j)

/-- Waves in a device: `a` enter the ports, `b` leave them, the sources emit `e`; `f` enter and `g` leave the free
ports, counted in port order. -/
structure Waves (d : Dev) (u : Look R) (e a b f g : ℕ → R) : Prop where
  out : ∀ i < d.comp.n, b i = (∑ j ∈ Finset.range d.comp.n, d.gain u i j * a j) + e i
  link : ∀ i j, d.comp.C i j ≠ 0 → a i = b j
  port : ∀ j p : ℕ, (freePorts d.comp)[j]? = some p → a p = f j ∧ b p = g j

theorem spread_zero (l : List (Str × Dev)) (i : ℕ) : spread l (fun _ _ => (0 : R)) i = 0 := by
  unfold spread
  split
  · rfl
  · rfl

theorem spread_cons_lt {α : Type} [Inhabited α] (y : Str) (e : Dev) (l : List (Str × Dev)) (f : Str → ℕ → α) {i : ℕ}
    (h : i < e.comp.n) : spread ((y, e) :: l) f i = f y i := by
  unfold spread devAt
  rw [if_pos h]

theorem spread_cons_ge {α : Type} [Inhabited α] (y : Str) (e : Dev) (l : List (Str × Dev)) (f : Str → ℕ → α) (i : ℕ) :
    spread ((y, e) :: l) f (e.comp.n + i) = spread l f i := by
  unfold spread
  rw [devAt, if_neg (by omega), Nat.add_sub_cancel_left]

/-- Entry of the matrix of devices side by side. -/
noncomputable def sideGain (u : Look R) (l : List (Str × Dev)) (i j : ℕ) : R :=
  u.by_ ⟨blockMat (l.map fun p => (p.2.comp.n, p.2.rS u.wl)) i j, blockMat (l.map fun p => (p.2.comp.n, p.2.iS u.wl)) i j⟩
    (blockVec (l.map fun p => (p.2.comp.n, p.2.delay u.v)) j)

theorem sideGain_cons (u : Look R) (y : Str) (e : Dev) (l : List (Str × Dev)) (i j : ℕ) : sideGain u ((y, e) :: l) i j =
    if i < e.comp.n then (if j < e.comp.n then e.gain u i j else 0)
    else if j < e.comp.n then 0 else sideGain u l (i - e.comp.n) (j - e.comp.n) := by
  unfold sideGain
  simp only [List.map_cons, blockMat, blockVec]
  split
  · split
    · rfl
    · exact u.zero _
  · split
    · exact u.zero _
    · rfl

/-- Scattering of devices side by side. -/
theorem side_sum (u : Look R) (A : Str → ℕ → R) : ∀ (l : List (Str × Dev)) {i : ℕ} {x : Str} {e : Dev} {p : ℕ},
    devAt l i = some (x, e, p) →
    ∑ j ∈ Finset.range ((l.map fun q => q.2.comp.n).sum), sideGain u l i j * spread l A j =
      ∑ q ∈ Finset.range e.comp.n, e.gain u p q * A x q
  | [], _, _, _, _, h => by cases h
  | (y, c) :: l, i, x, e, p, h => by
    rw [List.map_cons, List.sum_cons, Finset.sum_range_add]
    simp only [spread_cons_ge]
    unfold devAt at h
    split at h
    · rename_i hi
      simp only [Option.some.injEq, Prod.mk.injEq] at h
      obtain ⟨rfl, rfl, rfl⟩ := h
      rw [Finset.sum_eq_zero (s := Finset.range _) (f := fun j => sideGain u ((y, c) :: l) i (c.comp.n + j) * spread l A j), add_zero]
      · refine Finset.sum_congr rfl fun j hj => ?_
        rw [Finset.mem_range] at hj
        rw [sideGain_cons, if_pos hi, if_pos hj, spread_cons_lt _ _ _ _ hj]
      · intro j _
        rw [sideGain_cons, if_pos hi, if_neg (by omega), zero_mul]
    · rename_i hi
      rw [Finset.sum_eq_zero (s := Finset.range c.comp.n), zero_add, ← side_sum u A l h]
      · refine Finset.sum_congr rfl fun j _ => ?_
        rw [sideGain_cons, if_neg hi, if_neg (by omega), Nat.add_sub_cancel_left]
      · intro j hj
        rw [Finset.mem_range] at hj
        rw [sideGain_cons, if_neg hi, if_pos hj, zero_mul]

theorem devAt_lt : ∀ (l : List (Str × Dev)) {i : ℕ}, i < (l.map fun q => q.2.comp.n).sum → ∃ x e p, devAt l i = some (x, e, p)
  | [], i, h => by simp at h
  | (y, e) :: l, i, h => by
    unfold devAt
    split
    · exact ⟨_, _, _, rfl⟩
    · rw [List.map_cons, List.sum_cons] at h
      simp only at h
      exact devAt_lt l (by omega)

/-- The waves at connected ports fit together. -/
def Linked (cs : List Conn) (F G : Str → ℕ → R) : Prop :=
  ∀ a i b j, Conn.inner a i b j ∈ cs → ∃ i' j' : ℕ, i = i' ∧ j = j' ∧ F a i' = G b j' ∧ F b j' = G a i'

/-- Waves in devices connected to each other. -/
theorem waves_compose {name : Option Str} {modules : List (Str × Dev)} {cs : List Conn} {d : Dev}
    (hm : ∀ p ∈ modules, Built p.2.comp ∧ OrderOK p.2.comp) (hg : GoodConns cs)
    (hk : mkDev name modules (cs.map Conn.text) = .ok d)
    (D : List (Str × ℤ)) (hD : PortsAre (comps modules) cs d.comp D) (hpos : ∀ e ∈ D, 0 ≤ e.2) :
    ∃ l : List (Str × Dev), (∀ p ∈ l, dictGet p.1 modules = some p.2) ∧ l.map Prod.fst = firstMentions cs ∧
      d.comp.n = (l.map fun q => q.2.comp.n).sum ∧
      d.comp.src = (l.flatMap fun p => p.2.comp.src) ∧ d.comp.det = (l.flatMap fun p => p.2.comp.det) ∧
      ∀ (R : Type) [CommRing R] (u : Look R) (E A B F G : Str → ℕ → R),
        (∀ x e, dictGet x modules = some e → Waves e u (E x) (A x) (B x) (F x) (G x)) → Linked cs F G →
        ∀ f g : ℕ → R, (∀ (j : ℕ) x (i : ℕ), D[j]? = some (x, (i : ℤ)) → f j = F x i ∧ g j = G x i) →
        Waves d u (spread l E) (spread l A) (spread l B) f g := by
  obtain ⟨l, hl, hlay, hnet, hb, hd⟩ := mkDev_ok hg hk
  have hm' : ∀ p ∈ comps modules, Built p.2 ∧ OrderOK p.2 := by
    intro p hp
    simp only [comps, List.mem_map] at hp
    obtain ⟨q, hq, rfl⟩ := hp
    exact hm q hq
  obtain ⟨l', hN⟩ := Net.of_mk hm' hg hnet
  have hl' : l' = layoutOf l := layout_unique hN.layout hlay
  subst hl'
  obtain ⟨-, -, hn, -, hsrc, hdet, -⟩ := netBuffers_ok hb
  have hwid : d.comp.n = (l.map fun q => q.2.comp.n).sum := by
    rw [hn, width, List.map_map]; rfl
  refine ⟨l, hl, ?_, hwid, by rw [hsrc, List.flatMap_map], by rw [hdet, List.flatMap_map], ?_⟩
  · have := hlay.1
    rw [List.map_map] at this
    exact this
  intro R _ u E A B F G hW hlink f g hfg
  have hport : ∀ {x : Str} {i : ℕ} {q : ℕ}, PortOf (layoutOf l) x i q →
      spread l A q = F x i ∧ spread l B q = G x i := by
    rintro x i q ⟨c, s, p, hbl, hat, rfl⟩
    have hp : p ∈ freePorts c := hat.mem
    have hlt : p < c.n := by
      unfold freePorts at hp
      simp only [List.mem_filter, decide_eq_true_eq] at hp
      exact hp.2.1
    obtain ⟨e, he, hc, hdev⟩ := devAt_block l hbl hlt
    rw [spread_at hdev, spread_at hdev]
    refine (hW x e (hl _ he)).port i p ?_
    have hfe : freePorts c = freePorts e.comp := by rw [hc]; rfl
    rw [← hfe]
    rcases hat with ⟨k, hk, h⟩ | ⟨k, hk, h0, _⟩
    · have : i = k := by exact_mod_cast hk
      rw [this]; exact h
    · omega
  refine ⟨?_, ?_, ?_⟩
  · intro i hi
    obtain ⟨x, e, p, hat⟩ := devAt_lt l (hwid ▸ hi)
    obtain ⟨hmem, hp⟩ := devAt_mem l hat
    rw [spread_at hat, spread_at hat, (hW x e (hl _ hmem)).out p hp, ← side_sum u A l hat, ← hwid]
    congr 1
    refine Finset.sum_congr rfl fun j _ => ?_
    congr 1
    conv_rhs => rw [hd]
    rfl
  · intro i j h
    rcases (hN.conn i j).mp h with hin | hdec
    · obtain ⟨x, c, s, i', j', hbl, hi', hj', rfl, rfl, hne⟩ := hin
      obtain ⟨e, he, hc, h1⟩ := devAt_block l hbl hi'
      obtain ⟨e', he', hc', h2⟩ := devAt_block l hbl hj'
      rw [spread_at h1, spread_at h2]
      have hne' : e.comp.C i' j' ≠ 0 := by rw [hc] at hne; exact hne
      exact (hW x e (hl _ he)).link i' j' hne'
    · obtain ⟨a, k, b, m, hmem, hh⟩ := hdec
      obtain ⟨i', j', rfl, rfl, s1, s2⟩ := hlink a k b m hmem
      rcases hh with ⟨h1, h2⟩ | ⟨h1, h2⟩
      · rw [(hport h1).1, (hport h2).2, s1]
      · rw [(hport h2).1, (hport h1).2, s2]
  · intro j q hq
    have hF := hD (layoutOf l) hlay
    rw [List.forall₂_iff_get] at hF
    have hj : j < (freePorts d.comp).length := by
      by_contra hlt
      rw [List.getElem?_eq_none (by omega)] at hq
      cases hq
    have hj' : j < D.length := by rw [hF.1]; exact hj
    have hp := hF.2 j hj' hj
    rw [List.getElem?_eq_getElem hj] at hq
    simp only [Option.some.injEq] at hq
    simp only [List.get_eq_getElem] at hp
    rw [hq] at hp
    obtain ⟨k, hk⟩ := Int.eq_ofNat_of_zero_le (hpos _ (List.getElem_mem hj'))
    rw [hk] at hp
    obtain ⟨h1, h2⟩ := hport hp
    obtain ⟨e1, e2⟩ := hfg j D[j].1 k (by rw [List.getElem?_eq_getElem hj', ← hk])
    exact ⟨h1.trans e1.symm, h2.trans e2.symm⟩

/-- Waves can travel through the device, entering as `f` and leaving as `g`. -/
def Carries (d : Dev) (u : Look R) (f g : ℕ → R) : Prop := ∃ a b, Waves d u (fun _ => 0) a b f g

end PT
