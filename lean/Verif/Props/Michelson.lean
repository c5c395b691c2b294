import Verif.Spec.Michelson
import Verif.Props.Named
import Verif.Props.Undamped

/-!
# C136: the Michelson interferometer cavity

The network of the notebook `03_circuit_optimization_by_backpropagation`, for all parameters.
-/

namespace PT
open Spec Matrix

variable {W B : Type}

namespace Mich

def conns : List Conn :=
  [.inner "west".toList 0 "m_west".toList 0, .inner "m_west".toList 1 "wg_west".toList 0, .inner "wg_west".toList 1 "dc".toList 0,
    .inner "dc".toList 2 "wg_east".toList 0, .inner "wg_east".toList 1 "m_east".toList 0, .inner "m_east".toList 1 "east".toList 0,
    .inner "north".toList 0 "m_north".toList 0, .inner "m_north".toList 1 "wg_north".toList 0, .inner "wg_north".toList 1 "dc".toList 1,
    .inner "dc".toList 3 "wg_south".toList 0, .inner "wg_south".toList 1 "m_south".toList 0, .inner "m_south".toList 1 "south".toList 0]

theorem linked : (∀ l ∈ michelsonLinks, (linkConns l).2 = .ok ()) ∧
    (michelsonLinks.flatMap fun l => (linkConns l).1) = conns.map Conn.text := by
  decide +kernel

theorem closed (c : Michelson) : Closed c.modules conns where
  names := by
    show ["west".toList, "north".toList, "east".toList, "south".toList, "m_west".toList, "m_north".toList, "m_east".toList,
      "m_south".toList, "wg_west".toList, "wg_north".toList, "wg_east".toList, "wg_south".toList, "dc".toList].Nodup
    decide +kernel
  good := by
    intro q hq
    simp only [Michelson.modules, List.mem_cons, List.not_mem_nil, or_false] at hq
    rcases hq with rfl | rfl | rfl | rfl | rfl | rfl | rfl | rfl | rfl | rfl | rfl | rfl | rfl <;> dsimp only <;>
      exact ⟨by decide, by decide, by decide⟩
  sized := by
    intro q hq
    simp only [Michelson.modules, List.mem_cons, List.not_mem_nil, or_false] at hq
    rcases hq with rfl | rfl | rfl | rfl | rfl | rfl | rfl | rfl | rfl | rfl | rfl | rfl | rfl <;> simp [Part.n, Wg.part]
  nonempty := by simp [Michelson.modules]
  ports := by
    show List.Perm (endpoints conns) [("west".toList, 0), ("north".toList, 0), ("east".toList, 0), ("south".toList, 0),
      ("m_west".toList, 0), ("m_west".toList, 1), ("m_north".toList, 0), ("m_north".toList, 1), ("m_east".toList, 0), ("m_east".toList, 1),
      ("m_south".toList, 0), ("m_south".toList, 1), ("wg_west".toList, 0), ("wg_west".toList, 1), ("wg_north".toList, 0),
      ("wg_north".toList, 1), ("wg_east".toList, 0), ("wg_east".toList, 1), ("wg_south".toList, 0), ("wg_south".toList, 1),
      ("dc".toList, 0), ("dc".toList, 1), ("dc".toList, 2), ("dc".toList, 3)]
    decide +kernel
  inner := rfl

theorem wgs (g : Wg) (wl : ℝ) (f : ℕ → ℂ) :
    ∑ j : Fin g.part.n, scattering g.part wl (0 : Fin 2) j * f j = g.amp wl * f 1 ∧
    ∑ j : Fin g.part.n, scattering g.part wl (1 : Fin 2) j * f j = g.amp wl * f 0 := by
  obtain ⟨h1, h2⟩ := wg_sum g wl f
  rw [Finset.sum_range] at h1 h2
  constructor
  · rw [← h1]
    exact Finset.sum_congr rfl fun j _ => congrArg (· * f j) (entry_scattering g.part wl (0 : Fin 2) j).symm
  · rw [← h2]
    exact Finset.sum_congr rfl fun j _ => congrArg (· * f j) (entry_scattering g.part wl (1 : Fin 2) j).symm

theorem dcs (k wl : ℝ) (f : ℕ → ℂ) :
    ∑ j : Fin (Part.coupler k).n, scattering (.coupler k) wl (0 : Fin 4) j * f j = √(1 - k) * f 1 + Complex.I * √k * f 2 ∧
    ∑ j : Fin (Part.coupler k).n, scattering (.coupler k) wl (1 : Fin 4) j * f j = √(1 - k) * f 0 + Complex.I * √k * f 3 ∧
    ∑ j : Fin (Part.coupler k).n, scattering (.coupler k) wl (2 : Fin 4) j * f j = Complex.I * √k * f 0 + √(1 - k) * f 3 ∧
    ∑ j : Fin (Part.coupler k).n, scattering (.coupler k) wl (3 : Fin 4) j * f j = Complex.I * √k * f 1 + √(1 - k) * f 2 := by
  obtain ⟨h1, h2, h3, h4⟩ := coupler_sum k wl f
  rw [Finset.sum_range] at h1 h2 h3 h4
  refine ⟨?_, ?_, ?_, ?_⟩
  · rw [← h1]
    exact Finset.sum_congr rfl fun j _ => congrArg (· * f j) (entry_scattering (.coupler k) wl (0 : Fin 4) j).symm
  · rw [← h2]
    exact Finset.sum_congr rfl fun j _ => congrArg (· * f j) (entry_scattering (.coupler k) wl (1 : Fin 4) j).symm
  · rw [← h3]
    exact Finset.sum_congr rfl fun j _ => congrArg (· * f j) (entry_scattering (.coupler k) wl (2 : Fin 4) j).symm
  · rw [← h4]
    exact Finset.sum_congr rfl fun j _ => congrArg (· * f j) (entry_scattering (.coupler k) wl (3 : Fin 4) j).symm

/-- The equations of one arm: light `u` from outside and `b` from the coupler. -/
theorem arm (g : Wg) (R wl : ℝ) (mi mo mi' mo' gm gd gm' gd' u b : ℂ) (h1 : mi' = √R * mi + Complex.I * √(1 - R) * mo)
    (h2 : mo' = Complex.I * √(1 - R) * mi + √R * mo) (h3 : gd' = g.amp wl * gm) (h4 : gm' = g.amp wl * gd)
    (j1 : mo = u) (j2 : mi = gm') (j3 : gm = mi') (j4 : gd = b) :
    gd' = back g R wl * b + through g R wl * u ∧ mo' = through g R wl * b + √R * u := by
  subst h1 h2 h3 h4 j1 j3 j4
  subst j2
  unfold back through
  constructor <;> ring

/-- The waves at the coupler. -/
structure Lit (c : Michelson) (wl : ℝ) (s : ℂ) (A B : Str → ℕ → ℂ) : Prop where
  west : A "dc".toList 0 = back c.west c.Rw wl * B "dc".toList 0 + through c.west c.Rw wl * s
  north : A "dc".toList 1 = back c.north c.Rn wl * B "dc".toList 1
  east : A "dc".toList 2 = back c.east c.Re wl * B "dc".toList 2
  south : A "dc".toList 3 = back c.south c.Rs wl * B "dc".toList 3
  dc0 : B "dc".toList 0 = √(1 - c.k) * A "dc".toList 1 + Complex.I * √c.k * A "dc".toList 2
  dc1 : B "dc".toList 1 = √(1 - c.k) * A "dc".toList 0 + Complex.I * √c.k * A "dc".toList 3
  dc2 : B "dc".toList 2 = Complex.I * √c.k * A "dc".toList 0 + √(1 - c.k) * A "dc".toList 3
  dc3 : B "dc".toList 3 = Complex.I * √c.k * A "dc".toList 1 + √(1 - c.k) * A "dc".toList 2
  atN : B "m_north".toList 0 = through c.north c.Rn wl * B "dc".toList 1
  atE : B "m_east".toList 1 = through c.east c.Re wl * B "dc".toList 2
  atS : B "m_south".toList 1 = through c.south c.Rs wl * B "dc".toList 3
  dark : s = 0 → (∀ i < 4, B "dc".toList i = 0) → ∀ x ∈ ["m_west".toList, "m_north".toList, "m_east".toList, "m_south".toList,
    "wg_west".toList, "wg_north".toList, "wg_east".toList, "wg_south".toList], A x 0 = 0 ∧ A x 1 = 0

theorem lit (c : Michelson) (wl : ℝ) (s : ℂ) (A B : Str → ℕ → ℂ)
    (hj : ∀ q ∈ c.modules, isSource q.2 = false → isDetector q.2 = false → ∀ i b j, Spec.Joined conns q.1 i b j → A q.1 i = B b j)
    (hs : ∀ q ∈ c.modules, isSource q.2 = false → isDetector q.2 = false → ∀ i : Fin q.2.n,
      B q.1 i = ∑ j, scattering q.2 wl i j * A q.1 j)
    (hw : B "west".toList 0 = s) (hn : B "north".toList 0 = 0) (he : B "east".toList 0 = 0) (hso : B "south".toList 0 = 0) :
    Lit c wl s A B := by
  have mw : ("m_west".toList, Part.mirror c.Rw) ∈ c.modules := by simp [Michelson.modules]
  have mn : ("m_north".toList, Part.mirror c.Rn) ∈ c.modules := by simp [Michelson.modules]
  have me : ("m_east".toList, Part.mirror c.Re) ∈ c.modules := by simp [Michelson.modules]
  have ms : ("m_south".toList, Part.mirror c.Rs) ∈ c.modules := by simp [Michelson.modules]
  have gw : ("wg_west".toList, c.west.part) ∈ c.modules := by simp [Michelson.modules]
  have gn : ("wg_north".toList, c.north.part) ∈ c.modules := by simp [Michelson.modules]
  have ge : ("wg_east".toList, c.east.part) ∈ c.modules := by simp [Michelson.modules]
  have gs : ("wg_south".toList, c.south.part) ∈ c.modules := by simp [Michelson.modules]
  have md : ("dc".toList, Part.coupler c.k) ∈ c.modules := by simp [Michelson.modules]
  have Jinl : ∀ {x p i y j}, (x, p) ∈ c.modules → isSource p = false → isDetector p = false → Conn.inner x (i : ℕ) y (j : ℕ) ∈ conns →
      A x i = B y j := fun hm h1 h2 hc => hj _ hm h1 h2 _ _ _ (.inl hc)
  have Jinr : ∀ {x p i y j}, (x, p) ∈ c.modules → isSource p = false → isDetector p = false → Conn.inner y (j : ℕ) x (i : ℕ) ∈ conns →
      A x i = B y j := fun hm h1 h2 hc => hj _ hm h1 h2 _ _ _ (.inr hc)
  have M : ∀ {x R}, (x, Part.mirror R) ∈ c.modules → B x 0 = √R * A x 0 + Complex.I * √(1 - R) * A x 1 ∧
      B x 1 = Complex.I * √(1 - R) * A x 0 + √R * A x 1 ∧ B x 1 = √R * A x 1 + Complex.I * √(1 - R) * A x 0 ∧
      B x 0 = Complex.I * √(1 - R) * A x 1 + √R * A x 0 := by
    intro x R hm
    have h1 : B x 0 = _ := (hs _ hm rfl rfl (0 : Fin 2)).trans (mirror_sum R wl (A x)).1
    have h2 : B x 1 = _ := (hs _ hm rfl rfl (1 : Fin 2)).trans (mirror_sum R wl (A x)).2
    exact ⟨h1, h2, h2.trans (add_comm _ _), h1.trans (add_comm _ _)⟩
  have G : ∀ {x} {g : Wg}, (x, g.part) ∈ c.modules → B x 0 = g.amp wl * A x 1 ∧ B x 1 = g.amp wl * A x 0 := fun {x g} hm =>
    ⟨(hs _ hm rfl rfl (0 : Fin 2)).trans (wgs g wl (A x)).1, (hs _ hm rfl rfl (1 : Fin 2)).trans (wgs g wl (A x)).2⟩
  have w1 := (Jinr mw rfl rfl (by decide : Conn.inner "west".toList 0 "m_west".toList 0 ∈ conns)).trans hw
  have w2 := Jinl mw rfl rfl (by decide : Conn.inner "m_west".toList 1 "wg_west".toList 0 ∈ conns)
  have w3 := Jinr gw rfl rfl (by decide : Conn.inner "m_west".toList 1 "wg_west".toList 0 ∈ conns)
  have w4 := Jinl gw rfl rfl (by decide : Conn.inner "wg_west".toList 1 "dc".toList 0 ∈ conns)
  have w5 := Jinr md rfl rfl (by decide : Conn.inner "wg_west".toList 1 "dc".toList 0 ∈ conns)
  have n1 := (Jinr mn rfl rfl (by decide : Conn.inner "north".toList 0 "m_north".toList 0 ∈ conns)).trans hn
  have n2 := Jinl mn rfl rfl (by decide : Conn.inner "m_north".toList 1 "wg_north".toList 0 ∈ conns)
  have n3 := Jinr gn rfl rfl (by decide : Conn.inner "m_north".toList 1 "wg_north".toList 0 ∈ conns)
  have n4 := Jinl gn rfl rfl (by decide : Conn.inner "wg_north".toList 1 "dc".toList 1 ∈ conns)
  have n5 := Jinr md rfl rfl (by decide : Conn.inner "wg_north".toList 1 "dc".toList 1 ∈ conns)
  have e1 := (Jinl me rfl rfl (by decide : Conn.inner "m_east".toList 1 "east".toList 0 ∈ conns)).trans he
  have e2 := Jinr me rfl rfl (by decide : Conn.inner "wg_east".toList 1 "m_east".toList 0 ∈ conns)
  have e3 := Jinl ge rfl rfl (by decide : Conn.inner "wg_east".toList 1 "m_east".toList 0 ∈ conns)
  have e4 := Jinr ge rfl rfl (by decide : Conn.inner "dc".toList 2 "wg_east".toList 0 ∈ conns)
  have e5 := Jinl md rfl rfl (by decide : Conn.inner "dc".toList 2 "wg_east".toList 0 ∈ conns)
  have s1 := (Jinl ms rfl rfl (by decide : Conn.inner "m_south".toList 1 "south".toList 0 ∈ conns)).trans hso
  have s2 := Jinr ms rfl rfl (by decide : Conn.inner "wg_south".toList 1 "m_south".toList 0 ∈ conns)
  have s3 := Jinl gs rfl rfl (by decide : Conn.inner "wg_south".toList 1 "m_south".toList 0 ∈ conns)
  have s4 := Jinr gs rfl rfl (by decide : Conn.inner "dc".toList 3 "wg_south".toList 0 ∈ conns)
  have s5 := Jinl md rfl rfl (by decide : Conn.inner "dc".toList 3 "wg_south".toList 0 ∈ conns)
  obtain ⟨w6, w7, w6', w7'⟩ := M mw
  obtain ⟨w8, w9⟩ := G gw
  obtain ⟨n6, n7, n6', n7'⟩ := M mn
  obtain ⟨n8, n9⟩ := G gn
  obtain ⟨e6, e7, e6', e7'⟩ := M me
  obtain ⟨e8, e9⟩ := G ge
  obtain ⟨s6, s7, s6', s7'⟩ := M ms
  obtain ⟨s8, s9⟩ := G gs
  obtain ⟨c0, c1, c2, c3⟩ := dcs c.k wl (A "dc".toList)
  have aw := arm c.west c.Rw wl _ _ _ _ _ _ _ _ s _ w6' w7' w9 w8 w1 w2 w3 w4
  have an := arm c.north c.Rn wl _ _ _ _ _ _ _ _ 0 _ n6' n7' n9 n8 n1 n2 n3 n4
  have ae := arm c.east c.Re wl _ _ _ _ _ _ _ _ 0 _ e6 e7 e8 e9 e1 e2 e3 e4
  have as := arm c.south c.Rs wl _ _ _ _ _ _ _ _ 0 _ s6 s7 s8 s9 s1 s2 s3 s4
  rw [mul_zero, add_zero, mul_zero, add_zero] at an ae as
  refine ⟨w5.trans aw.1, n5.trans an.1, e5.trans ae.1, s5.trans as.1, (hs _ md rfl rfl (0 : Fin 4)).trans c0,
    (hs _ md rfl rfl (1 : Fin 4)).trans c1, (hs _ md rfl rfl (2 : Fin 4)).trans c2, (hs _ md rfl rfl (3 : Fin 4)).trans c3,
    an.2, ae.2, as.2, fun h0 hb => ?_⟩
  subst h0
  have b0 := hb 0 (by norm_num)
  have b1 := hb 1 (by norm_num)
  have b2 := hb 2 (by norm_num)
  have b3 := hb 3 (by norm_num)
  have hw2 : A "m_west".toList 1 = 0 := by rw [w2, w8, w4, b0, mul_zero]
  have hn2 : A "m_north".toList 1 = 0 := by rw [n2, n8, n4, b1, mul_zero]
  have he2 : A "m_east".toList 0 = 0 := by rw [e2, e9, e4, b2, mul_zero]
  have hs2 : A "m_south".toList 0 = 0 := by rw [s2, s9, s4, b3, mul_zero]
  have hw3 : A "wg_west".toList 0 = 0 := by rw [w3, w7, w1, hw2, mul_zero, mul_zero, add_zero]
  have hn3 : A "wg_north".toList 0 = 0 := by rw [n3, n7, n1, hn2, mul_zero, mul_zero, add_zero]
  have he3 : A "wg_east".toList 1 = 0 := by rw [e3, e6, e1, he2, mul_zero, mul_zero, add_zero]
  have hs3 : A "wg_south".toList 1 = 0 := by rw [s3, s6, s1, hs2, mul_zero, mul_zero, add_zero]
  intro x hx
  simp only [List.mem_cons, List.not_mem_nil, or_false] at hx
  rcases hx with rfl | rfl | rfl | rfl | rfl | rfl | rfl | rfl
  · exact ⟨w1, hw2⟩
  · exact ⟨n1, hn2⟩
  · exact ⟨he2, e1⟩
  · exact ⟨hs2, s1⟩
  · exact ⟨hw3, w4.trans b0⟩
  · exact ⟨hn3, n4.trans b1⟩
  · exact ⟨e4.trans b2, he3⟩
  · exact ⟨s4.trans b3, hs3⟩

/-- The solution of the equations at the coupler. -/
theorem Lit.solve {c : Michelson} {wl : ℝ} {s : ℂ} {A B : Str → ℕ → ℂ} (h : Lit c wl s A B) (hk : 0 ≤ c.k ∧ c.k ≤ 1) :
    c.resonance wl * B "dc".toList 1 = √(1 - c.k) * (1 - back c.east c.Re wl * back c.south c.Rs wl) * (through c.west c.Rw wl * s) ∧
    c.resonance wl * B "dc".toList 2 = Complex.I * √c.k * (1 + back c.north c.Rn wl * back c.south c.Rs wl) * (through c.west c.Rw wl * s) ∧
    c.resonance wl * B "dc".toList 3 = Complex.I * √c.k * √(1 - c.k) * (back c.north c.Rn wl + back c.east c.Re wl) *
      (through c.west c.Rw wl * s) := by
  obtain ⟨ht, hq⟩ := sq_couple hk
  have d0 := h.dc0
  have d1 := h.dc1
  have d2 := h.dc2
  have d3 := h.dc3
  rw [h.north, h.east] at d0
  rw [h.west, h.south] at d1 d2
  rw [h.north, h.east] at d3
  have hI := Complex.I_mul_I
  unfold Michelson.resonance
  generalize back c.west c.Rw wl = w at *
  generalize back c.north c.Rn wl = n at *
  generalize back c.east c.Re wl = e at *
  generalize back c.south c.Rs wl = so at *
  generalize through c.west c.Rw wl * s = σ at *
  generalize B "dc".toList 0 = b0 at *
  generalize B "dc".toList 1 = b1 at *
  generalize B "dc".toList 2 = b2 at *
  generalize B "dc".toList 3 = b3 at *
  have hk' : (c.k : ℂ) = (√c.k : ℂ) ^ 2 := hq.symm
  have ht' : (1 - c.k : ℂ) = (√(1 - c.k) : ℂ) ^ 2 := ht.symm
  have hone : (√(1 - c.k) : ℂ) ^ 2 + (√c.k : ℂ) ^ 2 = 1 := by rw [ht, hq]; ring
  rw [ht', hk']
  generalize (√(1 - c.k) : ℂ) = τ at *
  generalize (√c.k : ℂ) = κ at *
  have h1 : b1 * (1 + κ ^ 2 * so * n - τ ^ 2 * w * n) = τ * σ + Complex.I * κ * τ * (so + w) * e * b2 := by
    rw [d0] at d1
    rw [d3] at d1
    linear_combination d1 + κ ^ 2 * so * n * b1 * hI
  have h2 : b2 * (1 - τ ^ 2 * so * e + κ ^ 2 * w * e) = Complex.I * κ * σ + Complex.I * κ * τ * (so + w) * n * b1 := by
    rw [d0] at d2
    rw [d3] at d2
    linear_combination d2 + κ ^ 2 * w * e * b2 * hI
  have H1 : (1 - τ ^ 2 * (w * n + e * so) + κ ^ 2 * (n * so + e * w) + w * n * e * so) * b1 = τ * (1 - e * so) * σ := by
    linear_combination (1 - τ ^ 2 * so * e + κ ^ 2 * w * e) * h1 + e * (Complex.I * κ * τ * (so + w)) * h2 -
      ((κ ^ 2 + τ ^ 2 + 1) * n * e * so * w * b1 + τ * σ * so * e) * hone +
      (n * e * κ ^ 2 * τ ^ 2 * (so + w) ^ 2 * b1 + κ ^ 2 * τ * e * (so + w) * σ) * hI
  have H2 : (1 - τ ^ 2 * (w * n + e * so) + κ ^ 2 * (n * so + e * w) + w * n * e * so) * b2 = Complex.I * κ * (1 + n * so) * σ := by
    linear_combination (1 + κ ^ 2 * so * n - τ ^ 2 * w * n) * h2 + n * (Complex.I * κ * τ * (so + w)) * h1 -
      ((κ ^ 2 + τ ^ 2 + 1) * n * e * so * w * b2 - Complex.I * κ * σ * so * n) * hone +
      n * e * κ ^ 2 * τ ^ 2 * (so + w) ^ 2 * b2 * hI
  refine ⟨H1, H2, ?_⟩
  linear_combination Complex.I * κ * n * H1 + τ * e * H2 +
    (1 - τ ^ 2 * (w * n + e * so) + κ ^ 2 * (n * so + e * w) + w * n * e * so) * d3

/-- A lossless coupler, seen from two of its sides. -/
theorem rotate (τ κ : ℝ) (h : τ ^ 2 + κ ^ 2 = 1) (x y : ℂ) :
    Complex.normSq (τ * x + Complex.I * κ * y) + Complex.normSq (Complex.I * κ * x + τ * y) = Complex.normSq x + Complex.normSq y := by
  simp only [Complex.normSq_apply, Complex.add_re, Complex.add_im, Complex.mul_re, Complex.mul_im, Complex.I_re, Complex.I_im,
    Complex.ofReal_re, Complex.ofReal_im]
  linear_combination (x.re ^ 2 + x.im ^ 2 + y.re ^ 2 + y.im ^ 2) * h

theorem lossy {a b : ℂ} (ha : ‖a‖ ≤ 1) : Complex.normSq (a * b) ≤ Complex.normSq b := by
  rw [Complex.normSq_mul]
  have : Complex.normSq a ≤ 1 := by
    rw [Complex.normSq_eq_norm_sq]
    nlinarith [norm_nonneg a]
  nlinarith [Complex.normSq_nonneg b]

theorem lossy_lt {a b : ℂ} (ha : ‖a‖ < 1) (h : Complex.normSq b ≤ Complex.normSq (a * b)) : b = 0 := by
  rw [Complex.normSq_mul] at h
  have : Complex.normSq a < 1 := by
    rw [Complex.normSq_eq_norm_sq]
    nlinarith [norm_nonneg a]
  have h0 := Complex.normSq_nonneg b
  apply Complex.normSq_eq_zero.1
  nlinarith

/-- No resonance without loss. -/
theorem no_resonance (τ κ : ℝ) (h : τ ^ 2 + κ ^ 2 = 1) (w n e s : ℂ) (hw : ‖w‖ ≤ 1) (hn : ‖n‖ ≤ 1) (he : ‖e‖ ≤ 1) (hs : ‖s‖ ≤ 1)
    (hl : ‖n‖ < 1 ∧ ‖e‖ < 1 ∨ ‖w‖ < 1 ∧ ‖s‖ < 1) :
    1 - (τ : ℂ) ^ 2 * (w * n + e * s) + (κ : ℂ) ^ 2 * (n * s + e * w) + w * n * e * s ≠ 0 := by
  intro hD
  have hc : (τ : ℂ) ^ 2 + (κ : ℂ) ^ 2 = 1 := by exact_mod_cast h
  have hI := Complex.I_mul_I
  obtain ⟨v, hv0, hv⟩ := (Matrix.exists_mulVec_eq_zero_iff (M := !![1 + (κ : ℂ) ^ 2 * s * n - τ ^ 2 * w * n, -(Complex.I * κ * τ * (s + w) * e);
    -(Complex.I * κ * τ * (s + w) * n), 1 - τ ^ 2 * s * e + κ ^ 2 * w * e])).2 (by
      rw [Matrix.det_fin_two_of]
      linear_combination hD + ((κ : ℂ) ^ 2 + τ ^ 2 + 1) * n * e * s * w * hc - n * e * (κ : ℂ) ^ 2 * τ ^ 2 * (s + w) ^ 2 * hI)
  have h0 := congrFun hv 0
  have h1 := congrFun hv 1
  simp only [Matrix.mulVec, dotProduct, Fin.sum_univ_two, Matrix.of_apply, Matrix.cons_val', Matrix.cons_val_zero, Matrix.cons_val_one,
    Matrix.cons_val_fin_one, Pi.zero_apply] at h0 h1
  set x := v 0
  set y := v 1
  have e1 : x = τ * (w * (τ * (n * x) + Complex.I * κ * (e * y))) + Complex.I * κ * (s * (Complex.I * κ * (n * x) + τ * (e * y))) := by
    linear_combination h0 - (κ : ℂ) ^ 2 * s * n * x * hI
  have e2 : y = Complex.I * κ * (w * (τ * (n * x) + Complex.I * κ * (e * y))) + τ * (s * (Complex.I * κ * (n * x) + τ * (e * y))) := by
    linear_combination h1 - (κ : ℂ) ^ 2 * w * e * y * hI
  have r1 := rotate τ κ h (n * x) (e * y)
  set p := τ * (n * x) + Complex.I * κ * (e * y)
  set q := Complex.I * κ * (n * x) + τ * (e * y)
  have r2 := rotate τ κ h (w * p) (s * q)
  rw [← e1, ← e2] at r2
  have k1 := lossy (b := x) hn
  have k2 := lossy (b := y) he
  have k3 := lossy (b := p) hw
  have k4 := lossy (b := q) hs
  have key : x = 0 ∧ y = 0 := by
    rcases hl with ⟨l1, l2⟩ | ⟨l1, l2⟩
    · exact ⟨lossy_lt l1 (by linarith), lossy_lt l2 (by linarith)⟩
    · have z1 : p = 0 := lossy_lt l1 (by linarith)
      have z2 : q = 0 := lossy_lt l2 (by linarith)
      rw [z1, z2, mul_zero, mul_zero, mul_zero, mul_zero, add_zero] at e1 e2
      exact ⟨e1, e2⟩
  apply hv0
  funext i
  fin_cases i
  · exact key.1
  · exact key.2

theorem back_le (g : Wg) (hg : 0 ≤ g.loss * g.length) (R wl : ℝ) (hR : 0 ≤ R ∧ R ≤ 1) : ‖back g R wl‖ ≤ 1 ∧ (R < 1 → ‖back g R wl‖ < 1) := by
  have h1 := wg_passive g hg wl
  have h2 : ‖back g R wl‖ = ‖g.amp wl‖ ^ 2 * √R := by
    unfold back
    rw [norm_mul, norm_pow, Complex.norm_real, Real.norm_of_nonneg (Real.sqrt_nonneg R)]
  have h3 : ‖g.amp wl‖ ^ 2 ≤ 1 := by nlinarith [norm_nonneg (g.amp wl)]
  have h4 : √R ≤ 1 := Real.sqrt_le_one.2 hR.2
  rw [h2]
  refine ⟨by nlinarith [Real.sqrt_nonneg R, sq_nonneg ‖g.amp wl‖], fun h => ?_⟩
  have h5 : √R < 1 := by rw [Real.sqrt_lt' one_pos]; linarith
  nlinarith [Real.sqrt_nonneg R, sq_nonneg ‖g.amp wl‖]

theorem module_cases {c : Michelson} {P : Str × Part → Prop} (h1 : P ("west".toList, .source)) (h2 : P ("north".toList, .detector))
    (h3 : P ("east".toList, .detector)) (h4 : P ("south".toList, .detector)) (h5 : P ("m_west".toList, .mirror c.Rw))
    (h6 : P ("m_north".toList, .mirror c.Rn)) (h7 : P ("m_east".toList, .mirror c.Re)) (h8 : P ("m_south".toList, .mirror c.Rs))
    (h9 : P ("wg_west".toList, c.west.part)) (h10 : P ("wg_north".toList, c.north.part)) (h11 : P ("wg_east".toList, c.east.part))
    (h12 : P ("wg_south".toList, c.south.part)) (h13 : P ("dc".toList, .coupler c.k)) : ∀ q ∈ c.modules, P q := by
  intro q hq
  simp only [Michelson.modules, List.mem_cons, List.not_mem_nil, or_false] at hq
  rcases hq with rfl | rfl | rfl | rfl | rfl | rfl | rfl | rfl | rfl | rfl | rfl | rfl | rfl
  exacts [h1, h2, h3, h4, h5, h6, h7, h8, h9, h10, h11, h12, h13]

theorem made (P : Part → Prop) (c : Michelson) (h : ∀ q ∈ c.modules, P q.2) (d : Dev) (hd : LinkedNet c.modules michelsonLinks d) :
    MadeOf P d := by
  refine .net none _ conns d ?_ (goodConns_dec (by decide +kernel)) ⟨by decide +kernel, by decide +kernel⟩
    ⟨by decide +kernel, by decide +kernel, by decide +kernel⟩ (by rw [← linked.2]; exact hd.2)
  intro p hp
  obtain ⟨q, hq, rfl⟩ := List.mem_map.1 hp
  exact .part _ (h q hq) ((closed c).sized q hq)

theorem order (c : Michelson) : emitters c.modules conns = ["west".toList] ∧
    listeners c.modules conns = ["east".toList, "north".toList, "south".toList] := by
  constructor <;> rfl

end Mich

open Mich

/-- C136. The Michelson interferometer cavity in the frequency domain, for all parameters: it can be initialized unless the resonance
denominator vanishes, and then the detectors measure the formula. -/
theorem C136_steady (c : Michelson) (hk : 0 ≤ c.k ∧ c.k ≤ 1) :
    ∃ d, LinkedNet c.modules michelsonLinks d ∧ ∀ (W B : Type) (v : ℝ) (wl : W → ℝ) (env : SimEnv),
      env.freqdomain = true → env.t.length = 1 → (∀ w, c.resonance (wl w) ≠ 0) → ∃ r, initNet (d.plant v wl) env = .ok (some r) ∧
        ∀ (cs : List (Actor W B)) (src : ℕ → ℕ → W → B → ℝ × ℝ), ∃ o, forwardReduced r env cs src = .ok [o] ∧
          ∀ w b, (o w b).map asComplex = (c.outputs (wl w)).map (· * asComplex (src 0 0 w b)) := by
  obtain ⟨d, hd⟩ := C94_built (closed c) none
  refine ⟨d, ⟨Mich.linked.1, by rw [Mich.linked.2]; exact hd⟩, fun W B v wl env hf ht1 hne => ?_⟩
  have mw : ("west".toList, Part.source) ∈ c.modules := by simp [Michelson.modules]
  have mn : ("north".toList, Part.detector) ∈ c.modules := by simp [Michelson.modules]
  have me : ("east".toList, Part.detector) ∈ c.modules := by simp [Michelson.modules]
  have ms : ("south".toList, Part.detector) ∈ c.modules := by simp [Michelson.modules]
  have md : ("dc".toList, Part.coupler c.k) ∈ c.modules := by simp [Michelson.modules]
  have hh : ∀ p : Part, isSource p = false → isDetector p = false → ¬Holds env v p := by
    rintro p h1 h2 (h | h | ⟨h, -⟩)
    · rw [h] at h1; cases h1
    · rw [h] at h2; cases h2
    · rw [hf] at h; cases h
  obtain ⟨r, hr⟩ := (C94_initialized (closed c) none d hd v wl env ⟨_, mw, Or.inl rfl⟩).1 (by
    intro w A B hT
    have aw := hT.held _ mw (Or.inl rfl) 0 Nat.one_pos
    have an := hT.held _ mn (Or.inr (Or.inl rfl)) 0 Nat.one_pos
    have ae := hT.held _ me (Or.inr (Or.inl rfl)) 0 Nat.one_pos
    have as := hT.held _ ms (Or.inr (Or.inl rfl)) 0 Nat.one_pos
    have L := lit c (wl w) 0 A B (fun q hq h1 h2 => hT.joined q hq (hh _ h1 h2)) (fun q hq h1 h2 => hT.scattered q hq (hh _ h1 h2))
      aw.2 an.2 ae.2 as.2
    obtain ⟨s1, s2, s3⟩ := L.solve hk
    rw [mul_zero, mul_zero] at s1 s2 s3
    have b1 := (mul_eq_zero.1 s1).resolve_left (hne w)
    have b2 := (mul_eq_zero.1 s2).resolve_left (hne w)
    have b3 := (mul_eq_zero.1 s3).resolve_left (hne w)
    have a1 : A "dc".toList 1 = 0 := by rw [L.north, b1, mul_zero]
    have a2 : A "dc".toList 2 = 0 := by rw [L.east, b2, mul_zero]
    have a3 : A "dc".toList 3 = 0 := by rw [L.south, b3, mul_zero]
    have b0 : B "dc".toList 0 = 0 := by rw [L.dc0, a1, a2, mul_zero, mul_zero, add_zero]
    have a0 : A "dc".toList 0 = 0 := by rw [L.west, b0, mul_zero, mul_zero, add_zero]
    have hdark := L.dark rfl (by
      intro i hi
      interval_cases i <;> assumption)
    have two : ∀ x ∈ ["m_west".toList, "m_north".toList, "m_east".toList, "m_south".toList, "wg_west".toList, "wg_north".toList,
        "wg_east".toList, "wg_south".toList], ∀ i < 2, A x i = 0 := by
      intro x hx i hi
      obtain ⟨h1, h2⟩ := hdark x hx
      interval_cases i <;> assumption
    have one : ∀ x, A x 0 = 0 → ∀ i < 1, A x i = 0 := by
      intro x h i hi
      interval_cases i
      exact h
    refine module_cases (P := fun q => ∀ i < q.2.n, A q.1 i = 0) (one _ aw.1) (one _ an.1) (one _ ae.1) (one _ as.1) ?_ ?_ ?_ ?_ ?_ ?_ ?_ ?_ ?_
    · exact two _ (by simp)
    · exact two _ (by simp)
    · exact two _ (by simp)
    · exact two _ (by simp)
    · exact two _ (by simp)
    · exact two _ (by simp)
    · exact two _ (by simp)
    · exact two _ (by simp)
    · intro i hi
      have hi' : i < 4 := hi
      interval_cases i <;> assumption)
  refine ⟨r, hr, fun cs src => ?_⟩
  obtain ⟨o, ho, H⟩ := C94_frequency (closed c) ⟨_, mn, rfl⟩ none d hd v wl env hf ht1 r hr cs src
  refine ⟨o, ho, fun w b => ?_⟩
  obtain ⟨⟨A, B', hS⟩, H⟩ := H w b
  rw [H A B' hS, (order c).2]
  have ends : ∀ x p, (x, p) ∈ c.modules → isSource p = true ∨ isDetector p = true → ∀ i : Fin p.n, B' x i = if isSource p then
      asComplex (src 0 ((emitters c.modules conns).idxOf x) w b) else 0 := by
    intro x p hm hp i
    have h := hS.scattered _ hm i
    rw [Finset.sum_eq_zero fun j _ => by rw [ends_dark p (wl w) hp, zero_mul], zero_add] at h
    exact h
  have bw : B' "west".toList 0 = asComplex (src 0 0 w b) := ends _ _ mw (.inl rfl) (0 : Fin 1)
  have bn : B' "north".toList 0 = 0 := ends _ _ mn (.inr rfl) (0 : Fin 1)
  have be : B' "east".toList 0 = 0 := ends _ _ me (.inr rfl) (0 : Fin 1)
  have bs : B' "south".toList 0 = 0 := ends _ _ ms (.inr rfl) (0 : Fin 1)
  have L := lit c (wl w) _ A B' (fun q hq _ _ i b j hj => hS.joined _ _ _ _ hj) (fun q hq h1 _ i => by
    rw [hS.scattered q hq i, h1]
    simp) bw bn be bs
  obtain ⟨s1, s2, s3⟩ := L.solve hk
  have jE := hS.joined _ _ _ _ (.inr (by decide : Conn.inner "m_east".toList 1 "east".toList 0 ∈ conns))
  have jN := hS.joined _ _ _ _ (.inl (by decide : Conn.inner "north".toList 0 "m_north".toList 0 ∈ conns))
  have jS := hS.joined _ _ _ _ (.inr (by decide : Conn.inner "m_south".toList 1 "south".toList 0 ∈ conns))
  have hD := hne w
  unfold Michelson.outputs
  simp only [List.map_cons, List.map_nil]
  rw [jE, jN, jS, L.atE, L.atN, L.atS]
  generalize asComplex (src 0 0 w b) = σ at *
  congr 1
  · rw [div_mul_eq_mul_div, eq_div_iff hD]
    linear_combination through c.east c.Re (wl w) * s2
  congr 1
  · rw [div_mul_eq_mul_div, eq_div_iff hD]
    linear_combination through c.north c.Rn (wl w) * s1
  congr 1
  · rw [div_mul_eq_mul_div, eq_div_iff hD]
    linear_combination through c.south c.Rs (wl w) * s3

/-- C136. If the denominator vanishes, and the light of the source takes part in the resonance, initialization fails.
According to `C136_passive` an arm must amplify for that: it is the laser threshold. -/
theorem C136_resonant (c : Michelson) (hk : 0 ≤ c.k ∧ c.k ≤ 1) (d : Dev) (hd : LinkedNet c.modules michelsonLinks d) (v : ℝ) (wl : W → ℝ)
    (env : SimEnv) (hf : env.freqdomain = true) (ht1 : env.t.length = 1) (w : W) (hD : c.resonance (wl w) = 0)
    (hw : through c.west c.Rw (wl w) ≠ 0) (hnum : √(1 - c.k) * (1 - back c.east c.Re (wl w) * back c.south c.Rs (wl w)) ≠ 0 ∨
      √c.k * (1 + back c.north c.Rn (wl w) * back c.south c.Rs (wl w)) ≠ 0) :
    initNet (d.plant v wl) env = .error .runtimeError := by
  have hd' : mkDev none (c.modules.map fun q => (q.1, q.2.dev)) (conns.map Conn.text) = .ok d := by
    rw [← Mich.linked.2]
    exact hd.2
  have mw : ("west".toList, Part.source) ∈ c.modules := by simp [Michelson.modules]
  have mn : ("north".toList, Part.detector) ∈ c.modules := by simp [Michelson.modules]
  obtain ⟨g1, g2⟩ := C94_initialized (closed c) none d hd' v wl env ⟨_, mw, Or.inl rfl⟩
  by_cases hall : ∀ w A B, Trapped env v c.modules conns (wl w) A B → ∀ q ∈ c.modules, ∀ i < q.2.n, A q.1 i = 0
  · exfalso
    obtain ⟨r, hr⟩ := g1 hall
    obtain ⟨o, ho, H⟩ := C94_frequency (closed c) ⟨_, mn, rfl⟩ none d hd' v wl env hf ht1 r hr ([] : List (Actor W Unit)) fun _ _ _ _ => (1, 0)
    obtain ⟨⟨A, B', hS⟩, -⟩ := H w ()
    have ends : ∀ x p, (x, p) ∈ c.modules → isSource p = true ∨ isDetector p = true → ∀ i : Fin p.n, B' x i = if isSource p then
        asComplex (1, 0) else 0 := by
      intro x p hm hp i
      have h := hS.scattered _ hm i
      rw [Finset.sum_eq_zero fun j _ => by rw [ends_dark p (wl w) hp, zero_mul], zero_add] at h
      exact h
    have L := lit c (wl w) _ A B' (fun q hq _ _ i b j hj => hS.joined _ _ _ _ hj) (fun q hq h1 _ i => by
      rw [hS.scattered q hq i, h1]
      simp) (ends _ _ mw (.inl rfl) (0 : Fin 1)) (ends _ _ mn (.inr rfl) (0 : Fin 1))
      (ends "east".toList .detector (by simp [Michelson.modules]) (.inr rfl) (0 : Fin 1))
      (ends "south".toList .detector (by simp [Michelson.modules]) (.inr rfl) (0 : Fin 1))
    obtain ⟨s1, s2, -⟩ := L.solve hk
    rw [hD, zero_mul] at s1 s2
    have hs : through c.west c.Rw (wl w) * (if isSource Part.source then asComplex (1, 0) else 0) ≠ 0 := by
      rw [show (if isSource Part.source then asComplex (1, 0) else 0 : ℂ) = 1 from rfl, mul_one]
      exact hw
    rcases hnum with h | h
    · exact mul_ne_zero h hs s1.symm
    · refine mul_ne_zero (mul_ne_zero Complex.I_ne_zero h) hs ?_
      rw [← mul_assoc Complex.I]
      exact s2.symm
  · push Not at hall
    obtain ⟨w', A, B', hT, q, hq, i, hi, hA⟩ := hall
    exact g2 w' A B' hT ⟨q, hq, i, hi, hA⟩

/-- The parameters are physical, and no two neighbouring mirrors are perfect. -/
structure Spec.Michelson.Passive (c : Michelson) : Prop where
  k : 0 ≤ c.k ∧ c.k ≤ 1
  mirrors : (0 ≤ c.Rw ∧ c.Rw ≤ 1) ∧ (0 ≤ c.Rn ∧ c.Rn ≤ 1) ∧ (0 ≤ c.Re ∧ c.Re ≤ 1) ∧ 0 ≤ c.Rs ∧ c.Rs ≤ 1
  open_ : c.Rn < 1 ∧ c.Re < 1 ∨ c.Rw < 1 ∧ c.Rs < 1
  arms : (0 ≤ c.west.length ∧ 0 ≤ c.west.loss) ∧ (0 ≤ c.north.length ∧ 0 ≤ c.north.loss) ∧ (0 ≤ c.east.length ∧ 0 ≤ c.east.loss) ∧
    0 ≤ c.south.length ∧ 0 ≤ c.south.loss

/-- C136. The resonance denominator does not vanish. -/
theorem C136_passive (c : Michelson) (h : c.Passive) (wl : ℝ) : c.resonance wl ≠ 0 := by
  obtain ⟨⟨aw, bw⟩, ⟨an, bn⟩, ⟨ae, be⟩, ⟨as, bs⟩⟩ := h.arms
  obtain ⟨mw, mn, me, ms⟩ := h.mirrors
  have cw := back_le c.west (mul_nonneg bw aw) c.Rw wl mw
  have cn := back_le c.north (mul_nonneg bn an) c.Rn wl mn
  have ce := back_le c.east (mul_nonneg be ae) c.Re wl me
  have cs := back_le c.south (mul_nonneg bs as) c.Rs wl ms
  obtain ⟨ht, hq⟩ := sq_couple h.k
  have hone : √(1 - c.k) ^ 2 + √c.k ^ 2 = 1 := by
    rw [Real.sq_sqrt (by linarith [h.k.2]), Real.sq_sqrt h.k.1]
    ring
  have := no_resonance (√(1 - c.k)) (√c.k) hone _ _ _ _ cw.1 cn.1 ce.1 cs.1
    (h.open_.imp (fun q => ⟨cn.2 q.1, ce.2 q.2⟩) fun q => ⟨cw.2 q.1, cs.2 q.2⟩)
  rw [ht, hq] at this
  exact this

theorem mirror_contracts (R : ℝ) (hR : 0 ≤ R ∧ R ≤ 1) (wl : ℝ) : Contracts (scattering (.mirror R) wl) :=
  C65_contracts_partial (.mirror R) hR (by simp) wl

/-- C136. In the time domain, with any time step, the detected fields of the cavity approach the formula. -/
theorem C136_settles (c : Michelson) (h : c.Passive) :
    ∃ d, LinkedNet c.modules michelsonLinks d ∧ ∀ (W B : Type) (v : ℝ) (wl : W → ℝ) (dt : ℝ), 0 < dt →
      ∀ (amp : ℕ → W → B → ℝ × ℝ) w b ε, 0 < ε →
      ∃ N, ∀ (ts : List ℝ) (cs : List (Actor W B)), ∃ (r : Reduced W) (out : List (W → B → List (ℝ × ℝ))),
        initNet (d.plant v wl) ⟨some dt, false, ts⟩ = .ok (some r) ∧
        forwardReduced r ⟨some dt, false, ts⟩ cs (fun _ => amp) = .ok out ∧ out.length = ts.length ∧
          ∀ t (h : t < out.length), N ≤ t →
            List.Forall₂ (fun y z => ‖asComplex y - z * asComplex (amp 0 w b)‖ < ε) (out[t] w b) (c.outputs (wl w)) := by
  obtain ⟨d, hd, H⟩ := C136_steady c h.k
  refine ⟨d, hd, fun W B v wl dt hpos amp w b ε hε => ?_⟩
  obtain ⟨r', hr', hfr⟩ := H W B v wl ⟨none, true, [0]⟩ rfl rfl fun w => C136_passive c h (wl w)
  obtain ⟨o', ho', hfo⟩ := hfr [] (fun _ => amp)
  obtain ⟨aw, an, ae, as⟩ := h.arms
  obtain ⟨mw, mn, me, ms⟩ := h.mirrors
  have hM := made (fun p => ∀ wl, Contracts (scattering p wl)) c (module_cases (P := fun q => ∀ wl, Contracts (scattering q.2 wl))
    (C65_contracts_partial .source trivial (by simp)) (C65_contracts_partial .detector trivial (by simp))
    (C65_contracts_partial .detector trivial (by simp)) (C65_contracts_partial .detector trivial (by simp))
    (mirror_contracts _ mw) (mirror_contracts _ mn) (mirror_contracts _ me) (mirror_contracts _ ms)
    (wg_contracts _ aw) (wg_contracts _ an) (wg_contracts _ ae) (wg_contracts _ as)
    (C65_contracts_partial (.coupler c.k) h.k (by simp))) d hd
  obtain ⟨l, hP⟩ := placed_of (closed c) (by have := hd.2; rw [Mich.linked.2] at this; exact this)
  have hdet := det_exists hP v wl ⟨("north".toList, .detector), by simp [Michelson.modules], rfl⟩
  obtain ⟨o, ho, hset⟩ := C135_settles d hM hP.term v wl dt hpos hdet ⟨none, true, [0]⟩ rfl rfl r' hr' [] amp
  rw [ho'] at ho
  cases ho
  obtain ⟨N, hN⟩ := hset w b ε hε
  refine ⟨N, fun ts cs => ?_⟩
  obtain ⟨r, out, h1, h2, h3, h4⟩ := hN ts cs
  refine ⟨r, out, h1, h2, h3, fun t ht hNt => ?_⟩
  obtain ⟨hl, hc⟩ := h4 t ht hNt
  have hv := hfo w b
  have hlen : (o' w b).length = (c.outputs (wl w)).length := by
    have := congrArg List.length hv
    rwa [List.length_map, List.length_map] at this
  rw [List.forall₂_iff_get]
  refine ⟨hl.trans hlen, fun i h1 h2 => ?_⟩
  have h1' : i < (o' w b).length := by rw [hlen]; exact h2
  have := hc i _ (o' w b)[i] (List.getElem?_eq_getElem h1) (List.getElem?_eq_getElem h1')
  have hvi : asComplex (o' w b)[i] = (c.outputs (wl w))[i] * asComplex (amp 0 w b) := by
    have := congrArg (fun l => l[i]?) hv
    simp only [List.getElem?_map, List.getElem?_eq_getElem h1', List.getElem?_eq_getElem h2, Option.map_some, Option.some.injEq] at this
    exact this
  rw [one_mul, hvi] at this
  exact this

theorem through_sq (g : Wg) (R wl : ℝ) (hg : ‖g.amp wl‖ = 1) (hR : R ≤ 1) : Complex.normSq (through g R wl) = 1 - R := by
  unfold through
  rw [Complex.normSq_mul, Complex.normSq_mul, Complex.normSq_I, Complex.normSq_ofReal, Real.mul_self_sqrt (by linarith),
    Complex.normSq_eq_norm_sq, hg]
  ring

/-- C136. The aim of the training in the notebook, the same power at all detectors, is within reach: with a coupler that splits the light
evenly and lossless arms, mirrors can be chosen such that every detector measures a third of any given power up to a bound, which only
depends on how well the light from the arms in the north and in the east interferes. -/
theorem C136_equal (w n e s : Wg) (wl : ℝ) (hw : w.loss * w.length = 0) (hn : n.loss * n.length = 0) (he : e.loss * e.length = 0)
    (hs : s.loss * s.length = 0) (q : ℝ) (hq : q = Complex.normSq (n.amp wl ^ 2 + e.amp wl ^ 2)) (hq0 : 0 < q) (P : ℝ) (hP0 : 0 ≤ P)
    (hP : P ≤ 3 / 2 * (q / (2 + q))) :
    ∃ Rw Rn Re Rs : ℝ, (0 ≤ Rw ∧ Rw ≤ 1) ∧ (0 ≤ Rn ∧ Rn < 1) ∧ (0 ≤ Re ∧ Re < 1) ∧ (0 ≤ Rs ∧ Rs < 1) ∧
      ((⟨Rw, Rn, Re, Rs, w, n, e, s, 1 / 2⟩ : Michelson).outputs wl).map Complex.normSq = [P / 3, P / 3, P / 3] := by
  have unit : ∀ g : Wg, g.loss * g.length = 0 → ‖g.amp wl‖ = 1 := fun g hg => by
    rw [wg_norm, hg]
    norm_num
  set R : ℝ := 2 / (2 + q) with hR
  have hR1 : 1 - R = q / (2 + q) := by
    rw [hR]
    field_simp
    ring
  have hRpos : 0 < R := by positivity
  have hRlt : R < 1 := by
    have : 0 < q / (2 + q) := by positivity
    linarith
  set D : ℝ → ℂ := fun x => 1 - (1 / 2) * (w.amp wl ^ 2 * √x * (n.amp wl ^ 2 * √R)) + (1 / 2) * (e.amp wl ^ 2 * √R * (w.amp wl ^ 2 * √x)) with hD
  have hres : ∀ x, (⟨x, R, R, 0, w, n, e, s, 1 / 2⟩ : Michelson).resonance wl = D x := by
    intro x
    unfold Michelson.resonance back
    simp only [Real.sqrt_zero, hD]
    push_cast
    ring
  have hD0 : ∀ x, 0 ≤ x → x ≤ 1 → D x ≠ 0 := by
    intro x h0 h1
    rw [← hres]
    have b1 := back_le w (by rw [hw]) x wl ⟨h0, h1⟩
    have b2 := back_le n (by rw [hn]) R wl ⟨hRpos.le, hRlt.le⟩
    have b3 := back_le e (by rw [he]) R wl ⟨hRpos.le, hRlt.le⟩
    have b4 := back_le s (by rw [hs]) 0 wl ⟨le_rfl, zero_le_one⟩
    have hone : √(1 - 1 / 2) ^ 2 + √(1 / 2 : ℝ) ^ 2 = 1 := by
      rw [Real.sq_sqrt (by norm_num), Real.sq_sqrt (by norm_num)]
      norm_num
    have := no_resonance (√(1 - 1 / 2)) (√(1 / 2)) hone _ _ _ _ b1.1 b2.1 b3.1 b4.1 (.inl ⟨b2.2 hRlt, b3.2 hRlt⟩)
    obtain ⟨ht, hk⟩ := sq_couple (k := 1 / 2) (by norm_num)
    rw [ht, hk] at this
    exact this
  set f : ℝ → ℝ := fun x => (1 - R) / 2 * (1 - x) / Complex.normSq (D x) with hf
  have hcont : ContinuousOn f (Set.Icc 0 1) := by
    refine ContinuousOn.div (by fun_prop) ?_ fun x hx => Complex.normSq_eq_zero.not.2 (hD0 x hx.1 hx.2)
    refine Complex.continuous_normSq.comp_continuousOn ?_
    exact Continuous.continuousOn (by fun_prop)
  have hf0 : f 0 = (1 - R) / 2 := by
    simp [hf, hD]
  have hf1 : f 1 = 0 := by
    simp [hf]
  obtain ⟨x, ⟨hx0, hx1⟩, hx⟩ := intermediate_value_Icc' (zero_le_one) hcont (show P / 3 ∈ Set.Icc (f 1) (f 0) by
    rw [hf0, hf1, hR1]
    constructor <;> linarith)
  refine ⟨x, R, R, 0, ⟨hx0, hx1⟩, ⟨hRpos.le, hRlt⟩, ⟨hRpos.le, hRlt⟩, ⟨le_rfl, one_pos⟩, ?_⟩
  unfold Michelson.outputs
  have t1 := through_sq w x wl (unit w hw) hx1
  have t2 := through_sq n R wl (unit n hn) hRlt.le
  have t3 := through_sq e R wl (unit e he) hRlt.le
  have t4 := through_sq s 0 wl (unit s hs) zero_le_one
  have hk : Complex.normSq ((√(1 / 2 : ℝ) : ℝ) : ℂ) = 1 / 2 := by
    rw [Complex.normSq_ofReal, Real.mul_self_sqrt (by norm_num)]
  have ht : Complex.normSq ((√(1 - 1 / 2 : ℝ) : ℝ) : ℂ) = 1 / 2 := by
    rw [Complex.normSq_ofReal, Real.mul_self_sqrt (by norm_num)]
    norm_num
  have hb0 : back s 0 wl = 0 := by
    unfold back
    simp
  have hbq : Complex.normSq (back n R wl + back e R wl) = R * q := by
    unfold back
    rw [← add_mul, Complex.normSq_mul, ← hq, Complex.normSq_ofReal, Real.mul_self_sqrt hRpos.le]
    ring
  have hRq : R * q / 4 = (1 - R) / 2 := by
    rw [hR1, hR]
    field_simp
    ring
  simp only [List.map_cons, List.map_nil, Complex.normSq_div, Complex.normSq_mul, hres, hb0, mul_zero, add_zero, sub_zero, t1, t2, t3, t4, hk,
    ht, hbq, Complex.normSq_I, Complex.normSq_one]
  rw [← hx, hf]
  dsimp only
  have e1 : (1 - R) * (1 * (1 / 2) * 1) * (1 - x) / Complex.normSq (D x) = (1 - R) / 2 * (1 - x) / Complex.normSq (D x) := by ring
  have e2 : (1 - R) * (1 / 2 * 1) * (1 - x) / Complex.normSq (D x) = (1 - R) / 2 * (1 - x) / Complex.normSq (D x) := by ring
  have e3 : 1 * (1 * (1 / 2) * (1 / 2) * (R * q)) * (1 - x) / Complex.normSq (D x) = (1 - R) / 2 * (1 - x) / Complex.normSq (D x) := by
    rw [← hRq]
    ring
  rw [e1, e2, e3]

/-! ## The notebook -/

/-- The cavity of the notebook, with arms of 0.43 m, 0.60 m, 0.95 m and 1.12 m. -/
noncomputable def nbCavity : Michelson :=
  ⟨0.9, 0.9, 0.9, 0.9, ⟨0.43, 0, √12.1, 1.55e-6, 2, 0⟩, ⟨0.60, 0, √12.1, 1.55e-6, 2, 0⟩, ⟨0.95, 0, √12.1, 1.55e-6, 2, 0⟩,
    ⟨1.12, 0, √12.1, 1.55e-6, 2, 0⟩, 0.5⟩

theorem nbCavity_passive : nbCavity.Passive :=
  ⟨by norm_num [nbCavity], by norm_num [nbCavity], .inl (by norm_num [nbCavity]), by norm_num [nbCavity]⟩

example : ∃ d, LinkedNet nbCavity.modules michelsonLinks d ∧ ∀ ε, 0 < ε →
    ∃ N, ∀ ts, ∃ (r : Reduced Unit) (out : List (Unit → Unit → List (ℝ × ℝ))),
      initNet (d.plant 299792458 fun _ => 1.55e-6) ⟨some 0.5e-9, false, ts⟩ = .ok (some r) ∧
      forwardReduced r ⟨some 0.5e-9, false, ts⟩ [] (fun _ _ _ _ => (1, 0)) = .ok out ∧ ∀ t (h : t < out.length), N ≤ t →
        List.Forall₂ (fun y z => ‖asComplex y - z‖ < ε) (out[t] () ()) (nbCavity.outputs 1.55e-6) := by
  obtain ⟨d, hd, h⟩ := C136_settles nbCavity nbCavity_passive
  refine ⟨d, hd, fun ε hε => ?_⟩
  obtain ⟨N, hN⟩ := h Unit Unit 299792458 (fun _ => 1.55e-6) 0.5e-9 (by norm_num) (fun _ _ _ => (1, 0)) () () ε hε
  refine ⟨N, fun ts => ?_⟩
  obtain ⟨r, out, h1, h2, -, h4⟩ := hN ts []
  refine ⟨r, out, h1, h2, fun t ht hNt => (h4 t ht hNt).imp fun y z hyz => ?_⟩
  rwa [show asComplex (1, 0) = 1 from rfl, mul_one] at hyz

/-- The arm in the north amplifies by 10 dB what its perfect mirror sends back, the mirror in the west reflects a hundredth of the power. -/
noncomputable def laser : Michelson :=
  ⟨0.01, 1, 0, 0, ⟨0, 0, 0, 1, 0, 0⟩, ⟨1, -10, 0, 1, 0, 0⟩, ⟨0, 0, 0, 1, 0, 0⟩, ⟨0, 0, 0, 1, 0, 0⟩, 0⟩

example (d : Dev) (hd : LinkedNet laser.modules michelsonLinks d) :
    initNet (d.plant 299792458 fun _ : Unit => 1.55e-6) ⟨none, true, [0]⟩ = .error .runtimeError := by
  have h10 : √(0.01 : ℝ) = 0.1 := by rw [show (0.01 : ℝ) = 0.1 ^ 2 by norm_num]; exact Real.sqrt_sq (by norm_num)
  have hw : back laser.west laser.Rw 1.55e-6 = 0.1 := by
    simp only [back, laser, Wg.amp, h10]
    norm_num
  have hn : back laser.north laser.Rn 1.55e-6 = 10 := by
    have : ((10 : ℝ) ^ ((1 : ℝ) / 2)) ^ 2 = 10 := by
      rw [← Real.rpow_natCast, ← Real.rpow_mul (by norm_num)]
      norm_num
    have h' : (((10 : ℝ) ^ ((1 : ℝ) / 2) : ℝ) : ℂ) ^ 2 = 10 := by exact_mod_cast this
    have e : (-(-10 * 1) / 20 : ℝ) = 1 / 2 := by norm_num
    simp only [back, laser, Wg.amp, e]
    simp only [mul_pow, h']
    norm_num
  have he : back laser.east laser.Re 1.55e-6 = 0 := by simp [back, laser]
  have hs : back laser.south laser.Rs 1.55e-6 = 0 := by simp [back, laser]
  refine C136_resonant laser (by norm_num [laser]) d hd _ _ _ rfl rfl () ?_ ?_ (.inl ?_)
  · rw [Michelson.resonance, hw, hn, he, hs]
    norm_num [laser]
  · have h99 : √(1 - 0.01 : ℝ) ≠ 0 := (Real.sqrt_pos.2 (by norm_num)).ne'
    have : (√(1 - 0.01 : ℝ) : ℂ) ≠ 0 := Complex.ofReal_ne_zero.2 h99
    simp only [through, laser, Wg.amp]
    refine mul_ne_zero (mul_ne_zero Complex.I_ne_zero this) (mul_ne_zero ?_ (Complex.exp_ne_zero _))
    norm_num
  · rw [he, hs]
    norm_num [laser]

/-- Perfect mirrors on one side may trap light, on two opposite sides they do not. -/
example (w n e s : Wg) (hw : 0 ≤ w.length ∧ 0 ≤ w.loss) (hn : 0 ≤ n.length ∧ 0 ≤ n.loss) (he : 0 ≤ e.length ∧ 0 ≤ e.loss)
    (hs : 0 ≤ s.length ∧ 0 ≤ s.loss) (wl : ℝ) : (⟨1, 0.9, 0.9, 1, w, n, e, s, 0.5⟩ : Michelson).resonance wl ≠ 0 :=
  C136_passive _ ⟨by norm_num, by norm_num, .inl (by norm_num), hw, hn, he, hs⟩ wl

/-- If the arms in the north and in the east are equal, all light can be divided evenly. -/
example (w n s : Wg) (wl : ℝ) (hw : w.loss * w.length = 0) (hn : n.loss * n.length = 0) (hs : s.loss * s.length = 0) :
    ∃ Rw Rn Re Rs : ℝ, ((⟨Rw, Rn, Re, Rs, w, n, n, s, 1 / 2⟩ : Michelson).outputs wl).map Complex.normSq = [1 / 3, 1 / 3, 1 / 3] := by
  have h4 : Complex.normSq (n.amp wl ^ 2 + n.amp wl ^ 2) = 4 := by
    rw [← two_mul, Complex.normSq_mul, map_pow, Complex.normSq_eq_norm_sq (n.amp wl), wg_norm, hn]
    norm_num
  obtain ⟨a, b, c, d, -, -, -, -, h⟩ := C136_equal w n n s wl hw hn hn hs 4 h4.symm (by norm_num) 1 (by norm_num) (by norm_num)
  exact ⟨a, b, c, d, h⟩

end PT
