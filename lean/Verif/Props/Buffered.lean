import Verif.Proof.Buffered
import Verif.Props.Crow
import Verif.Props.RoundedCoupler

/-! C153: Resonant circuits in floating-point arithmetic. -/

namespace PT
open Spec Matrix

variable {W : Type} {parts : List (Str × Part)} {cs : List Conn}

/-- C153. In a passive circuit in which every connection leads from or to a component that absorbs, light is enhanced by at most
`2 / (1 - ρ)`, at any wavelength and over any time, however often it goes round. -/
theorem C153_enhancement (h : Closed parts cs) (hc : ∀ q ∈ parts, ∀ wl, Contracts (scattering q.2 wl)) (name : Option Str) (d : Dev)
    (hd : mkDev name (parts.map fun q => (q.1, q.2.dev)) (cs.map Conn.text) = .ok d) (ρ : ℝ) (h0 : 0 ≤ ρ) (h1 : ρ < 1)
    (hb : BuffersBy ρ parts cs) (v : ℝ) (wl : W → ℝ) (w : W) :
    EnhancesBy (2 / (1 - ρ)) (cx (d.plant v wl).C 0) (cx ((d.plant v wl).rS w) ((d.plant v wl).iS w)) ∧
      ∀ dt, EnhancesOverTime (2 / (1 - ρ)) (cx (d.plant v wl).C 0) (cx ((d.plant v wl).rS w) ((d.plant v wl).iS w))
        (circuitDelay d v wl dt) := by
  obtain ⟨l, hP⟩ := placed_of h hd
  have hpair := plant_paired hP.made.clean hP.term v wl
  have hcon : Contracts (cx ((d.plant v wl).rS w) ((d.plant v wl).iS w)) := by
    refine plant_contracts hP.flat v wl (fun p hp wl => ?_) w
    obtain ⟨q, hq, rfl⟩ := List.mem_map.mp hp
    exact hc q ((hP.mem q).mp hq) wl
  have hbuf := hP.buffered ρ hb v wl w
  exact ⟨Sens.enhances_of_buffered hpair hcon h0 h1 hbuf, fun dt => Sens.enhances_of_copies fun T =>
    Sens.enhances_of_buffered (Sens.copies_paired T hpair) (Sens.spread_contracts _ T hcon) h0 h1 (hbuf.spread _ T)⟩

/-- C153. So such circuits, computed in floating-point arithmetic, give the results of exact arithmetic up to single precision times the
square of the enhancement. -/
theorem C153_resonant [Nonempty W] {m : Libm} {mt : Libt} (hm : Accurate m) (hmt : AccurateT mt) (T : ℝ) (hT : 0 ≤ T) (wl : W → ℝ)
    (rnd : (p : Part) → ℝ → Matrix (Fin p.n) (Fin p.n) ℂ) (hend : ∀ p, p = .source ∨ p = .detector → ∀ wl, rnd p wl = 0)
    (h : Closed parts cs) (hP : ∀ q ∈ parts, ∀ w, IsComputedPart m mt T (wl w) q.2 (rnd q.2 (wl w)))
    (hdet : ∃ q ∈ parts, isDetector q.2 = true) (name : Option Str) (d : Dev)
    (hd : mkDev name (parts.map fun q => (q.1, q.2.dev)) (cs.map Conn.text) = .ok d) (ρ : ℝ) (h0 : 0 ≤ ρ) (h1 : ρ < 1)
    (hb : BuffersBy ρ parts cs) (v dt : ℝ) (hdt : 0 < dt) (δ : ℝ) (hδ : δ = 4 * (T / 2 ^ 47 + 1 / 2 ^ 17)) (hs : 2 * δ < 1 - ρ) :
    ∃ (L : List Part) (at_ : Fin d.comp.n → ℕ × ℕ),
      BlockWise scattering wl L at_ (fun w => cx ((d.plant v wl).rS w) ((d.plant v wl).iS w)) ∧
      (∃ S', BlockWise rnd wl L at_ S') ∧
      ∀ S', BlockWise rnd wl L at_ S' →
        ResultsWithin (4 * δ / ((1 - ρ) * (1 - ρ - 2 * δ))) (d.plant v wl) (withS (d.plant v wl) S') ∧
        RunsWithin (4 * δ / ((1 - ρ) * (1 - ρ - 2 * δ))) dt (d.plant v wl) (withS (d.plant v wl) S') := by
  have hδ0 : 0 ≤ T / 2 ^ 47 + 1 / 2 ^ 17 := by positivity
  obtain ⟨w₀⟩ := ‹Nonempty W›
  have hM : MadeOf (fun p => ∀ w, IsComputedPart m mt T (wl w) p (rnd p (wl w))) d := closed_made h hP name hd
  obtain ⟨L, at_, -, g1, g2, g3⟩ := C149_components _ d hM v wl (T / 2 ^ 47 + 1 / 2 ^ 17) 4 hδ0
    (fun p hp => Sens.part_small p _ (hp w₀)) rnd hend fun p hp w i j => Sens.part_near hm hmt p _ (hp w) hT i j
  refine ⟨L, at_, g1, g2, fun S' hS' => ?_⟩
  obtain ⟨h4, h5, h6⟩ := g3 S' hS'
  obtain ⟨l, hPl⟩ := placed_of h hd
  have hen := fun w => C153_enhancement h (fun q hq wl' => Sens.part_contracts q.2 _ (hP q hq w₀) wl') name d hd ρ h0 h1 hb v wl w
  have hdev : ∀ w, DeviatesBy δ (cx ((d.plant v wl).rS w) ((d.plant v wl).iS w)) (S' w) := by
    intro w
    have := Sens.deviates_of_entries (h6 w) hδ0
    rw [hδ]
    exact_mod_cast this
  have hd0 := det_exists hPl v wl hdet
  have h1' : 0 < 1 - ρ := by linarith
  have h2' : 0 < 1 - ρ - 2 * δ := by linarith
  have hδ' : 0 ≤ δ := by rw [hδ]; positivity
  have hk : 2 / (1 - ρ) * δ < 1 := by rw [div_mul_eq_mul_div, div_lt_one h1']; exact hs
  have e : (2 / (1 - ρ)) ^ 2 * δ / (1 - 2 / (1 - ρ) * δ) = 4 * δ / ((1 - ρ) * (1 - ρ - 2 * δ)) := by
    have : 1 - 2 / (1 - ρ) * δ = (1 - ρ - 2 * δ) / (1 - ρ) := by field_simp
    rw [this]
    field_simp
    ring
  have k1 := C149_near d (madeOf_any hM) hPl.term v wl hd0 (2 / (1 - ρ)) δ (by positivity) hk (fun w => (hen w).1) S' h4 hdev
  have k2 := C150_near d (madeOf_any hM) hPl.term v wl hd0 dt hdt (2 / (1 - ρ)) δ (by positivity) hδ' hk (fun w => (hen w).2 dt) S' h4 h5 hdev
  rw [e] at k1 k2
  exact ⟨k1, k2⟩

namespace Sens

theorem end_loses (p : Part) (h : p = .source ∨ p = .detector) (ρ : ℝ) : LosesBy ρ p := by
  intro wl u
  have e : scattering p wl = 0 := by rcases h with rfl | rfl <;> rfl
  rw [e, Matrix.zero_mulVec]
  have : power (0 : Fin p.n → ℂ) = 0 := by simp [power]
  rw [this]
  exact mul_nonneg (sq_nonneg _) (power_nonneg _)

theorem cross_power (z : ℂ) (S : Matrix (Fin 2) (Fin 2) ℂ) (hS : ∀ i j, S i j = if i = j then 0 else z) (u : Fin 2 → ℂ) :
    power (S *ᵥ u) = Complex.normSq z * power u := by
  unfold power
  simp only [Matrix.mulVec, dotProduct, Fin.sum_univ_two, hS]
  simp [Complex.normSq_mul]
  ring

theorem wg_loses (g : Wg) (ρ : ℝ) (h : (10 : ℝ) ^ (-(g.loss * g.length) / 20) ≤ ρ) : LosesBy ρ g.part := by
  intro wl u
  have e2 : power (scattering g.part wl *ᵥ u) = Complex.normSq (g.amp wl) * power u :=
    cross_power (g.amp wl) _ (wg_amp g.length g.loss g.neff g.wl0 g.ng g.phase wl) u
  rw [e2, Complex.normSq_eq_norm_sq, wg_norm]
  exact mul_le_mul_of_nonneg_right (by gcongr) (power_nonneg _)

end Sens

namespace Sens

/-- Every connection of the coupled rings leads from or to a waveguide, a source or a detector. -/
theorem crow_buffers (n : ℕ) (k : ℕ → ℝ) (top btm : ℕ → Wg) (ρ : ℝ)
    (hl : ∀ i < n, (10 : ℝ) ^ (-((top i).loss * (top i).length) / 20) ≤ ρ ∧ (10 : ℝ) ^ (-((btm i).loss * (btm i).length) / 20) ≤ ρ) :
    BuffersBy ρ (crowModules n k top btm) (Crow.conns n) := by
  have hcl := Crow.closed n k top btm
  obtain ⟨ms, mt', md, ma, mc, mtop, mbtm⟩ := Crow.parts_mem n k top btm
  obtain ⟨m1, m2⟩ := Crow.fin_mem n k top btm
  have huniq : ∀ {x : Str} {p q : Part}, (x, p) ∈ crowModules n k top btm → (x, q) ∈ crowModules n k top btm → p = q := by
    intro x p q h h'
    have e1 := dictGet_of_mem hcl.names h
    have e2 := dictGet_of_mem hcl.names h'
    exact Option.some.inj (e1.symm.trans e2)
  have hsrc := Sens.end_loses .source (.inl rfl) ρ
  have hdet := Sens.end_loses .detector (.inr rfl) ρ
  intro a i b j hJ
  refine Crow.joined_elim (P := fun a _ b _ => ∀ p q, (a, p) ∈ crowModules n k top btm → (b, q) ∈ crowModules n k top btm →
    LosesBy ρ p ∨ LosesBy ρ q) ?_ ?_ ?_ ?_ ?_ ?_ ?_ ?_ a i b j hJ
  · exact ⟨fun p q hp _ => .inl (by rw [huniq hp ms]; exact hsrc), fun p q _ hq => .inr (by rw [huniq hq ms]; exact hsrc)⟩
  · exact ⟨fun p q hp _ => .inl (by rw [huniq hp mt']; exact hdet), fun p q _ hq => .inr (by rw [huniq hq mt']; exact hdet)⟩
  · exact fun i hi => ⟨fun p q _ hq => .inr (by rw [huniq hq (mtop i hi)]; exact Sens.wg_loses _ ρ (hl i hi).1),
      fun p q hp _ => .inl (by rw [huniq hp (mtop i hi)]; exact Sens.wg_loses _ ρ (hl i hi).1)⟩
  · exact fun i hi => ⟨fun p q hp _ => .inl (by rw [huniq hp (mtop i hi)]; exact Sens.wg_loses _ ρ (hl i hi).1),
      fun p q _ hq => .inr (by rw [huniq hq (mtop i hi)]; exact Sens.wg_loses _ ρ (hl i hi).1)⟩
  · exact fun i hi => ⟨fun p q _ hq => .inr (by rw [huniq hq (mbtm i hi)]; exact Sens.wg_loses _ ρ (hl i hi).2),
      fun p q hp _ => .inl (by rw [huniq hp (mbtm i hi)]; exact Sens.wg_loses _ ρ (hl i hi).2)⟩
  · exact fun i hi => ⟨fun p q hp _ => .inl (by rw [huniq hp (mbtm i hi)]; exact Sens.wg_loses _ ρ (hl i hi).2),
      fun p q _ hq => .inr (by rw [huniq hq (mbtm i hi)]; exact Sens.wg_loses _ ρ (hl i hi).2)⟩
  · exact ⟨fun p q _ hq => .inr (by rw [huniq hq m1]; exact hdet), fun p q hp _ => .inl (by rw [huniq hp m1]; exact hdet)⟩
  · exact ⟨fun p q _ hq => .inr (by rw [huniq hq m2]; exact hdet), fun p q hp _ => .inl (by rw [huniq hp m2]; exact hdet)⟩

end Sens

/-- C153. Any number of coupled rings as in notebook 04, whose waveguides transmit at most the fraction `ρ` of the amplitude. -/
theorem C153_rings [Nonempty W] {m : Libm} {mt : Libt} (hm : Accurate m) (hmt : AccurateT mt) (T : ℝ) (hT : 0 ≤ T) (wl : W → ℝ)
    (rnd : (p : Part) → ℝ → Matrix (Fin p.n) (Fin p.n) ℂ) (hend : ∀ p, p = .source ∨ p = .detector → ∀ wl, rnd p wl = 0)
    (n : ℕ) (k : ℕ → ℝ) (top btm : ℕ → Wg)
    (hP : ∀ q ∈ crowModules n k top btm, ∀ w, IsComputedPart m mt T (wl w) q.2 (rnd q.2 (wl w))) (ρ : ℝ) (h1 : ρ < 1) (h0 : 0 ≤ ρ)
    (hl : ∀ i < n, (10 : ℝ) ^ (-((top i).loss * (top i).length) / 20) ≤ ρ ∧ (10 : ℝ) ^ (-((btm i).loss * (btm i).length) / 20) ≤ ρ)
    (v dt : ℝ) (hdt : 0 < dt) (δ : ℝ) (hδ : δ = 4 * (T / 2 ^ 47 + 1 / 2 ^ 17)) (hs : 2 * δ < 1 - ρ) :
    ∃ d, LinkedNet (crowModules n k top btm) (crowLinks n) d ∧ ∃ (L : List Part) (at_ : Fin d.comp.n → ℕ × ℕ),
      BlockWise scattering wl L at_ (fun w => cx ((d.plant v wl).rS w) ((d.plant v wl).iS w)) ∧
      (∃ S', BlockWise rnd wl L at_ S') ∧
      ∀ S', BlockWise rnd wl L at_ S' →
        ResultsWithin (4 * δ / ((1 - ρ) * (1 - ρ - 2 * δ))) (d.plant v wl) (withS (d.plant v wl) S') ∧
        RunsWithin (4 * δ / ((1 - ρ) * (1 - ρ - 2 * δ))) dt (d.plant v wl) (withS (d.plant v wl) S') := by
  obtain ⟨hok, hcs⟩ := Crow.links_ok n
  have hcl := Crow.closed n k top btm
  obtain ⟨d, hd⟩ := C94_built hcl none
  obtain ⟨ms, mt', md, ma, mc, mtop, mbtm⟩ := Crow.parts_mem n k top btm
  have hb := Sens.crow_buffers n k top btm ρ hl
  exact ⟨d, ⟨hok, by rw [hcs]; exact hd⟩,
    C153_resonant hm hmt T hT wl rnd hend hcl hP ⟨_, mt', rfl⟩ none d hd ρ h0 h1 hb v dt hdt δ hδ hs⟩

namespace Sens

/-- A lossy waveguide of 10 µm, 2 dB each. -/
noncomputable def exLossy : Wg := ⟨1e-5, 200000, 2.34, 1.55e-6, 3.4, 1⟩

/-- What is computed for it, and for couplers and mirrors that couple a third. -/
noncomputable def exRings (m : Libm) (mt : Libt) : (p : Part) → ℝ → Matrix (Fin p.n) (Fin p.n) ℂ
  | .waveguide .., _ => Matrix.of fun i j => if i = j then 0 else
      pairComplex (waveguideR fl fl32 m (1 / 10 ^ 5) 200000 (234 / 100) (155 / 10 ^ 8) (34 / 10) (phaseStoredR fl 1) (15 / 10 ^ 7))
  | p, wl => exParts m mt p wl

theorem exLossy_ok (m : Libm) (mt : Libt) : IsComputedPart m mt 1000 1.5e-6 exLossy.part (exRings m mt exLossy.part 1.5e-6) :=
  ⟨1 / 10 ^ 5, 200000, 234 / 100, 155 / 10 ^ 8, 34 / 10, 1, 15 / 10 ^ 7,
    ⟨by norm_num [exLossy], by norm_num [exLossy], by norm_num [exLossy], by norm_num [exLossy], by norm_num [exLossy], by norm_num [exLossy],
      by norm_num⟩, by constructor <;> norm_num [abs_of_pos], by norm_num, by norm_num, ex_turn 200000 1, rfl⟩

theorem exLossy_loss : (10 : ℝ) ^ (-(exLossy.loss * exLossy.length) / 20) ≤ 4 / 5 := by
  have e : -(exLossy.loss * exLossy.length) / 20 = -(1 / 10 : ℝ) := by norm_num [exLossy]
  rw [e, Real.rpow_neg (by norm_num), inv_le_comm₀ (by positivity) (by norm_num)]
  have h : ((4 / 5 : ℝ)⁻¹) = (((4 / 5 : ℝ)⁻¹) ^ (10 : ℝ)) ^ (1 / 10 : ℝ) := by
    rw [← Real.rpow_mul (by norm_num)]; norm_num
  rw [h]
  refine Real.rpow_le_rpow (by positivity) ?_ (by norm_num)
  have e' : ((4 / 5 : ℝ)⁻¹) ^ (10 : ℝ) = ((4 / 5 : ℝ)⁻¹) ^ (10 : ℕ) := by rw [← Real.rpow_natCast]; norm_num
  rw [e']
  norm_num

theorem exEnds_ok (m : Libm) (mt : Libt) (p : Part) (h : p = .source ∨ p = .detector) : IsComputedPart m mt 1000 1.5e-6 p (exRings m mt p 1.5e-6) := by
  rcases h with rfl | rfl
  · exact (rfl : (0 : Matrix _ _ ℂ) = 0)
  · exact (rfl : (0 : Matrix _ _ ℂ) = 0)

/-- A source, a mirror, a lossy waveguide, another mirror and a detector in a row. -/
noncomputable def exCavity : List (Str × Part) :=
  [("s".toList, .source), ("m".toList, .mirror (1 / 3)), ("w".toList, exLossy.part), ("n".toList, .mirror (1 / 3)), ("d".toList, .detector)]

def exCavityConns : List Conn :=
  [.inner "s".toList 0 "m".toList 0, .inner "m".toList 1 "w".toList 0, .inner "w".toList 1 "n".toList 0, .inner "n".toList 1 "d".toList 0]

theorem exCavity_closed : Closed exCavity exCavityConns where
  names := by show ["s".toList, "m".toList, "w".toList, "n".toList, "d".toList].Nodup; decide
  good := by
    intro q hq
    simp only [exCavity, List.mem_cons, List.not_mem_nil, or_false] at hq
    rcases hq with rfl | rfl | rfl | rfl | rfl <;> dsimp only <;> exact ⟨by decide, by decide, by decide⟩
  sized := by
    intro q hq
    simp only [exCavity, List.mem_cons, List.not_mem_nil, or_false] at hq
    rcases hq with rfl | rfl | rfl | rfl | rfl <;> simp [Part.n, Wg.part]
  nonempty := by simp [exCavity]
  ports := by
    show List.Perm (endpoints exCavityConns) [("s".toList, 0), ("m".toList, 0), ("m".toList, 1), ("w".toList, 0), ("w".toList, 1),
      ("n".toList, 0), ("n".toList, 1), ("d".toList, 0)]
    decide
  inner := rfl

end Sens

/-- Not vacuous: ten coupled rings, wrong by at most `1 / 300` in both domains. -/
example : ∃ (m : Libm) (mt : Libt) (d : Dev), Accurate m ∧ AccurateT mt ∧
    LinkedNet (crowModules 10 (fun _ => 1 / 3) (fun _ => Sens.exLossy) fun _ => Sens.exLossy) (crowLinks 10) d ∧ ∃ S' q, q ≤ (1 / 300 : ℝ) ∧
      ResultsWithin q (d.plant 1 fun _ : Unit => 1.5e-6) (withS (d.plant 1 fun _ : Unit => 1.5e-6) S') ∧
      RunsWithin q 1e-14 (d.plant 1 fun _ : Unit => 1.5e-6) (withS (d.plant 1 fun _ : Unit => 1.5e-6) S') := by
  obtain ⟨m, hm⟩ := exists_accurate
  obtain ⟨mt, hmt⟩ := exists_accurateT
  obtain ⟨d, h1, L, at_, -, ⟨S', hS'⟩, h⟩ := C153_rings hm hmt 1000 (by norm_num) (fun _ : Unit => 1.5e-6) (Sens.exRings m mt)
    (by rintro p (rfl | rfl) wl <;> rfl) 10 (fun _ => 1 / 3) (fun _ => Sens.exLossy) (fun _ => Sens.exLossy)
    (by
      intro q hq _
      rcases Crow.mem_modules.mp hq with rfl | rfl | rfl | rfl | ⟨i, -, rfl⟩ | ⟨i, -, rfl⟩ | ⟨i, -, rfl⟩
      · exact Sens.exEnds_ok m mt _ (.inl rfl)
      · exact Sens.exEnds_ok m mt _ (.inr rfl)
      · exact Sens.exEnds_ok m mt _ (.inr rfl)
      · exact Sens.exEnds_ok m mt _ (.inr rfl)
      · exact (Sens.exCoupler_ok m mt).2
      · exact Sens.exLossy_ok m mt
      · exact Sens.exLossy_ok m mt)
    (4 / 5) (by norm_num) (by norm_num) (fun _ _ => ⟨Sens.exLossy_loss, Sens.exLossy_loss⟩) 1 1e-14 (by norm_num) _ rfl (by norm_num)
  exact ⟨m, mt, d, hm, hmt, h1, S', _, by norm_num, h S' hS'⟩

theorem Sens.exCavity_buffers : BuffersBy (4 / 5) Sens.exCavity Sens.exCavityConns := by
  have hcl := Sens.exCavity_closed
  have huniq : ∀ {x : Str} {p q : Part}, (x, p) ∈ Sens.exCavity → (x, q) ∈ Sens.exCavity → p = q := fun h h' =>
    Option.some.inj ((dictGet_of_mem hcl.names h).symm.trans (dictGet_of_mem hcl.names h'))
  have ms : ("s".toList, Part.source) ∈ Sens.exCavity := by simp [Sens.exCavity]
  have mw : ("w".toList, Sens.exLossy.part) ∈ Sens.exCavity := by simp [Sens.exCavity]
  have md : ("d".toList, Part.detector) ∈ Sens.exCavity := by simp [Sens.exCavity]
  have ls := Sens.end_loses .source (.inl rfl) (4 / 5)
  have ld := Sens.end_loses .detector (.inr rfl) (4 / 5)
  have lw := Sens.wg_loses Sens.exLossy (4 / 5) Sens.exLossy_loss
  have key : ∀ a i b j, Conn.inner a i b j ∈ Sens.exCavityConns → a = "s".toList ∨ b = "w".toList ∨ a = "w".toList ∨ b = "d".toList := by
    intro a i b j h
    simp only [Sens.exCavityConns, List.mem_cons, Conn.inner.injEq, List.not_mem_nil, or_false] at h
    rcases h with ⟨h, -⟩ | ⟨-, -, h, -⟩ | ⟨h, -⟩ | ⟨-, -, h, -⟩
    · exact .inl h
    · exact .inr (.inl h)
    · exact .inr (.inr (.inl h))
    · exact .inr (.inr (.inr h))
  have key2 : ∀ a b p q, a = "s".toList ∨ b = "w".toList ∨ a = "w".toList ∨ b = "d".toList → (a, p) ∈ Sens.exCavity →
      (b, q) ∈ Sens.exCavity → LosesBy (4 / 5) p ∨ LosesBy (4 / 5) q := by
    rintro a b p q (rfl | rfl | rfl | rfl) hp hq
    · exact .inl (by rw [huniq hp ms]; exact ls)
    · exact .inr (by rw [huniq hq mw]; exact lw)
    · exact .inl (by rw [huniq hp mw]; exact lw)
    · exact .inr (by rw [huniq hq md]; exact ld)
  rintro a i b j (h | h) p q hp hq
  · exact key2 a b p q (key _ _ _ _ h) hp hq
  · exact (key2 b a q p (key _ _ _ _ h) hq hp).symm

/-- Not vacuous: a cavity between two mirrors. Light in it is enhanced by at most 10, the result is wrong by at most `1 / 300`. -/
example : ∃ (m : Libm) (mt : Libt) (d : Dev), Accurate m ∧ AccurateT mt ∧
    mkDev none (Sens.exCavity.map fun q => (q.1, q.2.dev)) (Sens.exCavityConns.map Conn.text) = .ok d ∧ ∃ S' q, q ≤ (1 / 300 : ℝ) ∧
      ResultsWithin q (d.plant 1 fun _ : Unit => 1.5e-6) (withS (d.plant 1 fun _ : Unit => 1.5e-6) S') ∧
      RunsWithin q 1e-14 (d.plant 1 fun _ : Unit => 1.5e-6) (withS (d.plant 1 fun _ : Unit => 1.5e-6) S') := by
  obtain ⟨m, hm⟩ := exists_accurate
  obtain ⟨mt, hmt⟩ := exists_accurateT
  have hcl := Sens.exCavity_closed
  obtain ⟨d, hd⟩ := C94_built hcl none
  have hb := Sens.exCavity_buffers
  obtain ⟨L, at_, -, ⟨S', hS'⟩, h⟩ := C153_resonant hm hmt 1000 (by norm_num) (fun _ : Unit => 1.5e-6) (Sens.exRings m mt)
    (by rintro p (rfl | rfl) wl <;> rfl) hcl
    (by
      intro q hq _
      simp only [Sens.exCavity, List.mem_cons, List.not_mem_nil, or_false] at hq
      rcases hq with rfl | rfl | rfl | rfl | rfl
      · exact Sens.exEnds_ok m mt _ (.inl rfl)
      · exact ⟨1 / 3, by norm_num, by norm_num, by norm_num, rfl⟩
      · exact Sens.exLossy_ok m mt
      · exact ⟨1 / 3, by norm_num, by norm_num, by norm_num, rfl⟩
      · exact Sens.exEnds_ok m mt _ (.inr rfl))
    ⟨("d".toList, .detector), by simp [Sens.exCavity], rfl⟩ none d hd (4 / 5) (by norm_num) (by norm_num) hb 1 1e-14 (by norm_num) _ rfl
    (by norm_num)
  exact ⟨m, mt, d, hm, hmt, hd, S', _, by norm_num, h S' hS'⟩

end PT
