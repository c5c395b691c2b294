import Verif.Spec.Spectrum
import Verif.Props.Buffered

/-! C154: How fast spectra can change. -/

namespace PT
open Spec Matrix

variable {W : Type} {parts : List (Str × Part)} {cs : List Conn}

namespace Sens

theorem turn_diff (a b : ℝ) : ‖Complex.exp ((b : ℝ) * Complex.I) - Complex.exp ((a : ℝ) * Complex.I)‖ ≤ |b - a| := by
  have e : Complex.exp ((b : ℝ) * Complex.I) - Complex.exp ((a : ℝ) * Complex.I) =
      Complex.exp ((a : ℝ) * Complex.I) * (Complex.exp (Complex.I * ((b - a : ℝ) : ℂ)) - 1) := by
    rw [mul_sub, mul_one, ← Complex.exp_add]
    congr 2
    push_cast
    ring
  rw [e, norm_mul, Complex.norm_exp_ofReal_mul_I, one_mul]
  exact Real.norm_exp_I_mul_ofReal_sub_one_le

/-- The phase light picks up is linear in the wavenumber. -/
theorem phase_diff (l neff wl0 ng wl wl' : ℝ) (h0 : wl0 ≠ 0) (h : wl ≠ 0) (h' : wl' ≠ 0) :
    |2 * Real.pi * neffAt neff wl0 ng wl' * l / wl' - 2 * Real.pi * neffAt neff wl0 ng wl * l / wl| =
      2 * Real.pi * |ng * l| * |1 / wl' - 1 / wl| := by
  have e : 2 * Real.pi * neffAt neff wl0 ng wl' * l / wl' - 2 * Real.pi * neffAt neff wl0 ng wl * l / wl =
      2 * Real.pi * (ng * l) * (1 / wl' - 1 / wl) := by
    unfold neffAt
    field_simp
    ring
  rw [e, abs_mul, abs_mul, abs_of_pos (by positivity : 0 < 2 * Real.pi)]

end Sens

/-- C154. The rate is the optical length of the group: `2 π n_g L`. -/
theorem C154_components :
    (∀ length loss neff wl0 ng phase : ℝ, 0 ≤ loss * length → wl0 ≠ 0 →
      ChangesBy (2 * Real.pi * |ng * length|) (.waveguide length loss neff wl0 ng phase)) ∧
    (∀ phi theta neff ng wl0 length loss : ℝ, wl0 ≠ 0 → ChangesBy (2 * Real.pi * |ng * length|) (.mzi phi theta neff ng wl0 length loss)) ∧
    (∀ k : ℝ, ChangesBy 0 (.coupler k)) ∧ (∀ R : ℝ, ChangesBy 0 (.mirror R)) ∧ ChangesBy 0 .source ∧ ChangesBy 0 .detector := by
  have hz : ∀ p : Part, (∀ wl wl', scattering p wl = scattering p wl') → ChangesBy 0 p := by
    intro p hp wl wl' i j _ _
    rw [hp wl' wl, sub_self, norm_zero, zero_mul]
  refine ⟨fun length loss neff wl0 ng phase hl h0 wl wl' i j h h' => ?_, fun phi theta neff ng wl0 length loss h0 wl wl' i j h h' => ?_,
    fun k => hz _ fun _ _ => rfl, fun R => hz _ fun _ _ => rfl, hz _ fun _ _ => rfl, hz _ fun _ _ => rfl⟩
  · have hn := Sens.phase_diff length neff wl0 ng wl wl' h0 h h'
    have hpos : 0 ≤ 2 * Real.pi * |ng * length| * |1 / wl' - 1 / wl| := by positivity
    have hw := waveguide_entry length loss neff wl0 ng phase
    have ha : |lossFactor loss length| ≤ 1 := by
      unfold lossFactor
      rw [abs_of_nonneg (by positivity)]
      exact Real.rpow_le_one_of_one_le_of_nonpos (by norm_num) (by linarith)
    obtain ⟨x, hx⟩ : ∃ x, x = 2 * Real.pi * neffAt neff wl0 ng wl * length / wl := ⟨_, rfl⟩
    obtain ⟨y, hy⟩ : ∃ y, y = 2 * Real.pi * neffAt neff wl0 ng wl' * length / wl' := ⟨_, rfl⟩
    have e1 := hw wl
    have e2 := hw wl'
    rw [← hx] at e1 hn
    rw [← hy] at e2 hn
    have key : ‖(lossFactor loss length : ℂ) * Complex.exp ((y + phase : ℝ) * Complex.I) -
        (lossFactor loss length : ℂ) * Complex.exp ((x + phase : ℝ) * Complex.I)‖ ≤ 2 * Real.pi * |ng * length| * |1 / wl' - 1 / wl| := by
      rw [← mul_sub, norm_mul, Complex.norm_real, Real.norm_eq_abs, ← hn]
      have := Sens.turn_diff (x + phase) (y + phase)
      rw [add_sub_add_right_eq_sub] at this
      exact (mul_le_of_le_one_left (norm_nonneg _) ha).trans this
    rw [e1, e2]
    change Fin 2 at i j
    fin_cases i <;> fin_cases j <;> simp only [cross2] <;> first
      | exact key
      | (refine le_of_eq_of_le ?_ hpos; simp)
  · have hn := Sens.phase_diff length neff wl0 ng wl wl' h0 h h'
    have hm := mzi_entry phi theta length neff wl0 ng loss
    obtain ⟨x, hx⟩ : ∃ x, x = 2 * Real.pi * neffAt neff wl0 ng wl * length / wl := ⟨_, rfl⟩
    obtain ⟨y, hy⟩ : ∃ y, y = 2 * Real.pi * neffAt neff wl0 ng wl' * length / wl' := ⟨_, rfl⟩
    have e1 := hm wl
    have e2 := hm wl'
    rw [← hx] at e1 hn
    rw [← hy] at e2 hn
    obtain ⟨M, hM⟩ : ∃ M : Matrix (Fin 4) (Fin 4) ℂ, M = cross4 (Complex.exp (phi * Complex.I) * Real.cos theta)
      (Complex.exp (phi * Complex.I) * Real.sin theta) (-(Real.sin theta : ℂ)) (Real.cos theta) := ⟨_, rfl⟩
    have hM1 : ∀ i j, ‖M i j‖ ≤ 1 := by
      have hc : ‖(Real.cos theta : ℂ)‖ ≤ 1 := by rw [Complex.norm_real]; exact Real.abs_cos_le_one theta
      have hs : ‖(Real.sin theta : ℂ)‖ ≤ 1 := by rw [Complex.norm_real]; exact Real.abs_sin_le_one theta
      have hp : ∀ z : ℂ, ‖z‖ ≤ 1 → ‖Complex.exp (phi * Complex.I) * z‖ ≤ 1 := by
        intro z hz
        rw [norm_mul, Complex.norm_exp_ofReal_mul_I, one_mul]
        exact hz
      have h0' : ‖(0 : ℂ)‖ ≤ 1 := by simp
      have hs' : ‖-(Real.sin theta : ℂ)‖ ≤ 1 := by rw [norm_neg]; exact hs
      intro i j
      rw [hM]
      fin_cases i <;> fin_cases j <;> first | exact h0' | exact hp _ hc | exact hp _ hs | exact hs' | exact hc
    rw [← hM] at e1 e2
    have key : ∀ i j : Fin 4, ‖(Complex.exp ((y : ℝ) * Complex.I) • M) i j - (Complex.exp ((x : ℝ) * Complex.I) • M) i j‖ ≤
        2 * Real.pi * |ng * length| * |1 / wl' - 1 / wl| := by
      intro i j
      rw [Matrix.smul_apply, Matrix.smul_apply, smul_eq_mul, smul_eq_mul, ← sub_mul, norm_mul, ← hn]
      exact (mul_le_of_le_one_right (norm_nonneg _) (hM1 i j)).trans (Sens.turn_diff x y)
    rw [e1, e2]
    exact key i j

namespace Sens

theorem plant_other (d : Dev) (v : ℝ) (wl wl' : W → ℝ) :
    withS (d.plant v wl) (fun w => cx ((d.plant v wl').rS w) ((d.plant v wl').iS w)) = d.plant v wl' := rfl

theorem spectrum_near (d : Dev) (τ β : ℝ) (hτ : 0 ≤ τ) (hβ : 0 ≤ β) (hM : MadeOf (fun p => ChangesBy τ p ∧ p.n ≤ 4) d) (v : ℝ) (wl wl' : W → ℝ)
    (hw : ∀ w, wl w ≠ 0 ∧ wl' w ≠ 0 ∧ |1 / wl' w - 1 / wl w| ≤ β) :
    EndsDark (d.plant v wl) (fun w => cx ((d.plant v wl').rS w) ((d.plant v wl').iS w)) ∧
    KeepsDelays (d.plant v wl) (fun w => cx ((d.plant v wl').rS w) ((d.plant v wl').iS w)) ∧
    ∀ w, EntriesWithin (τ * β) 4 (cx ((d.plant v wl).rS w) ((d.plant v wl).iS w)) (cx ((d.plant v wl').rS w) ((d.plant v wl').iS w)) := by
  classical
  obtain ⟨-, L, hPL, hL⟩ := madeOf_flat hM
  refine ⟨fun w i hi j => plant_term hL v wl' w i hi j, fun w i j h => (plant_same hL v wl' w i j h).1, fun w => ?_⟩
  have hex : ∀ i : Fin d.comp.n, ∃ q : ℕ × ℕ, ∃ p, partAt L i = some (q.1, p, q.2) := by
    intro i
    obtain ⟨k, p, i', h⟩ := partAt_lt L i (by rw [← hL.n]; exact i.2)
    exact ⟨(k, i'), p, h⟩
  choose q hq using hex
  have e1 : ∀ i j, cx ((d.plant v wl).rS w) ((d.plant v wl).iS w) i j = cxBlock L (wl w) i j := plant_S hL v wl w
  have e2 : ∀ i j, cx ((d.plant v wl').rS w) ((d.plant v wl').iS w) i j = cxBlock L (wl' w) i j := plant_S hL v wl' w
  obtain ⟨w1, w2, w3⟩ := hw w
  have hcard : ∀ i, (Finset.univ.filter fun j => (q j).1 = (q i).1).card ≤ 4 := by
    intro i
    obtain ⟨p, hp⟩ := hq i
    obtain ⟨h1, h2⟩ := partAt_mem L i hp
    refine le_trans (Finset.card_le_card_of_injOn (t := Finset.range p.n) (fun j => (q j).2) ?_ ?_)
      ((Finset.card_range _).le.trans (hPL p (List.mem_of_getElem? h1)).2)
    · intro j hj
      simp only [Finset.coe_filter, Finset.mem_univ, true_and, Set.mem_setOf_eq] at hj
      obtain ⟨p', hp'⟩ := hq j
      obtain ⟨-, h', -⟩ := (cxBlock_partAt L (wl w) hp hp').2 hj.symm
      simpa using h'
    · intro j hj k hk hjk
      simp only [Finset.coe_filter, Finset.mem_univ, true_and, Set.mem_setOf_eq] at hj hk
      obtain ⟨p₁, hp₁⟩ := hq j
      obtain ⟨p₂, hp₂⟩ := hq k
      have e : q j = q k := Prod.ext (hj.trans hk.symm) hjk
      rw [e] at hp₁
      exact Fin.ext (partAt_inj' L hp₁ hp₂)
  have hdiff : ∀ i j, cx ((d.plant v wl').rS w) ((d.plant v wl').iS w) i j ≠ cx ((d.plant v wl).rS w) ((d.plant v wl).iS w) i j →
      (q i).1 = (q j).1 := by
    intro i j hne
    by_contra he
    obtain ⟨p, hp⟩ := hq i
    obtain ⟨p', hp'⟩ := hq j
    exact hne ((e2 i j).trans (((cxBlock_partAt L (wl' w) hp hp').1 he).trans
      (((cxBlock_partAt L (wl w) hp hp').1 he).symm.trans (e1 i j).symm)))
  refine ⟨fun i j => ?_, fun i => ⟨_, hcard i, fun j hne => ?_⟩, fun j => ⟨_, hcard j, fun i hne => ?_⟩⟩
  · rw [e1, e2]
    obtain ⟨p, hp⟩ := hq i
    obtain ⟨p', hp'⟩ := hq j
    obtain ⟨h1, -⟩ := partAt_mem L i hp
    by_cases he : (q i).1 = (q j).1
    · obtain ⟨_, _, -, f1⟩ := (cxBlock_partAt L (wl w) hp hp').2 he
      obtain ⟨_, _, -, f2⟩ := (cxBlock_partAt L (wl' w) hp hp').2 he
      rw [f1, f2]
      exact ((hPL p (List.mem_of_getElem? h1)).1 _ _ _ _ w1 w2).trans (mul_le_mul_of_nonneg_left w3 hτ)
    · rw [(cxBlock_partAt L (wl w) hp hp').1 he, (cxBlock_partAt L (wl' w) hp hp').1 he, sub_self, norm_zero]
      positivity
  · simpa using (hdiff i j hne).symm
  · simpa using hdiff i j hne

end Sens

/-- C154. Circuits without feedback: simulated at two wavelengths, in the frequency domain or over time, what is detected differs no more
than by the difference of the wavenumbers, times the rate of the components, times the depth. -/
theorem C154_feedforward (d : Dev) (τ β : ℝ) (hτ : 0 ≤ τ) (hβ : 0 ≤ β)
    (hM : MadeOf (fun p => ChangesBy τ p ∧ p.n ≤ 4 ∧ ∀ wl, Contracts (scattering p wl)) d) (ht : d.comp.terminated = true)
    (front : ℕ → Bool) (rank : ℕ → ℕ) (hff : FeedForward d front rank) (D : ℕ) (hD : ∀ i < d.comp.n, rank i ≤ D) (v : ℝ) (wl wl' : W → ℝ)
    (hw : ∀ w, wl w ≠ 0 ∧ wl' w ≠ 0 ∧ |1 / wl' w - 1 / wl w| ≤ β) (hd : portsWith (d.plant v wl).det ≠ []) (dt : ℝ) (hdt : 0 < dt)
    (ε : ℝ) (hε : ε = 4 * (τ * β)) (hs : (D + 1) * ε < 1) :
    ResultsWithin ((D + 2) * ε / (1 - (D + 1) * ε)) (d.plant v wl) (d.plant v wl') ∧
      RunsWithin ((D + 2) * ε / (1 - (D + 1) * ε)) dt (d.plant v wl) (d.plant v wl') := by
  obtain ⟨h4, h5, h6⟩ := Sens.spectrum_near d τ β hτ hβ (hM.mono fun p hp => ⟨hp.1, hp.2.1⟩) v wl wl' hw
  have hM' : MadeOf (fun p => ∀ wl, Contracts (scattering p wl)) d := hM.mono fun p hp => hp.2.2
  have key := C149_feedforward d hM' ht front rank hff D hD v wl hd (τ * β) 4 (by positivity) (by rw [hε] at hs; exact_mod_cast hs) _ h4 h6
  have key' := C150_feedforward d hM' ht front rank hff D hD v wl hd dt hdt (τ * β) 4 (by positivity)
    (by rw [hε] at hs; exact_mod_cast hs) _ h4 h5 h6
  rw [Sens.plant_other] at key key'
  rw [hε]
  exact ⟨by exact_mod_cast key, by exact_mod_cast key'⟩

/-- C154. Resonant circuits: the sharper the resonances, that is, the less is absorbed, the faster spectra may change; but where every
connection leads from or to a component that absorbs, no faster than this. -/
theorem C154_resonant (h : Closed parts cs) (τ β : ℝ) (hτ : 0 ≤ τ) (hβ : 0 ≤ β)
    (hP : ∀ q ∈ parts, ChangesBy τ q.2 ∧ q.2.n ≤ 4 ∧ ∀ wl, Contracts (scattering q.2 wl)) (hdet : ∃ q ∈ parts, isDetector q.2 = true)
    (name : Option Str) (d : Dev) (hd : mkDev name (parts.map fun q => (q.1, q.2.dev)) (cs.map Conn.text) = .ok d) (ρ : ℝ) (h0 : 0 ≤ ρ)
    (h1 : ρ < 1) (hb : BuffersBy ρ parts cs) (v : ℝ) (wl wl' : W → ℝ) (hw : ∀ w, wl w ≠ 0 ∧ wl' w ≠ 0 ∧ |1 / wl' w - 1 / wl w| ≤ β)
    (dt : ℝ) (hdt : 0 < dt) (ε : ℝ) (hε : ε = 4 * (τ * β)) (hs : 2 * ε < 1 - ρ) :
    ResultsWithin (4 * ε / ((1 - ρ) * (1 - ρ - 2 * ε))) (d.plant v wl) (d.plant v wl') ∧
      RunsWithin (4 * ε / ((1 - ρ) * (1 - ρ - 2 * ε))) dt (d.plant v wl) (d.plant v wl') := by
  have hM : MadeOf (fun p => ChangesBy τ p ∧ p.n ≤ 4 ∧ ∀ wl, Contracts (scattering p wl)) d := closed_made h hP name hd
  obtain ⟨h4, h5, h6⟩ := Sens.spectrum_near d τ β hτ hβ (hM.mono fun p hp => ⟨hp.1, hp.2.1⟩) v wl wl' hw
  obtain ⟨l, hPl⟩ := placed_of h hd
  have hen := fun w => C153_enhancement h (fun q hq => (hP q hq).2.2) name d hd ρ h0 h1 hb v wl w
  have hdev : ∀ w, DeviatesBy ε (cx ((d.plant v wl).rS w) ((d.plant v wl).iS w)) (cx ((d.plant v wl').rS w) ((d.plant v wl').iS w)) := by
    intro w
    have := Sens.deviates_of_entries (h6 w) (by positivity)
    rw [hε]
    exact_mod_cast this
  have hd0 := det_exists hPl v wl hdet
  have h1' : 0 < 1 - ρ := by linarith
  have h2' : 0 < 1 - ρ - 2 * ε := by linarith
  have hε' : 0 ≤ ε := by rw [hε]; positivity
  have hk : 2 / (1 - ρ) * ε < 1 := by rw [div_mul_eq_mul_div, div_lt_one h1']; exact hs
  have e : (2 / (1 - ρ)) ^ 2 * ε / (1 - 2 / (1 - ρ) * ε) = 4 * ε / ((1 - ρ) * (1 - ρ - 2 * ε)) := by
    have : 1 - 2 / (1 - ρ) * ε = (1 - ρ - 2 * ε) / (1 - ρ) := by field_simp
    rw [this]
    field_simp
    ring
  have k1 := C149_near d (madeOf_any hM) hPl.term v wl hd0 (2 / (1 - ρ)) ε (by positivity) hk (fun w => (hen w).1) _ h4 hdev
  have k2 := C150_near d (madeOf_any hM) hPl.term v wl hd0 dt hdt (2 / (1 - ρ)) ε (by positivity) hε' hk (fun w => (hen w).2 dt) _ h4 h5 hdev
  rw [e, Sens.plant_other] at k1 k2
  exact ⟨k1, k2⟩

theorem Sens.changes_mono {τ τ' : ℝ} {p : Part} (h : ChangesBy τ p) (hτ : τ ≤ τ') : ChangesBy τ' p :=
  fun wl wl' i j h1 h2 => (h wl wl' i j h1 h2).trans (mul_le_mul_of_nonneg_right hτ (abs_nonneg _))

/-- C154. Any number of coupled rings as in notebook 04, whose waveguides transmit at most the fraction `ρ` of the amplitude: a sweep of
the wavelength in small enough steps changes results by as little as one likes per step, so it misses no resonance. -/
theorem C154_rings (n : ℕ) (k : ℕ → ℝ) (hk : ∀ i ≤ n, 0 ≤ k i ∧ k i ≤ 1) (top btm : ℕ → Wg) (τ β ρ : ℝ) (hβ : 0 ≤ β) (h0 : 0 ≤ ρ) (h1 : ρ < 1)
    (hg : ∀ i < n, ∀ g, g = top i ∨ g = btm i → 0 ≤ g.length ∧ 0 ≤ g.loss ∧ g.wl0 ≠ 0 ∧ 2 * Real.pi * |g.ng * g.length| ≤ τ ∧
      (10 : ℝ) ^ (-(g.loss * g.length) / 20) ≤ ρ) (hτ : 0 ≤ τ) (ε : ℝ) (hε : ε = 4 * (τ * β)) (hs : 2 * ε < 1 - ρ) :
    ∃ d, LinkedNet (crowModules n k top btm) (crowLinks n) d ∧ ∀ (v dt : ℝ), 0 < dt → ∀ wl wl' : W → ℝ,
      (∀ w, wl w ≠ 0 ∧ wl' w ≠ 0 ∧ |1 / wl' w - 1 / wl w| ≤ β) →
        ResultsWithin (4 * ε / ((1 - ρ) * (1 - ρ - 2 * ε))) (d.plant v wl) (d.plant v wl') ∧
          RunsWithin (4 * ε / ((1 - ρ) * (1 - ρ - 2 * ε))) dt (d.plant v wl) (d.plant v wl') := by
  obtain ⟨hok, hcs⟩ := Crow.links_ok n
  have hcl := Crow.closed n k top btm
  obtain ⟨d, hd⟩ := C94_built hcl none
  obtain ⟨-, mt', -⟩ := Crow.parts_mem n k top btm
  have hb := Sens.crow_buffers n k top btm ρ fun i hi => ⟨(hg i hi _ (.inl rfl)).2.2.2.2, (hg i hi _ (.inr rfl)).2.2.2.2⟩
  obtain ⟨c1, -, c3, -, c5, c6⟩ := C154_components
  have hwg : ∀ i < n, ∀ g, g = top i ∨ g = btm i → ChangesBy τ g.part ∧ g.part.n ≤ 4 ∧ ∀ wl, Contracts (scattering g.part wl) := by
    intro i hi g hgi
    obtain ⟨g1, g2, g3, g4, -⟩ := hg i hi g hgi
    exact ⟨Sens.changes_mono (c1 _ _ _ _ _ _ (mul_nonneg g2 g1) g3) g4, (by decide : 2 ≤ 4), C65_contracts_partial g.part ⟨g1, g2⟩ (by simp [Wg.part])⟩
  have hP : ∀ q ∈ crowModules n k top btm, ChangesBy τ q.2 ∧ q.2.n ≤ 4 ∧ ∀ wl, Contracts (scattering q.2 wl) := by
    intro q hq
    have hdet : ChangesBy τ .detector ∧ Part.detector.n ≤ 4 ∧ ∀ wl, Contracts (scattering .detector wl) :=
      ⟨Sens.changes_mono c6 hτ, by decide, C65_contracts_partial .detector trivial (by simp)⟩
    rcases Crow.mem_modules.mp hq with rfl | rfl | rfl | rfl | ⟨i, hi, rfl⟩ | ⟨i, hi, rfl⟩ | ⟨i, hi, rfl⟩
    · exact ⟨Sens.changes_mono c5 hτ, by decide, C65_contracts_partial .source trivial (by simp)⟩
    · exact hdet
    · exact hdet
    · exact hdet
    · exact ⟨Sens.changes_mono (c3 _) hτ, (by decide : 4 ≤ 4), C65_contracts_partial (.coupler (k i)) (hk i (by omega)) (by simp)⟩
    · exact hwg i hi _ (.inl rfl)
    · exact hwg i hi _ (.inr rfl)
  exact ⟨d, ⟨hok, by rw [hcs]; exact hd⟩, fun v dt hdt wl wl' hw =>
    C154_resonant hcl τ β hτ hβ hP ⟨_, mt', rfl⟩ none d hd ρ h0 h1 hb v wl wl' hw dt hdt ε hε hs⟩

/-- Not vacuous: ten coupled rings. From one wavelength to the next, a tenth of a picometre away, results change by at most `1 / 100`. -/
example : ∃ d : Dev, LinkedNet (crowModules 10 (fun _ => 1 / 3) (fun _ => Sens.exLossy) fun _ => Sens.exLossy) (crowLinks 10) d ∧
    ∃ q, q ≤ (1 / 100 : ℝ) ∧ ResultsWithin q (d.plant 1 fun _ : Unit => 1.5e-6) (d.plant 1 fun _ : Unit => 1.5000001e-6) ∧
      RunsWithin q 1e-14 (d.plant 1 fun _ : Unit => 1.5e-6) (d.plant 1 fun _ : Unit => 1.5000001e-6) := by
  obtain ⟨d, h1, h⟩ := C154_rings (W := Unit) 10 (fun _ => 1 / 3) (fun _ _ => by norm_num) (fun _ => Sens.exLossy) (fun _ => Sens.exLossy)
    (3 / 10 ^ 4) (1 / 20) (4 / 5) (by norm_num) (by norm_num) (by norm_num)
    (by
      rintro i - g hg
      obtain rfl : g = Sens.exLossy := by rcases hg with h | h <;> exact h
      refine ⟨by norm_num [Sens.exLossy], by norm_num [Sens.exLossy], by norm_num [Sens.exLossy], ?_, Sens.exLossy_loss⟩
      have := Real.pi_lt_four
      norm_num [Sens.exLossy, abs_of_pos]
      linarith) (by norm_num) _ rfl (by norm_num)
  exact ⟨d, h1, _, by norm_num, h 1 1e-14 (by norm_num) _ _ fun _ => ⟨by norm_num, by norm_num, by norm_num [abs_of_neg]⟩⟩

/-- Not vacuous: a Clements network of 64 modes and 64 columns. -/
example : ∃ d d' : Dev, clements 64 64 (fun _ _ => Sens.exMzi) (fun _ _ => Sens.exWg) = .ok d ∧
    termDev [] clementsCls d (meshTerms 64) = .ok d' ∧ ∃ q, q ≤ (1 / 200 : ℝ) ∧
      ResultsWithin q (d'.plant 1 fun _ : Unit => 1.5e-6) (d'.plant 1 fun _ : Unit => 1.5000001e-6) ∧
      RunsWithin q 1e-14 (d'.plant 1 fun _ : Unit => 1.5e-6) (d'.plant 1 fun _ : Unit => 1.5000001e-6) := by
  obtain ⟨m, hm⟩ := exists_accurate
  obtain ⟨c1, c2, -, -, c5, c6⟩ := C154_components
  have hpi := Real.pi_lt_four
  have hτ : 2 * Real.pi * |(3.4 : ℝ) * 1e-5| ≤ 3 / 10 ^ 4 := by
    norm_num [abs_of_pos]
    linarith
  have hmz : ChangesBy (3 / 10 ^ 4) Sens.exMzi ∧ Sens.exMzi.n ≤ 4 ∧ ∀ wl, Contracts (scattering Sens.exMzi wl) :=
    ⟨Sens.changes_mono (c2 1 2 2.34 3.4 1.55e-6 1e-5 0 (by norm_num)) hτ, (by decide : 4 ≤ 4),
      C65_contracts_partial Sens.exMzi ⟨by norm_num, by norm_num⟩ (by simp [Sens.exMzi])⟩
  have hwg : ChangesBy (3 / 10 ^ 4) Sens.exWg ∧ Sens.exWg.n ≤ 4 ∧ ∀ wl, Contracts (scattering Sens.exWg wl) :=
    ⟨Sens.changes_mono (c1 1e-5 100 2.34 1.55e-6 3.4 1 (by norm_num) (by norm_num)) hτ, (by decide : 2 ≤ 4),
      C65_contracts_partial Sens.exWg ⟨by norm_num, by norm_num⟩ (by simp [Sens.exWg])⟩
  obtain ⟨d, h1, hd, ho⟩ := clements_deep (N := 64) (capacity := 64) (mz := fun _ _ => Sens.exMzi) (wg := fun _ _ => Sens.exWg)
    (P := fun p => (ChangesBy (3 / 10 ^ 4) p ∧ p.n ≤ 4 ∧ ∀ wl, Contracts (scattering p wl)) ∧ p ≠ .source ∧ p ≠ .detector) (by omega) (by omega)
    (fun _ _ => ⟨⟨hmz, Sens.four_end (Sens.exMzi_ok m).1⟩, (Sens.exMzi_ok m).1⟩)
    (fun _ _ => ⟨⟨hwg, Sens.two_end (Sens.exWg_ok m).1⟩, (Sens.exWg_ok m).1⟩)
  obtain ⟨d', h2, hM, ht, ⟨front, rank, hff, hrank⟩, hdet⟩ := term_deep (fun p hp => hp.2) (by omega) hd ho clementsCls []
    (attr_of (by decide)).1 (by decide) (by decide)
  have hdl : (portsWith (d'.plant 1 fun _ : Unit => 1.5e-6).det).length = 64 := by
    rw [← hdet]; exact count_marks _ _ (built_marks hM.ok.1).2.1
  have h := C154_feedforward d' (3 / 10 ^ 4) (1 / 20) (by norm_num) (by norm_num) (hM.mono fun p hp => by
      rcases hp with rfl | rfl | hp
      · exact ⟨Sens.changes_mono c5 (by norm_num), by decide, C65_contracts_partial .source trivial (by simp)⟩
      · exact ⟨Sens.changes_mono c6 (by norm_num), by decide, C65_contracts_partial .detector trivial (by simp)⟩
      · exact hp.1) ht front rank hff _ hrank 1 (fun _ : Unit => 1.5e-6) (fun _ => 1.5000001e-6)
    (fun _ => ⟨by norm_num, by norm_num, by norm_num [abs_of_neg]⟩) (fun h => by rw [h] at hdl; simp at hdl) 1e-14 (by norm_num) _ rfl (by norm_num)
  exact ⟨d, d', h1, h2, _, by norm_num, h⟩

end PT
