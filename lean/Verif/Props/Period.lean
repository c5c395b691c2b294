import Verif.Props.Undamped
import Verif.Spec.Weights

/-!
# C137: spectra are periodic in the frequency
-/

namespace PT
open Spec Matrix

variable {W B : Type}

/-- If the components scatter two wavelengths alike, so does the circuit. -/
theorem plant_alike (d : Dev) (v : ℝ) (wl wl' : W → ℝ)
    (hM : MadeOf (fun p => ∀ w, scattering p (wl' w) = scattering p (wl w)) d) : d.plant v wl' = d.plant v wl := by
  obtain ⟨-, L, hP, hL⟩ := madeOf_flat hM
  have hS : ∀ w (i j : Fin d.comp.n), cx ((d.plant v wl').rS w) ((d.plant v wl').iS w) i j =
      cx ((d.plant v wl).rS w) ((d.plant v wl).iS w) i j := by
    intro w i j
    obtain ⟨k, p, i', hi, hmem, -⟩ := plant_port hL v wl i
    obtain ⟨k', q, j', hj, -⟩ := plant_port hL v wl j
    obtain ⟨h1, h2⟩ := cxBlock_partAt L (wl w) hi hj
    obtain ⟨h3, h4⟩ := cxBlock_partAt L (wl' w) hi hj
    rw [plant_S hL, plant_S hL]
    by_cases hk : k = k'
    · obtain ⟨_, _, -, e⟩ := h2 hk
      obtain ⟨_, _, -, e'⟩ := h4 hk
      rw [e, e', hP p hmem w]
    · rw [h1 hk, h3 hk]
  unfold Dev.plant
  congr 1
  · funext w
    ext i j
    exact congrArg Complex.re (hS w i j)
  · funext w
    ext i j
    exact congrArg Complex.im (hS w i j)

/-- C137. Free spectral range: if the delays of the components are multiples of `T`, and their dispersion is that of their delay, all
simulations of the circuit, in whatever environment, give the same results at two wavelengths whose frequencies differ by a multiple of
`1 / T`. -/
theorem C137_periodic (d : Dev) (v : ℝ) (hv : v ≠ 0) (T : ℝ) (hM : MadeOf (fun p => Dispersive p ∧ ∃ n : ℤ, p.delay v = n * T) d)
    (wl wl' : W → ℝ) (hwl : ∀ w, wl w ≠ 0 ∧ wl' w ≠ 0) (hf : ∀ w, ∃ m : ℤ, (v / wl' w - v / wl w) * T = m) (env : SimEnv) :
    initNet (d.plant v wl') env = initNet (d.plant v wl) env := by
  rw [plant_alike d v wl wl' (hM.mono fun p ⟨hp, n, hn⟩ w => ?_)]
  obtain ⟨m, hm⟩ := hf w
  refine C81_period p hp v _ _ hv (hwl w).2 (hwl w).1 (n * m) ?_
  rw [hn, mul_left_comm, hm]
  push_cast
  rfl

theorem amp_shift (z : Wg) (h0 : z.wl0 ≠ 0) (v wl wl' : ℝ) (hv : v ≠ 0) (h1 : wl ≠ 0) (h2 : wl' ≠ 0) :
    z.amp wl' = Complex.exp ((2 * Real.pi * ((v / wl' - v / wl) * (z.ng * z.length / v)) : ℝ) * Complex.I) * z.amp wl := by
  unfold Wg.amp
  rw [mul_left_comm, ← Complex.exp_add]
  congr 2
  rw [← add_mul]
  congr 1
  norm_cast
  field_simp
  ring

theorem exp_turns (x : ℝ) : Complex.exp ((2 * Real.pi * x : ℝ) * Complex.I) = 1 ↔ ∃ m : ℤ, x = m := by
  rw [Complex.exp_eq_one_iff]
  refine exists_congr fun m => ⟨fun h => ?_, fun h => ?_⟩
  · have hp : (2 * Real.pi * Complex.I : ℂ) ≠ 0 := Complex.two_pi_I_ne_zero
    have : (x : ℂ) * (2 * Real.pi * Complex.I) = m * (2 * Real.pi * Complex.I) := by
      rw [← h]
      push_cast
      ring
    exact_mod_cast mul_right_cancel₀ hp this
  · rw [h]
    push_cast
    ring

theorem amp_ne_zero (z : Wg) (wl : ℝ) : z.amp wl ≠ 0 := by
  unfold Wg.amp
  exact mul_ne_zero (Complex.ofReal_ne_zero.2 (Real.rpow_pos_of_pos (by norm_num) _).ne') (Complex.exp_ne_zero _)

/-- C137. The resonances of a ring lie at equal distances in frequency, and there are no others: the distance is the inverse of the
round trip time. -/
theorem C137_resonances (z : Wg) (h0 : z.wl0 ≠ 0) (v wl wl' : ℝ) (hv : v ≠ 0) (h1 : wl ≠ 0) (h2 : wl' ≠ 0) (hres : z.amp wl = z.left) :
    z.amp wl' = z.left ↔ ∃ m : ℤ, (v / wl' - v / wl) * (z.ng * z.length / v) = m := by
  rw [amp_shift z h0 v wl wl' hv h1 h2, ← exp_turns, ← hres]
  exact mul_eq_right₀ (amp_ne_zero z wl)

theorem amp_power (g : Wg) (wl wl' : ℝ) : Complex.normSq (g.amp wl') = Complex.normSq (g.amp wl) := by
  unfold Wg.amp
  rw [Complex.normSq_mul, Complex.normSq_mul, Complex.normSq_eq_norm_sq (Complex.exp _), Complex.normSq_eq_norm_sq (Complex.exp _),
    Complex.norm_exp_ofReal_mul_I, Complex.norm_exp_ofReal_mul_I]

/-- C137. The power behind a ring on a bus repeats with the free spectral range of the ring, whatever the lengths of the bus. -/
theorem C137_ring (k : ℝ) (hk : 0 ≤ k ∧ k ≤ 1) (x y z : Wg) (h0 : z.wl0 ≠ 0) :
    ∃ d, LinkedNet (allPassModules k x y z) allPassLinks d ∧ ∀ (W B : Type) (v : ℝ) (wl wl' : W → ℝ), v ≠ 0 →
      (∀ w, wl w ≠ 0 ∧ wl' w ≠ 0) → (∀ w, ∃ m : ℤ, (v / wl' w - v / wl w) * (z.ng * z.length / v) = m) →
      ∀ (env : SimEnv), env.freqdomain = true → env.t.length = 1 → ∀ r, initNet (d.plant v wl) env = .ok (some r) →
        ∃ r', initNet (d.plant v wl') env = .ok (some r') ∧ ∀ (cs : List (Actor W B)) (src : ℕ → ℕ → W → B → ℝ × ℝ),
          ∃ o o', forwardReduced r env cs src = .ok [o] ∧ forwardReduced r' env cs src = .ok [o'] ∧
            ∀ w b, (o' w b).map (fun q => Complex.normSq (asComplex q)) = (o w b).map fun q => Complex.normSq (asComplex q) := by
  obtain ⟨d, hd, H⟩ := C89_all_pass k hk x y z
  refine ⟨d, hd, fun W B v wl wl' hv hwl hm env hf ht1 r hr => ?_⟩
  have hz : ∀ w, z.amp (wl' w) = z.amp (wl w) := fun w => by
    rw [amp_shift z h0 v _ _ hv (hwl w).1 (hwl w).2, (exp_turns _).2 (hm w), one_mul]
  have hne : ∀ w, √(1 - k) * z.amp (wl w) ≠ 1 := by
    intro w h
    have := (H W B v wl env hf ht1).2 ⟨w, h⟩
    rw [hr] at this
    cases this
  obtain ⟨r₁, h1, hfr⟩ := (H W B v wl env hf ht1).1 hne
  rw [hr] at h1
  cases h1
  obtain ⟨r', hr', hfr'⟩ := (H W B v wl' env hf ht1).1 fun w => by rw [hz]; exact hne w
  refine ⟨r', hr', fun cs src => ?_⟩
  obtain ⟨o, ho, ho2⟩ := hfr cs src
  obtain ⟨o', ho', ho2'⟩ := hfr' cs src
  refine ⟨o, o', ho, ho', fun w b => ?_⟩
  have e := congrArg (List.map Complex.normSq) (ho2 w b)
  have e' := congrArg (List.map Complex.normSq) (ho2' w b)
  rw [List.map_map] at e e'
  refine e'.trans (Eq.trans ?_ e.symm)
  simp only [List.map_cons, List.map_nil, Complex.normSq_mul, hz]
  rw [amp_power x (wl w) (wl' w), amp_power y (wl w) (wl' w)]

/-! ## Examples -/

/-- The ring of C135, uncoupled, with the bus: the free spectral range is 15 THz for a speed of light of 3e8 m/s. All simulations agree
at 195 THz and 210 THz. -/
example (d : Dev) (hd : LinkedNet (allPassModules 0 quietRing quietRing quietRing) allPassLinks d) (env : SimEnv) :
    initNet (d.plant 3e8 fun _ : Unit => 3e8 / 210e12) env = initNet (d.plant 3e8 fun _ : Unit => 3e8 / 195e12) env :=
  C137_periodic d 3e8 (by norm_num) (2e-5 / 3e8) ((quietRing_made d hd).mono fun _ h => ⟨h.2.1, by
    obtain ⟨n, hn⟩ := h.2.2
    exact ⟨n, by simpa using hn⟩⟩) _ _ (fun _ => by norm_num) (fun _ => ⟨1, by norm_num⟩) env

/-- Its resonance at 195 THz repeats at 210 THz, but there is none at 200 THz. -/
example : quietRing.amp (3e8 / 210e12) = quietRing.left ∧ quietRing.amp (3e8 / 200e12) ≠ quietRing.left := by
  have h : quietRing.amp (3e8 / 195e12) = quietRing.left := by
    rw [show (3e8 / 195e12 : ℝ) = 4e-5 / 26 by norm_num, quietRing_amp.2]
    norm_num [Wg.left, quietRing]
  constructor
  · exact (C137_resonances quietRing (by norm_num [quietRing]) 3e8 _ _ (by norm_num) (by norm_num) (by norm_num) h).2
      ⟨1, by norm_num [quietRing]⟩
  · rw [Ne, C137_resonances quietRing (by norm_num [quietRing]) 3e8 _ _ (by norm_num) (by norm_num) (by norm_num) h]
    rintro ⟨m, hm⟩
    have : (m : ℝ) * 3 = 1 := by
      rw [← hm]
      norm_num [quietRing]
    have : m * 3 = 1 := by exact_mod_cast this
    omega

/-- The power behind the ring of the intro notebook, at all wavelengths and one free spectral range apart. -/
example (wl wl' : Fin 1000 → ℝ) (hwl : ∀ w, 0 < wl w) (h : ∀ w, wl' w = 1 / (1 / wl w + 1 / 3.4e-5)) : ∀ w, wl w ≠ 0 ∧ wl' w ≠ 0 ∧
    (299792458 / wl' w - 299792458 / wl w) * (nbRing.ng * nbRing.length / 299792458) = (1 : ℤ) := by
  intro w
  have := hwl w
  have h3 : (0 : ℝ) < 1 / wl w + 1 / 3.4e-5 := by positivity
  refine ⟨this.ne', by rw [h]; positivity, ?_⟩
  rw [h]
  simp only [nbRing]
  field_simp
  norm_num
  ring

end PT
