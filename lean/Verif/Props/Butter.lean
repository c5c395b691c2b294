import Verif.Proof.Butter
import Verif.Props.Detector

/-!
# Detectors as Butterworth filters of the power (C119)
-/

namespace PT

open Finset Spec

/-- The documented design has the properties assumed of `scipy.signal.butter` elsewhere. -/
theorem butterworth_ok (N : ℕ) : IsButter (fun w => butterworth N (w : ℝ)) N :=
  ⟨fun w => (butterworth_length N w).1, fun w => (butterworth_length N w).2, fun w => butterworth_one N w⟩

theorem warp_pos (w : ℝ) (h0 : 0 < w) (h1 : w < 1) : 0 < warp w := by
  have := Real.pi_pos
  exact Real.tan_pos_of_pos_of_lt_pi_div_two (by positivity) (by nlinarith)

/-- The samples of a harmonic signal. -/
theorem harmonic_sample (θ : ℝ) (n : ℕ) : Complex.exp (θ * Complex.I) ^ n = Complex.exp (↑(θ * n) * Complex.I) := by
  rw [← Complex.exp_nat_mul]
  congr 1
  push_cast
  ring

theorem polar_sample (H : ℂ) (θ : ℝ) (n : ℕ) : H * Complex.exp (θ * Complex.I) ^ n =
    ‖H‖ * Complex.exp (↑(θ * n + H.arg) * Complex.I) := by
  rw [harmonic_sample]
  conv_lhs => rw [← Complex.norm_mul_exp_arg_mul_I H]
  rw [mul_assoc, ← Complex.exp_add]
  congr 2
  push_cast
  ring

theorem harmonic_real (N : ℕ) (hN : 0 < N) (w : ℝ) (hw : 0 < warp w) (θ : ℝ) : ∃ g1 g2 : ℕ → ℝ,
    (∀ T, FilterEq (butterworth N w).1 (butterworth N w).2 T (fun n : ℕ => Real.cos (θ * n)) g1) ∧
    (∀ T, FilterEq (butterworth N w).1 (butterworth N w).2 T (fun n : ℕ => Real.sin (θ * n)) g2) ∧
    Settles g1 (fun n => ‖butterResp N (warp w) θ‖ * Real.cos (θ * n + (butterResp N (warp w) θ).arg)) ∧
    Settles g2 (fun n => ‖butterResp N (warp w) θ‖ * Real.sin (θ * n + (butterResp N (warp w) θ).arg)) := by
  have h := fun T => filterOut_eq (butterworth N w).1 (butterworth N w).2 (butterworth_one N w) T
    (fun n => Complex.exp (θ * Complex.I) ^ n)
  obtain ⟨C, r, hr0, hr, hC⟩ := harmonic_settles N hN w hw θ _ h
  refine ⟨fun n => (filterOut (butterworth N w).1 (butterworth N w).2 (fun n => Complex.exp (θ * Complex.I) ^ n) n).re,
    fun n => (filterOut (butterworth N w).1 (butterworth N w).2 (fun n => Complex.exp (θ * Complex.I) ^ n) n).im, ?_, ?_, ?_, ?_⟩
  · intro T
    have := (h T).map Complex.reLm
    simp only [Complex.reLm_coe, harmonic_sample, Complex.exp_ofReal_mul_I_re] at this ⊢
    exact this
  · intro T
    have := (h T).map Complex.imLm
    simp only [Complex.imLm_coe, harmonic_sample, Complex.exp_ofReal_mul_I_im] at this ⊢
    exact this
  · refine ⟨C, r, hr0, hr, fun n => ?_⟩
    refine le_trans ?_ (hC n)
    rw [polar_sample]
    have := Complex.abs_re_le_norm (filterOut (butterworth N w).1 (butterworth N w).2 (fun n => Complex.exp (θ * Complex.I) ^ n) n -
      ‖butterResp N (warp w) θ‖ * Complex.exp (↑(θ * n + (butterResp N (warp w) θ).arg) * Complex.I))
    rwa [Complex.sub_re, Complex.re_ofReal_mul, Complex.exp_ofReal_mul_I_re] at this
  · refine ⟨C, r, hr0, hr, fun n => ?_⟩
    refine le_trans ?_ (hC n)
    rw [polar_sample]
    have := Complex.abs_im_le_norm (filterOut (butterworth N w).1 (butterworth N w).2 (fun n => Complex.exp (θ * Complex.I) ^ n) n -
      ‖butterResp N (warp w) θ‖ * Complex.exp (↑(θ * n + (butterResp N (warp w) θ).arg) * Complex.I))
    rwa [Complex.sub_im, Complex.im_ofReal_mul, Complex.exp_ofReal_mul_I_im] at this

theorem constant_real (N : ℕ) (hN : 0 < N) (w : ℝ) (hw : 0 < warp w) : ∃ g0 : ℕ → ℝ,
    (∀ T, FilterEq (butterworth N w).1 (butterworth N w).2 T (fun _ => (1 : ℝ)) g0) ∧ Settles g0 fun _ => 1 := by
  obtain ⟨g, -, h1, -, h2, -⟩ := harmonic_real N hN w hw 0
  refine ⟨g, ?_, ?_⟩
  · intro T
    simpa using h1 T
  · rw [butterResp_zero N hN _ hw] at h2
    simpa using h2

theorem cut_lt (samplerate cutoff : ℚ) (hc : 0 < cutoff) (hcs : 2 * cutoff < samplerate) :
    0 < 2 * cutoff / samplerate ∧ 2 * cutoff / samplerate < 1 := by
  have hs : 0 < samplerate := by linarith
  exact ⟨by positivity, by rw [div_lt_one hs]; exact hcs⟩

/-- **C119** (constant power). The current of a detector approaches the responsivity times the power, exponentially fast, for every
channel alike. -/
theorem C119_settles (N : ℕ) (hN : 0 < N) (samplerate cutoff : ℚ) (hc : 0 < cutoff) (hcs : 2 * cutoff < samplerate) :
    ∃ g : ℕ → ℝ, Settles g (fun _ => 1) ∧ ∀ (s : List ℕ) (T : ℕ), N < T → T ≠ 2 → ∀ (R : ℝ) (p : Ten s),
      lowpassDetect (fun w => butterworth N (w : ℝ)) ⟨s, samples T fun _ => p⟩ samplerate cutoff R = .ok ⟨s, samples T fun n => g n • R • p⟩ := by
  obtain ⟨h0, h1⟩ := cut_lt samplerate cutoff hc hcs
  have hw := warp_pos ((2 * cutoff / samplerate : ℚ) : ℝ) (by exact_mod_cast h0) (by exact_mod_cast h1)
  obtain ⟨g, hg, hs⟩ := constant_real N hN _ hw
  refine ⟨g, hs, ?_⟩
  intro s T hT hT2 R p
  apply C55_filter_partial _ N (butterworth_ok N) (fun w => butterworth_palindrome N w) s T hT2 hT _ _ samplerate cutoff h0 h1 R
  have := (hg T).map (LinearMap.toSpanSingleton ℝ (Ten s) (R • p))
  simpa only [LinearMap.toSpanSingleton_apply, one_smul] using this

theorem butterResp_power (N : ℕ) (hN : 0 < N) (fs fc f : ℝ) (hc : 0 < fc) (hcs : 2 * fc < fs) (hf : |f| < fs / 2) :
    ‖butterResp N (warp (2 * fc / fs)) (2 * Real.pi * f / fs)‖ ^ 2 = butterPower N fs fc f := by
  have hp := Real.pi_pos
  have hs : 0 < fs := by linarith
  have hw := warp_pos (2 * fc / fs) (by positivity) (by rw [div_lt_one hs]; exact hcs)
  rw [← Complex.normSq_eq_norm_sq, butterResp_normSq N hN _ hw]
  have e1 : 2 * Real.pi * f / fs / 2 = Real.pi * f / fs := by ring
  have e2 : warp (2 * fc / fs) = Real.tan (Real.pi * fc / fs) := by
    unfold warp
    congr 1
    ring
  rw [e2] at hw
  rw [e1, e2]
  have hcos : 0 < Real.cos (Real.pi * f / fs) := by
    obtain ⟨ha, hb⟩ := abs_lt.1 hf
    apply Real.cos_pos_of_mem_Ioo
    constructor
    · rw [lt_div_iff₀ hs]
      nlinarith
    · rw [div_lt_iff₀ hs]
      nlinarith
  unfold butterPower
  have e3 : Real.sin (Real.pi * f / fs) = Real.tan (Real.pi * f / fs) * Real.cos (Real.pi * f / fs) := by
    rw [Real.tan_eq_sin_div_cos, div_mul_cancel₀ _ hcos.ne']
  rw [e3, mul_pow, mul_pow, div_pow]
  have h1 : 0 < Real.cos (Real.pi * f / fs) ^ (2 * N) := pow_pos hcos _
  have h2 : 0 < Real.tan (Real.pi * fc / fs) ^ (2 * N) := pow_pos hw _
  have h3 : 0 ≤ Real.tan (Real.pi * f / fs) ^ (2 * N) := by rw [pow_mul]; positivity
  field_simp
  ring

theorem butterPower_half (N : ℕ) (hN : 0 < N) (fs fc f : ℝ) (hc : 0 < fc) (hcs : 2 * fc < fs) (hf : |f| < fs / 2) :
    1 / 2 ≤ butterPower N fs fc f ↔ |f| ≤ fc := by
  have hp := Real.pi_pos
  have hs : 0 < fs := by linarith
  have hin : ∀ t : ℝ, |t| < fs / 2 → Real.pi * t / fs ∈ Set.Ioo (-(Real.pi / 2)) (Real.pi / 2) := by
    intro t ht
    obtain ⟨ha, hb⟩ := abs_lt.1 ht
    constructor
    · rw [lt_div_iff₀ hs]
      nlinarith
    · rw [div_lt_iff₀ hs]
      nlinarith
  have hmono := Real.strictMonoOn_tan
  have hc2 : |fc| < fs / 2 := by rw [abs_of_pos hc]; linarith
  have hct : 0 < Real.tan (Real.pi * fc / fs) := by
    have := hmono (hin 0 (by simpa using by positivity)) (hin fc hc2) (by gcongr)
    simpa using this
  have habs : |Real.tan (Real.pi * f / fs)| = Real.tan (Real.pi * |f| / fs) := by
    have h0 : ∀ t : ℝ, 0 ≤ t → t < fs / 2 → 0 ≤ Real.tan (Real.pi * t / fs) := by
      intro t ht ht2
      have := hmono.monotoneOn (hin 0 (by simpa using by positivity)) (hin t (by rwa [abs_of_nonneg ht])) (by gcongr)
      simpa using this
    rcases le_total 0 f with h | h
    · rw [abs_of_nonneg h] at hf ⊢
      exact abs_of_nonneg (h0 f h hf)
    · rw [abs_of_nonpos h] at hf ⊢
      have := h0 (-f) (by linarith) hf
      have e : Real.tan (Real.pi * -f / fs) = -Real.tan (Real.pi * f / fs) := by
        rw [← Real.tan_neg]
        congr 1
        ring
      rw [e] at this ⊢
      exact abs_of_nonpos (by linarith)
  have h1 : 0 ≤ (Real.tan (Real.pi * f / fs) / Real.tan (Real.pi * fc / fs)) ^ (2 * N) := by rw [pow_mul]; positivity
  unfold butterPower
  rw [div_le_div_iff₀ two_pos (by linarith), one_mul, one_mul]
  have step : (Real.tan (Real.pi * f / fs) / Real.tan (Real.pi * fc / fs)) ^ (2 * N) ≤ 1 ↔ |Real.tan (Real.pi * f / fs)| ≤ Real.tan (Real.pi * fc / fs) := by
    rw [← Even.pow_abs (even_two_mul N), pow_le_one_iff_of_nonneg (abs_nonneg _) (by omega), abs_div, abs_of_pos hct, div_le_one hct]
  constructor
  · intro h
    have := step.1 (by linarith)
    rw [habs] at this
    have h2 := (hmono.le_iff_le (hin |f| (by rwa [abs_abs])) (hin fc hc2)).1 this
    rw [div_le_div_iff_of_pos_right hs] at h2
    exact le_of_mul_le_mul_left h2 hp
  · intro h
    have : |Real.tan (Real.pi * f / fs)| ≤ Real.tan (Real.pi * fc / fs) := by
      rw [habs, hmono.le_iff_le (hin |f| (by rwa [abs_abs])) (hin fc hc2)]
      gcongr
    have := step.2 this
    linarith

/-- … (modulated power). A power that varies harmonically at the frequency `f` below the Nyquist frequency, with its own mean, amplitude and
phase in every channel, settles to the same variation reduced by the factor `A` and late by one phase; `A ^ 2` is that of a Butterworth
filter of the given order, so that the variation passes with at least half of its power iff `f` is at most the cutoff. -/
theorem C119_response (N : ℕ) (hN : 0 < N) (samplerate cutoff : ℚ) (hc : 0 < cutoff) (hcs : 2 * cutoff < samplerate) (f : ℝ)
    (hf : |f| < samplerate / 2) :
    ∃ (A ψ : ℝ) (g₀ g₁ g₂ : ℕ → ℝ), 0 ≤ A ∧ A ^ 2 = butterPower N samplerate cutoff f ∧ (1 / 2 ≤ A ^ 2 ↔ |f| ≤ cutoff) ∧
      Settles g₀ (fun _ => 1) ∧
      Settles g₁ (fun n => A * Real.cos (2 * Real.pi * f / samplerate * n + ψ)) ∧
      Settles g₂ (fun n => A * Real.sin (2 * Real.pi * f / samplerate * n + ψ)) ∧
      ∀ (s : List ℕ) (T : ℕ), N < T → T ≠ 2 → ∀ (R : ℝ) (p a b : Ten s),
        lowpassDetect (fun w => butterworth N (w : ℝ))
            ⟨s, samples T fun n => p + Real.cos (2 * Real.pi * f / samplerate * n) • a + Real.sin (2 * Real.pi * f / samplerate * n) • b⟩
            samplerate cutoff R =
          .ok ⟨s, samples T fun n => R • (g₀ n • p + g₁ n • a + g₂ n • b)⟩ := by
  obtain ⟨h0, h1⟩ := cut_lt samplerate cutoff hc hcs
  have hc' : (0 : ℝ) < cutoff := by exact_mod_cast hc
  have hcs' : 2 * (cutoff : ℝ) < samplerate := by exact_mod_cast hcs
  have ew : ((2 * cutoff / samplerate : ℚ) : ℝ) = 2 * (cutoff : ℝ) / samplerate := by push_cast; rfl
  have hw := warp_pos ((2 * cutoff / samplerate : ℚ) : ℝ) (by exact_mod_cast h0) (by exact_mod_cast h1)
  obtain ⟨g₀, hg0, hs0⟩ := constant_real N hN _ hw
  obtain ⟨g₁, g₂, hg1, hg2, hs1, hs2⟩ := harmonic_real N hN _ hw (2 * Real.pi * f / samplerate)
  have hA : ‖butterResp N (warp ((2 * cutoff / samplerate : ℚ) : ℝ)) (2 * Real.pi * f / samplerate)‖ ^ 2 =
      butterPower N samplerate cutoff f := by
    rw [ew]
    exact butterResp_power N hN samplerate cutoff f hc' hcs' hf
  refine ⟨_, _, g₀, g₁, g₂, norm_nonneg _, hA, ?_, hs0, hs1, hs2, ?_⟩
  · rw [hA]
    exact butterPower_half N hN samplerate cutoff f hc' hcs' hf
  · intro s T hT hT2 R p a b
    apply C55_filter_partial _ N (butterworth_ok N) (fun w => butterworth_palindrome N w) s T hT2 hT _ _ samplerate cutoff h0 h1 R
    have e0 := (hg0 T).map (LinearMap.toSpanSingleton ℝ (Ten s) p)
    have e1 := (hg1 T).map (LinearMap.toSpanSingleton ℝ (Ten s) a)
    have e2 := (hg2 T).map (LinearMap.toSpanSingleton ℝ (Ten s) b)
    have := ((e0.add e1).add e2).map (LinearMap.lsmul ℝ (Ten s) R)
    simpa only [LinearMap.toSpanSingleton_apply, one_smul, LinearMap.lsmul_apply] using this

/-- … a variation at the Nyquist frequency dies out, … -/
theorem C119_nyquist (N : ℕ) (hN : 0 < N) (samplerate cutoff : ℚ) (hc : 0 < cutoff) (hcs : 2 * cutoff < samplerate) :
    ∃ g₀ g₁ : ℕ → ℝ, Settles g₀ (fun _ => 1) ∧ Settles g₁ (fun _ => 0) ∧ ∀ (s : List ℕ) (T : ℕ), N < T → T ≠ 2 → ∀ (R : ℝ) (p a : Ten s),
      lowpassDetect (fun w => butterworth N (w : ℝ)) ⟨s, samples T fun n => p + (-1 : ℝ) ^ n • a⟩ samplerate cutoff R =
        .ok ⟨s, samples T fun n => R • (g₀ n • p + g₁ n • a)⟩ := by
  obtain ⟨h0, h1⟩ := cut_lt samplerate cutoff hc hcs
  have hw := warp_pos ((2 * cutoff / samplerate : ℚ) : ℝ) (by exact_mod_cast h0) (by exact_mod_cast h1)
  obtain ⟨g₀, hg0, hs0⟩ := constant_real N hN _ hw
  obtain ⟨g₁, -, hg1, -, hs1, -⟩ := harmonic_real N hN _ hw Real.pi
  have hH : ‖butterResp N (warp ((2 * cutoff / samplerate : ℚ) : ℝ)) Real.pi‖ = 0 := by
    have := butterResp_normSq N hN _ hw Real.pi
    rw [Real.cos_pi_div_two, mul_zero, zero_pow (by omega), zero_div, Complex.normSq_eq_zero] at this
    rw [this, norm_zero]
  refine ⟨g₀, g₁, hs0, ?_, ?_⟩
  · rw [hH] at hs1
    simpa using hs1
  · intro s T hT hT2 R p a
    apply C55_filter_partial _ N (butterworth_ok N) (fun w => butterworth_palindrome N w) s T hT2 hT _ _ samplerate cutoff h0 h1 R
    have e0 := (hg0 T).map (LinearMap.toSpanSingleton ℝ (Ten s) p)
    have e1 := (hg1 T).map (LinearMap.toSpanSingleton ℝ (Ten s) a)
    have := (e0.add e1).map (LinearMap.lsmul ℝ (Ten s) R)
    have ec : ∀ n : ℕ, Real.cos (Real.pi * n) = (-1) ^ n := by
      intro n
      rw [mul_comm]
      exact Real.cos_nat_mul_pi n
    simpa only [LinearMap.toSpanSingleton_apply, one_smul, LinearMap.lsmul_apply, ec] using this

/-- … and however long a signal lasts, the current stays bounded by a constant times the bound of the power, in every entry (and every other
linear functional of the rows). -/
theorem C119_bounded (N : ℕ) (samplerate cutoff : ℚ) (hc : 0 < cutoff) (hcs : 2 * cutoff < samplerate) :
    ∃ K : ℝ, 0 ≤ K ∧ ∀ (s : List ℕ) (T : ℕ), N < T → T ≠ 2 → ∀ (R : ℝ) (x : ℕ → Ten s),
      ∃ y, lowpassDetect (fun w => butterworth N (w : ℝ)) ⟨s, samples T x⟩ samplerate cutoff R = .ok ⟨s, samples T y⟩ ∧
        ∀ (L : Ten s →ₗ[ℝ] ℝ) (M : ℝ), (∀ n, |L (x n)| ≤ M) → ∀ n < T, |L (y n)| ≤ K * (|R| * M) := by
  obtain ⟨h0, h1⟩ := cut_lt samplerate cutoff hc hcs
  have hw := warp_pos ((2 * cutoff / samplerate : ℚ) : ℝ) (by exact_mod_cast h0) (by exact_mod_cast h1)
  obtain ⟨K, hK, hb⟩ := filter_bounded N _ hw
  refine ⟨K, hK, ?_⟩
  intro s T hT hT2 R x
  have hf := fun T => filterOut_eq (butterworth N ((2 * cutoff / samplerate : ℚ) : ℝ)).1
    (butterworth N ((2 * cutoff / samplerate : ℚ) : ℝ)).2 (butterworth_one N _) T fun n => R • x n
  refine ⟨_, C55_filter_partial _ N (butterworth_ok N) (fun w => butterworth_palindrome N w) s T hT2 hT _ _ samplerate cutoff h0 h1 R
    (hf T), ?_⟩
  intro L M hM n _
  have h2 := fun T => ((hf T).map L).map Complex.ofRealLI.toLinearMap
  have := hb _ _ (|R| * M) h2 (by
    intro n
    show ‖((L (R • x n) : ℝ) : ℂ)‖ ≤ _
    rw [Complex.norm_real, map_smul, smul_eq_mul, Real.norm_eq_abs, abs_mul]
    exact mul_le_mul_of_nonneg_left (hM n) (abs_nonneg _)) n
  rw [← Real.norm_eq_abs, ← Complex.norm_real]
  exact this

/-! ### Concrete instances -/

/-- The default detector: order four, cutoff 20 GHz at 160 GS/s. -/
example : ∃ g : ℕ → ℝ, Settles g (fun _ => 1) ∧ ∀ (s : List ℕ) (T : ℕ), 4 < T → T ≠ 2 → ∀ (R : ℝ) (p : Ten s),
    lowpassDetect (fun w => butterworth 4 (w : ℝ)) ⟨s, samples T fun _ => p⟩ 160e9 20e9 R = .ok ⟨s, samples T fun n => g n • R • p⟩ :=
  C119_settles 4 (by norm_num) 160e9 20e9 (by norm_num) (by norm_num)

/-- A modulation at the cutoff frequency loses half of its power. -/
example : butterPower 4 160e9 20e9 20e9 = 1 / 2 := by
  have h : Real.tan (Real.pi * 20e9 / 160e9) ≠ 0 := by
    have := warp_pos (1 / 4) (by norm_num) (by norm_num)
    unfold warp at this
    have e : Real.pi * (1 / 4) / 2 = Real.pi * 20e9 / 160e9 := by ring
    rw [e] at this
    exact this.ne'
  unfold butterPower
  rw [div_self h]
  norm_num

end PT
