import Verif.Proof.Butter
import Mathlib.Analysis.SpecificLimits.Normed

/-!
# The response of a Butterworth filter to a pulse and to noise
-/

namespace PT

open Finset Polynomial Spec Filter

section Convolution

variable {V : Type} [AddCommGroup V] [Module ℝ V]

/-- A single sample. -/
noncomputable def pulse (n : ℕ) : ℝ := if n = 0 then 1 else 0

theorem FilterEq_late_iter (b a : List ℝ) (x y : ℕ → V) (h : ∀ T, FilterEq b a T x y) (k : ℕ) (T : ℕ) :
    FilterEq b a T (late^[k] x) (late^[k] y) := by
  induction k generalizing T with
  | zero => exact h T
  | succ k ih =>
    rw [Function.iterate_succ_apply', Function.iterate_succ_apply']
    exact late_filter _ _ _ _ ih T

theorem FilterEq_congr (b a : List ℝ) (T : ℕ) (x x' y y' : ℕ → V) (hx : ∀ n < T, x n = x' n) (hy : ∀ n < T, y n = y' n)
    (h : FilterEq b a T x y) : FilterEq b a T x' y' := by
  intro n hn
  have := h n hn
  rw [← hy n hn, this]
  congr 1
  · apply sum_congr rfl
    intro k _
    rw [hx (n - k) (by omega)]
  · apply sum_congr rfl
    intro k hk
    have := mem_range.1 hk
    rw [hy (n - 1 - k) (by omega)]

theorem late_iter_apply (u : ℕ → V) (k n : ℕ) : (late^[k] u) n = if k ≤ n then u (n - k) else 0 := by
  split
  · have := (late_iter u k).2 (n - k)
    rwa [Nat.sub_add_cancel (by omega)] at this
  · exact (late_iter u k).1 n (by omega)

/-- The output is the convolution of the input with the response to a pulse. -/
theorem convolution_filter (b a : List ℝ) (h : ℕ → ℝ) (hh : ∀ T, FilterEq b a T pulse h) (x : ℕ → V) (T : ℕ) :
    FilterEq b a T x fun n => ∑ k ∈ range (n + 1), h (n - k) • x k := by
  have key : ∀ M : ℕ, FilterEq b a T (fun n => ∑ k ∈ range M, (late^[k] pulse) n • x k)
      fun n => ∑ k ∈ range M, (late^[k] h) n • x k := by
    intro M
    induction M with
    | zero =>
      intro n _
      simp
    | succ M ih =>
      simp only [sum_range_succ]
      exact ih.add ((FilterEq_late_iter b a pulse h hh M T).map (LinearMap.toSpanSingleton ℝ V (x M)))
  refine FilterEq_congr b a T _ _ _ _ ?_ ?_ (key T)
  · intro n hn
    rw [sum_eq_single n]
    · rw [late_iter_apply, if_pos le_rfl, Nat.sub_self]
      simp [pulse]
    · intro k _ hk
      rw [late_iter_apply]
      split
      · unfold pulse
        rw [if_neg (by omega), zero_smul]
      · rw [zero_smul]
    · intro h
      exact absurd (mem_range.2 hn) h
  · intro n hn
    symm
    rw [← sum_subset (s₁ := range (n + 1)) (s₂ := range T) (by intro k; simp only [mem_range]; omega) (by
      intro k _ hk
      rw [mem_range] at hk
      rw [late_iter_apply, if_neg (by omega), zero_smul])]
    apply sum_congr rfl
    intro k hk
    have := mem_range.1 hk
    rw [late_iter_apply, if_pos (by omega)]

end Convolution

/-- The response to a pulse decays. -/
theorem pulse_decay (N : ℕ) (w : ℝ) (hw : 0 < warp w) (h : ℕ → ℝ) (hh : ∀ T, FilterEq (butterworth N w).1 (butterworth N w).2 T pulse h) :
    ∃ D r : ℝ, 0 ≤ r ∧ r < 1 ∧ ∀ n, |h n| ≤ D * r ^ n := by
  obtain ⟨ρ, h0, h1, h2⟩ := poles_bound N (warp w) hw
  have hc := fun T => (hh T).map Complex.ofRealLI.toLinearMap
  have hp := filter_poly N w _ _ hc
  obtain ⟨D, hD⟩ := factor_decay (digitalPole N (warp w)) N ρ ((1 + ρ) / 2) h2 (by linarith) (by linarith)
    (fun n => (h n : ℂ)) (‖butterGain N (warp w)‖) (by
      intro n
      have e := hp n
      unfold butterDen at e
      refine (congrArg norm e).trans_le ?_
      rw [norm_mul]
      apply mul_le_mul_of_nonneg_left _ (norm_nonneg _)
      rw [aeval_step _ N (natDegree_one_pow N)]
      by_cases hn : n = 0
      · subst hn
        rw [sum_eq_single 0]
        · have : (((X + 1 : ℂ[X]) ^ N).coeff 0) = 1 := by rw [coeff_X_add_one_pow]; simp
          rw [this]
          simp [pulse]
        · intro i _ hi
          have : Complex.ofRealLI.toLinearMap (pulse (0 + i)) = 0 := by simp [pulse, hi]
          rw [this, mul_zero]
        · intro hi
          exact absurd (mem_range.2 (by omega)) hi
      · rw [sum_eq_zero]
        · rw [norm_zero]
          have : 0 ≤ (1 + ρ) / 2 := by linarith
          positivity
        · intro i _
          have : Complex.ofRealLI.toLinearMap (pulse (n + i)) = 0 := by simp [pulse, hn]
          rw [this, mul_zero])
  refine ⟨D, (1 + ρ) / 2, by linarith, by linarith, fun n => ?_⟩
  have := hD n
  rwa [Complex.norm_real] at this

/-- Partial sums of the Fourier series of a decaying sequence. -/
noncomputable def partSum (h : ℕ → ℝ) (E : ℂ) (M : ℕ) : ℂ := ∑ k ∈ range M, (h k : ℂ) * (E⁻¹) ^ k

theorem partSum_diff (h : ℕ → ℝ) (D r : ℝ) (hr0 : 0 ≤ r) (hr : r < 1) (hh : ∀ n, |h n| ≤ D * r ^ n) (E : ℂ) (hE : ‖E‖ = 1) (M m : ℕ) :
    ‖partSum h E (M + m) - partSum h E M‖ ≤ D * r ^ M / (1 - r) := by
  have hD : 0 ≤ D := by simpa using (abs_nonneg (h 0)).trans (hh 0)
  unfold partSum
  rw [sum_range_add, add_sub_cancel_left]
  refine (norm_sum_le _ _).trans ?_
  have h1 : ∀ k ∈ range m, ‖(h (M + k) : ℂ) * (E⁻¹) ^ (M + k)‖ ≤ D * r ^ M * r ^ k := by
    intro k _
    rw [norm_mul, norm_pow, norm_inv, hE, inv_one, one_pow, mul_one, Complex.norm_real]
    refine (hh (M + k)).trans (le_of_eq ?_)
    rw [pow_add]
    ring
  refine (sum_le_sum h1).trans ?_
  rw [← mul_sum, div_eq_mul_inv]
  apply mul_le_mul_of_nonneg_left _ (by positivity)
  rw [← tsum_geometric_of_lt_one hr0 hr]
  exact (summable_geometric_of_lt_one hr0 hr).sum_le_tsum _ fun i _ => by positivity

/-- The partial sums approach the transfer function, everywhere alike. -/
theorem partSum_resp (N : ℕ) (hN : 0 < N) (w : ℝ) (hw : 0 < warp w) (h : ℕ → ℝ)
    (hf : ∀ T, FilterEq (butterworth N w).1 (butterworth N w).2 T pulse h) (D r : ℝ) (hr0 : 0 ≤ r) (hr : r < 1)
    (hh : ∀ n, |h n| ≤ D * r ^ n) (θ : ℝ) (M : ℕ) :
    ‖partSum h (Complex.exp (θ * Complex.I)) M - butterResp N (warp w) θ‖ ≤ D * r ^ M / (1 - r) := by
  have hE : ‖Complex.exp (θ * Complex.I)‖ = 1 := Complex.norm_exp_ofReal_mul_I θ
  have hE0 : Complex.exp (θ * Complex.I) ≠ 0 := Complex.exp_ne_zero _
  obtain ⟨C, q, hq0, hq, hC⟩ := harmonic_settles N hN w hw θ _ fun T => convolution_filter (V := ℂ) (butterworth N w).1 (butterworth N w).2 h hf
    (fun n => Complex.exp (θ * Complex.I) ^ n) T
  have h1 : ∀ n, ‖partSum h (Complex.exp (θ * Complex.I)) (n + 1) - butterResp N (warp w) θ‖ ≤ C * q ^ n := by
    intro n
    refine le_trans (le_of_eq ?_) (hC n)
    have e : ∑ k ∈ range (n + 1), h (n - k) • Complex.exp (θ * Complex.I) ^ k =
        partSum h (Complex.exp (θ * Complex.I)) (n + 1) * Complex.exp (θ * Complex.I) ^ n := by
      unfold partSum
      rw [sum_mul, ← sum_range_reflect]
      apply sum_congr rfl
      intro k hk
      have hk' := mem_range.1 hk
      rw [Complex.real_smul, show n - (n + 1 - 1 - k) = k by omega, show n + 1 - 1 - k = n - k by omega, mul_assoc]
      congr 1
      rw [inv_pow, inv_mul_eq_div, eq_div_iff (pow_ne_zero _ hE0), ← pow_add]
      congr 1
      omega
    rw [e, ← sub_mul, norm_mul, norm_pow, hE, one_pow, mul_one]
  have h2 : Tendsto (fun n => partSum h (Complex.exp (θ * Complex.I)) (M + n)) atTop (nhds (butterResp N (warp w) θ)) := by
    have h4 : Tendsto (fun n => partSum h (Complex.exp (θ * Complex.I)) (n + 1)) atTop (nhds (butterResp N (warp w) θ)) := by
      rw [tendsto_iff_norm_sub_tendsto_zero]
      refine squeeze_zero (fun n => norm_nonneg _) h1 ?_
      have := (tendsto_pow_atTop_nhds_zero_of_lt_one hq0 hq).const_mul C
      rwa [mul_zero] at this
    have h5 := (tendsto_add_atTop_iff_nat 1).1 h4
    have h6 := (tendsto_add_atTop_iff_nat M).2 h5
    simpa only [add_comm M] using h6
  have h3 := (h2.const_sub (partSum h (Complex.exp (θ * Complex.I)) M)).norm
  apply le_of_tendsto h3
  refine Eventually.of_forall fun n => ?_
  rw [norm_sub_rev]
  exact partSum_diff h D r hr0 hr hh _ hE M n

theorem resp_le_one (N : ℕ) (hN : 0 < N) (Ω : ℝ) (hΩ : 0 < Ω) (θ : ℝ) : ‖butterResp N Ω θ‖ ≤ 1 := by
  have h := butterResp_normSq N hN Ω hΩ θ
  have h2 := sin_cos_pos N Ω hΩ (θ / 2)
  have h3 : 0 ≤ Real.sin (θ / 2) ^ (2 * N) := by rw [pow_mul]; positivity
  rw [Complex.normSq_eq_norm_sq] at h
  have : ‖butterResp N Ω θ‖ ^ 2 ≤ 1 := by
    rw [h, div_le_one h2]
    linarith
  exact (sq_le_one_iff₀ (norm_nonneg _)).1 this

theorem roots_orthogonal (M : ℕ) (hM : 0 < M) (k l : ℕ) (hk : k < M) (hl : l < M) :
    ∑ j ∈ range M, ((Complex.exp (↑(2 * Real.pi * j / M) * Complex.I))⁻¹) ^ k * Complex.exp (↑(2 * Real.pi * j / M) * Complex.I) ^ l =
      if k = l then (M : ℂ) else 0 := by
  have hM' : (M : ℂ) ≠ 0 := by exact_mod_cast (by omega : M ≠ 0)
  have hζ := Complex.isPrimitiveRoot_exp M (by omega)
  set ζ := Complex.exp (2 * Real.pi * Complex.I / M) with hz
  have hζ0 : ζ ≠ 0 := Complex.exp_ne_zero _
  have e : ∀ j : ℕ, Complex.exp (↑(2 * Real.pi * j / M) * Complex.I) = ζ ^ j := by
    intro j
    rw [hz, ← Complex.exp_nat_mul]
    congr 1
    push_cast
    field_simp
  have e2 : ∀ j ∈ range M, ((Complex.exp (↑(2 * Real.pi * j / M) * Complex.I))⁻¹) ^ k * Complex.exp (↑(2 * Real.pi * j / M) * Complex.I) ^ l =
      (ζ⁻¹ ^ k * ζ ^ l) ^ j := by
    intro j _
    rw [e j, mul_pow, ← pow_mul, ← pow_mul, ← pow_mul, inv_pow, inv_pow, ← pow_mul, mul_comm j k, mul_comm j l]
  rw [sum_congr rfl e2]
  split
  · rename_i h
    subst h
    rw [inv_pow, inv_mul_cancel₀ (pow_ne_zero _ hζ0)]
    simp
  · rename_i h
    have hne : ζ⁻¹ ^ k * ζ ^ l ≠ 1 := by
      intro h1
      rw [inv_pow, inv_mul_eq_div, div_eq_one_iff_eq (pow_ne_zero _ hζ0)] at h1
      exact h (hζ.pow_inj hk hl h1.symm)
    have hone : (ζ⁻¹ ^ k * ζ ^ l) ^ M = 1 := by
      rw [mul_pow, ← pow_mul, ← pow_mul, mul_comm k, mul_comm l, pow_mul, pow_mul, inv_pow, hζ.pow_eq_one]
      simp
    rw [geom_sum_eq hne, hone, sub_self, zero_div]

/-- The mean of the squared partial sums over the roots of unity. -/
theorem partSum_parseval (h : ℕ → ℝ) (M : ℕ) (hM : 0 < M) :
    ∑ j ∈ range M, Complex.normSq (partSum h (Complex.exp (↑(2 * Real.pi * j / M) * Complex.I)) M) = M * ∑ k ∈ range M, h k ^ 2 := by
  have hc : ((∑ j ∈ range M, Complex.normSq (partSum h (Complex.exp (↑(2 * Real.pi * j / M) * Complex.I)) M) : ℝ) : ℂ) =
      ((M * ∑ k ∈ range M, h k ^ 2 : ℝ) : ℂ) := by
    push_cast
    have e : ∀ j ∈ range M, (Complex.normSq (partSum h (Complex.exp (↑(2 * Real.pi * j / M) * Complex.I)) M) : ℂ) =
        ∑ k ∈ range M, ∑ l ∈ range M, (h k : ℂ) * h l *
          (((Complex.exp (↑(2 * Real.pi * j / M) * Complex.I))⁻¹) ^ k * Complex.exp (↑(2 * Real.pi * j / M) * Complex.I) ^ l) := by
      intro j _
      rw [← Complex.mul_conj]
      unfold partSum
      rw [map_sum, sum_mul_sum]
      apply sum_congr rfl
      intro k _
      apply sum_congr rfl
      intro l _
      have hcj : starRingEnd ℂ (Complex.exp (↑(2 * Real.pi * j / M) * Complex.I))⁻¹ = Complex.exp (↑(2 * Real.pi * j / M) * Complex.I) := by
        rw [map_inv₀, ← Complex.exp_conj, map_mul, Complex.conj_ofReal, Complex.conj_I, mul_neg, Complex.exp_neg, inv_inv]
      rw [map_mul, Complex.conj_ofReal, map_pow, hcj]
      ring
    have e' := sum_congr rfl e
    push_cast at e'
    rw [e', sum_comm, mul_sum]
    apply sum_congr rfl
    intro k hk
    rw [sum_comm]
    have e3 : ∀ l ∈ range M, ∑ j ∈ range M, (h k : ℂ) * h l *
        (((Complex.exp (2 * Real.pi * j / M * Complex.I))⁻¹) ^ k * Complex.exp (2 * Real.pi * j / M * Complex.I) ^ l) =
        (h k : ℂ) * h l * if k = l then (M : ℂ) else 0 := by
      intro l hl
      rw [← mul_sum, ← roots_orthogonal M hM k l (mem_range.1 hk) (mem_range.1 hl)]
      push_cast
      rfl
    rw [sum_congr rfl e3, sum_eq_single k]
    · rw [if_pos rfl]
      ring
    · intro l _ hl
      rw [if_neg (Ne.symm hl), mul_zero]
    · intro h
      exact absurd hk h
  exact_mod_cast hc

/-- The response to a pulse has no more energy than the pulse. -/
theorem pulse_energy (N : ℕ) (hN : 0 < N) (w : ℝ) (hw : 0 < warp w) (h : ℕ → ℝ)
    (hf : ∀ T, FilterEq (butterworth N w).1 (butterworth N w).2 T pulse h) (m : ℕ) : ∑ k ∈ range m, h k ^ 2 ≤ 1 := by
  obtain ⟨D, r, hr0, hr, hh⟩ := pulse_decay N w hw h hf
  have h1 : ∀ M, 0 < M → ∑ k ∈ range M, h k ^ 2 ≤ (1 + D * r ^ M / (1 - r)) ^ 2 := by
    intro M hM
    have hM' : (0 : ℝ) < M := by exact_mod_cast hM
    have hp := partSum_parseval h M hM
    have hb : ∀ j ∈ range M, Complex.normSq (partSum h (Complex.exp (↑(2 * Real.pi * j / M) * Complex.I)) M) ≤
        (1 + D * r ^ M / (1 - r)) ^ 2 := by
      intro j _
      rw [Complex.normSq_eq_norm_sq]
      apply pow_le_pow_left₀ (norm_nonneg _)
      have e1 := partSum_resp N hN w hw h hf D r hr0 hr hh (2 * Real.pi * j / M) M
      have e2 := resp_le_one N hN (warp w) hw (2 * Real.pi * j / M)
      have e3 := norm_add_le (partSum h (Complex.exp (↑(2 * Real.pi * j / M) * Complex.I)) M - butterResp N (warp w) (2 * Real.pi * j / M))
        (butterResp N (warp w) (2 * Real.pi * j / M))
      rw [sub_add_cancel] at e3
      linarith
    have hs := sum_le_sum hb
    rw [hp, sum_const, card_range, nsmul_eq_mul] at hs
    exact le_of_mul_le_mul_left hs hM'
  have h2 : Tendsto (fun M : ℕ => (1 + D * r ^ M / (1 - r)) ^ 2) atTop (nhds 1) := by
    have := (((tendsto_pow_atTop_nhds_zero_of_lt_one hr0 hr).const_mul D).div_const (1 - r)).const_add 1
    have := this.pow 2
    simpa using this
  refine ge_of_tendsto h2 ?_
  filter_upwards [eventually_ge_atTop (m + 1)] with M hM
  refine le_trans ?_ (h1 M (by omega))
  exact sum_le_sum_of_subset_of_nonneg (by intro k; simp only [mem_range]; omega) fun k _ _ => sq_nonneg _

end PT
