import Verif.Spec.Butter
import Verif.Proof.Filter
import Mathlib.Algebra.Polynomial.AlgebraMap
import Mathlib.RingTheory.RootsOfUnity.Complex
import Mathlib.RingTheory.Polynomial.Cyclotomic.Basic
import Mathlib.Algebra.Polynomial.BigOperators
import Mathlib.Algebra.Polynomial.Monic
import Mathlib.Algebra.BigOperators.Intervals
import Mathlib.LinearAlgebra.Pi
import Mathlib.Analysis.SpecialFunctions.Complex.Arg

/-!
# Butterworth filters: stability and frequency response
-/

namespace PT

open Finset Polynomial Spec

/-! ## The poles -/

theorem poleAngle_reflect (N j : ℕ) (hj : j < N) : poleAngle N (N - 1 - j) = -poleAngle N j := by
  unfold poleAngle
  have : ((N - 1 - j : ℕ) : ℝ) = N - 1 - j := by
    rw [Nat.cast_sub (by omega), Nat.cast_sub (by omega)]
    simp
  rw [this]
  ring

theorem poleAngle_sum (N : ℕ) : ∑ j ∈ range N, poleAngle N j = 0 := by
  have h := sum_range_reflect (fun j => poleAngle N j) N
  rw [sum_congr rfl fun j hj => poleAngle_reflect N j (mem_range.1 hj), sum_neg_distrib] at h
  linarith

theorem poleAngle_cos (N j : ℕ) (hj : j < N) : 0 < Real.cos (poleAngle N j) := by
  have hN : (0 : ℝ) < N := by exact_mod_cast (by omega : 0 < N)
  have h1 : (j : ℝ) + 1 ≤ N := by exact_mod_cast hj
  have h0 : (0 : ℝ) ≤ j := Nat.cast_nonneg j
  have hp := Real.pi_pos
  apply Real.cos_pos_of_mem_Ioo
  unfold poleAngle
  constructor
  · rw [lt_div_iff₀ (by linarith)]
    nlinarith
  · rw [div_lt_iff₀ (by linarith)]
    nlinarith

theorem analogPole_re (N : ℕ) (Ω : ℝ) (hΩ : 0 < Ω) (j : ℕ) (hj : j < N) : (analogPole N Ω j).re < 0 := by
  unfold analogPole
  rw [Complex.neg_re, Complex.re_ofReal_mul, Complex.exp_ofReal_mul_I_re]
  exact neg_neg_of_pos (mul_pos hΩ (poleAngle_cos N j hj))

theorem analogPole_conj (N : ℕ) (Ω : ℝ) (j : ℕ) (hj : j < N) : starRingEnd ℂ (analogPole N Ω j) = analogPole N Ω (N - 1 - j) := by
  unfold analogPole
  rw [map_neg, map_mul, Complex.conj_ofReal, ← Complex.exp_conj, map_mul, Complex.conj_ofReal, Complex.conj_I, poleAngle_reflect N j hj]
  push_cast
  congr 3
  ring

theorem one_sub_pole (N : ℕ) (Ω : ℝ) (hΩ : 0 < Ω) (j : ℕ) (hj : j < N) : 1 - analogPole N Ω j ≠ 0 := by
  intro h
  have := congrArg Complex.re h
  have h2 := analogPole_re N Ω hΩ j hj
  simp at this
  linarith

theorem digitalPole_norm (N : ℕ) (Ω : ℝ) (hΩ : 0 < Ω) (j : ℕ) (hj : j < N) : ‖digitalPole N Ω j‖ < 1 := by
  unfold digitalPole
  rw [norm_div, div_lt_one (norm_pos_iff.2 (one_sub_pole N Ω hΩ j hj))]
  have h := analogPole_re N Ω hΩ j hj
  apply lt_of_pow_lt_pow_left₀ 2 (norm_nonneg _)
  rw [← Complex.normSq_eq_norm_sq, ← Complex.normSq_eq_norm_sq, Complex.normSq_apply, Complex.normSq_apply]
  simp
  nlinarith

theorem digitalPole_conj (N : ℕ) (Ω : ℝ) (j : ℕ) (hj : j < N) : starRingEnd ℂ (digitalPole N Ω j) = digitalPole N Ω (N - 1 - j) := by
  unfold digitalPole
  rw [map_div₀, map_add, map_sub, map_one, analogPole_conj N Ω j hj]

theorem prod_conj (N : ℕ) (Ω : ℝ) (f : ℂ → ℂ) (hf : ∀ s, starRingEnd ℂ (f s) = f (starRingEnd ℂ s)) :
    starRingEnd ℂ (∏ j ∈ range N, f (analogPole N Ω j)) = ∏ j ∈ range N, f (analogPole N Ω j) := by
  rw [map_prod, ← prod_range_reflect]
  apply prod_congr rfl
  intro j hj
  have hj' := mem_range.1 hj
  rw [hf, analogPole_conj N Ω _ (by omega)]
  congr 2
  omega

theorem butterGain_real (N : ℕ) (Ω : ℝ) : ((butterGain N Ω).re : ℂ) = butterGain N Ω := by
  apply Complex.conj_eq_iff_re.1
  unfold butterGain
  rw [map_div₀, map_pow, Complex.conj_ofReal, prod_conj N Ω (fun s => 1 - s) (by intro s; simp)]

theorem butterDen_real (N : ℕ) (Ω : ℝ) (i : ℕ) : (((butterDen N Ω).coeff i).re : ℂ) = (butterDen N Ω).coeff i := by
  apply Complex.conj_eq_iff_re.1
  have h : (butterDen N Ω).map (starRingEnd ℂ) = butterDen N Ω := by
    unfold butterDen
    rw [Polynomial.map_prod, ← prod_range_reflect]
    apply prod_congr rfl
    intro j hj
    have hj' := mem_range.1 hj
    rw [Polynomial.map_sub, map_X, map_C, digitalPole_conj N Ω _ (by omega)]
    congr 3
    omega
  conv_rhs => rw [← h]
  rw [coeff_map]

theorem butterDen_monic (N : ℕ) (Ω : ℝ) : (butterDen N Ω).Monic := monic_prod_of_monic _ _ fun _ _ => monic_X_sub_C _

theorem butterDen_degree (N : ℕ) (Ω : ℝ) : (butterDen N Ω).natDegree = N := by
  unfold butterDen
  rw [natDegree_prod_of_monic _ _ fun _ _ => monic_X_sub_C _]
  simp

/-! ## The frequency response -/

theorem prod_roots (N : ℕ) (hN : 0 < N) (x c : ℂ) :
    ∏ j ∈ range N, (x - Complex.exp (2 * Real.pi * Complex.I / N) ^ j * c) = x ^ N - c ^ N := by
  have hζ := Complex.isPrimitiveRoot_exp N (by omega)
  rw [hζ.pow_sub_pow_eq_prod_sub_mul x c hN]
  have e : nthRootsFinset N (1 : ℂ) = (range N).image fun j => Complex.exp (2 * Real.pi * Complex.I / N) ^ j := by
    symm
    apply eq_of_subset_of_card_le
    · intro z hz
      obtain ⟨j, -, rfl⟩ := mem_image.1 hz
      rw [Polynomial.mem_nthRootsFinset hN, ← pow_mul, mul_comm j N, pow_mul, hζ.pow_eq_one, one_pow]
    · rw [hζ.card_nthRootsFinset, card_image_of_injOn, card_range]
      intro i hi j hj h
      exact hζ.pow_inj (by simpa using hi) (by simpa using hj) h
  rw [e, prod_image]
  intro i hi j hj h
  exact hζ.pow_inj (by simpa using hi) (by simpa using hj) h

/-- The squares of the poles are the `N` roots of `-(-Ω²)^N`. -/
theorem prod_squares (N : ℕ) (hN : 0 < N) (Ω : ℝ) (a c : ℂ) :
    ∏ j ∈ range N, (a + analogPole N Ω j ^ 2 * c) = a ^ N + (Ω ^ 2 * c) ^ N := by
  have hN' : (N : ℂ) ≠ 0 := by exact_mod_cast (by omega : N ≠ 0)
  have key : ∀ j, a + analogPole N Ω j ^ 2 * c =
      a - Complex.exp (2 * Real.pi * Complex.I / N) ^ j * (-(Complex.exp (-(Real.pi * (N - 1) / N) * Complex.I) * (Ω ^ 2 * c))) := by
    intro j
    unfold analogPole poleAngle
    rw [neg_sq, mul_pow, ← Complex.exp_nat_mul, ← Complex.exp_nat_mul, mul_neg, sub_neg_eq_add, ← mul_assoc (Complex.exp _), ← Complex.exp_add]
    congr 1
    have : ((2 : ℕ) : ℂ) * (((Real.pi * (2 * j - (N - 1)) / (2 * N) : ℝ) : ℂ) * Complex.I) =
        j * (2 * Real.pi * Complex.I / N) + -(Real.pi * (N - 1) / N) * Complex.I := by
      push_cast
      field_simp
      ring
    rw [this]
    ring
  rw [prod_congr rfl fun j _ => key j, prod_roots N hN, neg_pow, mul_pow, ← Complex.exp_nat_mul]
  have e : (N : ℂ) * (-(Real.pi * (N - 1) / N) * Complex.I) = Real.pi * Complex.I - N * (Real.pi * Complex.I) := by
    field_simp
    ring
  rw [e, Complex.exp_sub, Complex.exp_pi_mul_I, Complex.exp_nat_mul, Complex.exp_pi_mul_I]
  have h1 : ((-1 : ℂ)) ^ N ≠ 0 := pow_ne_zero _ (by norm_num)
  field_simp
  ring

/-- The transfer function on the unit circle. -/
noncomputable def butterResp (N : ℕ) (Ω θ : ℝ) : ℂ :=
  butterGain N Ω * (Complex.exp (θ * Complex.I) + 1) ^ N / (butterDen N Ω).eval (Complex.exp (θ * Complex.I))

theorem half_angle (θ : ℝ) : Complex.exp (θ * Complex.I) = Complex.exp (↑(θ / 2) * Complex.I) * Complex.exp (↑(θ / 2) * Complex.I) ∧
    Complex.exp (θ * Complex.I) + 1 = 2 * Complex.exp (↑(θ / 2) * Complex.I) * Real.cos (θ / 2) ∧
    Complex.exp (θ * Complex.I) - 1 = 2 * Complex.exp (↑(θ / 2) * Complex.I) * (Complex.I * Real.sin (θ / 2)) := by
  have h1 : Complex.exp (θ * Complex.I) = Complex.exp (↑(θ / 2) * Complex.I) * Complex.exp (↑(θ / 2) * Complex.I) := by
    rw [← Complex.exp_add]
    congr 1
    push_cast
    ring
  have h2 : Complex.exp (↑(θ / 2) * Complex.I) * Complex.exp (-(↑(θ / 2) * Complex.I)) = 1 := by
    rw [← Complex.exp_add, add_neg_cancel, Complex.exp_zero]
  refine ⟨h1, ?_, ?_⟩
  · rw [Complex.ofReal_cos, Complex.cos, h1, neg_mul]
    linear_combination (-1 : ℂ) * h2
  · rw [Complex.ofReal_sin, Complex.sin, h1, neg_mul]
    linear_combination (1 : ℂ) * h2 - Complex.exp (↑(θ / 2) * Complex.I) * (Complex.exp (-(↑(θ / 2) * Complex.I)) - Complex.exp (↑(θ / 2) * Complex.I)) * Complex.I_sq

theorem den_eval (N : ℕ) (Ω : ℝ) (hΩ : 0 < Ω) (θ : ℝ) : (butterDen N Ω).eval (Complex.exp (θ * Complex.I)) * ∏ j ∈ range N, (1 - analogPole N Ω j) =
    (2 * Complex.exp (↑(θ / 2) * Complex.I)) ^ N * ∏ j ∈ range N, (Complex.I * Real.sin (θ / 2) - analogPole N Ω j * Real.cos (θ / 2)) := by
  obtain ⟨-, h1, h2⟩ := half_angle θ
  unfold butterDen
  rw [eval_prod, ← prod_mul_distrib, ← card_range N, ← prod_const, card_range, ← prod_mul_distrib]
  apply prod_congr rfl
  intro j hj
  have hs := one_sub_pole N Ω hΩ j (mem_range.1 hj)
  rw [eval_sub, eval_X, eval_C]
  unfold digitalPole
  rw [sub_mul, div_mul_cancel₀ _ hs]
  linear_combination h2 - analogPole N Ω j * h1

theorem prod_normSq (N : ℕ) (hN : 0 < N) (Ω : ℝ) (s c : ℝ) :
    Complex.normSq (∏ j ∈ range N, (Complex.I * s - analogPole N Ω j * c)) = s ^ (2 * N) + (Ω * c) ^ (2 * N) := by
  have h : ((Complex.normSq (∏ j ∈ range N, (Complex.I * s - analogPole N Ω j * c)) : ℝ) : ℂ) = ((s ^ (2 * N) + (Ω * c) ^ (2 * N) : ℝ) : ℂ) := by
    rw [Complex.normSq_eq_conj_mul_self, map_prod]
    have : ∏ j ∈ range N, starRingEnd ℂ (Complex.I * s - analogPole N Ω j * c) = ∏ j ∈ range N, (-Complex.I * s - analogPole N Ω j * c) := by
      rw [← prod_range_reflect]
      apply prod_congr rfl
      intro j hj
      have hj' := mem_range.1 hj
      rw [map_sub, map_mul, map_mul, Complex.conj_I, Complex.conj_ofReal, Complex.conj_ofReal, analogPole_conj N Ω _ (by omega)]
      congr 3
      omega
    rw [this, ← prod_mul_distrib, prod_congr rfl fun j _ => (by
      linear_combination (-(s : ℂ) ^ 2) * Complex.I_sq :
        (-Complex.I * s - analogPole N Ω j * c) * (Complex.I * s - analogPole N Ω j * c) = (s : ℂ) ^ 2 + analogPole N Ω j ^ 2 * (c : ℂ) ^ 2),
      prod_squares N hN]
    push_cast
    rw [← mul_pow, ← pow_mul, ← pow_mul]
  exact_mod_cast h

theorem sin_cos_pos (N : ℕ) (Ω : ℝ) (hΩ : 0 < Ω) (t : ℝ) : 0 < Real.sin t ^ (2 * N) + (Ω * Real.cos t) ^ (2 * N) := by
  have h1 : 0 ≤ Real.sin t ^ (2 * N) := by rw [pow_mul]; positivity
  have h2 : 0 ≤ (Ω * Real.cos t) ^ (2 * N) := by rw [pow_mul]; positivity
  by_cases hc : Real.cos t = 0
  · have hs : Real.sin t ≠ 0 := by
      intro hs
      have := Real.sin_sq_add_cos_sq t
      rw [hs, hc] at this
      norm_num at this
    have : 0 < Real.sin t ^ (2 * N) := by rw [pow_mul]; positivity
    linarith
  · have : 0 < (Ω * Real.cos t) ^ (2 * N) := by
      have : Ω * Real.cos t ≠ 0 := mul_ne_zero hΩ.ne' hc
      rw [pow_mul]; positivity
    linarith

theorem den_ne (N : ℕ) (hN : 0 < N) (Ω : ℝ) (hΩ : 0 < Ω) (θ : ℝ) :
    ∏ j ∈ range N, (Complex.I * Real.sin (θ / 2) - analogPole N Ω j * Real.cos (θ / 2)) ≠ 0 := by
  intro h
  have := prod_normSq N hN Ω (Real.sin (θ / 2)) (Real.cos (θ / 2))
  rw [h, Complex.normSq_zero] at this
  exact absurd this.symm (sin_cos_pos N Ω hΩ (θ / 2)).ne'

theorem eval_ne (N : ℕ) (hN : 0 < N) (Ω : ℝ) (hΩ : 0 < Ω) (θ : ℝ) : (butterDen N Ω).eval (Complex.exp (θ * Complex.I)) ≠ 0 := by
  intro h
  have := den_eval N Ω hΩ θ
  rw [h, zero_mul] at this
  exact mul_ne_zero (pow_ne_zero _ (mul_ne_zero two_ne_zero (Complex.exp_ne_zero _))) (den_ne N hN Ω hΩ θ) this.symm

theorem butterResp_eq (N : ℕ) (hN : 0 < N) (Ω : ℝ) (hΩ : 0 < Ω) (θ : ℝ) : butterResp N Ω θ =
    (Ω * Real.cos (θ / 2)) ^ N / ∏ j ∈ range N, (Complex.I * Real.sin (θ / 2) - analogPole N Ω j * Real.cos (θ / 2)) := by
  have h1 := den_eval N Ω hΩ θ
  have hp : ∏ j ∈ range N, (1 - analogPole N Ω j) ≠ 0 := prod_ne_zero_iff.2 fun j hj => one_sub_pole N Ω hΩ j (mem_range.1 hj)
  have hd := den_ne N hN Ω hΩ θ
  have he := eval_ne N hN Ω hΩ θ
  unfold butterResp butterGain
  rw [(half_angle θ).2.1, div_mul_eq_mul_div, div_div, mul_comm (∏ j ∈ range N, _), h1, mul_pow]
  have hh : (2 * Complex.exp (↑(θ / 2) * Complex.I)) ^ N ≠ 0 := pow_ne_zero _ (mul_ne_zero two_ne_zero (Complex.exp_ne_zero _))
  rw [div_eq_div_iff (mul_ne_zero hh hd) hd, mul_pow]
  ring

/-- The squared magnitude of the response. -/
theorem butterResp_normSq (N : ℕ) (hN : 0 < N) (Ω : ℝ) (hΩ : 0 < Ω) (θ : ℝ) : Complex.normSq (butterResp N Ω θ) =
    (Ω * Real.cos (θ / 2)) ^ (2 * N) / (Real.sin (θ / 2) ^ (2 * N) + (Ω * Real.cos (θ / 2)) ^ (2 * N)) := by
  rw [butterResp_eq N hN Ω hΩ θ, map_div₀, prod_normSq N hN]
  congr 1
  rw [← Complex.ofReal_mul, ← Complex.ofReal_pow, Complex.normSq_ofReal, ← pow_add]
  congr 1
  omega

/-- A constant passes unchanged. -/
theorem butterResp_zero (N : ℕ) (hN : 0 < N) (Ω : ℝ) (hΩ : 0 < Ω) : butterResp N Ω 0 = 1 := by
  rw [butterResp_eq N hN Ω hΩ 0]
  have e : ∏ j ∈ range N, (Complex.I * Real.sin (0 / 2) - analogPole N Ω j * Real.cos (0 / 2)) = (Ω : ℂ) ^ N := by
    rw [zero_div, Real.sin_zero, Real.cos_zero]
    have : ∀ j, Complex.I * ((0 : ℝ) : ℂ) - analogPole N Ω j * ((1 : ℝ) : ℂ) = Ω * Complex.exp (poleAngle N j * Complex.I) := by
      intro j
      unfold analogPole
      push_cast
      ring
    rw [prod_congr rfl fun j _ => this j, prod_mul_distrib, prod_const, card_range, ← Complex.exp_sum, ← sum_mul,
      ← Complex.ofReal_sum, poleAngle_sum]
    simp
  rw [e, zero_div, Real.cos_zero]
  push_cast
  rw [mul_one]
  exact div_self (pow_ne_zero _ (by exact_mod_cast hΩ.ne'))

/-! ## Recurrences -/

/-- The sequence one step later. -/
noncomputable def stepOn : (ℕ → ℂ) →ₗ[ℂ] (ℕ → ℂ) := LinearMap.funLeft ℂ ℂ Nat.succ

theorem stepOn_pow (i : ℕ) (u : ℕ → ℂ) (n : ℕ) : (stepOn ^ i) u n = u (n + i) := by
  induction i generalizing n with
  | zero => rfl
  | succ i ih =>
    rw [pow_succ', Module.End.mul_apply]
    show (stepOn ^ i) u (n + 1) = _
    rw [ih]
    congr 1
    omega

theorem aeval_step (P : ℂ[X]) (N : ℕ) (h : P.natDegree ≤ N) (u : ℕ → ℂ) (n : ℕ) :
    aeval stepOn P u n = ∑ i ∈ range (N + 1), P.coeff i * u (n + i) := by
  rw [aeval_eq_sum_range' (n := N + 1) (by omega), LinearMap.sum_apply, Finset.sum_apply]
  apply sum_congr rfl
  intro i _
  rw [LinearMap.smul_apply, Pi.smul_apply, stepOn_pow, smul_eq_mul]

theorem aeval_geom (P : ℂ[X]) (E : ℂ) : aeval stepOn P (fun n => E ^ n) = fun n => P.eval E * E ^ n := by
  funext n
  rw [aeval_step P P.natDegree le_rfl, eval_eq_sum_range, sum_mul]
  apply sum_congr rfl
  intro i _
  rw [pow_add]
  ring

theorem factor_apply (z : ℂ) (u : ℕ → ℂ) (n : ℕ) : aeval stepOn (X - C z) u n = u (n + 1) - z * u n := by
  rw [map_sub, aeval_X, aeval_C, LinearMap.sub_apply, Pi.sub_apply]
  rfl

theorem first_order (z : ℂ) (ρ r : ℝ) (hz : ‖z‖ ≤ ρ) (hr0 : 0 < r) (hr : ρ < r) (u : ℕ → ℂ) (C : ℝ)
    (h : ∀ n, ‖u (n + 1) - z * u n‖ ≤ C * r ^ n) (n : ℕ) : ‖u n‖ ≤ max ‖u 0‖ (C / (r - ρ)) * r ^ n := by
  have hd : 0 < r - ρ := by linarith
  induction n with
  | zero => simp
  | succ n ih =>
    have h1 : ‖u (n + 1)‖ ≤ ‖u (n + 1) - z * u n‖ + ‖z * u n‖ := by
      have := norm_add_le (u (n + 1) - z * u n) (z * u n)
      rwa [sub_add_cancel] at this
    rw [norm_mul] at h1
    have hm : C ≤ (r - ρ) * max ‖u 0‖ (C / (r - ρ)) := by
      rw [← div_le_iff₀' hd]
      exact le_max_right _ _
    have hp := pow_pos hr0 n
    have h2 : ‖z‖ * ‖u n‖ ≤ ρ * (max ‖u 0‖ (C / (r - ρ)) * r ^ n) :=
      mul_le_mul hz ih (norm_nonneg _) ((norm_nonneg z).trans hz)
    have h3 := mul_le_mul_of_nonneg_right hm hp.le
    rw [pow_succ]
    nlinarith [h n]

/-- Solutions of a stable recurrence decay. -/
theorem factor_decay (z : ℕ → ℂ) (k : ℕ) (ρ r : ℝ) (hz : ∀ j < k, ‖z j‖ ≤ ρ) (hr0 : 0 < r) (hr : ρ < r) (u : ℕ → ℂ) (C : ℝ)
    (h : ∀ n, ‖aeval stepOn (∏ j ∈ range k, (X - Polynomial.C (z j))) u n‖ ≤ C * r ^ n) : ∃ D, ∀ n, ‖u n‖ ≤ D * r ^ n := by
  induction k generalizing u C with
  | zero => exact ⟨C, by simpa using h⟩
  | succ k ih =>
    rw [prod_range_succ, map_mul] at h
    obtain ⟨D, hD⟩ := ih (fun j hj => hz j (by omega)) (aeval stepOn (X - Polynomial.C (z k)) u) C h
    exact ⟨_, first_order (z k) ρ r (hz k (by omega)) hr0 hr u D fun n => by rw [← factor_apply]; exact hD n⟩

/-- Solutions of a stable recurrence starting at zero are bounded by the excitation. -/
theorem factor_bounded (z : ℕ → ℂ) (k : ℕ) (ρ : ℝ) (hρ : ρ < 1) (hz : ∀ j < k, ‖z j‖ ≤ ρ) (u : ℕ → ℂ) (hu : ∀ n < k, u n = 0) (C : ℝ)
    (h : ∀ n, ‖aeval stepOn (∏ j ∈ range k, (X - Polynomial.C (z j))) u n‖ ≤ C) (n : ℕ) : ‖u n‖ ≤ C / (1 - ρ) ^ k := by
  have hC : 0 ≤ C := (norm_nonneg _).trans (h 0)
  induction k generalizing u n with
  | zero => simpa using h n
  | succ k ih =>
    rw [prod_range_succ, map_mul] at h
    have h1 := ih (fun j hj => hz j (by omega)) (aeval stepOn (X - Polynomial.C (z k)) u) (by
      intro n hn
      rw [factor_apply, hu n (by omega), hu (n + 1) (by omega)]
      simp) h
    have hd : 0 < 1 - ρ := by linarith
    have h2 := first_order (z k) ρ 1 (hz k (by omega)) one_pos hρ u (C / (1 - ρ) ^ k) (fun n => by
      rw [← factor_apply, one_pow, mul_one]
      exact h1 n) n
    rw [one_pow, mul_one, hu 0 (by omega), norm_zero, max_eq_right (by positivity), div_div, ← pow_succ] at h2
    exact h2

/-! ## Filters -/

section Filter

variable {V W : Type} [AddCommGroup V] [Module ℝ V] [AddCommGroup W] [Module ℝ W]

/-- The output of a filter for a signal without end. -/
noncomputable def filterOut (b a : List ℝ) (x : ℕ → V) : ℕ → V
  | n => (∑ k ∈ range (n + 1), b.getD k 0 • x (n - k)) - ∑ k : Fin n, a.getD (k + 1) 0 • filterOut b a x (n - 1 - k)
  termination_by n => n
  decreasing_by
    have := k.isLt
    omega

theorem filterOut_eq (b a : List ℝ) (ha : a.getD 0 0 = 1) (T : ℕ) (x : ℕ → V) : FilterEq b a T x (filterOut b a x) := by
  intro n _
  rw [ha, one_smul, filterOut, Finset.sum_range fun k => a.getD (k + 1) 0 • filterOut b a x (n - 1 - k)]

theorem Spec.FilterEq.map (L : V →ₗ[ℝ] W) {b a : List ℝ} {T : ℕ} {x y : ℕ → V} (h : FilterEq b a T x y) :
    FilterEq b a T (fun n => L (x n)) fun n => L (y n) := by
  intro n hn
  have := congrArg L (h n hn)
  simpa [map_sum] using this

theorem Spec.FilterEq.add {b a : List ℝ} {T : ℕ} {x y x' y' : ℕ → V} (h : FilterEq b a T x y) (h' : FilterEq b a T x' y') :
    FilterEq b a T (fun n => x n + x' n) fun n => y n + y' n := by
  intro n hn
  have h1 := h n hn
  have h2 := h' n hn
  simp only [smul_add, sum_add_distrib]
  rw [h1, h2]
  abel

end Filter

theorem butterworth_num (N : ℕ) (w : ℝ) (k : ℕ) : (butterworth N w).1.getD k 0 = (butterGain N (warp w)).re * N.choose k := by
  unfold butterworth
  simp only
  rw [List.getD_eq_getElem?_getD, List.getElem?_map]
  by_cases h : k < N + 1
  · rw [List.getElem?_range h]
    rfl
  · rw [List.getElem?_eq_none (by simp; omega), Nat.choose_eq_zero_of_lt (by omega)]
    simp

theorem butterworth_den (N : ℕ) (w : ℝ) (k : ℕ) (hk : k ≤ N) : (butterworth N w).2.getD k 0 = ((butterDen N (warp w)).coeff (N - k)).re := by
  unfold butterworth
  simp only
  rw [List.getD_eq_getElem?_getD, List.getElem?_map, List.getElem?_range (by omega)]
  rfl

theorem butterworth_one (N : ℕ) (w : ℝ) : (butterworth N w).2.getD 0 0 = 1 := by
  rw [butterworth_den N w 0 (by omega), Nat.sub_zero]
  have := butterDen_monic N (warp w)
  rw [Monic, leadingCoeff, butterDen_degree] at this
  rw [this, Complex.one_re]

theorem butterworth_length (N : ℕ) (w : ℝ) : (butterworth N w).1.length = N + 1 ∧ (butterworth N w).2.length = N + 1 := by
  unfold butterworth
  simp

theorem butterworth_palindrome (N : ℕ) (w : ℝ) : (butterworth N w).1.reverse = (butterworth N w).1 := by
  apply List.ext_getElem?
  intro k
  by_cases h : k < N + 1
  · have hl := (butterworth_length N w).1
    rw [List.getElem?_reverse (by omega), hl]
    unfold butterworth
    simp only
    rw [List.getElem?_map, List.getElem?_map, List.getElem?_range h, List.getElem?_range (by omega)]
    simp only [Option.map_some]
    rw [← Nat.choose_symm (show k ≤ N by omega)]
    rfl
  · have hl := (butterworth_length N w).1
    rw [List.getElem?_eq_none (by rw [List.length_reverse]; omega), List.getElem?_eq_none (by omega)]

theorem natDegree_one_pow (N : ℕ) : ((X + 1 : ℂ[X]) ^ N).natDegree ≤ N := by
  have h1 : (X + 1 : ℂ[X]).natDegree ≤ 1 := by
    have := natDegree_X_add_C (1 : ℂ)
    rw [map_one] at this
    exact this.le
  have := natDegree_pow_le_of_le N h1
  simpa using this

/-- The difference equation as a polynomial in the shift. -/
theorem filter_poly (N : ℕ) (w : ℝ) (x y : ℕ → ℂ) (h : ∀ T, FilterEq (butterworth N w).1 (butterworth N w).2 T x y) (n : ℕ) :
    aeval stepOn (butterDen N (warp w)) y n = butterGain N (warp w) * aeval stepOn ((X + 1 : ℂ[X]) ^ N) x n := by
  have h1 := h (n + N + 1) (n + N) (by omega)
  have h2 : ∑ k ∈ range (N + 1), (butterworth N w).2.getD k 0 • y (n + N - k) = ∑ k ∈ range (N + 1), (butterworth N w).1.getD k 0 • x (n + N - k) := by
    have hb := (butterworth_length N w).1
    have ha := (butterworth_length N w).2
    rw [sum_range_succ', Nat.sub_zero, h1]
    have e1 : ∑ k ∈ range (n + N + 1), (butterworth N w).1.getD k 0 • x (n + N - k) = ∑ k ∈ range (N + 1), (butterworth N w).1.getD k 0 • x (n + N - k) := by
      symm
      apply sum_subset (by intro k; simp only [mem_range]; omega)
      intro k _ hk
      rw [mem_range] at hk
      rw [getD_big _ _ (by omega), zero_smul]
    have e2 : ∑ k ∈ range (n + N), (butterworth N w).2.getD (k + 1) 0 • y (n + N - 1 - k) = ∑ k ∈ range N, (butterworth N w).2.getD (k + 1) 0 • y (n + N - (k + 1)) := by
      symm
      rw [← sum_subset (s₁ := range N) (s₂ := range (n + N)) (by intro k; simp only [mem_range]; omega) (by
        intro k _ hk
        rw [mem_range] at hk
        rw [getD_big _ _ (by omega), zero_smul])]
      apply sum_congr rfl
      intro k _
      rw [show n + N - (k + 1) = n + N - 1 - k by omega]
    rw [e1, e2]
    abel
  rw [aeval_step _ N (butterDen_degree N _).le, aeval_step _ N (natDegree_one_pow N), mul_sum, ← sum_range_reflect,
    ← sum_range_reflect (fun i => butterGain N (warp w) * (((X + 1 : ℂ[X]) ^ N).coeff i * x (n + i)))]
  have e1 : ∀ k ∈ range (N + 1), (butterworth N w).2.getD k 0 • y (n + N - k) =
      (butterDen N (warp w)).coeff (N + 1 - 1 - k) * y (n + (N + 1 - 1 - k)) := by
    intro k hk
    have hk' := mem_range.1 hk
    rw [butterworth_den N w k (by omega), Complex.real_smul, butterDen_real]
    congr 2
    omega
  have e2 : ∀ k ∈ range (N + 1), (butterworth N w).1.getD k 0 • x (n + N - k) =
      butterGain N (warp w) * (((X + 1 : ℂ[X]) ^ N).coeff (N + 1 - 1 - k) * x (n + (N + 1 - 1 - k))) := by
    intro k hk
    have hk' := mem_range.1 hk
    rw [butterworth_num, Complex.real_smul, coeff_X_add_one_pow, Complex.ofReal_mul, butterGain_real, Nat.add_sub_cancel,
      Nat.choose_symm (by omega), Complex.ofReal_natCast, mul_assoc]
    congr 3
    omega
  rw [← sum_congr rfl e1, ← sum_congr rfl e2, h2]

theorem poles_bound (N : ℕ) (Ω : ℝ) (hΩ : 0 < Ω) : ∃ ρ : ℝ, 0 ≤ ρ ∧ ρ < 1 ∧ ∀ j < N, ‖digitalPole N Ω j‖ ≤ ρ := by
  have : ∀ k ≤ N, ∃ ρ : ℝ, 0 ≤ ρ ∧ ρ < 1 ∧ ∀ j < k, ‖digitalPole N Ω j‖ ≤ ρ := by
    intro k
    induction k with
    | zero => exact fun _ => ⟨0, le_rfl, one_pos, fun j hj => by omega⟩
    | succ k ih =>
      intro hk
      obtain ⟨ρ, h0, h1, h2⟩ := ih (by omega)
      refine ⟨max ρ ‖digitalPole N Ω k‖, h0.trans (le_max_left _ _), max_lt h1 (digitalPole_norm N Ω hΩ k (by omega)), ?_⟩
      intro j hj
      rcases Nat.lt_succ_iff_lt_or_eq.1 hj with h | h
      · exact (h2 j h).trans (le_max_left _ _)
      · rw [h]
        exact le_max_right _ _
  exact this N le_rfl

/-- A harmonic signal settles to the response. -/
theorem harmonic_settles (N : ℕ) (hN : 0 < N) (w : ℝ) (hw : 0 < warp w) (θ : ℝ) (y : ℕ → ℂ)
    (h : ∀ T, FilterEq (butterworth N w).1 (butterworth N w).2 T (fun n => Complex.exp (θ * Complex.I) ^ n) y) :
    ∃ C r : ℝ, 0 ≤ r ∧ r < 1 ∧ ∀ n, ‖y n - butterResp N (warp w) θ * Complex.exp (θ * Complex.I) ^ n‖ ≤ C * r ^ n := by
  obtain ⟨ρ, h0, h1, h2⟩ := poles_bound N (warp w) hw
  have he := eval_ne N hN (warp w) hw θ
  have hz : aeval stepOn (butterDen N (warp w)) (y - butterResp N (warp w) θ • fun n => Complex.exp (θ * Complex.I) ^ n) = 0 := by
    rw [map_sub, map_smul, aeval_geom]
    funext n
    rw [Pi.sub_apply, filter_poly N w _ y h n, aeval_geom]
    simp only [Pi.smul_apply, smul_eq_mul, eval_pow, eval_add, eval_X, eval_one, Pi.zero_apply]
    unfold butterResp
    field_simp
    ring
  obtain ⟨D, hD⟩ := factor_decay (digitalPole N (warp w)) N ρ ((1 + ρ) / 2) h2 (by linarith) (by linarith)
    (y - butterResp N (warp w) θ • fun n => Complex.exp (θ * Complex.I) ^ n) 0 (by
      intro n
      have := congrFun hz n
      unfold butterDen at this
      rw [this]
      simp)
  exact ⟨D, (1 + ρ) / 2, by linarith, by linarith, hD⟩

section Late

variable {V : Type} [AddCommGroup V] [Module ℝ V]

/-- A signal one step late. -/
noncomputable def late (u : ℕ → V) : ℕ → V
  | 0 => 0
  | n + 1 => u n

theorem late_filter (b a : List ℝ) (x y : ℕ → V) (h : ∀ T, FilterEq b a T x y) (T : ℕ) : FilterEq b a T (late x) (late y) := by
  intro n _
  cases n with
  | zero => simp [late]
  | succ n =>
    have := h (n + 1) n (by omega)
    rw [sum_range_succ _ (n + 1), sum_range_succ (fun k => a.getD (k + 1) 0 • late y (n + 1 - 1 - k)) n]
    rw [show n + 1 - (n + 1) = 0 by omega, show n + 1 - 1 - n = 0 by omega]
    show a.getD 0 0 • y n = _ + b.getD (n + 1) 0 • (0 : V) - (_ + a.getD (n + 1) 0 • (0 : V))
    rw [smul_zero, smul_zero, add_zero, add_zero, this]
    congr 1
    · apply sum_congr rfl
      intro k hk
      have hk' := mem_range.1 hk
      rw [show n + 1 - k = (n - k) + 1 by omega]
      rfl
    · apply sum_congr rfl
      intro k hk
      have hk' := mem_range.1 hk
      rw [show n + 1 - 1 - k = (n - 1 - k) + 1 by omega]
      rfl

theorem late_iter (u : ℕ → V) (N : ℕ) : (∀ n < N, (late^[N] u) n = 0) ∧ ∀ n, (late^[N] u) (n + N) = u n := by
  induction N with
  | zero => exact ⟨fun n hn => by omega, fun n => rfl⟩
  | succ N ih =>
    rw [Function.iterate_succ_apply']
    constructor
    · intro n hn
      cases n with
      | zero => rfl
      | succ n => exact ih.1 n (by omega)
    · intro n
      exact ih.2 n

end Late

/-- Outputs are bounded by the inputs. -/
theorem filter_bounded (N : ℕ) (w : ℝ) (hw : 0 < warp w) : ∃ K : ℝ, 0 ≤ K ∧ ∀ (x y : ℕ → ℂ) (M : ℝ),
    (∀ T, FilterEq (butterworth N w).1 (butterworth N w).2 T x y) → (∀ n, ‖x n‖ ≤ M) → ∀ n, ‖y n‖ ≤ K * M := by
  obtain ⟨ρ, h0, h1, h2⟩ := poles_bound N (warp w) hw
  have hd : 0 < 1 - ρ := by linarith
  refine ⟨‖butterGain N (warp w)‖ * 2 ^ N / (1 - ρ) ^ N, by positivity, ?_⟩
  intro x y M hxy hx n
  have hM : 0 ≤ M := (norm_nonneg _).trans (hx 0)
  have hf : ∀ k T, FilterEq (butterworth N w).1 (butterworth N w).2 T (late^[k] x) (late^[k] y) := by
    intro k
    induction k with
    | zero => exact hxy
    | succ k ih =>
      rw [Function.iterate_succ_apply', Function.iterate_succ_apply']
      exact late_filter _ _ _ _ ih
  have hlx : ∀ n, ‖(late^[N] x) n‖ ≤ M := by
    intro n
    by_cases hn : n < N
    · rw [(late_iter x N).1 n hn, norm_zero]
      exact hM
    · have := (late_iter x N).2 (n - N)
      rw [Nat.sub_add_cancel (by omega)] at this
      rw [this]
      exact hx _
  have key := factor_bounded (digitalPole N (warp w)) N ρ h1 h2 (late^[N] y) (late_iter y N).1 (‖butterGain N (warp w)‖ * (2 ^ N * M)) (by
    intro m
    have e := filter_poly N w _ _ (hf N) m
    unfold butterDen at e
    rw [e, norm_mul]
    apply mul_le_mul_of_nonneg_left _ (norm_nonneg _)
    rw [aeval_step _ N (natDegree_one_pow N)]
    refine (norm_sum_le _ _).trans ?_
    have : ∀ i ∈ range (N + 1), ‖((X + 1 : ℂ[X]) ^ N).coeff i * (late^[N] x) (m + i)‖ ≤ (N.choose i : ℝ) * M := by
      intro i _
      rw [norm_mul, coeff_X_add_one_pow, Complex.norm_natCast]
      exact mul_le_mul_of_nonneg_left (hlx _) (Nat.cast_nonneg _)
    refine (sum_le_sum this).trans ?_
    rw [← sum_mul, ← Nat.cast_sum, Nat.sum_range_choose]
    push_cast
    exact le_rfl) (n + N)
  rw [(late_iter y N).2 n] at key
  refine key.trans (le_of_eq ?_)
  ring

end PT
