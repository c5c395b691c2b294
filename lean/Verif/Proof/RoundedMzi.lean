import Verif.Spec.RoundedMzi
import Verif.Proof.RoundedWave
import Mathlib.Analysis.InnerProductSpace.PiL2
import Mathlib.Algebra.Order.Chebyshev

/-!
# Errors of the matrix of an Mzi
-/

namespace PT
open Spec

namespace Rmz

/-- Products in single precision. -/
theorem prod_core {a b q : ℚ} {A B δ σ : ℝ} (hσ : |σ| = 1) (hq : (q : ℝ) = σ * (((fl32 a : ℚ) : ℝ) * ((fl32 b : ℚ) : ℝ))) (hA : |A| ≤ 1)
    (hB : |B| ≤ 1) (hδ : 0 ≤ δ) (ha : |(a : ℝ) - A| ≤ δ) (ha1 : |(a : ℝ)| ≤ 1 + 1 / 2 ^ 52) (hb : |(b : ℝ) - B| ≤ 1 / 2 ^ 52) :
    |((fl32 q : ℚ) : ℝ) - σ * (A * B)| ≤ δ + 1 / 2 ^ 21 := by
  have hη : (1 : ℝ) / 2 ^ 150 ≤ 1 / 2 ^ 60 := one_div_le_one_div_of_le (by positivity) (pow_le_pow_right₀ (by norm_num) (by norm_num))
  have f1 := Rwv.fl32_real a
  have f2 := Rwv.fl32_real b
  have f3 := Rwv.fl32_real q
  rw [hq, abs_mul σ, hσ, one_mul] at f3
  generalize (1 : ℝ) / 2 ^ 150 = η at *
  generalize ((fl32 q : ℚ) : ℝ) = r at *
  generalize ((fl32 a : ℚ) : ℝ) = x at *
  generalize ((fl32 b : ℚ) : ℝ) = y at *
  generalize (a : ℝ) = a at *
  generalize (b : ℝ) = b at *
  have hb1 : |b| ≤ 1 + 1 / 2 ^ 52 := by
    have := abs_add_le (b - B) B
    rw [sub_add_cancel] at this
    linarith
  have half : ∀ z : ℝ, |z| ≤ 1 + 1 / 2 ^ 52 → |z| / 2 ^ 24 + η ≤ 1 / 2 ^ 23 - 1 / 2 ^ 50 := fun z hz => by
    have := div_le_div_of_nonneg_right hz (by positivity : (0 : ℝ) ≤ 2 ^ 24)
    have e : ((1 : ℝ) + 1 / 2 ^ 52) / 2 ^ 24 + 1 / 2 ^ 60 ≤ 1 / 2 ^ 23 - 1 / 2 ^ 50 := by norm_num
    linarith
  have g1 := f1.trans (half _ ha1)
  have g2 := f2.trans (half _ hb1)
  have gx : |x - A| ≤ δ + 1 / 2 ^ 23 := by
    have := abs_sub_le x a A
    have : (0 : ℝ) < 1 / 2 ^ 50 := by positivity
    linarith
  have gy : |y - B| ≤ 1 / 2 ^ 23 := by
    have := abs_sub_le y b B
    have : (1 : ℝ) / 2 ^ 52 ≤ 1 / 2 ^ 50 := by norm_num
    linarith
  have x1 : |x| ≤ 1 + 1 / 2 ^ 22 := by
    have := abs_add_le (x - a) a
    rw [sub_add_cancel] at this
    have e : (1 : ℝ) / 2 ^ 23 - 1 / 2 ^ 50 + (1 + 1 / 2 ^ 52) ≤ 1 + 1 / 2 ^ 22 := by norm_num
    linarith
  have y1 : |y| ≤ 1 + 1 / 2 ^ 23 := by
    have := abs_add_le (y - B) B
    rw [sub_add_cancel] at this
    linarith
  have g4 : |x * y - A * B| ≤ (δ + 1 / 2 ^ 23) * 1 + (1 + 1 / 2 ^ 22) * (1 / 2 ^ 23) := by
    have e : x * y - A * B = (x - A) * B + x * (y - B) := by ring
    rw [e]
    refine (abs_add_le _ _).trans (add_le_add ?_ ?_)
    · rw [abs_mul]
      exact mul_le_mul gx hB (abs_nonneg _) (by positivity)
    · rw [abs_mul]
      exact mul_le_mul x1 gy (abs_nonneg _) (by positivity)
  have g6 : |x * y| ≤ (1 + 1 / 2 ^ 22) * (1 + 1 / 2 ^ 23) := by
    rw [abs_mul]
    exact mul_le_mul x1 y1 (abs_nonneg _) (by positivity)
  have g7 := div_le_div_of_nonneg_right g6 (by positivity : (0 : ℝ) ≤ 2 ^ 24)
  have t := abs_sub_le r (σ * (x * y)) (σ * (A * B))
  rw [← mul_sub, abs_mul σ, hσ, one_mul] at t
  have e : (1 : ℝ) / 2 ^ 23 * 1 + (1 + 1 / 2 ^ 22) * (1 / 2 ^ 23) + (1 + 1 / 2 ^ 22) * (1 + 1 / 2 ^ 23) / 2 ^ 24 + 1 / 2 ^ 60 ≤ 1 / 2 ^ 21 := by
    norm_num
  linarith

theorem prod_near {a b : ℚ} {A B δ : ℝ} (hA : |A| ≤ 1) (hB : |B| ≤ 1) (hδ : 0 ≤ δ) (ha : |(a : ℝ) - A| ≤ δ) (ha1 : |(a : ℝ)| ≤ 1 + 1 / 2 ^ 52)
    (hb : |(b : ℝ) - B| ≤ 1 / 2 ^ 52) : |((fl32 (fl32 a * fl32 b) : ℚ) : ℝ) - A * B| ≤ δ + 1 / 2 ^ 21 := by
  have h := prod_core (σ := 1) (q := fl32 a * fl32 b) abs_one (by push_cast; ring) hA hB hδ ha ha1 hb
  rwa [one_mul] at h

theorem prod_near_neg {a b : ℚ} {A B δ : ℝ} (hA : |A| ≤ 1) (hB : |B| ≤ 1) (hδ : 0 ≤ δ) (ha : |(a : ℝ) - A| ≤ δ)
    (ha1 : |(a : ℝ)| ≤ 1 + 1 / 2 ^ 52) (hb : |(b : ℝ) - B| ≤ 1 / 2 ^ 52) :
    |((fl32 (-fl32 a * fl32 b) : ℚ) : ℝ) - -(A * B)| ≤ δ + 1 / 2 ^ 21 := by
  have h := prod_core (σ := -1) (q := -fl32 a * fl32 b) (by rw [abs_neg, abs_one]) (by push_cast; ring) hA hB hδ ha ha1 hb
  rwa [neg_one_mul] at h

/-- The size of what the library computes. -/
theorem lib_size {m : Libm} (hm : Accurate m) {p : ℚ} (hp : |p| ≤ 1000) : |(m.cos p : ℝ)| ≤ 1 + 1 / 2 ^ 52 ∧ |(m.sin p : ℝ)| ≤ 1 + 1 / 2 ^ 52 := by
  obtain ⟨hc, hs⟩ := hm.1 p hp
  constructor
  · have := abs_add_le ((m.cos p : ℝ) - Real.cos p) (Real.cos p)
    rw [sub_add_cancel] at this
    linarith [Real.abs_cos_le_one (p : ℝ)]
  · have := abs_add_le ((m.sin p : ℝ) - Real.sin p) (Real.sin p)
    rw [sub_add_cancel] at this
    linarith [Real.abs_sin_le_one (p : ℝ)]

/-- A complex number from its parts. -/
theorem pair_near {a b : ℚ} {z : ℂ} {e : ℝ} (h1 : |(a : ℝ) - z.re| ≤ e) (h2 : |(b : ℝ) - z.im| ≤ e) : ‖pairComplex (a, b) - z‖ ≤ 2 * e := by
  refine (Complex.norm_le_abs_re_add_abs_im _).trans ?_
  have e1 : (pairComplex (a, b) - z).re = (a : ℝ) - z.re := rfl
  have e2 : (pairComplex (a, b) - z).im = (b : ℝ) - z.im := rfl
  rw [e1, e2]
  linarith

/-- The matrix, if the phases are known. -/
theorem mzi_of {m : Libm} (hm : Accurate m) {phi theta length neff wl0 ng wl : ℚ} {x y δ : ℝ} (hδ : 0 ≤ δ) (ht : |theta| ≤ 1000)
    (h0 : |phi0R fl length neff wl0 ng wl| ≤ 1000) (h1 : |fl (phi0R fl length neff wl0 ng wl + phi)| ≤ 1000)
    (c0 : |(m.cos (phi0R fl length neff wl0 ng wl) : ℝ) - Real.cos x| ≤ δ) (s0 : |(m.sin (phi0R fl length neff wl0 ng wl) : ℝ) - Real.sin x| ≤ δ)
    (c1 : |(m.cos (fl (phi0R fl length neff wl0 ng wl + phi)) : ℝ) - Real.cos (x + y)| ≤ δ)
    (s1 : |(m.sin (fl (phi0R fl length neff wl0 ng wl + phi)) : ℝ) - Real.sin (x + y)| ≤ δ) (i j : Fin 4) :
    ‖computed (mziR fl fl32 m phi theta length neff wl0 ng wl) i j - mziBetween x y theta i j‖ ≤ 2 * (δ + 1 / 2 ^ 21) := by
  obtain ⟨ct, st⟩ := hm.1 _ ht
  obtain ⟨b0, d0⟩ := lib_size hm h0
  obtain ⟨b1, d1⟩ := lib_size hm h1
  have hC := Real.abs_cos_le_one
  have hS := Real.abs_sin_le_one
  have a1 := prod_near (hC _) (hC _) hδ c1 b1 ct
  have a2 := prod_near (hS _) (hC _) hδ s1 d1 ct
  have a3 := prod_near (hC _) (hS _) hδ c1 b1 st
  have a4 := prod_near (hS _) (hS _) hδ s1 d1 st
  have a5 := prod_near_neg (hC _) (hS _) hδ c0 b0 st
  have a6 := prod_near_neg (hS _) (hS _) hδ s0 d0 st
  have a7 := prod_near (hC _) (hC _) hδ c0 b0 ct
  have a8 := prod_near (hS _) (hC _) hδ s0 d0 ct
  have re : ∀ p q : ℝ, (Complex.exp (p * Complex.I) * (q : ℂ)).re = Real.cos p * q := fun p q => by
    rw [Complex.re_mul_ofReal, Complex.exp_ofReal_mul_I_re]
  have im : ∀ p q : ℝ, (Complex.exp (p * Complex.I) * (q : ℂ)).im = Real.sin p * q := fun p q => by
    rw [Complex.im_mul_ofReal, Complex.exp_ofReal_mul_I_im]
  have zero : ‖pairComplex (0, 0) - 0‖ ≤ 2 * (δ + 1 / 2 ^ 21) := by
    rw [show pairComplex (0, 0) = 0 from Complex.ext (Rat.cast_zero) (Rat.cast_zero), sub_zero, norm_zero]
    positivity
  have e01 := pair_near (z := Complex.exp ((x + y : ℝ) * Complex.I) * (Real.cos theta : ℂ)) ((re _ _).symm ▸ a1) ((im _ _).symm ▸ a2)
  have e02 := pair_near (z := Complex.exp ((x + y : ℝ) * Complex.I) * (Real.sin theta : ℂ)) ((re _ _).symm ▸ a3) ((im _ _).symm ▸ a4)
  have e13 := pair_near (z := -(Complex.exp ((x : ℝ) * Complex.I) * (Real.sin theta : ℂ))) ((congrArg Neg.neg (re _ _)).symm ▸ a5)
    ((congrArg Neg.neg (im _ _)).symm ▸ a6)
  have e23 := pair_near (z := Complex.exp ((x : ℝ) * Complex.I) * (Real.cos theta : ℂ)) ((re _ _).symm ▸ a7) ((im _ _).symm ▸ a8)
  fin_cases i <;> fin_cases j
  exacts [zero, e01, e02, zero, e01, zero, zero, e13, e02, zero, zero, e23, zero, e13, e23, zero]

/-- The phase of the arms. -/
theorem phi0_near {length loss neff wl0 ng wl : ℚ} (h : Usual length loss neff wl0 ng wl) :
    ∃ k : ℤ, |((phi0R fl length neff wl0 ng wl : ℚ) : ℝ) - (armPhase length neff wl0 ng wl - k * (2 * Real.pi))| ≤
      turn (waveguideOf length loss neff wl0 ng 0) wl / 2 ^ 48 + 1 / 2 ^ 41 := by
  obtain ⟨T, ow, hTu⟩ := Rwv.long_near h 0
  obtain ⟨p, hp⟩ : ∃ p : ℚ, p = fl (fl (fl (2 * npPi * neffR fl neff wl0 ng wl) * length) / wl) := ⟨_, rfl⟩
  unfold phi0R armPhase
  obtain ⟨X, hX⟩ : ∃ X : ℝ, X = 2 * Real.pi * (neff + (wl0 - wl) * (ng - neff) / wl0) * length / wl := ⟨_, rfl⟩
  rw [← hp, ← hX] at ow
  rw [← hX, ← hp]
  have t5 : 0 ≤ turn (waveguideOf length loss neff wl0 ng 0) wl := by
    have h1 : (0 : ℝ) ≤ length := by exact_mod_cast h.length_ok.1
    have h2 : (0 : ℝ) ≤ wl := by exact_mod_cast (le_trans (by norm_num) h.wl_ok.1 : (0 : ℚ) ≤ wl)
    unfold turn waveguideOf
    positivity
  generalize turn (waveguideOf length loss neff wl0 ng 0) (wl : ℝ) = Φ at *
  have hT0 : 0 ≤ T := ow.nonneg
  have hsize : |(p : ℝ)| ≤ 2 * T := ow.size.trans (by
    rw [mul_comm 2 T]
    refine mul_le_mul_of_nonneg_left ?_ hT0
    unfold Rwv.u
    norm_num)
  have herr : |(p : ℝ) - X| ≤ T * (10 * Rwv.u) := ow.2.trans (by
    refine mul_le_mul_of_nonneg_left ?_ hT0
    unfold Rwv.u
    norm_num)
  obtain ⟨k, hk, -, -⟩ := Rwv.mod_near p
  refine ⟨k, ?_⟩
  generalize ((modR fl p (2 * npPi) : ℚ) : ℝ) = r at *
  have e : r - (X - k * (2 * Real.pi)) = (r - (p - k * (2 * Real.pi))) + ((p : ℝ) - X) := by ring
  rw [e]
  have t1 := abs_add_le (r - (p - k * (2 * Real.pi))) ((p : ℝ) - X)
  have t3 : (|(p : ℝ)| + 16) * Rwv.u ≤ (2 * T + 16) * Rwv.u := mul_le_mul_of_nonneg_right (by linarith) Rwv.u_pos.le
  have t4 : T * (12 * Rwv.u) ≤ (Φ + 1) * (12 * Rwv.u) := mul_le_mul_of_nonneg_right hTu (by linarith [Rwv.u_pos])
  have t6 : Φ * (12 * Rwv.u) ≤ Φ / 2 ^ 48 := by
    unfold Rwv.u
    rw [div_eq_mul_one_div]
    exact mul_le_mul_of_nonneg_left (by norm_num) t5
  have t7 : 12 * Rwv.u + 16 * Rwv.u ≤ 1 / 2 ^ 41 := by unfold Rwv.u; norm_num
  linarith

/-- The reduced phase is at most about one turn. -/
theorem phi0_size (length neff wl0 ng wl : ℚ) : 0 ≤ phi0R fl length neff wl0 ng wl ∧ phi0R fl length neff wl0 ng wl ≤ 8 := by
  obtain ⟨k, -, h1, h2⟩ := Rwv.mod_near (fl (fl (fl (2 * npPi * neffR fl neff wl0 ng wl) * length) / wl))
  exact ⟨h1, h2⟩

/-- The shifted phase. -/
theorem phi1_size {phi : ℚ} (hphi : |phi| ≤ 500) (length neff wl0 ng wl : ℚ) : |fl (phi0R fl length neff wl0 ng wl + phi)| ≤ 1000 := by
  obtain ⟨h1, h2⟩ := phi0_size length neff wl0 ng wl
  generalize phi0R fl length neff wl0 ng wl = r at *
  obtain ⟨p1, p2⟩ := abs_le.mp hphi
  have u1 : fl (r + phi) ≤ fl ((508 : ℕ) : ℚ) := fl_mono (by push_cast; linarith)
  have u2 : fl (-508) ≤ fl (r + phi) := fl_mono (by linarith)
  rw [show fl (-508) = -508 by decide +kernel] at u2
  rw [fl_nat (by norm_num)] at u1
  push_cast at u1
  rw [abs_le]
  constructor <;> linarith

/-- The exact matrix conserves power. -/
theorem exact_power (x y t : ℝ) (v : Fin 4 → ℂ) : power ((mziBetween x y t).mulVec v) = power v := by
  unfold power mziBetween
  obtain ⟨a, ha⟩ : ∃ a, a = Complex.exp ((x + y : ℝ) * Complex.I) := ⟨_, rfl⟩
  obtain ⟨b, hb⟩ : ∃ b, b = Complex.exp ((x : ℝ) * Complex.I) := ⟨_, rfl⟩
  have na : Complex.normSq a = 1 := by rw [ha, Complex.normSq_eq_norm_sq, Complex.norm_exp_ofReal_mul_I, one_pow]
  have nb : Complex.normSq b = 1 := by rw [hb, Complex.normSq_eq_norm_sq, Complex.norm_exp_ofReal_mul_I, one_pow]
  have hcs := Real.sin_sq_add_cos_sq t
  simp only [← ha, ← hb]
  generalize Real.cos t = c at *
  generalize Real.sin t = s at *
  rw [Complex.normSq_apply] at na nb
  simp only [Fin.sum_univ_four, Matrix.mulVec, dotProduct, Complex.normSq_apply]
  simp [Complex.add_re, Complex.add_im, Complex.mul_re, Complex.mul_im]
  generalize a.re = p at *
  generalize a.im = q at *
  generalize b.re = p' at *
  generalize b.im = q' at *
  generalize (v 0).re = v0 at *
  generalize (v 0).im = w0 at *
  generalize (v 1).re = v1 at *
  generalize (v 1).im = w1 at *
  generalize (v 2).re = v2 at *
  generalize (v 2).im = w2 at *
  generalize (v 3).re = v3 at *
  generalize (v 3).im = w3 at *
  linear_combination ((c * v1 + s * v2) ^ 2 + (c * w1 + s * w2) ^ 2 + (s ^ 2 + c ^ 2) * (v0 ^ 2 + w0 ^ 2)) * na +
    ((-s * v1 + c * v2) ^ 2 + (-s * w1 + c * w2) ^ 2 + (s ^ 2 + c ^ 2) * (v3 ^ 2 + w3 ^ 2)) * nb +
    (v0 ^ 2 + w0 ^ 2 + v1 ^ 2 + w1 ^ 2 + v2 ^ 2 + w2 ^ 2 + v3 ^ 2 + w3 ^ 2) * hcs

/-- Power is a squared norm. -/
theorem power_norm (v : Fin 4 → ℂ) : √(power v) = ‖WithLp.toLp 2 v‖ := by
  rw [EuclideanSpace.norm_eq]
  unfold power
  congr 1
  refine Finset.sum_congr rfl fun i _ => ?_
  rw [Complex.normSq_eq_norm_sq]

/-- Matrices with small entries. -/
theorem small_power (D : Matrix (Fin 4) (Fin 4) ℂ) {e : ℝ} (hD : ∀ i j, ‖D i j‖ ≤ e) (v : Fin 4 → ℂ) :
    √(power (D.mulVec v)) ≤ 4 * e * √(power v) := by
  have he : 0 ≤ e := (norm_nonneg _).trans (hD 0 0)
  rw [Real.sqrt_le_left (by positivity), mul_pow, Real.sq_sqrt (by unfold power; exact Finset.sum_nonneg fun i _ => Complex.normSq_nonneg _)]
  have row : ∀ i, Complex.normSq (D.mulVec v i) ≤ 4 * e ^ 2 * power v := fun i => by
    have h1 : ‖D.mulVec v i‖ ≤ e * ∑ j, ‖v j‖ := by
      unfold Matrix.mulVec dotProduct
      refine (norm_sum_le _ _).trans ?_
      rw [Finset.mul_sum]
      refine Finset.sum_le_sum fun j _ => ?_
      rw [norm_mul]
      exact mul_le_mul_of_nonneg_right (hD i j) (norm_nonneg _)
    have h2 : (∑ j, ‖v j‖) ^ 2 ≤ 4 * power v := by
      have := sq_sum_le_card_mul_sum_sq (s := Finset.univ) (f := fun j => ‖v j‖)
      unfold power
      simp only [Complex.normSq_eq_norm_sq]
      rw [Finset.card_univ, Fintype.card_fin] at this
      exact_mod_cast this
    rw [Complex.normSq_eq_norm_sq]
    calc ‖D.mulVec v i‖ ^ 2 ≤ (e * ∑ j, ‖v j‖) ^ 2 := pow_le_pow_left₀ (norm_nonneg _) h1 2
      _ = e ^ 2 * (∑ j, ‖v j‖) ^ 2 := mul_pow _ _ _
      _ ≤ e ^ 2 * (4 * power v) := mul_le_mul_of_nonneg_left h2 (by positivity)
      _ = 4 * e ^ 2 * power v := by ring
  calc power (D.mulVec v) ≤ ∑ _i : Fin 4, 4 * e ^ 2 * power v := Finset.sum_le_sum fun i _ => row i
    _ = (4 * e) ^ 2 * power v := by
      rw [Finset.sum_const, Finset.card_univ, Fintype.card_fin, nsmul_eq_mul]
      push_cast
      ring

/-- A matrix near one that conserves power. -/
theorem near_power {M E : Matrix (Fin 4) (Fin 4) ℂ} {e : ℝ} (h : ∀ i j, ‖M i j - E i j‖ ≤ e) (v : Fin 4 → ℂ) (hE : power (E.mulVec v) = power v) :
    |√(power (M.mulVec v)) - √(power v)| ≤ 4 * e * √(power v) := by
  have h1 := small_power (M - E) (e := e) h v
  have h2 : √(power v) = ‖WithLp.toLp 2 (E.mulVec v)‖ := by rw [← hE, power_norm]
  refine le_trans ?_ h1
  rw [h2, power_norm, power_norm]
  refine (abs_norm_sub_norm_le _ _).trans_eq ?_
  rw [← WithLp.toLp_sub, ← Matrix.sub_mulVec]

end Rmz

end PT
