import Verif.Spec.Components
import Verif.Proof.Energy
import Mathlib.Analysis.SpecialFunctions.Trigonometric.Bounds

/-!
# C42–C45, C48: scattering matrices of the components
-/

namespace PT
open Spec Matrix

/-! ### The shapes of the matrices -/

/-- The shape of all components with four ports. -/
def cross4 (a b c d : ℂ) : Matrix (Fin 4) (Fin 4) ℂ := !![0, a, b, 0; a, 0, 0, c; b, 0, 0, d; 0, c, d, 0]

/-- The shape of all components with two ports. -/
def cross2 (p t q : ℂ) : Matrix (Fin 2) (Fin 2) ℂ := !![p, t; t, q]

theorem connection_shape : cx connectionS.re connectionS.im = cross2 0 1 0 := by
  ext i j
  fin_cases i <;> fin_cases j <;> apply Complex.ext <;>
    simp [cx, connectionS, SMat.setRe, SMat.zero, cross2]

theorem mirror_shape (R : ℝ) : cx (mirrorS R).re (mirrorS R).im = cross2 ⟨√R, 0⟩ ⟨0, √(1 - R)⟩ ⟨√R, 0⟩ := by
  ext i j
  fin_cases i <;> fin_cases j <;> apply Complex.ext <;>
    simp [cx, mirrorS, SMat.setRe, SMat.setIm, SMat.zero, cross2]

theorem waveguide_shape (length loss neff wl0 ng phase wl : ℝ) :
    cx (waveguideS length loss neff wl0 ng phase wl).re (waveguideS length loss neff wl0 ng phase wl).im =
      cross2 0 (lossFactor loss length * Complex.exp ((propagation length neff wl0 ng wl + modTwoPi phase : ℝ) * Complex.I))
        0 := by
  ext i j
  fin_cases i <;> fin_cases j <;> apply Complex.ext <;>
    simp [cx, waveguideS, SMat.setRe2, SMat.setIm2, SMat.setRe, SMat.setIm, SMat.zero, cross2, Complex.exp_re,
      Complex.exp_im]

theorem grating_sigma (bw : ℝ) : 2 * (1 / (2 * √(2 * Real.log 2)) * bw) ^ 2 = 0 ↔ bw = 0 := by
  have : 0 < √(2 * Real.log 2) := Real.sqrt_pos.2 (mul_pos two_pos (Real.log_pos one_lt_two))
  constructor
  · intro h
    by_contra hb
    have : 0 < 2 * (1 / (2 * √(2 * Real.log 2)) * bw) ^ 2 := by positivity
    exact this.ne' h
  · rintro rfl
    simp

theorem grating_shape (R Rin Tmax bw wl0 wl : ℝ) : ∃ t, (bw ≠ 0 → t = √(Tmax * Real.exp (-((wl0 - wl) ^ 2) /
      (2 * (1 / (2 * √(2 * Real.log 2)) * bw) ^ 2)))) ∧ (bw = 0 → t = 0) ∧
    cx (gratingS R Rin Tmax bw wl0 wl).re (gratingS R Rin Tmax bw wl0 wl).im = cross2 ⟨0, Rin⟩ ⟨t, 0⟩ ⟨0, R⟩ := by
  classical
  refine ⟨√(Tmax * (if 2 * (1 / (2 * √(2 * Real.log 2)) * bw) ^ 2 = 0 then 0 else Real.exp (-((wl0 - wl) ^ 2) /
      (2 * (1 / (2 * √(2 * Real.log 2)) * bw) ^ 2)))), fun hb => by rw [if_neg (mt (grating_sigma bw).1 hb)],
    fun hb => by rw [if_pos ((grating_sigma bw).2 hb), mul_zero, Real.sqrt_zero], ?_⟩
  ext i j
  fin_cases i <;> fin_cases j <;> apply Complex.ext <;>
    simp [cx, gratingS, SMat.setRe2, SMat.setRe, SMat.setIm, SMat.zero, cross2]

theorem coupler_shape (k : ℝ) : cx (couplerS k).re (couplerS k).im =
    cross4 ⟨√(1 - k), 0⟩ ⟨0, √k⟩ ⟨0, √k⟩ ⟨√(1 - k), 0⟩ := by
  ext i j
  fin_cases i <;> fin_cases j <;> apply Complex.ext <;>
    simp [cx, couplerS, SMat.setRe2, SMat.setIm2, SMat.setRe, SMat.setIm, SMat.zero, cross4]

theorem longCoupler_shape (length k loss phase : ℝ) :
    cx (longCouplerS length k loss phase).re (longCouplerS length k loss phase).im =
      (lossFactor loss length * Complex.exp ((modTwoPi phase : ℝ) * Complex.I)) •
        cross4 ⟨√(1 - k), 0⟩ ⟨0, √k⟩ ⟨0, √k⟩ ⟨√(1 - k), 0⟩ := by
  ext i j
  fin_cases i <;> fin_cases j <;> apply Complex.ext <;>
    simp [cx, longCouplerS, SMat.setRe2, SMat.setIm2, SMat.setRe, SMat.setIm, SMat.zero, cross4, Complex.exp_re,
      Complex.exp_im] <;> ring

theorem realisticCoupler_shape (length k0 n0 d1k d1n d2k d2n wl0 wl : ℝ) : ∃ φ : ℝ,
    cx (realisticCouplerS length k0 n0 d1k d1n d2k d2n wl0 wl).re
        (realisticCouplerS length k0 n0 d1k d1n d2k d2n wl0 wl).im =
      cross4 ⟨Real.cos φ, 0⟩ ⟨0, -Real.sin φ⟩ ⟨0, -Real.sin φ⟩ ⟨Real.cos φ, 0⟩ := by
  refine ⟨k0 + d1k * (wl - wl0) + 0.5 * d2k * (wl - wl0) ^ 2 +
    Real.pi * (n0 + d1n * (wl - wl0) + 0.5 * d2n * (wl - wl0) ^ 2) / wl * length, ?_⟩
  ext i j
  fin_cases i <;> fin_cases j <;> apply Complex.ext <;>
    simp [cx, realisticCouplerS, SMat.setRe2, SMat.setIm2, SMat.setRe, SMat.setIm, SMat.zero, cross4]

theorem mzi_shape (phi theta length neff wl0 ng wl : ℝ) : ∃ x, x = propagation length neff wl0 ng wl ∧
    cx (mziS phi theta length neff wl0 ng wl).re (mziS phi theta length neff wl0 ng wl).im =
      cross4 (Complex.exp ((x + phi : ℝ) * Complex.I) * Real.cos theta)
        (Complex.exp ((x + phi : ℝ) * Complex.I) * Real.sin theta)
        (-(Complex.exp ((x : ℝ) * Complex.I) * Real.sin theta)) (Complex.exp ((x : ℝ) * Complex.I) * Real.cos theta) := by
  refine ⟨_, rfl, ?_⟩
  ext i j
  fin_cases i <;> fin_cases j <;> apply Complex.ext <;>
    simp [cx, mziS, SMat.setRe2, SMat.setIm2, SMat.setRe, SMat.setIm, SMat.zero, cross4, Complex.exp_re,
      Complex.exp_im, -Complex.ofReal_cos, -Complex.ofReal_sin, -Complex.ofReal_add]

/-! ### Power -/

theorem cross4_lossless (a b c d : ℂ) (h1 : star a * a + star b * b = 1) (h2 : star a * a + star c * c = 1)
    (h3 : star b * b + star d * d = 1) (h4 : star c * c + star d * d = 1) (h5 : star a * c + star b * d = 0)
    (h6 : star a * b + star c * d = 0) : Lossless (cross4 a b c d) (fun _ => false) := by
  have h5' : star c * a + star d * b = 0 := by
    have := congrArg star h5
    simpa [mul_comm] using this
  have h6' : star b * a + star d * c = 0 := by
    have := congrArg star h6
    simpa [mul_comm] using this
  intro i j
  rw [Fin.sum_univ_four]
  fin_cases i <;> fin_cases j <;> simp [cross4] <;> simpa using by assumption

theorem lossless_unitary {n : ℕ} {S : Matrix (Fin n) (Fin n) ℂ} (h : Lossless S (fun _ => false)) : Unitary S := by
  intro v
  rw [lossless_power h]
  unfold powerAt power
  simp

theorem cross2_power (p t q : ℂ) (v : Fin 2 → ℂ) : power (cross2 p t q *ᵥ v) =
    Complex.normSq (p * v 0 + t * v 1) + Complex.normSq (t * v 0 + q * v 1) := by
  unfold power
  rw [Fin.sum_univ_two]
  simp [cross2, Matrix.mulVec, dotProduct, Fin.sum_univ_two]

theorem power_smul {n : ℕ} (z : ℂ) (S : Matrix (Fin n) (Fin n) ℂ) (v : Fin n → ℂ) :
    power ((z • S) *ᵥ v) = Complex.normSq z * power (S *ᵥ v) := by
  unfold power
  rw [Matrix.smul_mulVec, Finset.mul_sum]
  simp [Complex.normSq_mul]

theorem normSq_exp (x : ℝ) : Complex.normSq (Complex.exp (x * Complex.I)) = 1 := by
  rw [Complex.normSq_eq_norm_sq, Complex.norm_exp_ofReal_mul_I]; norm_num

theorem coupler_unitary (k : ℝ) (h0 : 0 ≤ k) (h1 : k ≤ 1) :
    Unitary (cross4 ⟨√(1 - k), 0⟩ ⟨0, √k⟩ ⟨0, √k⟩ ⟨√(1 - k), 0⟩) := by
  apply lossless_unitary
  have e1 := Real.mul_self_sqrt (show 0 ≤ 1 - k by linarith)
  have e2 := Real.mul_self_sqrt h0
  apply cross4_lossless <;> apply Complex.ext <;> simp <;> nlinarith

theorem trig_coupler_unitary (φ : ℝ) :
    Unitary (cross4 ⟨Real.cos φ, 0⟩ ⟨0, -Real.sin φ⟩ ⟨0, -Real.sin φ⟩ ⟨Real.cos φ, 0⟩) := by
  apply lossless_unitary
  have e := Real.sin_sq_add_cos_sq φ
  apply cross4_lossless <;> apply Complex.ext <;> simp [-Real.sin_sq_add_cos_sq] <;> nlinarith

theorem mzi_unitary (u w : ℂ) (θ : ℝ) (hu : star u * u = 1) (hw : star w * w = 1) :
    Unitary (cross4 (u * Real.cos θ) (u * Real.sin θ) (-(w * Real.sin θ)) (w * Real.cos θ)) := by
  apply lossless_unitary
  have e : (Real.sin θ : ℂ) ^ 2 + (Real.cos θ : ℂ) ^ 2 = 1 := by
    exact_mod_cast Real.sin_sq_add_cos_sq θ
  have s1 : star (Real.cos θ : ℂ) = Real.cos θ := Complex.conj_ofReal _
  have s2 : star (Real.sin θ : ℂ) = Real.sin θ := Complex.conj_ofReal _
  apply cross4_lossless <;> simp only [star_mul', star_neg, s1, s2]
  · linear_combination ((Real.sin θ : ℂ) ^ 2 + (Real.cos θ : ℂ) ^ 2) * hu + e
  · linear_combination (Real.cos θ : ℂ) ^ 2 * hu + (Real.sin θ : ℂ) ^ 2 * hw + e
  · linear_combination (Real.sin θ : ℂ) ^ 2 * hu + (Real.cos θ : ℂ) ^ 2 * hw + e
  · linear_combination ((Real.sin θ : ℂ) ^ 2 + (Real.cos θ : ℂ) ^ 2) * hw + e
  · ring
  · linear_combination (Real.cos θ : ℂ) * Real.sin θ * hu - (Real.cos θ : ℂ) * Real.sin θ * hw

theorem exp_unit (x : ℝ) : star (Complex.exp (x * Complex.I)) * Complex.exp (x * Complex.I) = 1 := by
  have := normSq_exp x
  rw [Complex.star_def, mul_comm, Complex.mul_conj, this]
  norm_num

theorem lossFactor_sq (loss length : ℝ) : lossFactor loss length ^ 2 = remaining loss length := by
  unfold lossFactor remaining
  rw [← Real.rpow_natCast, ← Real.rpow_mul (by norm_num)]
  congr 1
  push_cast
  ring

theorem remaining_le (loss length : ℝ) (h : 0 ≤ loss * length) : 0 ≤ remaining loss length ∧ remaining loss length ≤ 1 := by
  unfold remaining
  refine ⟨Real.rpow_nonneg (by norm_num) _, ?_⟩
  apply Real.rpow_le_one_of_one_le_of_nonpos (by norm_num)
  linarith

theorem remaining_zero (length : ℝ) : remaining 0 length = 1 := by simp [remaining]

/-- The power leaving a waveguide. -/
theorem waveguide_power (length loss neff wl0 ng phase wl : ℝ) (v : Fin 2 → ℂ) :
    power (scattering (.waveguide length loss neff wl0 ng phase) wl *ᵥ v) = remaining loss length * power v := by
  have h := waveguide_shape length loss neff wl0 ng phase wl
  refine (congrArg (fun M : Matrix (Fin 2) (Fin 2) ℂ => power (M *ᵥ v)) h).trans ?_
  rw [cross2_power]
  unfold power
  rw [Fin.sum_univ_two]
  simp only [zero_mul, zero_add, add_zero, Complex.normSq_mul, normSq_exp, mul_one, Complex.normSq_ofReal]
  rw [← lossFactor_sq]
  ring

theorem longCoupler_power (length k loss neff wl0 ng phase wl : ℝ) (h0 : 0 ≤ k) (h1 : k ≤ 1) (v : Fin 4 → ℂ) :
    power (scattering (.longCoupler length k loss neff wl0 ng phase) wl *ᵥ v) = remaining loss length * power v := by
  have h := longCoupler_shape length k loss phase
  refine (congrArg (fun M : Matrix (Fin 4) (Fin 4) ℂ => power (M *ᵥ v)) h).trans ?_
  rw [power_smul, coupler_unitary k h0 h1 v, Complex.normSq_mul, normSq_exp, Complex.normSq_ofReal, ← lossFactor_sq]
  ring

/-- C42: ideal components conserve power, whatever enters their ports. -/
theorem C42_unitary (p : Part) (hp : IdealPart p) (wl : ℝ) : Unitary (scattering p wl) := by
  intro v
  cases p with
  | connection =>
    refine (congrArg (fun M : Matrix (Fin 2) (Fin 2) ℂ => power (M *ᵥ v)) connection_shape).trans ?_
    rw [cross2_power]
    unfold power
    rw [Fin.sum_univ_two]
    simp [add_comm]
  | mirror R =>
    refine (congrArg (fun M : Matrix (Fin 2) (Fin 2) ℂ => power (M *ᵥ v)) (mirror_shape R)).trans ?_
    rw [cross2_power]
    unfold power
    rw [Fin.sum_univ_two]
    have e1 := Real.mul_self_sqrt (show 0 ≤ 1 - R by linarith [hp.2])
    have e2 := Real.mul_self_sqrt hp.1
    simp only [Complex.normSq_apply, Complex.add_re, Complex.add_im, Complex.mul_re, Complex.mul_im, zero_mul, sub_zero,
      add_zero, zero_sub, zero_add]
    linear_combination ((v 0).re ^ 2 + (v 0).im ^ 2 + (v 1).re ^ 2 + (v 1).im ^ 2) * (e1 + e2)
  | waveguide length loss neff wl0 ng phase =>
    rw [waveguide_power, show loss = 0 from hp, remaining_zero, one_mul]
  | coupler k =>
    refine (congrArg (fun M : Matrix (Fin 4) (Fin 4) ℂ => power (M *ᵥ v)) (coupler_shape k)).trans ?_
    exact coupler_unitary k hp.1 hp.2 v
  | longCoupler length k loss neff wl0 ng phase =>
    rw [longCoupler_power _ _ _ _ _ _ _ _ hp.1 hp.2.1, show loss = 0 from hp.2.2, remaining_zero, one_mul]
  | realisticCoupler length k0 n0 d1k d1n d2k d2n wl0 =>
    obtain ⟨φ, h⟩ := realisticCoupler_shape length k0 n0 d1k d1n d2k d2n wl0 wl
    refine (congrArg (fun M : Matrix (Fin 4) (Fin 4) ℂ => power (M *ᵥ v)) h).trans ?_
    exact trig_coupler_unitary φ v
  | mzi phi theta neff ng wl0 length loss =>
    obtain ⟨x, -, h⟩ := mzi_shape phi theta length neff wl0 ng wl
    refine (congrArg (fun M : Matrix (Fin 4) (Fin 4) ℂ => power (M *ᵥ v)) h).trans ?_
    exact mzi_unitary _ _ _ (exp_unit _) (exp_unit _) v
  | _ => exact hp.elim

example : Unitary (scattering (.mirror (3 / 10)) 1.55e-6) := C42_unitary (.mirror (3 / 10)) ⟨by norm_num, by norm_num⟩ _
example : Unitary (scattering (.longCoupler 1e-5 (1 / 4) 0 2.34 1.55e-6 3.4 7) 1.55e-6) :=
  C42_unitary (.longCoupler 1e-5 (1 / 4) 0 2.34 1.55e-6 3.4 7) ⟨by norm_num, by norm_num, rfl⟩ _

end PT
