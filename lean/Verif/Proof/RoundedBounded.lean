import Verif.Spec.RoundedBounded
import Verif.Proof.RoundedWave
import Mathlib.Analysis.SpecialFunctions.Exponential
import Mathlib.Analysis.SpecialFunctions.Log.Deriv
import Mathlib.Analysis.Complex.ExponentialBounds

/-!
# Errors of bounded parameters in single precision
-/

namespace PT
open Spec

namespace Rbd

theorem shift {d δ : ℝ} (hd : 0 < d) (hδ : |δ| ≤ 1 / 2) : |1 / (1 + d * Real.exp δ) - 1 / (1 + d)| ≤ 4 * |δ| * (d / (1 + d) ^ 2) := by
  have h1 := Real.abs_exp_sub_one_le (x := δ) (by linarith)
  have h2 := Real.add_one_le_exp δ
  have h3 := (abs_le.mp hδ).1
  have h4 : (1 + d) / 2 ≤ 1 + d * Real.exp δ := by nlinarith
  have hp : 0 < 1 + d * Real.exp δ := by linarith
  have e : 1 / (1 + d * Real.exp δ) - 1 / (1 + d) = d * (1 - Real.exp δ) / ((1 + d) * (1 + d * Real.exp δ)) := by
    field_simp
    ring
  rw [e, abs_div, abs_mul, abs_of_pos hd, abs_of_pos (by positivity : 0 < (1 + d) * (1 + d * Real.exp δ)), abs_sub_comm]
  have h5 : (1 + d) * ((1 + d) / 2) ≤ (1 + d) * (1 + d * Real.exp δ) := mul_le_mul_of_nonneg_left h4 (by linarith)
  have h6 : d * |Real.exp δ - 1| ≤ d * (2 * |δ|) := mul_le_mul_of_nonneg_left h1 hd.le
  calc d * |Real.exp δ - 1| / ((1 + d) * (1 + d * Real.exp δ)) ≤ d * (2 * |δ|) / ((1 + d) * ((1 + d) / 2)) :=
        div_le_div₀ (by positivity) h6 (by positivity) h5
    _ = _ := by field_simp; ring

theorem log_small {d : ℝ} (hd : 0 < d) : |Real.log d| * (d / (1 + d) ^ 2) ≤ 1 := by
  have h1 := Real.log_le_sub_one_of_pos hd
  have h2 := Real.log_le_sub_one_of_pos (inv_pos.mpr hd)
  rw [Real.log_inv] at h2
  have hi := inv_pos.mpr hd
  have h3 : |Real.log d| ≤ d + d⁻¹ := by rw [abs_le]; constructor <;> linarith
  have h4 := mul_le_mul_of_nonneg_right h3 (by positivity : 0 ≤ d / (1 + d) ^ 2)
  refine h4.trans ?_
  rw [← mul_div_assoc, div_le_one (by positivity), add_mul, inv_mul_cancel₀ hd.ne']
  nlinarith

theorem log_range {d : ℝ} (h0 : 1 / 2 ^ 150 ≤ d) (h1 : d ≤ 2 ^ 130) : |Real.log d| ≤ 128 := by
  have l2 := Real.log_two_lt_d9
  have hd : 0 < d := lt_of_lt_of_le (by positivity) h0
  have h2 := Real.log_le_log hd h1
  have h3 := Real.log_le_log (by positivity) h0
  rw [Real.log_pow] at h2
  rw [one_div, Real.log_inv, Real.log_pow] at h3
  push_cast at h2 h3
  rw [abs_le]
  constructor <;> linarith

theorem binary32_min {x : ℚ} (h : Binary32 x) (h0 : 0 < x) : 1 / 2 ^ 149 ≤ x := by
  obtain ⟨n, e, -, he, rfl⟩ := h
  have hp : (0 : ℚ) < 2 ^ e := by positivity
  have hn : 0 < n := by
    by_contra hc
    push Not at hc
    have : (n : ℚ) ≤ 0 := by exact_mod_cast hc
    nlinarith
  have hn1 : (1 : ℚ) ≤ n := by exact_mod_cast hn
  have h2 : (2 : ℚ) ^ (-149 : ℤ) ≤ 2 ^ e := zpow_le_zpow_right₀ (by norm_num) he
  have h3 : (1 : ℚ) / 2 ^ 149 = 2 ^ (-149 : ℤ) := by rw [zpow_neg, one_div]; rfl
  rw [h3]
  nlinarith

theorem fl32_neg {x : ℚ} (h : x ≤ -(1 / 2 ^ 100)) : fl32 x < 0 := by
  have h1 := fl32_err x
  have h2 : (2 : ℚ) ^ (-150 : ℤ) = 1 / 2 ^ 150 := by rw [zpow_neg, one_div]; rfl
  have h0 : (0 : ℚ) < 1 / 2 ^ 100 := by positivity
  have hx : |x| = -x := abs_of_nonpos (by linarith)
  rw [h2, hx] at h1
  have h3 := (abs_le.mp h1).2
  have h4 : (1 : ℚ) / 2 ^ 150 ≤ 1 / 2 ^ 100 / 2 := by norm_num
  linarith

/-- What the logarithm is taken of. -/
theorem recip {s : ℚ} (hs : 0 < s) (hd : 0 ≤ fl32 (fl32 (1 / s) - 1)) :
    |(s : ℝ) * (1 + ((fl32 (fl32 (1 / s) - 1) : ℚ) : ℝ)) - 1| ≤ 1 / 2 ^ 22 ∧ (s : ℝ) ≤ 2 := by
  have h1 := Rwv.fl32_real (1 / s)
  have h2 := Rwv.fl32_real (fl32 (1 / s) - 1)
  have hq : -(1 / 2 ^ 100) < fl32 (1 / s) - 1 := by
    by_contra hc
    push Not at hc
    exact absurd (fl32_neg hc) (not_lt.mpr hd)
  have hq' : -(1 / 2 ^ 100 : ℝ) < ((fl32 (1 / s) : ℚ) : ℝ) - 1 := by
    have := (Rat.cast_lt (K := ℝ)).mpr hq
    push_cast at this
    exact this
  have hs' : (0 : ℝ) < s := by exact_mod_cast hs
  have e1 : ((1 / s : ℚ) : ℝ) = 1 / s := by push_cast; rfl
  have e2 : ((fl32 (1 / s) - 1 : ℚ) : ℝ) = ((fl32 (1 / s) : ℚ) : ℝ) - 1 := by push_cast; rfl
  rw [e1] at h1
  rw [e2] at h2
  obtain ⟨q, hqe⟩ : ∃ q : ℝ, q = ((fl32 (1 / s) : ℚ) : ℝ) := ⟨_, rfl⟩
  obtain ⟨d, hde⟩ : ∃ d : ℝ, d = ((fl32 (fl32 (1 / s) - 1) : ℚ) : ℝ) := ⟨_, rfl⟩
  rw [← hqe] at h1 h2 hq'
  rw [← hde] at h2 ⊢
  obtain ⟨S, hS⟩ : ∃ S : ℝ, S = s := ⟨_, rfl⟩
  rw [← hS] at hs' h1 ⊢
  obtain ⟨r, hr⟩ : ∃ r : ℝ, r = 1 / S := ⟨_, rfl⟩
  have hr0 : 0 < r := by rw [hr]; positivity
  have hrs : S * r = 1 := by rw [hr]; field_simp
  rw [← hr, abs_of_pos hr0] at h1
  obtain ⟨a1, a2⟩ := abs_le.mp h1
  have c1 : (1 : ℝ) / 2 ^ 100 ≤ 1 / 2 ^ 90 := by norm_num
  have c2 : (1 : ℝ) / 2 ^ 150 ≤ 1 / 2 ^ 90 := by norm_num
  have c3 : (1 : ℝ) / 2 ^ 90 ≤ 1 / 2 ^ 40 := by norm_num
  have hrh : 3 / 4 ≤ r := by
    have : (1 : ℝ) / 2 ^ 40 ≤ 1 / 100 := by norm_num
    linarith
  have hS2 : S ≤ 2 := by nlinarith
  have hqa : |q - 1| ≤ q := by rw [abs_le]; constructor <;> [(have : (1 : ℝ) / 2 ^ 100 ≤ 1 / 8 := by norm_num); skip] <;> linarith
  refine ⟨?_, hS2⟩
  have h3 : |q - 1| / 2 ^ 24 ≤ q / 2 ^ 24 := div_le_div_of_nonneg_right hqa (by positivity)
  have e : S * (1 + d) - 1 = S * ((d - (q - 1)) + (q - r)) := by
    linear_combination hrs
  rw [e, abs_mul, abs_of_pos hs']
  have h4 := abs_add_le (d - (q - 1)) (q - r)
  have h5 : |d - (q - 1) + (q - r)| ≤ (2 * r + r / 2 ^ 24) / 2 ^ 24 + 1 / 2 ^ 80 := by
    have : (3 : ℝ) * (1 / 2 ^ 150) ≤ 1 / 2 ^ 80 := by norm_num
    linarith
  have h6 := mul_le_mul_of_nonneg_left h5 hs'.le
  refine h6.trans ?_
  have e3 : S * ((2 * r + r / 2 ^ 24) / 2 ^ 24 + 1 / 2 ^ 80) = (2 + 1 / 2 ^ 24) / 2 ^ 24 * (S * r) + S * (1 / 2 ^ 80) := by ring
  rw [e3, hrs]
  have h7 : S * (1 / 2 ^ 80) ≤ 2 * (1 / 2 ^ 80) := mul_le_mul_of_nonneg_right hS2 (by positivity)
  norm_num at *
  linarith

/-- The logistic function of the computed logarithm. -/
theorem logistic {m : Libt} (hm : AccurateT m) {d : ℚ} (hd : 0 < d) (h0 : 1 / 2 ^ 149 ≤ d) (h1 : (d : ℝ) ≤ 2 ^ 130) :
    |(m.sigmoid (-m.log d) : ℝ) - 1 / (1 + d)| ≤ 1 / 2 ^ 19 ∧
      |(m.sigmoid (-m.log d) : ℝ) - 1 / (1 + d)| ≤ 1 / (1 + d) / 2 ^ 12 + 1 / 2 ^ 120 := by
  have hl := hm.1 d hd
  obtain ⟨-, -, -, hg⟩ := hm.2.1 (-m.log d)
  have hd' : (0 : ℝ) < d := by exact_mod_cast hd
  have h0' : (1 : ℝ) / 2 ^ 150 ≤ d := by
    have := (Rat.cast_le (K := ℝ)).mpr h0
    push_cast at this
    have c : (1 : ℝ) / 2 ^ 150 ≤ 1 / 2 ^ 149 := by norm_num
    exact c.trans this
  have hr := log_range h0' h1
  have e0 : ((-m.log d : ℚ) : ℝ) = -(m.log d : ℝ) := by push_cast; rfl
  rw [e0, neg_neg] at hg
  obtain ⟨δ, hδ⟩ : ∃ δ : ℝ, δ = (m.log d : ℝ) - Real.log d := ⟨_, rfl⟩
  rw [← hδ] at hl
  have e1 : Real.exp (m.log d : ℝ) = d * Real.exp δ := by
    rw [show (m.log d : ℝ) = Real.log d + δ by rw [hδ]; ring, Real.exp_add, Real.exp_log hd']
  rw [e1] at hg
  obtain ⟨D, hD⟩ : ∃ D : ℝ, D = d := ⟨_, rfl⟩
  rw [← hD] at hl hg hr hd' ⊢
  have hδs : |δ| ≤ 1 / 2 ^ 15 := hl.trans (by
    have := div_le_div_of_nonneg_right hr (by positivity : (0 : ℝ) ≤ 2 ^ 22)
    refine this.trans ?_
    norm_num)
  have hsh := shift hd' (hδs.trans (by norm_num))
  obtain ⟨Y, hY⟩ : ∃ Y : ℝ, Y = 1 / (1 + D) := ⟨_, rfl⟩
  obtain ⟨Z, hZ⟩ : ∃ Z : ℝ, Z = 1 / (1 + D * Real.exp δ) := ⟨_, rfl⟩
  obtain ⟨y, hy⟩ : ∃ y : ℝ, y = ((m.sigmoid (-m.log d) : ℚ) : ℝ) := ⟨_, rfl⟩
  rw [← hY, ← hZ] at hsh
  rw [← hZ, ← hy] at hg
  rw [← hY, ← hy]
  have hp := Real.exp_pos δ
  have hZ1 : Z ≤ 1 := by
    rw [hZ]
    exact div_le_one_of_le₀ (by nlinarith) (by positivity)
  have hY0 : 0 < Y := by rw [hY]; positivity
  have hY1 : Y ≤ 1 := by
    rw [hY]
    exact div_le_one_of_le₀ (by linarith) (by positivity)
  have ht : |y - Y| ≤ |y - Z| + |Z - Y| := by
    have := abs_add_le (y - Z) (Z - Y)
    rwa [sub_add_sub_cancel] at this
  constructor
  · have h2 : 4 * |δ| * (D / (1 + D) ^ 2) ≤ 4 * (1 / 2 ^ 22) := by
      have h3 : |δ| * (D / (1 + D) ^ 2) ≤ |Real.log D| / 2 ^ 22 * (D / (1 + D) ^ 2) := mul_le_mul_of_nonneg_right hl (by positivity)
      have h4 := log_small hd'
      have e2 : |Real.log D| / 2 ^ 22 * (D / (1 + D) ^ 2) = (1 / 2 ^ 22) * (|Real.log D| * (D / (1 + D) ^ 2)) := by ring
      rw [e2] at h3
      have h5 := mul_le_mul_of_nonneg_left h4 (by positivity : (0 : ℝ) ≤ 1 / 2 ^ 22)
      linarith
    have h6 : Z / 2 ^ 22 ≤ 1 / 2 ^ 22 := div_le_div_of_nonneg_right hZ1 (by positivity)
    norm_num at *
    linarith
  · have h2 : 4 * |δ| * (D / (1 + D) ^ 2) ≤ 1 / 2 ^ 13 * Y := by
      have h3 : D / (1 + D) ^ 2 ≤ Y := by
        rw [hY, div_le_div_iff₀ (by positivity) (by positivity)]
        nlinarith
      have h4 : 4 * |δ| ≤ 1 / 2 ^ 13 := by
        have : (4 : ℝ) * (1 / 2 ^ 15) ≤ 1 / 2 ^ 13 := by norm_num
        linarith
      exact mul_le_mul h4 h3 (by positivity) (by positivity)
    have h3 : Z ≤ 2 * Y := by
      have := (abs_le.mp hsh).2
      have : (1 : ℝ) / 2 ^ 13 ≤ 1 := by norm_num
      nlinarith
    have h6 : Z / 2 ^ 22 ≤ 2 * Y / 2 ^ 22 := div_le_div_of_nonneg_right h3 (by positivity)
    have : (1 : ℝ) / 2 ^ 13 * Y + 2 * Y / 2 ^ 22 ≤ Y / 2 ^ 12 := by
      have e3 : (1 : ℝ) / 2 ^ 13 * Y + 2 * Y / 2 ^ 22 = (1 / 2 ^ 13 + 2 / 2 ^ 22) * Y := by ring
      have e4 : Y / 2 ^ 12 = 1 / 2 ^ 12 * Y := by ring
      rw [e3, e4]
      exact mul_le_mul_of_nonneg_right (by norm_num) hY0.le
    linarith

theorem binary32_zero : Binary32 0 := ⟨0, 0, by norm_num, by norm_num, by norm_num⟩

theorem binary32_one : Binary32 1 := ⟨1, 0, by norm_num, by norm_num, by norm_num⟩

/-- From the scaled data to the weight and back. -/
theorem back {m : Libt} (hm : AccurateT m) {s y : ℚ} (hs : 0 ≤ s) (h : sigmoidR m (weightOfScaledR fl32 m s) = some y) :
    (0 ≤ y ∧ y ≤ 1 ∧ Binary32 y) ∧ |(y : ℝ) - s| ≤ 1 / 2 ^ 18 ∧ |(y : ℝ) - s| ≤ (s : ℝ) / 2 ^ 11 + 1 / 2 ^ 118 := by
  have hs' : (0 : ℝ) ≤ s := by exact_mod_cast hs
  unfold weightOfScaledR at h
  by_cases h0 : s = 0 ∨ 2 ^ 128 ≤ fl32 (1 / s)
  · rw [if_pos h0] at h
    obtain rfl : 0 = y := Option.some.inj h
    have hsm : (s : ℝ) ≤ 1 / 2 ^ 120 := by
      rcases h0 with rfl | h0
      · norm_num
      · have h1 := Rwv.fl32_real (1 / s)
        have h2 : (2 : ℝ) ^ 128 ≤ ((fl32 (1 / s) : ℚ) : ℝ) := by
          have := (Rat.cast_le (K := ℝ)).mpr h0
          push_cast at this
          exact this
        rcases hs'.eq_or_lt with h3 | h3
        · rw [← h3]; positivity
        have e1 : ((1 / s : ℚ) : ℝ) = 1 / s := by push_cast; rfl
        rw [e1, abs_of_pos (by positivity : (0 : ℝ) < 1 / s)] at h1
        have h4 := (abs_le.mp h1).2
        have h5 : (2 : ℝ) ^ 120 ≤ 1 / s := by
          have c : (1 : ℝ) / 2 ^ 150 ≤ 1 := by norm_num
          have c2 : (0 : ℝ) < 1 / s := by positivity
          norm_num at *
          linarith
        rw [le_div_iff₀ h3] at h5
        rw [le_div_iff₀ (by positivity)]
        linarith
    have e : |((0 : ℚ) : ℝ) - s| = s := by rw [Rat.cast_zero, zero_sub, abs_neg, abs_of_nonneg hs']
    rw [e]
    refine ⟨⟨le_rfl, zero_le_one, binary32_zero⟩, hsm.trans (by norm_num), ?_⟩
    have c : (1 : ℝ) / 2 ^ 120 ≤ 1 / 2 ^ 118 := by norm_num
    have : 0 ≤ (s : ℝ) / 2 ^ 11 := by positivity
    linarith
  rw [if_neg h0] at h
  push Not at h0
  have hs0 : 0 < s := lt_of_le_of_ne hs (Ne.symm h0.1)
  simp only at h
  by_cases hn : fl32 (fl32 (1 / s) - 1) < 0
  · rw [if_pos hn] at h
    exact absurd h (by simp [sigmoidR])
  rw [if_neg hn] at h
  push Not at hn
  obtain ⟨hr, hs2⟩ := recip hs0 hn
  have hb : Binary32 (fl32 (fl32 (1 / s) - 1)) := fl32_binary _
  have hup : ((fl32 (fl32 (1 / s) - 1) : ℚ) : ℝ) ≤ 2 ^ 130 := by
    have h1 := Rwv.fl32_real (fl32 (1 / s) - 1)
    have e2 : ((fl32 (1 / s) - 1 : ℚ) : ℝ) = ((fl32 (1 / s) : ℚ) : ℝ) - 1 := by push_cast; rfl
    rw [e2] at h1
    have h2 : ((fl32 (1 / s) : ℚ) : ℝ) < 2 ^ 128 := by
      have := (Rat.cast_lt (K := ℝ)).mpr h0.2
      push_cast at this
      exact this
    have h3 : (0 : ℝ) ≤ ((fl32 (1 / s) : ℚ) : ℝ) := by exact_mod_cast fl32_nonneg (by positivity : 0 ≤ 1 / s)
    have h4 : |((fl32 (1 / s) : ℚ) : ℝ) - 1| ≤ 2 ^ 128 := by
      have c : (1 : ℝ) ≤ 2 ^ 128 := one_le_pow₀ (by norm_num)
      rw [abs_le]
      constructor <;> linarith
    have h5 := (abs_le.mp h1).2
    have h6 := div_le_div_of_nonneg_right h4 (by positivity : (0 : ℝ) ≤ 2 ^ 24)
    have c : (2 : ℝ) ^ 128 + 2 ^ 128 / 2 ^ 24 + 1 / 2 ^ 150 ≤ 2 ^ 130 := by norm_num
    linarith
  generalize fl32 (fl32 (1 / s) - 1) = d at h hn hr hb hup
  have hd' : (0 : ℝ) ≤ d := by exact_mod_cast hn
  obtain ⟨S, hS⟩ : ∃ S : ℝ, S = s := ⟨_, rfl⟩
  have hS0 : 0 < S := by rw [hS]; exact_mod_cast hs0
  rw [← hS] at hr hs2 ⊢
  have hz : (0 : ℝ) < 1 + d := by linarith
  have hY : |1 / (1 + (d : ℝ)) - S| ≤ 1 / 2 ^ 22 * (1 / (1 + d)) := by
    have e : 1 / (1 + (d : ℝ)) - S = -(S * (1 + d) - 1) * (1 / (1 + d)) := by field_simp; ring
    rw [e, abs_mul, abs_neg, abs_of_pos (by positivity : (0 : ℝ) < 1 / (1 + d))]
    exact mul_le_mul_of_nonneg_right hr (by positivity)
  have hY1 : 1 / (1 + (d : ℝ)) ≤ 1 := div_le_one_of_le₀ (by linarith) hz.le
  have hY0 : 0 < 1 / (1 + (d : ℝ)) := by positivity
  by_cases hd0 : d = 0
  · rw [if_pos hd0] at h
    obtain rfl : 1 = y := Option.some.inj h
    rw [hd0, Rat.cast_zero, add_zero, div_one] at hY
    rw [Rat.cast_one]
    refine ⟨⟨zero_le_one, le_rfl, binary32_one⟩, hY.trans (by norm_num), hY.trans ?_⟩
    have := (abs_le.mp hY).2
    have c : (0 : ℝ) < 1 / 2 ^ 118 := by positivity
    norm_num at *
    linarith
  rw [if_neg hd0] at h
  have hdp : 0 < d := lt_of_le_of_ne hn (Ne.symm hd0)
  obtain rfl : m.sigmoid (-m.log d) = y := Option.some.inj h
  obtain ⟨g0, g1, g2, -⟩ := hm.2.1 (-m.log d)
  refine ⟨⟨g0, g1, g2⟩, ?_⟩
  obtain ⟨l1, l2⟩ := logistic hm hdp (binary32_min hb hdp) hup
  have ht := abs_sub_le (m.sigmoid (-m.log d) : ℝ) (1 / (1 + (d : ℝ))) S
  obtain ⟨Y, hYe⟩ : ∃ Y : ℝ, Y = 1 / (1 + (d : ℝ)) := ⟨_, rfl⟩
  rw [← hYe] at hY hY0 hY1 l1 l2 ht
  refine ⟨ht.trans ?_, ht.trans ?_⟩
  · have c : (1 : ℝ) / 2 ^ 22 * Y ≤ 1 / 2 ^ 22 := mul_le_of_le_one_right (by positivity) hY1
    norm_num at *
    linarith
  · have h1 := (abs_le.mp hY).2
    have h2 : Y ≤ 2 * S := by
      have c : (1 : ℝ) / 2 ^ 22 * Y ≤ Y / 2 := by
        have : (1 : ℝ) / 2 ^ 22 ≤ 1 / 2 := by norm_num
        nlinarith
      linarith
    have h3 : Y ≤ (1 + 1 / 2 ^ 20) * S := by
      have : (1 : ℝ) / 2 ^ 22 * Y ≤ 1 / 2 ^ 22 * (2 * S) := mul_le_mul_of_nonneg_left h2 (by positivity)
      have : (1 : ℝ) / 2 ^ 22 * (2 * S) ≤ 1 / 2 ^ 20 * S := by
        have : (1 : ℝ) / 2 ^ 22 * 2 ≤ 1 / 2 ^ 20 := by norm_num
        nlinarith
      linarith
    have c : (1 : ℝ) / 2 ^ 120 ≤ 1 / 2 ^ 118 := by norm_num
    have h4 : Y / 2 ^ 12 + 1 / 2 ^ 22 * Y ≤ S / 2 ^ 11 := by
      have e5 : Y / 2 ^ 12 + 1 / 2 ^ 22 * Y = (1 / 2 ^ 12 + 1 / 2 ^ 22) * Y := by ring
      rw [e5]
      have := mul_le_mul_of_nonneg_left h3 (by positivity : (0 : ℝ) ≤ 1 / 2 ^ 12 + 1 / 2 ^ 22)
      refine this.trans ?_
      have e6 : (1 / 2 ^ 12 + 1 / 2 ^ 22) * ((1 + 1 / 2 ^ 20) * S) = ((1 / 2 ^ 12 + 1 / 2 ^ 22) * (1 + 1 / 2 ^ 20)) * S := by ring
      have e7 : S / 2 ^ 11 = 1 / 2 ^ 11 * S := by ring
      rw [e6, e7]
      exact mul_le_mul_of_nonneg_right (by norm_num) hS0.le
    linarith

theorem close_fin {M τ : ℝ} (hM : 0 ≤ M) (hτ : 0 ≤ τ) :
    (7 * M + 8 * τ) / 2 ^ 24 + τ + ((3 * M + 3 * τ) / 2 ^ 24 + τ) + (3 * M + 3 * τ) / 2 ^ 18 + ((5 * M + 4 * τ) / 2 ^ 24 + (M / 2 ^ 50 + τ)) +
      ((4 * M + 2 * τ) / 2 ^ 24 + τ) ≤ M / 2 ^ 16 + 30 * τ := by
  norm_num
  linarith

theorem close_prod {M τ B : ℝ} (hM0 : 0 ≤ M) (hτ0 : 0 < τ) (hτ1 : τ ≤ 1 / 100) (hτ3 : τ ≤ 1 / 2 ^ 60) (hBM : B ≤ 3 * M + 3 * τ) :
    B * τ ≤ M / 2 ^ 50 + τ := by
  have h1 := mul_le_mul_of_nonneg_right hBM hτ0.le
  have h2 : M * τ ≤ M * (1 / 2 ^ 60) := mul_le_mul_of_nonneg_left hτ3 hM0
  have h3 : τ * τ ≤ τ * (1 / 100) := mul_le_mul_of_nonneg_left hτ1 hτ0.le
  have h4 : 3 * (M * (1 / 2 ^ 60)) ≤ M / 2 ^ 50 := by
    norm_num
    linarith
  linarith

/-- The errors of the single operations add up. -/
theorem close {a b x y s V P X B B₁ A A' : ℝ} (hab : a < b) (hax : A ≤ x) (hbx : x ≤ A') (y0 : 0 ≤ y) (y1 : y ≤ 1) (hB : 0 < B) (hX : 0 ≤ X)
    (hyn : |y - s| ≤ 1 / 2 ^ 18) (r1 : |B₁ - (b - a)| ≤ |b - a| / 2 ^ 53 + 1 / 2 ^ 1075) (r2 : |B - B₁| ≤ |B₁| / 2 ^ 24 + 1 / 2 ^ 150)
    (r3 : |A - a| ≤ |a| / 2 ^ 24 + 1 / 2 ^ 150) (r4 : |X - (x - A)| ≤ |x - A| / 2 ^ 24 + 1 / 2 ^ 150)
    (r5 : |s - X / B| ≤ |X / B| / 2 ^ 24 + 1 / 2 ^ 150) (r6 : |P - B * y| ≤ |B * y| / 2 ^ 24 + 1 / 2 ^ 150)
    (r7 : |V - (P + A)| ≤ |P + A| / 2 ^ 24 + 1 / 2 ^ 150) (r8 : |A' - b| ≤ |b| / 2 ^ 24 + 1 / 2 ^ 150) :
    |V - x| ≤ (|a| + |b|) / 2 ^ 16 + 1 / 2 ^ 140 := by
  have t1 : (1 : ℝ) / 2 ^ 1075 ≤ 1 / 2 ^ 150 :=
    one_div_le_one_div_of_le (by positivity) (pow_le_pow_right₀ (by norm_num) (by norm_num))
  have hba : |b - a| ≤ |a| + |b| := by
    have := abs_sub b a
    linarith
  obtain ⟨M, hM⟩ : ∃ M : ℝ, M = |a| + |b| := ⟨_, rfl⟩
  rw [← hM] at hba ⊢
  have ha : |a| ≤ M := by rw [hM]; linarith [abs_nonneg b]
  have hb : |b| ≤ M := by rw [hM]; linarith [abs_nonneg a]
  have hM0 : 0 ≤ M := (abs_nonneg a).trans ha
  obtain ⟨τ, hτ⟩ : ∃ τ : ℝ, τ = 1 / 2 ^ 150 := ⟨_, rfl⟩
  have hτ0 : 0 < τ := by rw [hτ]; positivity
  have hτ1 : τ ≤ 1 / 100 := by rw [hτ]; norm_num
  have hτ2 : 30 * τ ≤ 1 / 2 ^ 140 := by rw [hτ]; norm_num
  have hτ3 : τ ≤ 1 / 2 ^ 60 := by rw [hτ]; norm_num
  rw [← hτ] at t1 r2 r3 r4 r5 r6 r7 r8
  have hB1 : |B₁| ≤ 2 * M + τ := by
    have := abs_add_le (B₁ - (b - a)) (b - a)
    rw [sub_add_cancel] at this
    have : |b - a| / 2 ^ 53 ≤ |b - a| := div_le_self (abs_nonneg _) (by norm_num)
    linarith
  have hBM : B ≤ 3 * M + 3 * τ := by
    have h1 := (abs_le.mp r2).2
    have h2 := le_abs_self B₁
    have : |B₁| / 2 ^ 24 ≤ |B₁| / 4 := div_le_div_of_nonneg_left (abs_nonneg _) (by norm_num) (by norm_num)
    linarith
  have hA : |A| ≤ 2 * M + τ := by
    have := abs_add_le (A - a) a
    rw [sub_add_cancel] at this
    have : |a| / 2 ^ 24 ≤ |a| := div_le_self (abs_nonneg _) (by norm_num)
    linarith
  have hA' : |A'| ≤ 2 * M + τ := by
    have := abs_add_le (A' - b) b
    rw [sub_add_cancel] at this
    have : |b| / 2 ^ 24 ≤ |b| := div_le_self (abs_nonneg _) (by norm_num)
    linarith
  have hxA : |x - A| ≤ 4 * M + 2 * τ := by
    rw [abs_of_nonneg (by linarith)]
    have := le_abs_self A'
    have := neg_abs_le A
    linarith
  have hXM : X ≤ 5 * M + 4 * τ := by
    have h1 := (abs_le.mp r4).2
    have h2 := le_abs_self (x - A)
    have : |x - A| / 2 ^ 24 ≤ |x - A| / 8 := div_le_div_of_nonneg_left (abs_nonneg _) (by norm_num) (by norm_num)
    linarith
  have h5 : |B * s - X| ≤ X / 2 ^ 24 + B * τ := by
    have e : B * s - X = B * (s - X / B) := by field_simp
    rw [e, abs_mul, abs_of_pos hB]
    have := mul_le_mul_of_nonneg_left r5 hB.le
    refine this.trans (le_of_eq ?_)
    rw [abs_of_nonneg (div_nonneg hX hB.le)]
    field_simp
  have h6 : |B * y - B * s| ≤ B / 2 ^ 18 := by
    rw [← mul_sub, abs_mul, abs_of_pos hB]
    have := mul_le_mul_of_nonneg_left hyn hB.le
    refine this.trans (le_of_eq ?_)
    ring
  have hBy : |B * y| ≤ B := by
    rw [abs_of_nonneg (by positivity)]
    nlinarith
  have hP : |P + A| ≤ 7 * M + 8 * τ := by
    have h1 := abs_add_le P A
    have h2 := abs_add_le (P - B * y) (B * y)
    rw [sub_add_cancel] at h2
    have : |B * y| / 2 ^ 24 ≤ |B * y| / 4 := div_le_div_of_nonneg_left (abs_nonneg _) (by norm_num) (by norm_num)
    linarith
  have hBτ := close_prod hM0 hτ0 hτ1 hτ3 hBM
  have e : V - x = (V - (P + A)) + (P - B * y) + (B * y - B * s) + (B * s - X) + (X - (x - A)) := by ring
  have q1 := abs_add_le ((V - (P + A)) + (P - B * y) + (B * y - B * s) + (B * s - X)) (X - (x - A))
  have q2 := abs_add_le ((V - (P + A)) + (P - B * y) + (B * y - B * s)) (B * s - X)
  have q3 := abs_add_le ((V - (P + A)) + (P - B * y)) (B * y - B * s)
  have q4 := abs_add_le (V - (P + A)) (P - B * y)
  rw [e]
  have d1 := div_le_div_of_nonneg_right hP (by positivity : (0 : ℝ) ≤ 2 ^ 24)
  have d2 := div_le_div_of_nonneg_right (hBy.trans hBM) (by positivity : (0 : ℝ) ≤ 2 ^ 24)
  have d3 := div_le_div_of_nonneg_right hBM (by positivity : (0 : ℝ) ≤ 2 ^ 18)
  have d4 := div_le_div_of_nonneg_right hXM (by positivity : (0 : ℝ) ≤ 2 ^ 24)
  have d5 := div_le_div_of_nonneg_right hxA (by positivity : (0 : ℝ) ≤ 2 ^ 24)
  have hfin := close_fin hM0 hτ0.le
  linarith

end Rbd

end PT
