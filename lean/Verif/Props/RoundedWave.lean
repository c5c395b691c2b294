import Verif.Proof.RoundedWave
import Mathlib.Analysis.SpecialFunctions.Trigonometric.Bounds

/-!
# C144: waveguides in floating-point arithmetic
-/

namespace PT
open Spec

/-- C144. What is computed for a waveguide (with the phase that it stores, as constructed or trained) is its amplitude, up to single
precision and `2 ^ -47` of the phase light picks up in it. -/
theorem C144_stored {m : Libm} (hm : Accurate m) (length loss neff wl0 ng s wl : ℚ) (h : Usual length loss neff wl0 ng wl) (hs : |s| ≤ 500) :
    ‖pairComplex (waveguideR fl fl32 m length loss neff wl0 ng s wl) - (waveguideOf length loss neff wl0 ng s).amp wl‖ ≤
      (waveguideOf length loss neff wl0 ng s).left * (turn (waveguideOf length loss neff wl0 ng s) wl / 2 ^ 47 + 1 / 2 ^ 19) + 1 / 2 ^ 147 :=
  Rwv.waveguide_near hm h s hs

/-- C144. The same for the phase that the constructor was given. -/
theorem C144_waveguide {m : Libm} (hm : Accurate m) (length loss neff wl0 ng phase wl : ℚ) (h : Usual length loss neff wl0 ng wl) :
    ‖pairComplex (waveguideR fl fl32 m length loss neff wl0 ng (phaseStoredR fl phase) wl) - (waveguideOf length loss neff wl0 ng phase).amp wl‖ ≤
      (waveguideOf length loss neff wl0 ng phase).left *
        (turn (waveguideOf length loss neff wl0 ng phase) wl / 2 ^ 47 + |(phase : ℝ)| / 2 ^ 52 + 1 / 2 ^ 18) + 1 / 2 ^ 147 := by
  obtain ⟨k, hk, h0, h8⟩ := Rwv.mod_near phase
  have h1 := C144_stored hm length loss neff wl0 ng (phaseStoredR fl phase) wl h
    (by show |modR fl phase (2 * npPi)| ≤ 500; rw [abs_of_nonneg h0]; linarith)
  have h2 := Rwv.amp_shift (length := length) (loss := loss) (neff := neff) (wl0 := wl0) (ng := ng) (phaseStoredR fl phase) phase k wl
  have hl : (waveguideOf length loss neff wl0 ng (phaseStoredR fl phase)).left = (waveguideOf length loss neff wl0 ng phase).left := rfl
  have ht : turn (waveguideOf length loss neff wl0 ng (phaseStoredR fl phase)) wl = turn (waveguideOf length loss neff wl0 ng phase) wl := rfl
  rw [hl, ht] at h1
  have hL : 0 ≤ (waveguideOf length loss neff wl0 ng phase).left := by unfold Wg.left; positivity
  have h3 := norm_sub_le_norm_sub_add_norm_sub (pairComplex (waveguideR fl fl32 m length loss neff wl0 ng (phaseStoredR fl phase) wl))
    ((waveguideOf length loss neff wl0 ng (phaseStoredR fl phase)).amp wl) ((waveguideOf length loss neff wl0 ng phase).amp wl)
  have h4 := mul_le_mul_of_nonneg_left hk hL
  have h5 : (waveguideOf length loss neff wl0 ng phase).left * ((|(phase : ℝ)| + 16) * Rwv.u + 1 / 2 ^ 19) ≤
      (waveguideOf length loss neff wl0 ng phase).left * (|(phase : ℝ)| / 2 ^ 52 + 1 / 2 ^ 18) := by
    refine mul_le_mul_of_nonneg_left ?_ hL
    unfold Rwv.u
    have : (16 : ℝ) * (1 / 2 ^ 52) + 1 / 2 ^ 19 ≤ 1 / 2 ^ 18 := by norm_num
    linarith
  have h6 : ‖(waveguideOf length loss neff wl0 ng (phaseStoredR fl phase)).amp wl - (waveguideOf length loss neff wl0 ng phase).amp wl‖ ≤
      (waveguideOf length loss neff wl0 ng phase).left * ((|(phase : ℝ)| + 16) * Rwv.u) := h2.trans h4
  linarith

/-- Accurate functions exist. -/
theorem exists_accurate : ∃ m, Accurate m := by
  have near : ∀ (x e : ℝ), 0 < e → ∃ q : ℚ, |(q : ℝ) - x| ≤ e := by
    intro x e he
    obtain ⟨q, h1, h2⟩ := exists_rat_btwn (show x < x + e by linarith)
    exact ⟨q, by rw [abs_le]; constructor <;> linarith⟩
  choose c hc using fun x : ℚ => near (Real.cos x) (1 / 2 ^ 52) (by positivity)
  choose s hs using fun x : ℚ => near (Real.sin x) (1 / 2 ^ 52) (by positivity)
  choose p hp using fun x : ℚ => near ((10 : ℝ) ^ (x : ℝ)) ((10 : ℝ) ^ (x : ℝ) / 2 ^ 50) (by positivity)
  exact ⟨⟨c, s, p⟩, fun x _ => ⟨hc x, hs x⟩, fun x _ => hp x⟩

/-- Not vacuous: the ring of notebook 01 and one of a hundred meters; in both the phase is many turns. -/
example : ∃ m, Accurate m ∧ Usual (50 / 10 ^ 6) 1000 (286 / 100) (155 / 10 ^ 8) (34 / 10) (15 / 10 ^ 7) ∧
    Usual 100 (2 / 10) (15 / 10) (155 / 10 ^ 8) (15 / 10) (155 / 10 ^ 8) ∧ phaseStoredR fl 100 ≠ 100 ∧ phaseStoredR fl (-1) ≠ -1 := by
  obtain ⟨m, hm⟩ := exists_accurate
  refine ⟨m, hm, ?_, ?_, by decide +kernel, by decide +kernel⟩ <;> constructor <;> norm_num [abs_of_pos]

namespace Rwv

/-- A number very close to 1 becomes 1. -/
theorem fl32_one {x : ℚ} (h : |x - 1| < 1 / 2 ^ 25) : fl32 x = 1 := by
  obtain ⟨h1, h2⟩ := abs_lt.mp h
  have h25 : (1 : ℚ) / 2 ^ 25 ≤ 1 / 4 := by norm_num
  have hx : 0 < x := by linarith
  have tri := abs_sub_le (fl32 x) x 1
  by_cases hc : 1 ≤ x
  · have hs : Spacing32 x (-23) := ⟨by norm_num, by rw [abs_of_pos hx]; norm_num; linarith, .inr (by rw [abs_of_pos hx]; norm_num; exact hc)⟩
    have hb := fl32_best_of hs (2 ^ 23)
    have hm := fl32_at hs
    generalize roundEven (x / 2 ^ (-23 : ℤ)) = n at hm
    have e : ((2 ^ 23 : ℤ) : ℚ) * 2 ^ (-23 : ℤ) - x = -(x - 1) := by norm_num
    rw [e, abs_neg] at hb
    have h3 : |fl32 x - 1| < 1 / 2 ^ 24 := by
      have : (1 : ℚ) / 2 ^ 25 + 1 / 2 ^ 25 = 1 / 2 ^ 24 := by norm_num
      linarith
    rw [hm] at h3 ⊢
    have e2 : (n : ℚ) * 2 ^ (-23 : ℤ) - 1 = (n - 2 ^ 23) * (1 / 2 ^ 23) := by norm_num; ring
    rw [e2, abs_mul, abs_of_pos (by positivity : (0 : ℚ) < 1 / 2 ^ 23)] at h3
    have h4 : |(n : ℚ) - 2 ^ 23| < 1 := by
      have : (1 : ℚ) / 2 ^ 24 ≤ 1 * (1 / 2 ^ 23) := by norm_num
      exact lt_of_mul_lt_mul_right (h3.trans_le this) (by positivity)
    have h5 : |n - 2 ^ 23| < 1 := by exact_mod_cast h4
    have h6 : n = 2 ^ 23 := by rw [Int.abs_lt_one_iff] at h5; omega
    rw [h6]
    norm_num
  · push Not at hc
    have hs : Spacing32 x (-24) := ⟨by norm_num, by rw [abs_of_pos hx]; norm_num; exact hc, .inr (by rw [abs_of_pos hx]; norm_num; linarith)⟩
    have hb := fl32_best_of hs (2 ^ 24)
    have hm := fl32_at hs
    generalize roundEven (x / 2 ^ (-24 : ℤ)) = n at hm
    have e : ((2 ^ 24 : ℤ) : ℚ) * 2 ^ (-24 : ℤ) - x = -(x - 1) := by norm_num
    rw [e, abs_neg] at hb
    have h3 : |fl32 x - 1| < 1 / 2 ^ 24 := by
      have : (1 : ℚ) / 2 ^ 25 + 1 / 2 ^ 25 = 1 / 2 ^ 24 := by norm_num
      linarith
    rw [hm] at h3 ⊢
    have e2 : (n : ℚ) * 2 ^ (-24 : ℤ) - 1 = (n - 2 ^ 24) * (1 / 2 ^ 24) := by norm_num; ring
    rw [e2, abs_mul, abs_of_pos (by positivity : (0 : ℚ) < 1 / 2 ^ 24)] at h3
    have h4 : |(n : ℚ) - 2 ^ 24| < 1 := by
      have : (1 : ℚ) / 2 ^ 24 ≤ 1 * (1 / 2 ^ 24) := by norm_num
      exact lt_of_mul_lt_mul_right (h3.trans_le this) (by positivity)
    have h5 : |n - 2 ^ 24| < 1 := by exact_mod_cast h4
    have h6 : n = 2 ^ 24 := by rw [Int.abs_lt_one_iff] at h5; omega
    rw [h6]
    norm_num

end Rwv

/-- C144 in full, but for the bounds above: a waveguide without gain does not amplify. -/
def C144_statement (m : Libm) : Prop := ∀ length loss neff wl0 ng phase wl : ℚ, Usual length loss neff wl0 ng wl → 0 ≤ loss →
  ‖pairComplex (waveguideR fl fl32 m length loss neff wl0 ng (phaseStoredR fl phase) wl)‖ ≤ 1

/-- C144 is refuted: the cosine of a small phase is rounded to 1, while its sine is not rounded to 0, so a mere phase shift amplifies. -/
theorem C144_violation {m : Libm} (hm : Accurate m) : ¬ C144_statement m := by
  intro H
  have h := H 0 0 2 1 2 (1 / 8192) 1 (by constructor <;> norm_num) le_rfl
  have hst : phaseStoredR fl (1 / 8192) = 1 / 8192 := by decide +kernel
  have hph : phaseR fl 0 2 1 2 (1 / 8192) 1 = 1 / 8192 := by decide +kernel
  have hexp : fl (fl (-0 * 0) / 20) = 0 := by decide +kernel
  have hle : leftR fl fl32 m 0 0 = 1 := by
    unfold leftR
    rw [hexp]
    have h1 := hm.2 0 (by norm_num)
    rw [Rat.cast_zero, Real.rpow_zero] at h1
    refine Rwv.fl32_one ?_
    have h2 : |m.pow10 0 - 1| ≤ 1 / 2 ^ 50 := by
      have : |((m.pow10 0 - 1 : ℚ) : ℝ)| ≤ ((1 / 2 ^ 50 : ℚ) : ℝ) := by push_cast; exact h1
      exact_mod_cast this
    exact h2.trans_lt (by norm_num)
  obtain ⟨hc, hs⟩ := hm.1 (1 / 8192) (by norm_num [abs_of_pos])
  have ex : (((1 / 8192 : ℚ)) : ℝ) = 1 / 8192 := by norm_num
  rw [ex] at hc hs
  have c1 := Real.one_sub_sq_div_two_le_cos (x := 1 / 8192)
  have c2 := Real.cos_le_one (1 / 8192)
  have s1 := Real.sin_gt_sub_cube (x := 1 / 8192) (by norm_num)
  have hcos : fl32 (m.cos (1 / 8192)) = 1 := by
    refine Rwv.fl32_one ?_
    have h2 : |((m.cos (1 / 8192) - 1 : ℚ) : ℝ)| < ((1 / 2 ^ 25 : ℚ) : ℝ) := by
      push_cast
      obtain ⟨a1, a2⟩ := abs_le.mp hc
      rw [abs_lt]
      constructor <;> norm_num at * <;> linarith
    exact_mod_cast h2
  have hsin : 1 / 2 ^ 15 ≤ fl32 (m.sin (1 / 8192)) := by
    have h2 : (1 / 2 ^ 15 : ℚ) ≤ m.sin (1 / 8192) := by
      have : ((1 / 2 ^ 15 : ℚ) : ℝ) ≤ ((m.sin (1 / 8192) : ℚ) : ℝ) := by
        push_cast
        obtain ⟨a1, a2⟩ := abs_le.mp hs
        norm_num at *
        linarith
      exact_mod_cast this
    have h3 := fl32_mono h2
    rwa [show fl32 (1 / 2 ^ 15) = 1 / 2 ^ 15 by decide +kernel] at h3
  unfold waveguideR at h
  rw [hst, hph, hle] at h
  simp only [one_mul] at h
  rw [hcos, fl32_of (fl32_binary _), show fl32 1 = 1 by decide +kernel] at h
  have hsq : ‖pairComplex (1, fl32 (m.sin (1 / 8192)))‖ ^ 2 ≤ 1 := pow_le_one₀ (norm_nonneg _) h
  rw [← Complex.normSq_eq_norm_sq, Complex.normSq_apply] at hsq
  have h5 : (1 / 2 ^ 15 : ℝ) ≤ ((fl32 (m.sin (1 / 8192)) : ℚ) : ℝ) := by
    have := (Rat.cast_le (K := ℝ)).mpr hsin
    push_cast at this
    exact this
  have e : (pairComplex (1, fl32 (m.sin (1 / 8192)))).re * (pairComplex (1, fl32 (m.sin (1 / 8192)))).re +
      (pairComplex (1, fl32 (m.sin (1 / 8192)))).im * (pairComplex (1, fl32 (m.sin (1 / 8192)))).im =
      1 + ((fl32 (m.sin (1 / 8192)) : ℚ) : ℝ) * ((fl32 (m.sin (1 / 8192)) : ℚ) : ℝ) := by
    show ((1 : ℚ) : ℝ) * ((1 : ℚ) : ℝ) + _ = _
    rw [Rat.cast_one, one_mul]
    rfl
  rw [e] at hsq
  have : (0 : ℝ) < 1 / 2 ^ 15 := by positivity
  nlinarith

/-- C144, the part that holds: what a waveguide amplifies is a rounding error. -/
theorem C144_gain_partial {m : Libm} (hm : Accurate m) (length loss neff wl0 ng phase wl : ℚ) (h : Usual length loss neff wl0 ng wl)
    (hl : 0 ≤ loss) :
    ‖pairComplex (waveguideR fl fl32 m length loss neff wl0 ng (phaseStoredR fl phase) wl)‖ ≤
      1 + (turn (waveguideOf length loss neff wl0 ng phase) wl / 2 ^ 47 + |(phase : ℝ)| / 2 ^ 52 + 1 / 2 ^ 17) := by
  have h1 := C144_waveguide hm length loss neff wl0 ng phase wl h
  have hL : (waveguideOf length loss neff wl0 ng phase).left ≤ 1 := by
    unfold Wg.left
    refine Real.rpow_le_one_of_one_le_of_nonpos (by norm_num) ?_
    have : (0 : ℝ) ≤ loss * length := mul_nonneg (by exact_mod_cast hl) (by exact_mod_cast h.length_ok.1)
    show -((loss : ℝ) * length) / 20 ≤ 0
    linarith
  have hn : ‖(waveguideOf length loss neff wl0 ng phase).amp wl‖ ≤ 1 := by
    unfold Wg.amp
    rw [norm_mul, Complex.norm_real, Complex.norm_exp_ofReal_mul_I, mul_one, Real.norm_of_nonneg (by positivity)]
    exact hL
  have t5 : 0 ≤ turn (waveguideOf length loss neff wl0 ng phase) wl := by
    have h1 : (0 : ℝ) ≤ length := by exact_mod_cast h.length_ok.1
    have h2 : (0 : ℝ) ≤ wl := by exact_mod_cast (le_trans (by norm_num) h.wl_ok.1 : (0 : ℚ) ≤ wl)
    unfold turn waveguideOf
    positivity
  have h2 := norm_sub_norm_le (pairComplex (waveguideR fl fl32 m length loss neff wl0 ng (phaseStoredR fl phase) wl))
    ((waveguideOf length loss neff wl0 ng phase).amp wl)
  have h3 : (waveguideOf length loss neff wl0 ng phase).left *
        (turn (waveguideOf length loss neff wl0 ng phase) wl / 2 ^ 47 + |(phase : ℝ)| / 2 ^ 52 + 1 / 2 ^ 18) ≤
      1 * (turn (waveguideOf length loss neff wl0 ng phase) wl / 2 ^ 47 + |(phase : ℝ)| / 2 ^ 52 + 1 / 2 ^ 18) :=
    mul_le_mul_of_nonneg_right hL (by positivity)
  have h4 : (1 : ℝ) / 2 ^ 18 + 1 / 2 ^ 147 ≤ 1 / 2 ^ 17 := by norm_num
  linarith

/-- The bound for the waveguide of a ring of 50 micrometers: less than five digits after the point are touched. -/
example {m : Libm} (hm : Accurate m) :
    ‖pairComplex (waveguideR fl fl32 m (50 / 10 ^ 6) 1000 (286 / 100) (155 / 10 ^ 8) (286 / 100) (phaseStoredR fl 0) (155 / 10 ^ 8)) -
      (waveguideOf (50 / 10 ^ 6) 1000 (286 / 100) (155 / 10 ^ 8) (286 / 100) 0).amp ((155 / 10 ^ 8 : ℚ) : ℝ)‖ ≤ 1 / 100000 := by
  refine (C144_waveguide hm (50 / 10 ^ 6) 1000 (286 / 100) (155 / 10 ^ 8) (286 / 100) 0 (155 / 10 ^ 8) (by constructor <;> norm_num [abs_of_pos])).trans ?_
  have hL : (waveguideOf (50 / 10 ^ 6) 1000 (286 / 100) (155 / 10 ^ 8) (286 / 100) 0).left ≤ 1 := by
    unfold Wg.left waveguideOf
    exact Real.rpow_le_one_of_one_le_of_nonpos (by norm_num) (by norm_num)
  have hL0 : 0 ≤ (waveguideOf (50 / 10 ^ 6) 1000 (286 / 100) (155 / 10 ^ 8) (286 / 100) 0).left := by unfold Wg.left; positivity
  have ht : turn (waveguideOf (50 / 10 ^ 6) 1000 (286 / 100) (155 / 10 ^ 8) (286 / 100) 0) ((155 / 10 ^ 8 : ℚ) : ℝ) ≤ 1000 := by
    unfold turn waveguideOf
    have := Real.pi_lt_four
    have e : (((155 / 10 ^ 8 : ℚ) : ℝ) - ((155 / 10 ^ 8 : ℚ) : ℝ)) = 0 := sub_self _
    simp only [e, zero_mul, zero_div, abs_zero, add_zero]
    rw [abs_of_pos (by norm_num)]
    norm_num
    linarith
  have h0 : |((0 : ℚ) : ℝ)| = 0 := by simp
  rw [h0, zero_div, add_zero]
  have h1 : (turn (waveguideOf (50 / 10 ^ 6) 1000 (286 / 100) (155 / 10 ^ 8) (286 / 100) 0) ((155 / 10 ^ 8 : ℚ) : ℝ) / 2 ^ 47 + 1 / 2 ^ 18 : ℝ) ≤
      1000 / 2 ^ 47 + 1 / 2 ^ 18 := by
    have := div_le_div_of_nonneg_right ht (by positivity : (0 : ℝ) ≤ 2 ^ 47)
    linarith
  have h2 := mul_le_mul hL h1 (by
    have : 0 ≤ turn (waveguideOf (50 / 10 ^ 6) 1000 (286 / 100) (155 / 10 ^ 8) (286 / 100) 0) ((155 / 10 ^ 8 : ℚ) : ℝ) := by
      unfold turn waveguideOf
      positivity
    positivity) (by norm_num)
  refine (add_le_add_left h2 _).trans ?_
  norm_num

end PT
