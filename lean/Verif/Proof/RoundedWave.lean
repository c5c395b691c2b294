import Verif.Spec.RoundedWave
import Verif.Proof.Rounded32
import Verif.Proof.RoundedSignal
import Mathlib.Analysis.Real.Pi.Bounds
import Mathlib.Analysis.SpecialFunctions.Trigonometric.Bounds

/-!
# Errors of the phase of a waveguide
-/

namespace PT
open Spec

namespace Rwv

/-- Twice the relative error of one rounding. -/
noncomputable def u : ℝ := 1 / 2 ^ 52

theorem u_pos : 0 < u := by unfold u; positivity

/-- `a` is `A` up to `k` roundings of numbers of size `S`. -/
def Off (k : ℕ) (a A S : ℝ) : Prop := |A| ≤ S ∧ |a - A| ≤ S * ((1 + u) ^ k - 1)

theorem one_le (k : ℕ) : 1 ≤ (1 + u) ^ k := one_le_pow₀ (by linarith [u_pos])

theorem Off.exact {A S : ℝ} (h : |A| ≤ S) : Off 0 A A S := ⟨h, by simp⟩

theorem Off.size {k : ℕ} {a A S : ℝ} (h : Off k a A S) : |a| ≤ S * (1 + u) ^ k := by
  have h1 : |a| ≤ |a - A| + |A| := by
    have := abs_add_le (a - A) A
    rwa [sub_add_cancel] at this
  have := h.1
  have := h.2
  linarith

theorem Off.nonneg {k : ℕ} {a A S : ℝ} (h : Off k a A S) : 0 ≤ S := (abs_nonneg _).trans h.1

theorem Off.mono {k l : ℕ} {a A S : ℝ} (h : Off k a A S) (hkl : k ≤ l) : Off l a A S := by
  refine ⟨h.1, h.2.trans (mul_le_mul_of_nonneg_left ?_ h.nonneg)⟩
  have := pow_le_pow_right₀ (by linarith [u_pos] : (1 : ℝ) ≤ 1 + u) hkl
  linarith

theorem Off.mul {k l : ℕ} {a A S b B T : ℝ} (h : Off k a A S) (h' : Off l b B T) : Off (k + l) (a * b) (A * B) (S * T) := by
  refine ⟨by rw [abs_mul]; exact mul_le_mul h.1 h'.1 (abs_nonneg _) h.nonneg, ?_⟩
  have e : a * b - A * B = a * (b - B) + (a - A) * B := by ring
  have h1 : |a * (b - B)| ≤ (S * (1 + u) ^ k) * (T * ((1 + u) ^ l - 1)) := by
    rw [abs_mul]
    exact mul_le_mul h.size h'.2 (abs_nonneg _) (mul_nonneg h.nonneg (by linarith [one_le k]))
  have h2 : |(a - A) * B| ≤ (S * ((1 + u) ^ k - 1)) * T := by
    rw [abs_mul]
    exact mul_le_mul h.2 h'.1 (abs_nonneg _) (mul_nonneg h.nonneg (by linarith [one_le k]))
  rw [e]
  refine (abs_add_le _ _).trans ((add_le_add h1 h2).trans (le_of_eq ?_))
  rw [pow_add]
  ring

theorem Off.sub {k : ℕ} {a A S b B T : ℝ} (h : Off k a A S) (h' : Off k b B T) : Off k (a - b) (A - B) (S + T) := by
  refine ⟨(abs_sub _ _).trans (add_le_add h.1 h'.1), ?_⟩
  have e : a - b - (A - B) = (a - A) - (b - B) := by ring
  rw [e, add_mul]
  exact (abs_sub _ _).trans (add_le_add h.2 h'.2)

theorem Off.div {k : ℕ} {a A S B : ℝ} (h : Off k a A S) (hB : 0 < B) : Off k (a / B) (A / B) (S / B) := by
  refine ⟨by rw [abs_div, abs_of_pos hB]; exact div_le_div_of_nonneg_right h.1 hB.le, ?_⟩
  rw [← sub_div, abs_div, abs_of_pos hB, div_mul_eq_mul_div]
  exact div_le_div_of_nonneg_right h.2 hB.le

theorem Off.grow {k : ℕ} {a A S T : ℝ} (h : Off k a A S) (hT : S ≤ T) : Off k a A T :=
  ⟨h.1.trans hT, h.2.trans (mul_le_mul_of_nonneg_right hT (by linarith [one_le k]))⟩

theorem fl_real (q : ℚ) : |((fl q : ℚ) : ℝ) - q| ≤ |(q : ℝ)| / 2 ^ 53 + 1 / 2 ^ 1075 := by
  have h := fl_err q
  have e : (2 : ℚ) ^ (-1075 : ℤ) = 1 / 2 ^ 1075 := by
    rw [zpow_neg, one_div]
    rfl
  rw [e] at h
  have := (Rat.cast_le (K := ℝ)).mpr h
  push_cast at this
  exact this

theorem fl32_real (q : ℚ) : |((fl32 q : ℚ) : ℝ) - q| ≤ |(q : ℝ)| / 2 ^ 24 + 1 / 2 ^ 150 := by
  have h := fl32_err q
  have e : (2 : ℚ) ^ (-150 : ℤ) = 1 / 2 ^ 150 := by
    rw [zpow_neg, one_div]
    rfl
  rw [e] at h
  have := (Rat.cast_le (K := ℝ)).mpr h
  push_cast at this
  exact this

theorem Off.round {k : ℕ} {q : ℚ} {A S : ℝ} (h : Off k (q : ℝ) A S) (hS : 1 / 2 ^ 1000 ≤ S) : Off (k + 1) ((fl q : ℚ) : ℝ) A S := by
  refine ⟨h.1, ?_⟩
  have h1 := fl_real q
  have h2 := h.size
  have h3 : |((fl q : ℚ) : ℝ) - A| ≤ |((fl q : ℚ) : ℝ) - q| + |(q : ℝ) - A| := by
    have := abs_add_le (((fl q : ℚ) : ℝ) - q) (q - A)
    rwa [sub_add_sub_cancel] at this
  have h4 : (1 : ℝ) / 2 ^ 1075 ≤ S * (1 + u) ^ k / 2 ^ 53 := by
    have := one_le k
    have h5 : (1 : ℝ) / 2 ^ 1000 ≤ S * (1 + u) ^ k := hS.trans (le_mul_of_one_le_right h.nonneg this)
    have h6 : (1 : ℝ) / 2 ^ 1075 ≤ (1 / 2 ^ 1000) / 2 ^ 53 := by
      rw [div_div, ← pow_add]
      exact one_div_le_one_div_of_le (by positivity) (pow_le_pow_right₀ (by norm_num) (by norm_num))
    exact h6.trans (div_le_div_of_nonneg_right h5 (by positivity))
  have h5 : |(q : ℝ)| / 2 ^ 53 ≤ S * (1 + u) ^ k / 2 ^ 53 := div_le_div_of_nonneg_right h2 (by positivity)
  have e : S * (1 + u) ^ k / 2 ^ 53 + S * (1 + u) ^ k / 2 ^ 53 = S * (1 + u) ^ k * u := by unfold u; ring
  have := h.2
  rw [pow_succ]
  nlinarith

theorem pi_off : Off 1 ((2 * npPi : ℚ) : ℝ) (2 * Real.pi) (2 * Real.pi) := by
  refine ⟨(abs_of_pos (by positivity)).le, ?_⟩
  have h1 := Real.pi_gt_d20
  have h2 := Real.pi_lt_d20
  have e : ((2 * npPi : ℚ) : ℝ) = 2 * (884279719003555 / 281474976710656) := by unfold npPi; push_cast; norm_num
  rw [e, pow_one, add_sub_cancel_left, abs_le]
  unfold u
  constructor <;> nlinarith

theorem two_pi_near : |((2 * npPi : ℚ) : ℝ) - 2 * Real.pi| ≤ 2 * u ∧ (6 : ℚ) < 2 * npPi ∧ 2 * npPi < 7 := by
  refine ⟨?_, by unfold npPi; norm_num, by unfold npPi; norm_num⟩
  have h1 := Real.pi_gt_d20
  have h2 := Real.pi_lt_d20
  have e : ((2 * npPi : ℚ) : ℝ) = 2 * (884279719003555 / 281474976710656) := by unfold npPi; push_cast; norm_num
  rw [e, abs_le]
  unfold u
  constructor <;> nlinarith

/-- A remainder is a whole number of turns away. -/
theorem mod_near (a : ℚ) : ∃ k : ℤ, |((modR fl a (2 * npPi) : ℚ) : ℝ) - (a - k * (2 * Real.pi))| ≤ (|(a : ℝ)| + 16) * u ∧
    0 ≤ modR fl a (2 * npPi) ∧ modR fl a (2 * npPi) ≤ 8 := by
  obtain ⟨hpi, h6, h7⟩ := two_pi_near
  set b : ℚ := 2 * npPi with hb
  have hb0 : 0 < b := by linarith
  have hk : |(pyTrunc (a / b) : ℚ)| ≤ |a / b| ∧ |a / b - pyTrunc (a / b)| < 1 ∧ (0 ≤ a → 0 ≤ a / b - pyTrunc (a / b)) ∧
      (a < 0 → a / b - pyTrunc (a / b) ≤ 0) := by
    unfold pyTrunc
    by_cases h : 0 ≤ a / b
    · rw [if_pos h]
      have h1 := Int.floor_le (a / b)
      have h2 := Int.lt_floor_add_one (a / b)
      have h3 : (0 : ℚ) ≤ ⌊a / b⌋ := by exact_mod_cast Int.floor_nonneg.mpr h
      refine ⟨by rw [abs_of_nonneg h3, abs_of_nonneg h]; exact h1, by rw [abs_lt]; constructor <;> linarith, fun _ => by linarith, fun ha => ?_⟩
      exact absurd h (not_le.mpr (div_neg_of_neg_of_pos ha hb0))
    · rw [if_neg h]
      push Not at h
      have h1 := Int.le_ceil (a / b)
      have h2 := Int.ceil_lt_add_one (a / b)
      have h3 : (⌈a / b⌉ : ℚ) ≤ 0 := by exact_mod_cast Int.ceil_nonpos.mpr h.le
      refine ⟨by rw [abs_of_nonpos h3, abs_of_neg h]; linarith, by rw [abs_lt]; constructor <;> linarith, fun ha => ?_, fun _ => by linarith⟩
      exact absurd (div_nonneg ha hb0.le) (not_le.mpr h)
  obtain ⟨hk1, hk2, hk3, hk4⟩ := hk
  generalize hkk : pyTrunc (a / b) = k at hk1 hk2 hk3 hk4
  have ef : a - k * b = (a / b - k) * b := by rw [sub_mul, div_mul_cancel₀ _ hb0.ne']
  have hf : |a - k * b| ≤ b := by
    rw [ef, abs_mul, abs_of_pos hb0]
    nlinarith
  have hkr : |(k : ℝ)| ≤ |(a : ℝ)| / 6 := by
    have h1 : |(k : ℚ)| ≤ |a| / 6 := by
      refine hk1.trans ?_
      rw [abs_div, abs_of_pos hb0]
      exact div_le_div_of_nonneg_left (abs_nonneg _) (by norm_num) h6.le
    exact_mod_cast h1
  have turn : ∀ j : ℤ, |((a : ℝ) - j * (b : ℝ)) - (a - j * (2 * Real.pi))| ≤ |(j : ℝ)| * (2 * u) := by
    intro j
    have e : ((a : ℝ) - j * (b : ℝ)) - (a - j * (2 * Real.pi)) = -(j * ((b : ℝ) - 2 * Real.pi)) := by ring
    rw [e, abs_neg, abs_mul]
    exact mul_le_mul_of_nonneg_left hpi (abs_nonneg _)
  have ha0 := abs_nonneg (a : ℝ)
  have hu := u_pos
  by_cases hneg : a - k * b < 0
  · have hm : modR fl a b = fl (a - k * b + b) := by
      unfold modR
      simp only [hkk]
      rw [if_pos hneg]
    rw [hm]
    have hx0 : 0 ≤ a - k * b + b := by linarith [(abs_le.mp hf).1]
    have hx1 : a - k * b + b ≤ 7 := by linarith
    have he := fl_real (a - k * b + b)
    have hxr : |((a - k * b + b : ℚ) : ℝ)| ≤ 7 := by
      rw [abs_of_nonneg (by exact_mod_cast hx0)]
      exact_mod_cast hx1
    have hroot : (1 : ℝ) / 2 ^ 1075 ≤ u := by
      unfold u
      exact one_div_le_one_div_of_le (by positivity) (pow_le_pow_right₀ (by norm_num) (by norm_num))
    have he' : |((fl (a - k * b + b) : ℚ) : ℝ) - ((a - k * b + b : ℚ) : ℝ)| ≤ 8 * u := by
      refine he.trans ?_
      have : |((a - k * b + b : ℚ) : ℝ)| / 2 ^ 53 ≤ 7 * u := by
        unfold u
        rw [div_le_iff₀ (by positivity)]
        refine hxr.trans ?_
        norm_num
      linarith
    refine ⟨k - 1, ?_, fl_nonneg hx0, ?_⟩
    · have h1 := turn (k - 1)
      have e2 : ((a - k * b + b : ℚ) : ℝ) = (a : ℝ) - ((k - 1 : ℤ) : ℝ) * (b : ℝ) := by push_cast; ring
      rw [e2] at he'
      have h3 := abs_sub_le ((fl (a - k * b + b) : ℚ) : ℝ) ((a : ℝ) - ((k - 1 : ℤ) : ℝ) * (b : ℝ)) (a - ((k - 1 : ℤ) : ℝ) * (2 * Real.pi))
      have h4 : |(((k - 1 : ℤ)) : ℝ)| ≤ |(a : ℝ)| / 6 + 1 := by
        have := abs_sub (k : ℝ) 1
        rw [abs_one] at this
        push_cast
        linarith
      nlinarith
    · have h8 : fl (a - k * b + b) ≤ fl ((8 : ℕ) : ℚ) := fl_mono (by push_cast; linarith)
      rw [fl_nat (by norm_num)] at h8
      exact_mod_cast h8
  · have hm : modR fl a b = a - k * b := by
      unfold modR
      simp only [hkk]
      rw [if_neg hneg]
    rw [hm]
    push Not at hneg
    refine ⟨k, ?_, hneg, by linarith [(abs_le.mp hf).2]⟩
    have h1 := turn k
    push_cast
    refine h1.trans ?_
    nlinarith

theorem scale_le {n D G L w0 w ζ : ℝ} (hζ : ζ = 1 / 2 ^ 200) (hn : |n| ≤ 2 ^ 20) (hDb : |D| ≤ 2 ^ 21) (hGb : |G| ≤ 2 ^ 21)
    (hL : 0 ≤ L ∧ L ≤ 2 ^ 20) (h0 : 1 / 2 ^ 40 ≤ w0) (h1 : 1 / 2 ^ 40 ≤ w) :
    2 * Real.pi * (|n| + (|D| + ζ) * (|G| + ζ) / w0) * (L + ζ) / w ≤ 2 * Real.pi * (|n| + |D * G / w0|) * L / w + 1 := by
  have hw0 : 0 < w0 := lt_of_lt_of_le (by norm_num) h0
  have hw : 0 < w := lt_of_lt_of_le (by norm_num) h1
  have hζ0 : 0 < ζ := by rw [hζ]; positivity
  have hζ1 : ζ ≤ 1 := by rw [hζ]; exact (div_le_one (by positivity)).mpr (one_le_pow₀ (by norm_num))
  have hfin : ζ * 2 ^ 89 ≤ 1 / 2 ^ 40 := by rw [hζ]; norm_num
  clear hζ
  rw [abs_div, abs_mul, abs_of_pos hw0]
  have hD0 := abs_nonneg D
  have hG0 := abs_nonneg G
  generalize |D| = d at *
  generalize |G| = g at *
  have e1 : (d + ζ) * (g + ζ) / w0 ≤ d * g / w0 + ζ * 2 ^ 63 := by
    have h1 : (d + ζ) * (g + ζ) ≤ d * g + ζ * 2 ^ 23 := by
      have a1 : ζ * g ≤ ζ * 2 ^ 21 := mul_le_mul_of_nonneg_left hGb hζ0.le
      have a2 : ζ * d ≤ ζ * 2 ^ 21 := mul_le_mul_of_nonneg_left hDb hζ0.le
      have a3 : ζ * ζ ≤ ζ * 1 := mul_le_mul_of_nonneg_left hζ1 hζ0.le
      linarith
    have h2 : ζ * 2 ^ 23 / w0 ≤ ζ * 2 ^ 63 := by
      rw [div_le_iff₀ hw0]
      have : ζ * 2 ^ 63 * (1 / 2 ^ 40) ≤ ζ * 2 ^ 63 * w0 := mul_le_mul_of_nonneg_left h0 (by positivity)
      linarith
    have h3 := div_le_div_of_nonneg_right h1 hw0.le
    rw [add_div] at h3
    linarith
  have e2 : d * g / w0 ≤ 2 ^ 82 := by
    rw [div_le_iff₀ hw0]
    have a1 : d * g ≤ 2 ^ 21 * 2 ^ 21 := mul_le_mul hDb hGb hG0 (by norm_num)
    have a2 : (2 : ℝ) ^ 82 * (1 / 2 ^ 40) ≤ 2 ^ 82 * w0 := mul_le_mul_of_nonneg_left h0 (by positivity)
    linarith
  have m0 : 0 ≤ |n| + d * g / w0 := by positivity
  have m1 : |n| + d * g / w0 ≤ 2 ^ 83 := by linarith
  have m2 : |n| + (d + ζ) * (g + ζ) / w0 ≤ |n| + d * g / w0 + ζ * 2 ^ 63 := by linarith
  generalize |n| + d * g / w0 = M0 at *
  generalize |n| + (d + ζ) * (g + ζ) / w0 = M at *
  have e3 : M * (L + ζ) ≤ M0 * L + ζ * 2 ^ 86 := by
    have b1 : M * (L + ζ) ≤ (M0 + ζ * 2 ^ 63) * (L + ζ) := mul_le_mul_of_nonneg_right m2 (by linarith [hL.1])
    have b2 : ζ * M0 ≤ ζ * 2 ^ 83 := mul_le_mul_of_nonneg_left m1 hζ0.le
    have b3 : ζ * L ≤ ζ * 2 ^ 20 := mul_le_mul_of_nonneg_left hL.2 hζ0.le
    have b4 : ζ * ζ ≤ ζ * 1 := mul_le_mul_of_nonneg_left hζ1 hζ0.le
    linarith
  have hpi4 := Real.pi_lt_four
  have e5 : 2 * Real.pi * M * (L + ζ) ≤ 2 * Real.pi * M0 * L + ζ * 2 ^ 89 := by
    have b1 := mul_le_mul_of_nonneg_left e3 (by positivity : 0 ≤ 2 * Real.pi)
    have b2 := mul_le_mul_of_nonneg_right hpi4.le (by positivity : 0 ≤ 2 * (ζ * 2 ^ 86))
    linarith
  have e6 := div_le_div_of_nonneg_right e5 hw.le
  rw [add_div] at e6
  have e7 : ζ * 2 ^ 89 / w ≤ 1 := (div_le_one hw).mpr (hfin.trans h1)
  linarith

variable {length loss neff wl0 ng wl : ℚ}

/-- The phase before it is reduced. -/
theorem long_near (h : Usual length loss neff wl0 ng wl) (s : ℚ) :
    ∃ T : ℝ, Off 9 ((fl (fl (fl (2 * npPi * neffR fl neff wl0 ng wl) * length) / wl) : ℚ) : ℝ)
      (2 * Real.pi * (neff + (wl0 - wl) * (ng - neff) / wl0) * length / wl) T ∧
      T ≤ turn (waveguideOf length loss neff wl0 ng s) wl + 1 := by
  obtain ⟨ζ, hζ⟩ : ∃ ζ : ℝ, ζ = 1 / 2 ^ 200 := ⟨_, rfl⟩
  have hζ0 : 0 < ζ := by rw [hζ]; positivity
  have hw0' : (1 / 2 ^ 40 : ℝ) ≤ wl0 ∧ (wl0 : ℝ) ≤ 2 ^ 20 := by
    have h1 := (Rat.cast_le (K := ℝ)).mpr h.wl0_ok.1
    have h2 := (Rat.cast_le (K := ℝ)).mpr h.wl0_ok.2
    push_cast at h1 h2
    exact ⟨h1, h2⟩
  have hw' : (1 / 2 ^ 40 : ℝ) ≤ wl ∧ (wl : ℝ) ≤ 2 ^ 20 := by
    have h1 := (Rat.cast_le (K := ℝ)).mpr h.wl_ok.1
    have h2 := (Rat.cast_le (K := ℝ)).mpr h.wl_ok.2
    push_cast at h1 h2
    exact ⟨h1, h2⟩
  have hL' : (0 : ℝ) ≤ length ∧ (length : ℝ) ≤ 2 ^ 20 := by exact_mod_cast h.length_ok
  have hn' : |(neff : ℝ)| ≤ 2 ^ 20 := by exact_mod_cast h.neff_ok
  have hg' : |(ng : ℝ)| ≤ 2 ^ 20 := by exact_mod_cast h.ng_ok
  have hw0 : (0 : ℝ) < wl0 := lt_of_lt_of_le (by norm_num) hw0'.1
  have hw : (0 : ℝ) < wl := lt_of_lt_of_le (by norm_num) hw'.1
  have small : ∀ {S : ℝ}, ζ * ζ * ζ / 2 ^ 40 ≤ S → (1 : ℝ) / 2 ^ 1000 ≤ S := fun hS => le_trans (by
    have e : ζ * ζ * ζ / 2 ^ 40 = 1 / 2 ^ 640 := by
      rw [hζ, show 640 = 200 + 200 + 200 + 40 by norm_num, pow_add, pow_add, pow_add]
      field_simp
    rw [e]
    exact one_div_le_one_div_of_le (by positivity) (pow_le_pow_right₀ (by norm_num) (by norm_num))) hS
  have z3 : 0 < ζ * ζ * ζ := by positivity
  obtain ⟨D, hD⟩ : ∃ D : ℝ, D = wl - wl0 := ⟨_, rfl⟩
  obtain ⟨G, hG⟩ : ∃ G : ℝ, G = ng - neff := ⟨_, rfl⟩
  obtain ⟨SD, hSD⟩ : ∃ S : ℝ, S = |D| + ζ := ⟨_, rfl⟩
  obtain ⟨SG, hSG⟩ : ∃ S : ℝ, S = |G| + ζ := ⟨_, rfl⟩
  have zD : ζ ≤ SD := by rw [hSD]; linarith [abs_nonneg D]
  have zG : ζ ≤ SG := by rw [hSG]; linarith [abs_nonneg G]
  have zDG : ζ * ζ ≤ SD * SG := mul_le_mul zD zG hζ0.le (by linarith)
  have zq : ζ * ζ / 2 ^ 20 ≤ SD * SG / wl0 := div_le_div₀ (by nlinarith) zDG hw0 hw0'.2
  have hζ1 : ζ ≤ 1 := by rw [hζ]; exact (div_le_one (by positivity)).mpr (one_le_pow₀ (by norm_num))
  have hζζ : 0 < ζ * ζ := by positivity
  have hζζ1 : ζ * ζ ≤ ζ := by nlinarith
  have hζ3 : ζ * ζ * ζ ≤ ζ * ζ := mul_le_of_le_one_right hζζ.le hζ1
  have od : Off 1 ((fl (wl - wl0) : ℚ) : ℝ) D SD :=
    Off.round (by rw [hD, Rat.cast_sub]; exact Off.exact (by rw [hSD, hD]; linarith)) (small (by linarith))
  have og : Off 1 ((fl (ng - neff) : ℚ) : ℝ) G SG :=
    Off.round (by rw [hG, Rat.cast_sub]; exact Off.exact (by rw [hSG, hG]; linarith)) (small (by linarith))
  have om : Off 3 ((fl (fl (wl - wl0) * fl (ng - neff)) : ℚ) : ℝ) (D * G) (SD * SG) :=
    Off.round (by rw [Rat.cast_mul]; exact od.mul og) (small (by linarith))
  have oq : Off 4 ((fl (fl (fl (wl - wl0) * fl (ng - neff)) / wl0) : ℚ) : ℝ) (D * G / wl0) (SD * SG / wl0) :=
    Off.round (by rw [Rat.cast_div]; exact om.div hw0) (small (by linarith))
  obtain ⟨N, hN⟩ : ∃ N : ℝ, N = neff - D * G / wl0 := ⟨_, rfl⟩
  obtain ⟨M, hM⟩ : ∃ M : ℝ, M = |(neff : ℝ)| + SD * SG / wl0 := ⟨_, rfl⟩
  have zM : ζ * ζ / 2 ^ 20 ≤ M := by rw [hM]; linarith [abs_nonneg (neff : ℝ)]
  have on : Off 5 ((neffR fl neff wl0 ng wl : ℚ) : ℝ) N M := by
    refine Off.round ?_ (small (by linarith))
    rw [Rat.cast_sub, hN, hM]
    exact ((Off.exact le_rfl).mono (by norm_num)).sub oq
  have hpi := Real.pi_gt_three
  have zP : ζ * ζ / 2 ^ 20 ≤ 2 * Real.pi * M := by nlinarith
  have op : Off 7 ((fl (2 * npPi * neffR fl neff wl0 ng wl) : ℚ) : ℝ) (2 * Real.pi * N) (2 * Real.pi * M) := by
    refine Off.round (k := 6) ?_ (small (by linarith))
    rw [Rat.cast_mul]
    exact pi_off.mul on
  have zL : ζ * ζ * ζ / 2 ^ 20 ≤ 2 * Real.pi * M * (length + ζ) := by
    have : ζ * ζ / 2 ^ 20 * ζ ≤ 2 * Real.pi * M * (length + ζ) := mul_le_mul zP (by linarith [hL'.1]) hζ0.le (by linarith)
    linarith
  have ol : Off 8 ((fl (fl (2 * npPi * neffR fl neff wl0 ng wl) * length) : ℚ) : ℝ) (2 * Real.pi * N * length) (2 * Real.pi * M * (length + ζ)) := by
    refine Off.round (k := 7) ?_ (small (by linarith [mul_pos hζζ hζ0]))
    rw [Rat.cast_mul]
    exact op.mul (Off.exact (by rw [abs_of_nonneg hL'.1]; linarith))
  obtain ⟨T, hT⟩ : ∃ T : ℝ, T = 2 * Real.pi * M * (length + ζ) / wl := ⟨_, rfl⟩
  have hNN : (neff : ℝ) + (wl0 - wl) * (ng - neff) / wl0 = N := by rw [hN, hD, hG]; ring
  rw [hNN]
  refine ⟨T, ?_, ?_⟩
  · refine Off.round (k := 8) ?_ (small ?_)
    · rw [Rat.cast_div, hT]
      exact ol.div hw
    · rw [hT]
      refine le_trans (le_of_eq ?_) (div_le_div₀ (by linarith) zL hw hw'.2)
      rw [div_div, ← pow_add]
  · have hDb : |D| ≤ 2 ^ 21 := by rw [hD, abs_le]; constructor <;> linarith [hw0'.1, hw0'.2, hw'.1, hw'.2]
    have hGb : |G| ≤ 2 ^ 21 := by
      rw [hG]
      refine (abs_sub _ _).trans ?_
      linarith
    have := scale_le hζ hn' hDb hGb hL' hw0'.1 hw'.1
    rw [hT, hM, hSD, hSG]
    unfold turn waveguideOf
    simp only
    rw [← hD, ← hG]
    exact this

theorem phase_near (h : Usual length loss neff wl0 ng wl) (s : ℚ) (hs : |s| ≤ 500) :
    ∃ k : ℤ, |((phaseR fl length neff wl0 ng s wl : ℚ) : ℝ) -
        (2 * Real.pi * (neff + (wl0 - wl) * (ng - neff) / wl0) * length / wl + s - k * (2 * Real.pi))| ≤
      turn (waveguideOf length loss neff wl0 ng s) wl / 2 ^ 48 + 1 / 2 ^ 41 ∧
    |phaseR fl length neff wl0 ng s wl| ≤ 1000 := by
  obtain ⟨T, ow, hTu⟩ := long_near h s
  obtain ⟨p, hp⟩ : ∃ p : ℚ, p = fl (fl (fl (2 * npPi * neffR fl neff wl0 ng wl) * length) / wl) := ⟨_, rfl⟩
  obtain ⟨X, hX⟩ : ∃ X : ℝ, X = 2 * Real.pi * (neff + (wl0 - wl) * (ng - neff) / wl0) * length / wl := ⟨_, rfl⟩
  rw [← hp, ← hX] at ow
  rw [← hX]
  have t5 : 0 ≤ turn (waveguideOf length loss neff wl0 ng s) wl := by
    have h1 : (0 : ℝ) ≤ length := by exact_mod_cast h.length_ok.1
    have h2 : (0 : ℝ) ≤ wl := by exact_mod_cast (le_trans (by norm_num) h.wl_ok.1 : (0 : ℚ) ≤ wl)
    unfold turn waveguideOf
    positivity
  generalize turn (waveguideOf length loss neff wl0 ng s) (wl : ℝ) = Φ at *
  have hT0 : 0 ≤ T := ow.nonneg
  have hsize : |(p : ℝ)| ≤ 2 * T := ow.size.trans (by
    rw [mul_comm 2 T]
    refine mul_le_mul_of_nonneg_left ?_ hT0
    unfold u
    norm_num)
  have herr : |(p : ℝ) - X| ≤ T * (10 * u) := ow.2.trans (by
    refine mul_le_mul_of_nonneg_left ?_ hT0
    unfold u
    norm_num)
  obtain ⟨k, hk, hr0, hr8⟩ := mod_near p
  obtain ⟨r, hr⟩ : ∃ r : ℚ, r = modR fl p (2 * npPi) := ⟨_, rfl⟩
  rw [← hr] at hk hr0 hr8
  have hph : phaseR fl length neff wl0 ng s wl = fl (r + s) := by
    unfold phaseR
    rw [hr, hp]
  have hrs : |r + s| ≤ 508 := by
    refine (abs_add_le _ _).trans ?_
    rw [abs_of_nonneg hr0]
    linarith
  have hrs' : |((r + s : ℚ) : ℝ)| ≤ 508 := by exact_mod_cast hrs
  have hadd : |((fl (r + s) : ℚ) : ℝ) - ((r + s : ℚ) : ℝ)| ≤ 300 * u := by
    refine (fl_real _).trans ?_
    have hroot : (1 : ℝ) / 2 ^ 1075 ≤ u := by
      unfold u
      exact one_div_le_one_div_of_le (by positivity) (pow_le_pow_right₀ (by norm_num) (by norm_num))
    have : |((r + s : ℚ) : ℝ)| / 2 ^ 53 ≤ 254 * u := by
      unfold u
      rw [div_le_iff₀ (by positivity)]
      refine hrs'.trans ?_
      norm_num
    linarith [u_pos]
  rw [hph]
  refine ⟨k, ?_, ?_⟩
  · have e : ((fl (r + s) : ℚ) : ℝ) - (X + s - k * (2 * Real.pi)) =
        (((fl (r + s) : ℚ) : ℝ) - ((r + s : ℚ) : ℝ)) + ((r : ℝ) - (p - k * (2 * Real.pi))) + ((p : ℝ) - X) := by push_cast; ring
    rw [e]
    have t1 := abs_add_le ((((fl (r + s) : ℚ) : ℝ) - ((r + s : ℚ) : ℝ)) + ((r : ℝ) - (p - k * (2 * Real.pi)))) ((p : ℝ) - X)
    have t2 := abs_add_le (((fl (r + s) : ℚ) : ℝ) - ((r + s : ℚ) : ℝ)) ((r : ℝ) - (p - k * (2 * Real.pi)))
    have t3 : (|(p : ℝ)| + 16) * u ≤ (2 * T + 16) * u := mul_le_mul_of_nonneg_right (by linarith) u_pos.le
    have t4 : T * (12 * u) ≤ (Φ + 1) * (12 * u) := mul_le_mul_of_nonneg_right hTu (by linarith [u_pos])
    have t6 : Φ * (12 * u) ≤ Φ / 2 ^ 48 := by
      unfold u
      rw [div_eq_mul_one_div]
      exact mul_le_mul_of_nonneg_left (by norm_num) t5
    have t7 : 12 * u + 16 * u + 300 * u ≤ 1 / 2 ^ 41 := by unfold u; norm_num
    linarith
  · have h1 : fl (r + s) ≤ fl ((508 : ℕ) : ℚ) := fl_mono (by push_cast; exact (abs_le.mp hrs).2)
    rw [fl_nat (by norm_num)] at h1
    have h2 := fl_err (r + s)
    have h3 : (2 : ℚ) ^ (-1075 : ℤ) ≤ 1 := by
      rw [zpow_neg]
      exact inv_le_one_of_one_le₀ (one_le_zpow₀ (by norm_num) (by norm_num))
    have h4 := abs_add_le (fl (r + s) - (r + s)) (r + s)
    rw [sub_add_cancel] at h4
    have h5 : |r + s| / 2 ^ 53 ≤ 1 := by
      rw [div_le_one (by positivity)]
      exact hrs.trans (by norm_num)
    linarith

/-- The factor that is left of the amplitude. -/
theorem left_near {m : Libm} (hm : Accurate m) (h : Usual length loss neff wl0 ng wl) (s : ℚ) :
    |((leftR fl fl32 m length loss : ℚ) : ℝ) - (waveguideOf length loss neff wl0 ng s).left| ≤
      (waveguideOf length loss neff wl0 ng s).left / 2 ^ 23 + 1 / 2 ^ 150 := by
  obtain ⟨E, hE⟩ : ∃ E : ℝ, E = -(loss * length) / 20 := ⟨_, rfl⟩
  have hleft : (waveguideOf length loss neff wl0 ng s).left = (10 : ℝ) ^ E := by
    rw [hE]
    rfl
  obtain ⟨e, he⟩ : ∃ e : ℚ, e = fl (fl (-loss * length) / 20) := ⟨_, rfl⟩
  have hX : |(-loss * length : ℚ)| ≤ 1000 := by
    rw [abs_le]
    constructor <;> linarith [h.loss_ok.1, h.loss_ok.2]
  have hX' : |((-loss * length : ℚ) : ℝ)| ≤ 1000 := by exact_mod_cast hX
  have small : ∀ {S : ℝ}, 1 ≤ S → (1 : ℝ) / 2 ^ 1000 ≤ S := fun hS =>
    ((div_le_one (by positivity)).mpr (one_le_pow₀ (by norm_num))).trans hS
  have o1 : Off 1 ((fl (-loss * length) : ℚ) : ℝ) ((-loss * length : ℚ) : ℝ) 1000 := Off.round (Off.exact hX') (small (by norm_num))
  have o2 : Off 2 (e : ℝ) (((-loss * length : ℚ) : ℝ) / 20) (1000 / 20) := by
    rw [he]
    refine Off.round (k := 1) ?_ (small (by norm_num))
    rw [Rat.cast_div]
    exact o1.div (by norm_num)
  have hEe : ((-loss * length : ℚ) : ℝ) / 20 = E := by rw [hE]; push_cast; ring
  rw [hEe] at o2
  have hd : |(e : ℝ) - E| ≤ 1 / 2 ^ 44 := o2.2.trans (by unfold u; norm_num)
  have hsz : |e| ≤ 100 := by
    have h1 := o2.size
    have h2 : (1000 / 20 : ℝ) * (1 + u) ^ 2 ≤ 100 := by unfold u; norm_num
    exact_mod_cast h1.trans h2
  have hp := hm.2 e hsz
  have hE0 : 0 < (10 : ℝ) ^ E := Real.rpow_pos_of_pos (by norm_num) _
  have hfac : (10 : ℝ) ^ (e : ℝ) = 10 ^ E * Real.exp (Real.log 10 * (e - E)) := by
    rw [← Real.rpow_def_of_pos (by norm_num), ← Real.rpow_add (by norm_num), add_sub_cancel]
  have hlog : Real.log 10 ≤ 9 := by
    have := Real.log_le_sub_one_of_pos (show (0 : ℝ) < 10 by norm_num)
    linarith
  have hlog0 : 0 ≤ Real.log 10 := Real.log_nonneg (by norm_num)
  have hy : |Real.log 10 * (e - E)| ≤ 9 / 2 ^ 44 := by
    rw [abs_mul, abs_of_nonneg hlog0]
    refine (mul_le_mul hlog hd (abs_nonneg _) (by norm_num)).trans (by norm_num)
  have hexp := Real.abs_exp_sub_one_le (hy.trans (by norm_num))
  have hexp' : |Real.exp (Real.log 10 * (e - E)) - 1| ≤ 1 / 2 ^ 39 := hexp.trans (by
    refine (mul_le_mul_of_nonneg_left hy (by norm_num)).trans (by norm_num))
  obtain ⟨x, hx⟩ : ∃ x : ℝ, x = Real.exp (Real.log 10 * (e - E)) := ⟨_, rfl⟩
  rw [← hx] at hfac hexp'
  rw [hfac] at hp
  rw [hleft]
  have hl : leftR fl fl32 m length loss = fl32 (m.pow10 e) := by
    unfold leftR
    rw [he]
  rw [hl]
  have hr := fl32_real (m.pow10 e)
  generalize (10 : ℝ) ^ E = L at *
  obtain ⟨hx1, hx2⟩ := abs_le.mp hexp'
  have hLx : L * x ≤ L * (1 + 1 / 2 ^ 39) := mul_le_mul_of_nonneg_left (by linarith) hE0.le
  have h1 : |(m.pow10 e : ℝ) - L| ≤ L / 2 ^ 38 := by
    have t := abs_sub_le (m.pow10 e : ℝ) (L * x) L
    have t2 : |L * x - L| ≤ L * (1 / 2 ^ 39) := by
      rw [show L * x - L = L * (x - 1) by ring, abs_mul, abs_of_pos hE0]
      exact mul_le_mul_of_nonneg_left hexp' hE0.le
    have t3 : L * x / 2 ^ 50 ≤ L * (1 + 1 / 2 ^ 39) / 2 ^ 50 := div_le_div_of_nonneg_right hLx (by positivity)
    refine (t.trans (add_le_add (hp.trans t3) t2)).trans ?_
    rw [← sub_nonneg]
    have : L / 2 ^ 38 - (L * (1 + 1 / 2 ^ 39) / 2 ^ 50 + L * (1 / 2 ^ 39)) = L * (1 / 2 ^ 38 - ((1 + 1 / 2 ^ 39) / 2 ^ 50 + 1 / 2 ^ 39)) := by ring
    rw [this]
    exact mul_nonneg hE0.le (by norm_num)
  have h2 : |(m.pow10 e : ℝ)| ≤ L * (1 + 1 / 2 ^ 38) := by
    have := abs_add_le ((m.pow10 e : ℝ) - L) L
    rw [sub_add_cancel, abs_of_pos hE0] at this
    linarith
  have t := abs_sub_le ((fl32 (m.pow10 e) : ℚ) : ℝ) (m.pow10 e : ℝ) L
  have h3 : |(m.pow10 e : ℝ)| / 2 ^ 24 ≤ L * (1 + 1 / 2 ^ 38) / 2 ^ 24 := div_le_div_of_nonneg_right h2 (by positivity)
  have h4 : L * (1 + 1 / 2 ^ 38) / 2 ^ 24 + L / 2 ^ 38 ≤ L / 2 ^ 23 := by
    rw [← sub_nonneg]
    have : L / 2 ^ 23 - (L * (1 + 1 / 2 ^ 38) / 2 ^ 24 + L / 2 ^ 38) = L * (1 / 2 ^ 23 - ((1 + 1 / 2 ^ 38) / 2 ^ 24 + 1 / 2 ^ 38)) := by ring
    rw [this]
    exact mul_nonneg hE0.le (by norm_num)
  linarith

/-- One entry of the scattering matrix, whichever of cosine and sine `x` is near to. -/
theorem entry_near {l x : ℚ} {L C δ : ℝ} (hL : 0 ≤ L) (hl : |(l : ℝ) - L| ≤ L / 2 ^ 23 + 1 / 2 ^ 150) (hC : |C| ≤ 1) (hδ : 0 ≤ δ)
    (hx : |(x : ℝ) - C| ≤ δ) (hx1 : |(x : ℝ)| ≤ 1 + 1 / 2 ^ 52) :
    |((fl32 (l * fl32 x) : ℚ) : ℝ) - L * C| ≤ L * (δ + 1 / 2 ^ 21) + 1 / 2 ^ 148 := by
  have h150 : (1 : ℝ) / 2 ^ 150 ≤ 1 / 2 ^ 100 := one_div_le_one_div_of_le (by positivity) (pow_le_pow_right₀ (by norm_num) (by norm_num))
  have h148 : (1 : ℝ) / 2 ^ 148 = 4 * (1 / 2 ^ 150) := by rw [show (150 : ℕ) = 148 + 2 from rfl, pow_add]; field_simp; norm_num
  have hη0 : (0 : ℝ) < 1 / 2 ^ 150 := by positivity
  have f1 := fl32_real x
  have f2 := fl32_real (l * fl32 x)
  rw [h148]
  generalize (1 : ℝ) / 2 ^ 150 = η at *
  have hη : η ≤ 1 / 2 ^ 60 := h150.trans (by norm_num)
  rw [Rat.cast_mul] at f2
  generalize ((fl32 (l * fl32 x) : ℚ) : ℝ) = r at *
  generalize ((fl32 x : ℚ) : ℝ) = c at *
  generalize (l : ℝ) = l at *
  generalize (x : ℝ) = x at *
  have g1 : |c - x| ≤ 1 / 2 ^ 23 - 1 / 2 ^ 60 := f1.trans (by
    have := div_le_div_of_nonneg_right hx1 (by positivity : (0 : ℝ) ≤ 2 ^ 24)
    have e : ((1 : ℝ) + 1 / 2 ^ 52) / 2 ^ 24 + 1 / 2 ^ 60 ≤ 1 / 2 ^ 23 - 1 / 2 ^ 60 := by norm_num
    linarith)
  have g2 : |c - C| ≤ δ + 1 / 2 ^ 23 := by
    have := abs_sub_le c x C
    have : (0 : ℝ) < 1 / 2 ^ 60 := by positivity
    linarith
  have g3 : |c| ≤ 1 + 1 / 2 ^ 22 := by
    have := abs_add_le (c - x) x
    rw [sub_add_cancel] at this
    have e : (1 : ℝ) / 2 ^ 23 - 1 / 2 ^ 60 + (1 + 1 / 2 ^ 52) ≤ 1 + 1 / 2 ^ 22 := by norm_num
    linarith
  have g4 : |l * c - L * C| ≤ (L / 2 ^ 23 + η) * (1 + 1 / 2 ^ 22) + L * (δ + 1 / 2 ^ 23) := by
    have e : l * c - L * C = (l - L) * c + L * (c - C) := by ring
    rw [e]
    refine (abs_add_le _ _).trans (add_le_add ?_ ?_)
    · rw [abs_mul]
      exact mul_le_mul hl g3 (abs_nonneg _) (by positivity)
    · rw [abs_mul, abs_of_nonneg hL]
      exact mul_le_mul_of_nonneg_left g2 hL
  have g5 : |l| ≤ L * (1 + 1 / 2 ^ 23) + η := by
    have := abs_add_le (l - L) L
    rw [sub_add_cancel, abs_of_nonneg hL] at this
    linarith
  have g6 : |l * c| ≤ (L * (1 + 1 / 2 ^ 23) + η) * (1 + 1 / 2 ^ 22) := by
    rw [abs_mul]
    exact mul_le_mul g5 g3 (abs_nonneg _) (by positivity)
  have g7 : |l * c| / 2 ^ 24 ≤ (L * (1 + 1 / 2 ^ 23) + η) * (1 + 1 / 2 ^ 22) / 2 ^ 24 := div_le_div_of_nonneg_right g6 (by positivity)
  have t := abs_sub_le r (l * c) (L * C)
  have k1 : L * (1 / 2 ^ 23 * (1 + 1 / 2 ^ 22) + 1 / 2 ^ 23 + (1 + 1 / 2 ^ 23) * (1 + 1 / 2 ^ 22) / 2 ^ 24) ≤ L * (1 / 2 ^ 21) :=
    mul_le_mul_of_nonneg_left (by norm_num) hL
  have k2 : η * ((1 + 1 / 2 ^ 22) + (1 + 1 / 2 ^ 22) / 2 ^ 24 + 1) ≤ η * 4 := mul_le_mul_of_nonneg_left (by norm_num) hη0.le
  linarith

/-- Waveguides whose phases differ. -/
theorem amp_shift (a b : ℚ) (k : ℤ) (w : ℝ) :
    ‖(waveguideOf length loss neff wl0 ng a).amp w - (waveguideOf length loss neff wl0 ng b).amp w‖ ≤
      (waveguideOf length loss neff wl0 ng b).left * |(a : ℝ) - (b - k * (2 * Real.pi))| := by
  obtain ⟨X, hX⟩ : ∃ X : ℝ, X = 2 * Real.pi * (neff + (wl0 - w) * (ng - neff) / wl0) * length / w := ⟨_, rfl⟩
  have hamp : ∀ s : ℚ, (waveguideOf length loss neff wl0 ng s).amp w =
      ((waveguideOf length loss neff wl0 ng b).left : ℂ) * Complex.exp ((X + s : ℝ) * Complex.I) := by
    intro s
    rw [hX]
    rfl
  have hL : 0 ≤ (waveguideOf length loss neff wl0 ng b).left := by unfold Wg.left; positivity
  rw [hamp, hamp, ← mul_sub, norm_mul, Complex.norm_real, Real.norm_of_nonneg hL]
  refine mul_le_mul_of_nonneg_left ?_ hL
  have e : Complex.exp ((X + a : ℝ) * Complex.I) =
      Complex.exp ((X + b : ℝ) * Complex.I) * Complex.exp (Complex.I * ((a - (b - k * (2 * Real.pi)) : ℝ) : ℂ)) := by
    rw [← Complex.exp_add]
    have h1 : ((X + b : ℝ) : ℂ) * Complex.I + Complex.I * ((a - (b - k * (2 * Real.pi)) : ℝ) : ℂ) =
        ((X + a : ℝ) : ℂ) * Complex.I + k * (2 * Real.pi * Complex.I) := by
      push_cast
      ring
    rw [h1, Complex.exp_add, Complex.exp_int_mul_two_pi_mul_I, mul_one]
  have e2 : Complex.exp ((X + a : ℝ) * Complex.I) - Complex.exp ((X + b : ℝ) * Complex.I) =
      Complex.exp ((X + b : ℝ) * Complex.I) * (Complex.exp (Complex.I * ((a - (b - k * (2 * Real.pi)) : ℝ) : ℂ)) - 1) := by
    rw [e]
    ring
  rw [e2, norm_mul, Complex.norm_exp_ofReal_mul_I, one_mul]
  exact Real.norm_exp_I_mul_ofReal_sub_one_le

/-- The computed entries. -/
theorem waveguide_near {m : Libm} (hm : Accurate m) (h : Usual length loss neff wl0 ng wl) (s : ℚ) (hs : |s| ≤ 500) :
    ‖pairComplex (waveguideR fl fl32 m length loss neff wl0 ng s wl) - (waveguideOf length loss neff wl0 ng s).amp wl‖ ≤
      (waveguideOf length loss neff wl0 ng s).left * (turn (waveguideOf length loss neff wl0 ng s) wl / 2 ^ 47 + 1 / 2 ^ 19) + 1 / 2 ^ 147 := by
  obtain ⟨k, hk, hsz⟩ := phase_near h s hs
  have hl := left_near hm h s
  have hL : 0 ≤ (waveguideOf length loss neff wl0 ng s).left := by unfold Wg.left; positivity
  obtain ⟨hc, hsn⟩ := hm.1 _ hsz
  obtain ⟨X, hX⟩ : ∃ X : ℝ, X = 2 * Real.pi * (neff + (wl0 - wl) * (ng - neff) / wl0) * length / wl + s := ⟨_, rfl⟩
  rw [← hX] at hk
  have hamp : (waveguideOf length loss neff wl0 ng s).amp wl =
      ((waveguideOf length loss neff wl0 ng s).left : ℂ) * Complex.exp ((X : ℝ) * Complex.I) := by
    rw [hX]
    rfl
  have t5 : 0 ≤ turn (waveguideOf length loss neff wl0 ng s) wl := by
    have h1 : (0 : ℝ) ≤ length := by exact_mod_cast h.length_ok.1
    have h2 : (0 : ℝ) ≤ wl := by exact_mod_cast (le_trans (by norm_num) h.wl_ok.1 : (0 : ℚ) ≤ wl)
    unfold turn waveguideOf
    positivity
  rw [hamp]
  unfold waveguideR
  generalize turn (waveguideOf length loss neff wl0 ng s) (wl : ℝ) = Φ at *
  generalize (waveguideOf length loss neff wl0 ng s).left = L at *
  generalize phaseR fl length neff wl0 ng s wl = p at *
  generalize leftR fl fl32 m length loss = l at *
  obtain ⟨δ, hδ⟩ : ∃ δ : ℝ, δ = Φ / 2 ^ 48 + 1 / 2 ^ 41 + 1 / 2 ^ 52 := ⟨_, rfl⟩
  have hδ0 : 0 ≤ δ := by rw [hδ]; positivity
  have cx : |(m.cos p : ℝ) - Real.cos X| ≤ δ := by
    have h1 := Real.abs_cos_sub_cos_le (p : ℝ) (X - k * (2 * Real.pi))
    rw [Real.cos_sub_int_mul_two_pi] at h1
    have h2 := abs_sub_le (m.cos p : ℝ) (Real.cos p) (Real.cos X)
    rw [hδ]
    linarith
  have sx : |(m.sin p : ℝ) - Real.sin X| ≤ δ := by
    have h1 := Real.abs_sin_sub_sin_le (p : ℝ) (X - k * (2 * Real.pi))
    rw [Real.sin_sub_int_mul_two_pi] at h1
    have h2 := abs_sub_le (m.sin p : ℝ) (Real.sin p) (Real.sin X)
    rw [hδ]
    linarith
  have c1 : |(m.cos p : ℝ)| ≤ 1 + 1 / 2 ^ 52 := by
    have := abs_add_le ((m.cos p : ℝ) - Real.cos p) (Real.cos p)
    rw [sub_add_cancel] at this
    linarith [Real.abs_cos_le_one (p : ℝ)]
  have s1 : |(m.sin p : ℝ)| ≤ 1 + 1 / 2 ^ 52 := by
    have := abs_add_le ((m.sin p : ℝ) - Real.sin p) (Real.sin p)
    rw [sub_add_cancel] at this
    linarith [Real.abs_sin_le_one (p : ℝ)]
  have e1 := entry_near hL hl (Real.abs_cos_le_one X) hδ0 cx c1
  have e2 := entry_near hL hl (Real.abs_sin_le_one X) hδ0 sx s1
  refine (Complex.norm_le_abs_re_add_abs_im _).trans ?_
  have hre : (pairComplex (fl32 (l * fl32 (m.cos p)), fl32 (l * fl32 (m.sin p))) - (L : ℂ) * Complex.exp ((X : ℝ) * Complex.I)).re =
      ((fl32 (l * fl32 (m.cos p)) : ℚ) : ℝ) - L * Real.cos X := by
    rw [Complex.sub_re, Complex.re_ofReal_mul, Complex.exp_ofReal_mul_I_re]
    rfl
  have him : (pairComplex (fl32 (l * fl32 (m.cos p)), fl32 (l * fl32 (m.sin p))) - (L : ℂ) * Complex.exp ((X : ℝ) * Complex.I)).im =
      ((fl32 (l * fl32 (m.sin p)) : ℚ) : ℝ) - L * Real.sin X := by
    rw [Complex.sub_im, Complex.im_ofReal_mul, Complex.exp_ofReal_mul_I_im]
    rfl
  simp only
  rw [hre, him]
  have e147 : (1 : ℝ) / 2 ^ 147 = 1 / 2 ^ 148 + 1 / 2 ^ 148 := by rw [show (148 : ℕ) = 147 + 1 from rfl, pow_succ]; ring
  rw [e147]
  have e3 : L * (2 * δ + 2 / 2 ^ 21) ≤ L * (Φ / 2 ^ 47 + 1 / 2 ^ 19) := by
    refine mul_le_mul_of_nonneg_left ?_ hL
    rw [hδ]
    have : (2 : ℝ) * (1 / 2 ^ 41 + 1 / 2 ^ 52) + 2 / 2 ^ 21 ≤ 1 / 2 ^ 19 := by norm_num
    have e : 2 * (Φ / 2 ^ 48) = Φ / 2 ^ 47 := by ring
    linarith
  linarith

end Rwv

end PT
