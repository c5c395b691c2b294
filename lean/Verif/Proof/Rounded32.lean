import Verif.Model.RoundedDelay
import Verif.Spec.Rounded32
import Verif.Proof.RoundedSignal

/-! Proof support: single-precision rounding. -/

namespace PT
open Spec

theorem place32_spacing {x : ℚ} (h : x ≠ 0) : Spacing32 x (place32 x) := by
  have hx : 0 < |x| := abs_pos.mpr h
  refine ⟨le_max_right _ _, ?_, ?_⟩
  · have := Int.lt_zpow_succ_log_self (b := 2) (by norm_num) |x|
    refine lt_of_lt_of_le this ?_
    push_cast
    refine two_le ?_
    have := le_max_left (Int.log 2 |x| - 23) (-149)
    unfold place32
    omega
  · by_cases hp : place32 x = -149
    · exact .inl hp
    · right
      have hp' : place32 x = Int.log 2 |x| - 23 := by
        unfold place32 at hp ⊢
        omega
      have := Int.zpow_log_le_self (b := 2) (by norm_num) hx
      rw [hp', sub_add_cancel]
      exact_mod_cast this

theorem spacing32_unique {x : ℚ} {e e' : ℤ} (h : Spacing32 x e) (h' : Spacing32 x e') : e = e' := by
  obtain ⟨a, b, c⟩ := h
  obtain ⟨a', b', c'⟩ := h'
  rcases c with c | c <;> rcases c' with c' | c'
  · omega
  · have := two_lt.mp (lt_of_le_of_lt c' b)
    omega
  · have := two_lt.mp (lt_of_le_of_lt c b')
    omega
  · have h1 := two_lt.mp (lt_of_le_of_lt c b')
    have h2 := two_lt.mp (lt_of_le_of_lt c' b)
    omega

theorem fl32_zero : fl32 0 = 0 := by
  unfold fl32
  rw [zero_div, show roundEven 0 = 0 from by exact_mod_cast roundEven_int 0]
  simp

theorem fl32_at {x : ℚ} {e : ℤ} (h : Spacing32 x e) : fl32 x = roundEven (x / 2 ^ e) * 2 ^ e := by
  by_cases hx : x = 0
  · rw [hx, fl32_zero, zero_div, show roundEven 0 = 0 from by exact_mod_cast roundEven_int 0]
    simp
  · unfold fl32
    rw [spacing32_unique (place32_spacing hx) h]

/-- What multiples of the spacing are as good as. -/
theorem fl32_best_of {x : ℚ} {e : ℤ} (h : Spacing32 x e) (n : ℤ) : |fl32 x - x| ≤ |n * 2 ^ e - x| := by
  have hp := two_pos e
  have key := roundEven_best (x / 2 ^ e) n
  rw [fl32_at h]
  have e1 : ∀ k : ℚ, k * 2 ^ e - x = (k - x / 2 ^ e) * 2 ^ e := fun k => by
    field_simp
  rw [e1, e1, abs_mul, abs_mul]
  exact mul_le_mul_of_nonneg_right key (abs_nonneg _)

theorem fl32_half {x : ℚ} {e : ℤ} (h : Spacing32 x e) : |fl32 x - x| ≤ 2 ^ e / 2 := by
  have hp := two_pos e
  rw [fl32_at h]
  have e1 : ((roundEven (x / 2 ^ e) : ℤ) : ℚ) * 2 ^ e - x = (roundEven (x / 2 ^ e) - x / 2 ^ e) * 2 ^ e := by
    field_simp
  rw [e1, abs_mul, abs_of_pos hp]
  nlinarith [roundEven_near (x / 2 ^ e)]

theorem fl32_tie {x : ℚ} {e : ℤ} (h : Spacing32 x e) (ht : |fl32 x - x| = 2 ^ e / 2) : ∃ m : ℤ, fl32 x = m * 2 ^ e ∧ m % 2 = 0 := by
  have hp := two_pos e
  refine ⟨_, fl32_at h, roundEven_tie ?_⟩
  rw [fl32_at h] at ht
  have e1 : ((roundEven (x / 2 ^ e) : ℤ) : ℚ) * 2 ^ e - x = (roundEven (x / 2 ^ e) - x / 2 ^ e) * 2 ^ e := by
    field_simp
  rw [e1, abs_mul, abs_of_pos hp] at ht
  have : (2 : ℚ) ^ e ≠ 0 := hp.ne'
  field_simp at ht
  rw [← ht]
  field_simp

theorem fl32_binary (x : ℚ) : Binary32 (fl32 x) := by
  by_cases hx : x = 0
  · rw [hx, fl32_zero]
    exact ⟨0, 0, by norm_num, by norm_num, by norm_num⟩
  · have h := place32_spacing hx
    set e := place32 x with he
    have hp := two_pos e
    rw [fl32_at h]
    have hb : |((roundEven (x / 2 ^ e) : ℤ) : ℚ)| ≤ 2 ^ 24 := by
      have h1 := fl32_half h
      rw [fl32_at h] at h1
      have h2 : |((roundEven (x / 2 ^ e) : ℤ) : ℚ) * 2 ^ e| < (2 ^ 24 + 1) * 2 ^ e := by
        have := abs_sub_abs_le_abs_sub ((roundEven (x / 2 ^ e) : ℚ) * 2 ^ e) x
        have h3 := h.2.1
        rw [two_add, show (2 : ℚ) ^ (24 : ℤ) = 2 ^ 24 from by norm_cast] at h3
        linarith
      rw [abs_mul, abs_of_pos hp] at h2
      have h4 := lt_of_mul_lt_mul_right h2 hp.le
      have h5 : |roundEven (x / 2 ^ e)| < 2 ^ 24 + 1 := by exact_mod_cast h4
      exact_mod_cast Int.lt_add_one_iff.mp h5
    have hb' : |roundEven (x / 2 ^ e)| ≤ 2 ^ 24 := by exact_mod_cast hb
    rcases lt_or_eq_of_le hb' with hlt | heq
    · exact ⟨_, e, hlt, h.1, rfl⟩
    · rcases abs_choice (roundEven (x / 2 ^ e)) with hc | hc
      · refine ⟨2 ^ 23, e + 1, by norm_num, by have := h.1; omega, ?_⟩
        rw [← hc, heq, two_add]
        push_cast
        ring
      · refine ⟨-2 ^ 23, e + 1, by norm_num, by have := h.1; omega, ?_⟩
        rw [show roundEven (x / 2 ^ e) = -2 ^ 24 from by omega, two_add]
        push_cast
        ring

theorem fl32_nearest (x : ℚ) : Nearest32 x (fl32 x) := by
  refine ⟨fl32_binary x, ?_⟩
  rintro z ⟨m, e', hm, he', rfl⟩
  by_cases hx : x = 0
  · rw [hx, fl32_zero, sub_zero, abs_zero]
    exact abs_nonneg _
  have h := place32_spacing hx
  set e := place32 x
  by_cases hle : e ≤ e'
  · have := fl32_best_of h (m * 2 ^ (e' - e).toNat)
    convert this using 3
    push_cast
    rw [← zpow_natCast, Int.toNat_of_nonneg (by omega), mul_assoc, ← two_add]
    ring_nf
  · have he : 2 ^ (e + 23) ≤ |x| := by
      rcases h.2.2 with h | h
      · omega
      · exact h
    have hz : |(m : ℚ) * 2 ^ e'| ≤ 2 ^ (e + 23) := by
      rw [abs_mul, abs_of_pos (two_pos e')]
      have h1 : |(m : ℚ)| ≤ 2 ^ 24 := by exact_mod_cast hm.le
      calc |(m : ℚ)| * 2 ^ e' ≤ 2 ^ 24 * 2 ^ e' := mul_le_mul_of_nonneg_right h1 (two_pos e').le
        _ = 2 ^ (24 + e') := by rw [two_add]; norm_cast
        _ ≤ 2 ^ (e + 23) := two_le (by omega)
    have hd : |x| - 2 ^ (e + 23) ≤ |(m : ℚ) * 2 ^ e' - x| := by
      rw [abs_sub_comm]
      exact le_trans (by linarith) (abs_sub_abs_le_abs_sub _ _)
    refine le_trans ?_ hd
    rcases abs_choice x with hc | hc
    · have := fl32_best_of h (2 ^ 23)
      rw [show (((2 ^ 23 : ℤ) : ℚ)) * 2 ^ e = 2 ^ (e + 23) from by rw [two_add]; push_cast; norm_cast; ring] at this
      rw [hc] at he ⊢
      rw [abs_sub_comm (2 ^ (e + 23)) x, abs_of_nonneg (by linarith : 0 ≤ x - 2 ^ (e + 23))] at this
      exact this
    · have := fl32_best_of h (-2 ^ 23)
      rw [show (((-2 ^ 23 : ℤ) : ℚ)) * 2 ^ e = -2 ^ (e + 23) from by
        rw [two_add, show (2 : ℚ) ^ (23 : ℤ) = 2 ^ 23 from by norm_cast]; push_cast; ring] at this
      rw [hc] at he ⊢
      rw [abs_of_nonneg (by linarith : 0 ≤ -2 ^ (e + 23) - x)] at this
      linarith

/-- Floating-point numbers are not changed. -/
theorem fl32_of {x : ℚ} (h : Binary32 x) : fl32 x = x := by
  have := (fl32_nearest x).2 x h
  rw [sub_self, abs_zero] at this
  exact sub_eq_zero.mp (abs_nonpos_iff.mp this)

theorem fl32_nat {n : ℕ} (h : n ≤ 2 ^ 24) : fl32 n = n := by
  refine fl32_of ?_
  rcases lt_or_eq_of_le h with h | h
  · exact ⟨n, 0, by rw [abs_of_nonneg (by positivity)]; exact_mod_cast h, by norm_num, by simp⟩
  · exact ⟨2 ^ 23, 1, by norm_num, by norm_num, by rw [h]; norm_num⟩

/-- The relative error. -/
theorem fl32_nonneg {x : ℚ} (h : 0 ≤ x) : 0 ≤ fl32 x := by
  have := (fl32_nearest x).2 0 ⟨0, 0, by norm_num, by norm_num, by norm_num⟩
  rw [zero_sub, abs_neg, abs_of_nonneg h] at this
  linarith [(abs_le.mp this).1]

theorem fl32_mono {x y : ℚ} (h : x ≤ y) : fl32 x ≤ fl32 y := by
  by_contra hc
  push Not at hc
  have h1 := (fl32_nearest x).2 (fl32 y) (fl32_binary y)
  have h2 := (fl32_nearest y).2 (fl32 x) (fl32_binary x)
  have h3 : (fl32 x + fl32 y) / 2 ≤ x := by
    by_contra hx
    push Not at hx
    rw [abs_of_pos (by linarith : 0 < fl32 x - x)] at h1
    rcases abs_cases (fl32 y - x) with ⟨e, -⟩ | ⟨e, -⟩ <;> rw [e] at h1 <;> linarith
  have h4 : y ≤ (fl32 x + fl32 y) / 2 := by
    by_contra hx
    push Not at hx
    rw [abs_of_neg (by linarith : fl32 y - y < 0)] at h2
    rcases abs_cases (fl32 x - y) with ⟨e, -⟩ | ⟨e, -⟩ <;> rw [e] at h2 <;> linarith
  have : x = y := by linarith
  rw [this] at hc
  exact lt_irrefl _ hc

theorem fl32_rel {x : ℚ} (h : Normal32 x) : |fl32 x - x| ≤ |x| / 2 ^ 24 := by
  have hx : x ≠ 0 := by
    rintro rfl
    unfold Normal32 at h
    rw [abs_zero] at h
    linarith [two_pos (-126)]
  have hs := place32_spacing hx
  refine (fl32_half hs).trans ?_
  have key : (2 : ℚ) ^ (place32 x + 23) ≤ |x| := by
    rcases hs.2.2 with h1 | h1
    · rw [h1]
      exact h
    · exact h1
  rw [two_add, show (2 : ℚ) ^ (23 : ℤ) = 2 ^ 23 from by norm_cast] at key
  rw [div_le_div_iff₀ (by norm_num) (by norm_num)]
  linarith

/-- The error of any rounding. -/
theorem fl32_err (x : ℚ) : |fl32 x - x| ≤ |x| / 2 ^ 24 + 2 ^ (-150 : ℤ) := by
  by_cases hx : x = 0
  · rw [hx, fl32_zero, sub_self, abs_zero]
    have := two_pos (-150)
    linarith
  · have hs := place32_spacing hx
    rcases hs.2.2 with h | h
    · have := fl32_half hs
      rw [h] at this
      have e : (2 : ℚ) ^ (-149 : ℤ) / 2 = 2 ^ (-150 : ℤ) := by
        rw [show (-149 : ℤ) = -150 + 1 from rfl, two_add]
        norm_num
      rw [e] at this
      have h0 : 0 ≤ |x| / 2 ^ 24 := by positivity
      exact this.trans (le_add_of_nonneg_left h0)
    · have h1 := fl32_half hs
      rw [two_add, show (2 : ℚ) ^ (23 : ℤ) = 2 ^ 23 from by norm_cast] at h
      have := two_pos (-150)
      have h2 : (2 : ℚ) ^ place32 x / 2 ≤ |x| / 2 ^ 24 := by
        rw [div_le_div_iff₀ (by norm_num) (by norm_num)]
        linarith
      linarith

theorem tiny32 : (2 : ℚ) ^ (-150 : ℤ) ≤ 1 / 2 ^ 149 := by
  rw [show (1 : ℚ) / 2 ^ 149 = 2 ^ (-149 : ℤ) from by norm_num]
  exact two_le (by norm_num)

theorem fl32_close {x X ε η : ℚ} (hX : 0 ≤ X) (hε : ε ≤ 1 / 32) (hη : 0 ≤ η) (h : |x - X| ≤ X * ε + η) :
    |fl32 x - X| ≤ X * (ε + 33 / 32 / 2 ^ 24) + (2 * η + 1 / 2 ^ 149) := by
  have h1 := abs_tri (fl32 x) x X
  have h2 := fl32_err x
  have h3 := abs_near h
  rw [abs_of_nonneg hX] at h3
  have h5 := tiny32
  have h6 : X * ε ≤ X * (1 / 32) := mul_le_mul_of_nonneg_left hε hX
  have h7 : |x| / 2 ^ 24 ≤ (X + X * (1 / 32) + η) / 2 ^ 24 := by gcongr; linarith
  have h8 : (X + X * (1 / 32) + η) / 2 ^ 24 ≤ X * (33 / 32 / 2 ^ 24) + η := by
    rw [div_le_iff₀ (by norm_num)]
    norm_num
    linarith
  have h9 : |fl32 x - x| ≤ X * (33 / 32 / 2 ^ 24) + η + 1 / 2 ^ 149 := h2.trans (add_le_add (h7.trans h8) h5)
  have h10 : X * (ε + 33 / 32 / 2 ^ 24) = X * ε + X * (33 / 32 / 2 ^ 24) := by ring
  rw [h10]
  linarith

/-- Delays in time steps are the exact ones away from the places where the latter jump. -/
theorem steps_same {d dt X D : ℚ} (hX : 0 ≤ X) (hD : 1 / 2 ^ 80 ≤ D) (hd : |d - X| ≤ X * (1 / 2 ^ 40) + 1 / 2 ^ 147)
    (hdt : |dt - D| ≤ D * (1 / 2 ^ 40))
    (hq : ∀ n : ℤ, n ≠ 0 → (X / D + 1) / 2 ^ 21 < |X / D + 1 / 2 - n|) :
    stepsR fl32 (fl32 d) dt = pyTrunc (X / D + 1 / 2) := by
  have hD0 : 0 < D := lt_of_lt_of_le (by norm_num) hD
  have hQ0 : 0 ≤ X / D := div_nonneg hX hD0.le
  have a1 := fl32_close hX (by norm_num) (by norm_num) hd
  have a2 := fl32_close (η := 0) hD0.le (by norm_num : (1 : ℚ) / 2 ^ 40 ≤ 1 / 32) le_rfl (by rw [add_zero]; exact hdt)
  have b2 : |fl32 dt - D| ≤ D * (17 / 16 / 2 ^ 24) := by
    refine a2.trans ?_
    norm_num at hD ⊢
    linarith
  set b := fl32 dt
  set x := fl32 d
  obtain ⟨b3, b4⟩ := abs_le.mp b2
  have b5 : D * (1 - 17 / 16 / 2 ^ 24) ≤ b := by linarith
  have hb0 : 0 < b := lt_of_lt_of_le (mul_pos hD0 (by norm_num)) b5
  have e : x / b - X / D = ((x - X) + X / D * (D - b)) / b := by
    field_simp
    ring
  have q1 : |x / b - X / D| ≤ X / D * (17 / 8 / 2 ^ 24) + 1 / 2 ^ 60 := by
    rw [e, abs_div, abs_of_pos hb0, div_le_iff₀ hb0]
    have n1 : |x - X + X / D * (D - b)| ≤ |x - X| + X / D * (D * (17 / 16 / 2 ^ 24)) := by
      refine (abs_add_le _ _).trans ?_
      rw [abs_mul, abs_of_nonneg hQ0, abs_sub_comm D b]
      gcongr
    have n2 : X / D * (D * (17 / 16 / 2 ^ 24)) = X * (17 / 16 / 2 ^ 24) := by field_simp
    have n3 : (X / D * (17 / 8 / 2 ^ 24) + 1 / 2 ^ 60) * (D * (1 - 17 / 16 / 2 ^ 24)) ≤ (X / D * (17 / 8 / 2 ^ 24) + 1 / 2 ^ 60) * b :=
      mul_le_mul_of_nonneg_left b5 (by positivity)
    have n4 : (X / D * (17 / 8 / 2 ^ 24) + 1 / 2 ^ 60) * (D * (1 - 17 / 16 / 2 ^ 24)) =
        X * (17 / 8 / 2 ^ 24 * (1 - 17 / 16 / 2 ^ 24)) + D * (1 / 2 ^ 60 * (1 - 17 / 16 / 2 ^ 24)) := by
      field_simp
    rw [n2] at n1
    rw [n4] at n3
    refine le_trans n1 (le_trans ?_ n3)
    refine le_trans (add_le_add_left a1 _) ?_
    norm_num at hD ⊢
    linarith
  have q2 := fl32_close hQ0 (by norm_num) (by norm_num) q1
  have q3 : |fl32 (x / b) + 1 / 2 - (X / D + 1 / 2)| ≤ (X / D + 1 / 2) * (101 / 32 / 2 ^ 24) + 1 / 2 ^ 58 := by
    rw [show fl32 (x / b) + 1 / 2 - (X / D + 1 / 2) = fl32 (x / b) - X / D from by ring]
    refine q2.trans ?_
    norm_num
    linarith
  have q4 := fl32_close (by linarith) (by norm_num) (by norm_num) q3
  unfold stepsR
  refine trunc_same fun n hn => lt_of_le_of_lt (q4.trans ?_) (hq n hn)
  norm_num
  linarith

end PT
