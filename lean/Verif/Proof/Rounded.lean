import Verif.Model.Rounded
import Verif.Spec.Rounded
import Verif.Proof.Env
import Mathlib.Tactic.Linarith
import Mathlib.Tactic.FieldSimp
import Mathlib.Tactic.Ring
import Mathlib.Algebra.Order.Field.Power

/-! Proof support: rounding to binary64. -/

namespace PT
open Spec

theorem roundEven_near (q : ℚ) : |(roundEven q : ℚ) - q| ≤ 1 / 2 := by
  have h0 := Int.floor_le q
  have h1 := Int.lt_floor_add_one q
  unfold roundEven
  split_ifs with a b c <;> push_cast <;> rw [abs_le] <;> constructor <;> linarith

theorem roundEven_int (n : ℤ) : roundEven n = n := by
  unfold roundEven
  rw [Int.floor_intCast, sub_self, if_pos (by norm_num)]

theorem roundEven_tie {q : ℚ} (h : |(roundEven q : ℚ) - q| = 1 / 2) : roundEven q % 2 = 0 := by
  have h0 := Int.floor_le q
  have h1 := Int.lt_floor_add_one q
  unfold roundEven at h ⊢
  split_ifs at h ⊢ with a b c
  · rw [abs_sub_comm, abs_of_nonneg (by linarith)] at h
    linarith
  · push_cast at h
    rw [abs_of_nonneg (by linarith)] at h
    linarith
  · exact c
  · omega

/-- No integer is nearer. -/
theorem roundEven_best (q : ℚ) (n : ℤ) : |(roundEven q : ℚ) - q| ≤ |(n : ℚ) - q| := by
  have h0 := Int.floor_le q
  have h1 := Int.lt_floor_add_one q
  have near := roundEven_near q
  by_cases hn : n ≤ ⌊q⌋
  · have hn' : (n : ℚ) ≤ ⌊q⌋ := by exact_mod_cast hn
    rw [abs_sub_comm (n : ℚ), abs_of_nonneg (by linarith : (0 : ℚ) ≤ q - n)]
    unfold roundEven at near ⊢
    split_ifs at near ⊢ with a b c
    · rw [abs_sub_comm, abs_of_nonneg (by linarith)]
      linarith
    · linarith
    · linarith
    · linarith
  · have hn' : (⌊q⌋ : ℚ) + 1 ≤ n := by exact_mod_cast Int.not_le.mp hn
    rw [abs_of_nonneg (by linarith : (0 : ℚ) ≤ n - q)]
    unfold roundEven at near ⊢
    split_ifs at near ⊢ with a b c
    · rw [abs_sub_comm, abs_of_nonneg (by linarith)]
      linarith
    · push_cast
      rw [abs_of_nonneg (by linarith)]
      linarith
    · linarith
    · linarith

theorem two_pos (e : ℤ) : (0 : ℚ) < 2 ^ e := zpow_pos (by norm_num) e

theorem two_add (e k : ℤ) : (2 : ℚ) ^ (e + k) = 2 ^ e * 2 ^ k := zpow_add₀ (by norm_num) e k

theorem two_le {a b : ℤ} (h : a ≤ b) : (2 : ℚ) ^ a ≤ 2 ^ b := zpow_le_zpow_right₀ (by norm_num) h

theorem two_lt {a b : ℤ} : (2 : ℚ) ^ a < 2 ^ b ↔ a < b := zpow_lt_zpow_iff_right₀ (by norm_num)

theorem place_spacing {x : ℚ} (h : x ≠ 0) : Spacing x (place x) := by
  have hx : 0 < |x| := abs_pos.mpr h
  refine ⟨le_max_right _ _, ?_, ?_⟩
  · have := Int.lt_zpow_succ_log_self (b := 2) (by norm_num) |x|
    refine lt_of_lt_of_le this ?_
    push_cast
    refine two_le ?_
    have := le_max_left (Int.log 2 |x| - 52) (-1074)
    unfold place
    omega
  · by_cases hp : place x = -1074
    · exact .inl hp
    · right
      have hp' : place x = Int.log 2 |x| - 52 := by
        unfold place at hp ⊢
        omega
      have := Int.zpow_log_le_self (b := 2) (by norm_num) hx
      rw [hp', sub_add_cancel]
      exact_mod_cast this

theorem spacing_unique {x : ℚ} {e e' : ℤ} (h : Spacing x e) (h' : Spacing x e') : e = e' := by
  obtain ⟨a, b, c⟩ := h
  obtain ⟨a', b', c'⟩ := h'
  rcases c with c | c <;> rcases c' with c' | c'
  · omega
  · have := two_lt.mp (lt_of_le_of_lt c' b)
    omega
  · have := two_lt.mp (lt_of_le_of_lt c b')
    omega
  · have h1 := two_lt.mp (lt_of_le_of_lt c b')
    have h2 := two_lt.mp (lt_of_le_of_lt c' b)
    omega

theorem fl_zero : fl 0 = 0 := by
  unfold fl
  rw [zero_div, show roundEven 0 = 0 from by exact_mod_cast roundEven_int 0]
  simp

theorem fl_at {x : ℚ} {e : ℤ} (h : Spacing x e) : fl x = roundEven (x / 2 ^ e) * 2 ^ e := by
  by_cases hx : x = 0
  · rw [hx, fl_zero, zero_div, show roundEven 0 = 0 from by exact_mod_cast roundEven_int 0]
    simp
  · unfold fl
    rw [spacing_unique (place_spacing hx) h]

/-- What multiples of the spacing are as good as. -/
theorem fl_best_of {x : ℚ} {e : ℤ} (h : Spacing x e) (n : ℤ) : |fl x - x| ≤ |n * 2 ^ e - x| := by
  have hp := two_pos e
  have key := roundEven_best (x / 2 ^ e) n
  rw [fl_at h]
  have e1 : ∀ k : ℚ, k * 2 ^ e - x = (k - x / 2 ^ e) * 2 ^ e := fun k => by
    field_simp
  rw [e1, e1, abs_mul, abs_mul]
  exact mul_le_mul_of_nonneg_right key (abs_nonneg _)

theorem fl_half {x : ℚ} {e : ℤ} (h : Spacing x e) : |fl x - x| ≤ 2 ^ e / 2 := by
  have hp := two_pos e
  rw [fl_at h]
  have e1 : ((roundEven (x / 2 ^ e) : ℤ) : ℚ) * 2 ^ e - x = (roundEven (x / 2 ^ e) - x / 2 ^ e) * 2 ^ e := by
    field_simp
  rw [e1, abs_mul, abs_of_pos hp]
  nlinarith [roundEven_near (x / 2 ^ e)]

theorem fl_tie {x : ℚ} {e : ℤ} (h : Spacing x e) (ht : |fl x - x| = 2 ^ e / 2) : ∃ m : ℤ, fl x = m * 2 ^ e ∧ m % 2 = 0 := by
  have hp := two_pos e
  refine ⟨_, fl_at h, roundEven_tie ?_⟩
  rw [fl_at h] at ht
  have e1 : ((roundEven (x / 2 ^ e) : ℤ) : ℚ) * 2 ^ e - x = (roundEven (x / 2 ^ e) - x / 2 ^ e) * 2 ^ e := by
    field_simp
  rw [e1, abs_mul, abs_of_pos hp] at ht
  have : (2 : ℚ) ^ e ≠ 0 := hp.ne'
  field_simp at ht
  rw [← ht]
  field_simp

theorem fl_binary (x : ℚ) : Binary64 (fl x) := by
  by_cases hx : x = 0
  · rw [hx, fl_zero]
    exact ⟨0, 0, by norm_num, by norm_num, by norm_num⟩
  · have h := place_spacing hx
    set e := place x with he
    have hp := two_pos e
    rw [fl_at h]
    have hb : |((roundEven (x / 2 ^ e) : ℤ) : ℚ)| ≤ 2 ^ 53 := by
      have h1 := fl_half h
      rw [fl_at h] at h1
      have h2 : |((roundEven (x / 2 ^ e) : ℤ) : ℚ) * 2 ^ e| < (2 ^ 53 + 1) * 2 ^ e := by
        have := abs_sub_abs_le_abs_sub ((roundEven (x / 2 ^ e) : ℚ) * 2 ^ e) x
        have h3 := h.2.1
        rw [two_add, show (2 : ℚ) ^ (53 : ℤ) = 2 ^ 53 from by norm_cast] at h3
        linarith
      rw [abs_mul, abs_of_pos hp] at h2
      have h4 := lt_of_mul_lt_mul_right h2 hp.le
      have h5 : |roundEven (x / 2 ^ e)| < 2 ^ 53 + 1 := by exact_mod_cast h4
      exact_mod_cast Int.lt_add_one_iff.mp h5
    have hb' : |roundEven (x / 2 ^ e)| ≤ 2 ^ 53 := by exact_mod_cast hb
    rcases lt_or_eq_of_le hb' with hlt | heq
    · exact ⟨_, e, hlt, h.1, rfl⟩
    · rcases abs_choice (roundEven (x / 2 ^ e)) with hc | hc
      · refine ⟨2 ^ 52, e + 1, by norm_num, by have := h.1; omega, ?_⟩
        rw [← hc, heq, two_add]
        push_cast
        ring
      · refine ⟨-2 ^ 52, e + 1, by norm_num, by have := h.1; omega, ?_⟩
        rw [show roundEven (x / 2 ^ e) = -2 ^ 53 from by omega, two_add]
        push_cast
        ring

theorem fl_nearest (x : ℚ) : Nearest x (fl x) := by
  refine ⟨fl_binary x, ?_⟩
  rintro z ⟨m, e', hm, he', rfl⟩
  by_cases hx : x = 0
  · rw [hx, fl_zero, sub_zero, abs_zero]
    exact abs_nonneg _
  have h := place_spacing hx
  set e := place x
  by_cases hle : e ≤ e'
  · have := fl_best_of h (m * 2 ^ (e' - e).toNat)
    convert this using 3
    push_cast
    rw [← zpow_natCast, Int.toNat_of_nonneg (by omega), mul_assoc, ← two_add]
    ring_nf
  · have he : 2 ^ (e + 52) ≤ |x| := by
      rcases h.2.2 with h | h
      · omega
      · exact h
    have hz : |(m : ℚ) * 2 ^ e'| ≤ 2 ^ (e + 52) := by
      rw [abs_mul, abs_of_pos (two_pos e')]
      have h1 : |(m : ℚ)| ≤ 2 ^ 53 := by exact_mod_cast hm.le
      calc |(m : ℚ)| * 2 ^ e' ≤ 2 ^ 53 * 2 ^ e' := mul_le_mul_of_nonneg_right h1 (two_pos e').le
        _ = 2 ^ (53 + e') := by rw [two_add]; norm_cast
        _ ≤ 2 ^ (e + 52) := two_le (by omega)
    have hd : |x| - 2 ^ (e + 52) ≤ |(m : ℚ) * 2 ^ e' - x| := by
      rw [abs_sub_comm]
      exact le_trans (by linarith) (abs_sub_abs_le_abs_sub _ _)
    refine le_trans ?_ hd
    rcases abs_choice x with hc | hc
    · have := fl_best_of h (2 ^ 52)
      rw [show (((2 ^ 52 : ℤ) : ℚ)) * 2 ^ e = 2 ^ (e + 52) from by rw [two_add]; push_cast; norm_cast; ring] at this
      rw [hc] at he ⊢
      rw [abs_sub_comm (2 ^ (e + 52)) x, abs_of_nonneg (by linarith : 0 ≤ x - 2 ^ (e + 52))] at this
      exact this
    · have := fl_best_of h (-2 ^ 52)
      rw [show (((-2 ^ 52 : ℤ) : ℚ)) * 2 ^ e = -2 ^ (e + 52) from by
        rw [two_add, show (2 : ℚ) ^ (52 : ℤ) = 2 ^ 52 from by norm_cast]; push_cast; ring] at this
      rw [hc] at he ⊢
      rw [abs_of_nonneg (by linarith : 0 ≤ -2 ^ (e + 52) - x)] at this
      linarith

/-- Floating-point numbers are not changed. -/
theorem fl_of {x : ℚ} (h : Binary64 x) : fl x = x := by
  have := (fl_nearest x).2 x h
  rw [sub_self, abs_zero] at this
  exact sub_eq_zero.mp (abs_nonpos_iff.mp this)

theorem fl_nat {n : ℕ} (h : n ≤ 2 ^ 53) : fl n = n := by
  refine fl_of ?_
  rcases lt_or_eq_of_le h with h | h
  · exact ⟨n, 0, by rw [abs_of_nonneg (by positivity)]; exact_mod_cast h, by norm_num, by simp⟩
  · exact ⟨2 ^ 52, 1, by norm_num, by norm_num, by rw [h]; norm_num⟩

/-- The relative error. -/
theorem fl_nonneg {x : ℚ} (h : 0 ≤ x) : 0 ≤ fl x := by
  have := (fl_nearest x).2 0 ⟨0, 0, by norm_num, by norm_num, by norm_num⟩
  rw [zero_sub, abs_neg, abs_of_nonneg h] at this
  linarith [(abs_le.mp this).1]

theorem fl_mono {x y : ℚ} (h : x ≤ y) : fl x ≤ fl y := by
  by_contra hc
  push Not at hc
  have h1 := (fl_nearest x).2 (fl y) (fl_binary y)
  have h2 := (fl_nearest y).2 (fl x) (fl_binary x)
  have h3 : (fl x + fl y) / 2 ≤ x := by
    by_contra hx
    push Not at hx
    rw [abs_of_pos (by linarith : 0 < fl x - x)] at h1
    rcases abs_cases (fl y - x) with ⟨e, -⟩ | ⟨e, -⟩ <;> rw [e] at h1 <;> linarith
  have h4 : y ≤ (fl x + fl y) / 2 := by
    by_contra hx
    push Not at hx
    rw [abs_of_neg (by linarith : fl y - y < 0)] at h2
    rcases abs_cases (fl x - y) with ⟨e, -⟩ | ⟨e, -⟩ <;> rw [e] at h2 <;> linarith
  have : x = y := by linarith
  rw [this] at hc
  exact lt_irrefl _ hc

theorem fl_rel {x : ℚ} (h : Normal x) : |fl x - x| ≤ |x| / 2 ^ 53 := by
  have hx : x ≠ 0 := by
    rintro rfl
    unfold Normal at h
    rw [abs_zero] at h
    linarith [two_pos (-1022)]
  have hs := place_spacing hx
  refine (fl_half hs).trans ?_
  have key : (2 : ℚ) ^ (place x + 52) ≤ |x| := by
    rcases hs.2.2 with h1 | h1
    · rw [h1]
      exact h
    · exact h1
  rw [two_add, show (2 : ℚ) ^ (52 : ℤ) = 2 ^ 52 from by norm_cast] at key
  rw [div_le_div_iff₀ (by norm_num) (by norm_num)]
  linarith

/-- The error of any rounding. -/
theorem fl_err (x : ℚ) : |fl x - x| ≤ |x| / 2 ^ 53 + 2 ^ (-1075 : ℤ) := by
  by_cases hx : x = 0
  · rw [hx, fl_zero, sub_self, abs_zero]
    have := two_pos (-1075)
    linarith
  · have hs := place_spacing hx
    rcases hs.2.2 with h | h
    · have := fl_half hs
      rw [h] at this
      have e : (2 : ℚ) ^ (-1074 : ℤ) / 2 = 2 ^ (-1075 : ℤ) := by
        rw [show (-1074 : ℤ) = -1075 + 1 from rfl, two_add]
        norm_num
      rw [e] at this
      have h0 : 0 ≤ |x| / 2 ^ 53 := by positivity
      linarith
    · have h1 := fl_half hs
      rw [two_add, show (2 : ℚ) ^ (52 : ℤ) = 2 ^ 52 from by norm_cast] at h
      have := two_pos (-1075)
      have h2 : (2 : ℚ) ^ place x / 2 ≤ |x| / 2 ^ 53 := by
        rw [div_le_div_iff₀ (by norm_num) (by norm_num)]
        linarith
      linarith

theorem tiny : (2 : ℚ) ^ (-1075 : ℤ) ≤ 2 ^ (-900 : ℤ) / 2 ^ 170 := by
  rw [show (-900 : ℤ) = -1075 + 175 from rfl, two_add, show (2 : ℚ) ^ (175 : ℤ) = 2 ^ 175 from by norm_cast]
  have := two_pos (-1075)
  rw [le_div_iff₀ (by norm_num)]
  nlinarith

theorem normal_of {x : ℚ} (h : 2 ^ (-900 : ℤ) / 2 ^ 60 ≤ |x|) : Normal x := by
  refine le_trans ?_ h
  rw [show (-900 : ℤ) = -1022 + 122 from rfl, two_add, show (2 : ℚ) ^ (122 : ℤ) = 2 ^ 122 from by norm_cast]
  have := two_pos (-1022)
  rw [le_div_iff₀ (by norm_num)]
  nlinarith

/-- Numbers between neighbouring integers. -/
theorem floor_range {q : ℚ} {n : ℕ} (h0 : (n : ℚ) - 1 ≤ q) (h1 : q < n + 1) (hn : 1 ≤ n) :
    n - 1 ≤ ⌊q⌋₊ ∧ ⌊q⌋₊ ≤ n := by
  have hn' : (1 : ℚ) ≤ n := by exact_mod_cast hn
  have hq : 0 ≤ q := by linarith
  refine ⟨Nat.le_floor ?_, Nat.lt_succ_iff.mp ((Nat.floor_lt hq).mpr (by push_cast; exact h1))⟩
  rw [Nat.cast_sub hn]
  simpa using h0

/-- A division into equal parts, and how many of the parts fit in. -/
theorem parts_fit {D s q : ℚ} {n : ℕ} (hD : D ≠ 0) (hn : 1 ≤ n) (hN : n ≤ 2 ^ 50) (hs : |s - D / n| ≤ |D / n| / 2 ^ 53)
    (hq : |q - D / s| ≤ |D / s| / 2 ^ 53) : (n : ℚ) - 1 ≤ q ∧ q < n + 1 := by
  have hn' : (1 : ℚ) ≤ n := by exact_mod_cast hn
  have hN' : (n : ℚ) ≤ 2 ^ 50 := by exact_mod_cast hN
  have hn0 : (n : ℚ) ≠ 0 := by linarith
  have hDn : D / n ≠ 0 := div_ne_zero hD hn0
  obtain ⟨r, hr⟩ : ∃ r, s = r * (D / n) := ⟨s / (D / n), by field_simp⟩
  have hr1 : |r - 1| ≤ 1 / 2 ^ 53 := by
    rw [hr, show r * (D / n) - D / n = (r - 1) * (D / n) from by ring, abs_mul] at hs
    have hp : 0 < |D / n| := abs_pos.mpr hDn
    rw [show |D / n| / 2 ^ 53 = 1 / 2 ^ 53 * |D / n| from by ring] at hs
    exact le_of_mul_le_mul_right hs hp
  obtain ⟨ha, hb⟩ := abs_le.mp hr1
  have hr0 : 0 < r := by
    have : (1 : ℚ) / 2 ^ 53 < 1 := by norm_num
    linarith
  have hds : D / s = n / r := by
    rw [hr]
    field_simp
  have hpos : 0 < (n : ℚ) / r := div_pos (by linarith) hr0
  rw [hds, abs_of_pos hpos] at hq
  obtain ⟨hc, hd⟩ := abs_le.mp hq
  have e1 : (n : ℚ) / r * r = n := by field_simp
  generalize (n : ℚ) / r = z at *
  have hz : z ≤ n + 1 / 2 := by
    by_contra hcon
    push Not at hcon
    have : z * (1 - 1 / 2 ^ 53) ≤ n := by
      rw [← e1]
      exact mul_le_mul_of_nonneg_left (by linarith) hpos.le
    nlinarith
  have hz' : (n : ℚ) - 1 / 2 ≤ z := by
    by_contra hcon
    push Not at hcon
    have : (n : ℚ) ≤ z * (1 + 1 / 2 ^ 53) := by
      rw [← e1]
      exact mul_le_mul_of_nonneg_left (by linarith) hpos.le
    nlinarith
  constructor
  · have : z / 2 ^ 53 ≤ 1 / 2 := by
      rw [div_le_div_iff₀ (by norm_num) (by norm_num)]
      nlinarith
    linarith
  · have : z / 2 ^ 53 < 1 / 2 := by
      rw [div_lt_div_iff₀ (by norm_num) (by norm_num)]
      nlinarith
    linarith

/-- Halving again and again is exact. -/
theorem fl_halves {D : ℚ} (hb : Binary64 D) (k : ℕ) (hn : Normal (D / 2 ^ k)) : fl (D / 2 ^ k) = D / 2 ^ k := by
  obtain ⟨m, e, hm, he, rfl⟩ := hb
  refine fl_of ⟨m, e - k, hm, ?_, ?_⟩
  · by_contra hlt
    have h1 : |(m : ℚ) * 2 ^ e / 2 ^ k| < 2 ^ (-1022 : ℤ) := by
      have h2 : (m : ℚ) * 2 ^ e / 2 ^ k = m * 2 ^ (e - k) := by
        rw [zpow_sub₀ (by norm_num), zpow_natCast]
        ring
      rw [h2, abs_mul, abs_of_pos (two_pos _)]
      have h3 : |(m : ℚ)| < 2 ^ 53 := by exact_mod_cast hm
      calc |(m : ℚ)| * 2 ^ (e - k) < 2 ^ 53 * 2 ^ (e - k) := mul_lt_mul_of_pos_right h3 (two_pos _)
        _ = 2 ^ (53 + (e - k)) := by rw [two_add]; norm_cast
        _ ≤ 2 ^ (-1022 : ℤ) := two_le (by omega)
    exact absurd hn (not_le.mpr h1)
  · rw [zpow_sub₀ (by norm_num), zpow_natCast]
    ring

/-- The error among numbers of a given size. -/
theorem fl_err_le {z P : ℚ} (hz : |z| ≤ 3 * P) (hP : 2 ^ (-900 : ℤ) ≤ P) : |fl z - z| ≤ P / 2 ^ 51 := by
  have h1 := fl_err z
  have h2 := tiny
  have h3 : (2 : ℚ) ^ (-900 : ℤ) / 2 ^ 170 ≤ P / 2 ^ 53 := by
    rw [div_le_div_iff₀ (by norm_num) (by norm_num)]
    have := two_pos (-900)
    nlinarith
  have h4 : |z| / 2 ^ 53 ≤ 3 * P / 2 ^ 53 := by
    rw [div_le_div_iff₀ (by norm_num) (by norm_num)]
    linarith
  have h5 : P / 2 ^ 51 = 3 * P / 2 ^ 53 + P / 2 ^ 53 := by ring
  linarith

/-- The error of a division into equal parts, all of them together. -/
theorem fl_div_err {D P : ℚ} {n : ℕ} (hD : |D| ≤ 3 * P) (hP : 2 ^ (-900 : ℤ) ≤ P) (hn : 1 ≤ n) (hN : n ≤ 2 ^ 50) :
    |n * fl (D / n) - D| ≤ P / 2 ^ 51 := by
  have hn' : (1 : ℚ) ≤ n := by exact_mod_cast hn
  have hN' : (n : ℚ) ≤ 2 ^ 50 := by exact_mod_cast hN
  have hn0 : (n : ℚ) ≠ 0 := by linarith
  have e1 : (n : ℚ) * fl (D / n) - D = n * (fl (D / n) - D / n) := by
    field_simp
  rw [e1, abs_mul, abs_of_pos (by linarith : (0 : ℚ) < n)]
  have h1 := fl_err (D / n)
  have h2 := tiny
  have h3 : (n : ℚ) * (|D / n| / 2 ^ 53 + 2 ^ (-1075 : ℤ)) = |D| / 2 ^ 53 + n * 2 ^ (-1075 : ℤ) := by
    rw [abs_div, abs_of_pos (by linarith : (0 : ℚ) < n)]
    field_simp
  have h4 : (n : ℚ) * 2 ^ (-1075 : ℤ) ≤ P / 2 ^ 53 := by
    have h5 : (n : ℚ) * 2 ^ (-1075 : ℤ) ≤ 2 ^ 50 * (2 ^ (-900 : ℤ) / 2 ^ 170) :=
      mul_le_mul hN' h2 (two_pos _).le (by norm_num)
    have h6 : (2 : ℚ) ^ 50 * (2 ^ (-900 : ℤ) / 2 ^ 170) ≤ P / 2 ^ 53 := by
      have := two_pos (-900)
      rw [← mul_div_assoc, div_le_div_iff₀ (by norm_num) (by norm_num)]
      nlinarith
    linarith
  have h5 : |D| / 2 ^ 53 ≤ 3 * P / 2 ^ 53 := by
    rw [div_le_div_iff₀ (by norm_num) (by norm_num)]
    linarith
  have h6 : P / 2 ^ 51 = 3 * P / 2 ^ 53 + P / 2 ^ 53 := by ring
  have h7 := mul_le_mul_of_nonneg_left h1 (by linarith : (0 : ℚ) ≤ n)
  linarith

theorem part_err {s V K : ℚ} {n i : ℕ} (hn : 1 ≤ n) (hi : i ≤ n) (h : |n * s - V| ≤ K) : |i * s - i * (V / n)| ≤ K := by
  have hn' : (1 : ℚ) ≤ n := by exact_mod_cast hn
  have hi' : (i : ℚ) ≤ n := by exact_mod_cast hi
  have hn0 : (0 : ℚ) < n := by linarith
  have hK : 0 ≤ K := le_trans (abs_nonneg _) h
  have e1 : (i : ℚ) * s - i * (V / n) = i / n * (n * s - V) := by
    field_simp
  rw [e1, abs_mul, abs_of_nonneg (by positivity)]
  have h1 : (i : ℚ) / n ≤ 1 := (div_le_one hn0).mpr hi'
  have h2 : (0 : ℚ) ≤ i / n := by positivity
  calc (i : ℚ) / n * |n * s - V| ≤ 1 * |n * s - V| := mul_le_mul_of_nonneg_right h1 (abs_nonneg _)
    _ ≤ K := by linarith

theorem abs_tri (a b c : ℚ) : |a - c| ≤ |a - b| + |b - c| := by
  have := abs_add_le (a - b) (b - c)
  rwa [sub_add_sub_cancel] at this

theorem abs_near {a b K : ℚ} (h : |a - b| ≤ K) : |a| ≤ |b| + K := by
  have := abs_add_le (a - b) b
  rw [sub_add_cancel] at this
  linarith

end PT
