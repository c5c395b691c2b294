import Verif.Model.RoundedSignal
import Verif.Proof.RoundedEnv
import Mathlib.Tactic.Linarith
import Mathlib.Tactic.Positivity

/-! Proof support: rates, latencies and warmups with rounded arithmetic. -/

namespace PT
open Spec

theorem trunc_same {x y : ℚ} (h : ∀ n : ℤ, n ≠ 0 → |x - y| < |y - n|) : pyTrunc x = pyTrunc y := by
  rcases lt_or_ge y 1 with h1 | h1
  · rcases lt_or_ge (-1) y with h2 | h2
    · have a := h 1 (by norm_num)
      have b := h (-1) (by norm_num)
      push_cast at a b
      rw [abs_of_neg (by linarith : y - 1 < 0), abs_lt] at a
      rw [abs_of_pos (by linarith : 0 < y - -1), abs_lt] at b
      have key : ∀ z : ℚ, -1 < z → z < 1 → pyTrunc z = 0 := by
        intro z z1 z2
        unfold pyTrunc
        split
        · rw [Int.floor_eq_iff]; push_cast; constructor <;> linarith
        · rw [Int.ceil_eq_iff]; push_cast; constructor <;> linarith
      rw [key y h2 h1, key x (by linarith) (by linarith)]
    · have c1 := Int.ceil_lt_add_one y
      have c2 := Int.le_ceil y
      have hm : ⌈y⌉ ≤ -1 := by rw [Int.ceil_le]; push_cast; linarith
      have a := h ⌈y⌉ (by omega)
      have b := h (⌈y⌉ - 1) (by omega)
      push_cast at b
      rw [abs_of_nonpos (by linarith : y - ⌈y⌉ ≤ 0), abs_lt] at a
      rw [abs_of_pos (by linarith : 0 < y - (⌈y⌉ - 1)), abs_lt] at b
      have hm' : (⌈y⌉ : ℚ) ≤ -1 := by exact_mod_cast hm
      rw [pyTrunc_neg (by linarith : y < 0), pyTrunc_neg (by linarith : x < 0), Int.ceil_eq_iff]
      constructor <;> linarith
  · have c1 := Int.lt_floor_add_one y
    have c2 := Int.floor_le y
    have hm : 1 ≤ ⌊y⌋ := by rw [Int.le_floor]; push_cast; linarith
    have a := h ⌊y⌋ (by omega)
    have b := h (⌊y⌋ + 1) (by omega)
    push_cast at b
    rw [abs_of_nonneg (by linarith : 0 ≤ y - ⌊y⌋), abs_lt] at a
    rw [abs_of_neg (by linarith : y - (⌊y⌋ + 1) < 0), abs_lt] at b
    have hm' : (1 : ℚ) ≤ ⌊y⌋ := by exact_mod_cast hm
    rw [pyTrunc_nonneg (by linarith : 0 ≤ y), pyTrunc_nonneg (by linarith : 0 ≤ x), Int.floor_eq_iff]
    constructor <;> linarith

theorem tiny_le : (2 : ℚ) ^ (-1075 : ℤ) ≤ 1 / 2 ^ 70 := by
  rw [show (1 : ℚ) / 2 ^ 70 = 2 ^ (-70 : ℤ) from by norm_num]
  exact two_le (by norm_num)

theorem mul_close {l s S ε : ℚ} (hS : 0 ≤ S) (h : |s - S| ≤ S * ε) : |l * s - l * S| ≤ |l * S| * ε := by
  rw [← mul_sub, abs_mul, abs_mul, abs_of_nonneg hS, mul_assoc]
  exact mul_le_mul_of_nonneg_left h (abs_nonneg l)

theorem fl_close {x X ε η : ℚ} (hε : ε ≤ 1 / 2) (hη : 0 ≤ η) (h : |x - X| ≤ |X| * ε + η) :
    |fl x - X| ≤ |X| * (ε + 1 / 2 ^ 52) + (2 * η + 1 / 2 ^ 70) := by
  have h1 := abs_tri (fl x) x X
  have h2 := fl_err x
  have h3 := abs_near h
  have h4 := abs_nonneg X
  have h5 := tiny_le
  have h6 : |X| * ε ≤ |X| * (1 / 2) := mul_le_mul_of_nonneg_left hε h4
  have h7 : |x| / 2 ^ 53 ≤ (|X| + |X| * (1 / 2) + η) / 2 ^ 53 := by gcongr; linarith
  have h8 : (|X| + |X| * (1 / 2) + η) / 2 ^ 53 ≤ |X| * (1 / 2 ^ 52) + η := by
    rw [div_le_iff₀ (by norm_num)]
    norm_num
    linarith
  linarith

theorem fl_close_pos {x X ε : ℚ} (hX : 1 / 2 ^ 200 ≤ X) (hε : ε ≤ 1 / 2) (h : |x - X| ≤ X * ε) :
    |fl x - X| ≤ X * (ε + 1 / 2 ^ 52) := by
  have hX0 : 0 < X := lt_of_lt_of_le (by norm_num) hX
  have h6 : X * ε ≤ X * (1 / 2) := mul_le_mul_of_nonneg_left hε hX0.le
  obtain ⟨a, b⟩ := abs_le.mp h
  have hx : X / 2 ≤ x := by linarith
  have hn : Normal x := by
    refine normal_of ?_
    rw [abs_of_nonneg (by linarith)]
    have : (2 : ℚ) ^ (-900 : ℤ) / 2 ^ 60 ≤ 1 / 2 ^ 201 := by
      rw [show (1 : ℚ) / 2 ^ 201 = 2 ^ (-201 : ℤ) from by norm_num]
      exact (div_le_self (two_pos _).le (by norm_num)).trans (two_le (by norm_num))
    have e : (1 : ℚ) / 2 ^ 201 = 1 / 2 ^ 200 / 2 := by norm_num
    linarith
  have h2 := fl_rel hn
  rw [abs_of_nonneg (by linarith : 0 ≤ x)] at h2
  have h7 : x / 2 ^ 53 ≤ (X + X * (1 / 2)) / 2 ^ 53 := by gcongr; linarith
  have h8 : (X + X * (1 / 2)) / 2 ^ 53 ≤ X * (1 / 2 ^ 52) := by
    rw [div_le_iff₀ (by norm_num)]
    norm_num
    linarith
  have h1 := abs_tri (fl x) x X
  linarith

theorem div_close {x X b B ε η : ℚ} (hB : 1 ≤ B) (hε0 : 0 ≤ ε) (hε : ε ≤ 1 / 2 ^ 40) (hη : 0 ≤ η) (hb : |b - B| ≤ B / 2 ^ 50)
    (h : |x - X| ≤ |X| * ε + η) : |x / b - X / B| ≤ |X / B| * (ε + 1 / 2 ^ 49) + 2 * η := by
  obtain ⟨b1, b2⟩ := abs_le.mp hb
  have c : B / 2 ^ 50 ≤ B / 4 := by gcongr <;> norm_num
  have hb0 : 0 < b := by linarith
  have hB0 : 0 < B := by linarith
  have e : x / b - X / B = ((x - X) * B + X * (B - b)) / (b * B) := by field_simp; ring
  rw [e, abs_div, abs_of_pos (mul_pos hb0 hB0), div_le_iff₀ (mul_pos hb0 hB0), abs_div, abs_of_pos hB0]
  have n1 : |(x - X) * B + X * (B - b)| ≤ |x - X| * B + |X| * |B - b| := by
    refine (abs_add_le _ _).trans ?_
    rw [abs_mul, abs_mul, abs_of_pos hB0]
  have n2 : |x - X| * B ≤ (|X| * ε + η) * B := mul_le_mul_of_nonneg_right h hB0.le
  have n3 : |X| * |B - b| ≤ |X| * (B / 2 ^ 50) := by
    rw [abs_sub_comm]
    exact mul_le_mul_of_nonneg_left hb (abs_nonneg X)
  have n4 : (|X| / B * (ε + 1 / 2 ^ 49) + 2 * η) * (b * B) = |X| * (ε + 1 / 2 ^ 49) * b + 2 * η * (b * B) := by
    field_simp
  rw [n4]
  have hX0 := abs_nonneg X
  have n5 : |X| * (ε + 1 / 2 ^ 49) * (B - B / 2 ^ 50) ≤ |X| * (ε + 1 / 2 ^ 49) * b :=
    mul_le_mul_of_nonneg_left (by linarith) (by positivity)
  have n6 : η * B ≤ 2 * η * (b * B) := by
    have : 1 ≤ 2 * b := by linarith
    have := mul_le_mul_of_nonneg_left this (mul_nonneg hη hB0.le)
    linarith
  have n7 : |X| * ε * B + |X| * (B / 2 ^ 50) ≤ |X| * (ε + 1 / 2 ^ 49) * (B - B / 2 ^ 50) := by
    have hp : 0 ≤ |X| * B := by positivity
    have k : ε + 1 / 2 ^ 50 ≤ (ε + 1 / 2 ^ 49) * (1 - 1 / 2 ^ 50) := by
      norm_num at hε ⊢
      linarith
    have := mul_le_mul_of_nonneg_left k hp
    calc |X| * ε * B + |X| * (B / 2 ^ 50) = |X| * B * (ε + 1 / 2 ^ 50) := by ring
      _ ≤ |X| * B * ((ε + 1 / 2 ^ 49) * (1 - 1 / 2 ^ 50)) := this
      _ = _ := by ring
  linarith

/-- The rounded `int(x + 0.5)` is the exact one away from the places where the latter jumps. -/
theorem toRate_same {p q : ℚ} (h : |p - q| ≤ |q| / 2 ^ 47 + 1 / 2 ^ 60)
    (hq : ∀ n : ℤ, n ≠ 0 → (|q| + 1) / 2 ^ 46 < |q + 1 / 2 - n|) : toRateR fl p = toRate q := by
  unfold toRateR toRate
  refine trunc_same fun n hn => lt_of_le_of_lt ?_ (hq n hn)
  have a1 := fl_err (p + 1 / 2)
  have a2 := abs_tri (fl (p + 1 / 2)) (p + 1 / 2) (q + 1 / 2)
  rw [show p + 1 / 2 - (q + 1 / 2) = p - q from by ring] at a2
  have a3 := abs_near h
  have a4 := tiny_le
  have a5 : |p + 1 / 2| ≤ |p| + 1 / 2 := (abs_add_le _ _).trans (by norm_num)
  have a6 := abs_nonneg q
  have a7 : |q| / 2 ^ 47 ≤ |q| := div_le_self a6 (by norm_num)
  have a8 : |p + 1 / 2| / 2 ^ 53 ≤ (2 * |q| + 1) / 2 ^ 53 := by
    gcongr
    have : (1 : ℚ) / 2 ^ 60 ≤ 1 / 2 := by norm_num
    linarith
  have a9 : (2 * |q| + 1) / 2 ^ 53 + 1 / 2 ^ 70 + (|q| / 2 ^ 47 + 1 / 2 ^ 60) ≤ (|q| + 1) / 2 ^ 46 := by
    norm_num
    linarith
  linarith

theorem toRate_nat (n : ℕ) : toRate n = n := by
  unfold toRate
  rw [pyTrunc_nonneg (by positivity), Int.floor_eq_iff]
  push_cast
  constructor <;> linarith

/-- A rate that is nearly a whole number is read as that number. -/
theorem rate_whole {r : ℚ} {n : ℕ} (h : |r - n| ≤ 1 / 4) (hn : n ≤ 2 ^ 50) : toRateR fl r = n := by
  rw [← toRate_nat n]
  unfold toRateR toRate
  refine trunc_same fun k hk => ?_
  have hnq : (n : ℚ) ≤ 2 ^ 50 := by exact_mod_cast hn
  have hn0 : (0 : ℚ) ≤ n := by positivity
  have a1 := fl_err (r + 1 / 2)
  have a2 := abs_tri (fl (r + 1 / 2)) (r + 1 / 2) (n + 1 / 2)
  rw [show r + 1 / 2 - (n + 1 / 2 : ℚ) = r - n from by ring] at a2
  have a4 := tiny_le
  have a3 := abs_near h
  rw [abs_of_nonneg hn0] at a3
  have a5 : |r + 1 / 2| ≤ |r| + 1 / 2 := (abs_add_le _ _).trans (by norm_num)
  have a8 : |r + 1 / 2| / 2 ^ 53 ≤ (2 ^ 50 + 1) / 2 ^ 53 := by
    gcongr
    linarith
  have a9 : (2 ^ 50 + 1 : ℚ) / 2 ^ 53 + 1 / 2 ^ 70 < 1 / 4 := by norm_num
  have a10 : (1 : ℚ) / 2 ≤ |(n : ℚ) + 1 / 2 - k| := by
    rcases le_or_gt k n with hk | hk
    · have : (k : ℚ) ≤ n := by exact_mod_cast hk
      rw [abs_of_nonneg (by linarith)]
      linarith
    · have : (n : ℚ) + 1 ≤ k := by exact_mod_cast hk
      rw [abs_of_nonpos (by linarith)]
      linarith
  linarith

/-- The number of samples of a latency. -/
theorem latency_same {l s S b B : ℚ} (hB : 1 ≤ B) (hS : 1 ≤ S) (hb : |b - B| ≤ B / 2 ^ 50)
    (hs : |s - S| ≤ S * (1 / 2 ^ 50 + 1 / 2 ^ 52))
    (hq : ∀ n : ℤ, n ≠ 0 → (|l * S / B| + 1) / 2 ^ 46 < |l * S / B + 1 / 2 - n|) :
    latencyPointsR fl l b s = latencyPoints l B S := by
  unfold latencyPointsR latencyPoints
  refine toRate_same ?_ hq
  have a1 := mul_close (l := l) (by linarith) hs
  have a2 := fl_close (ε := 1 / 2 ^ 50 + 1 / 2 ^ 52) (η := 0) (by norm_num) le_rfl (by rw [add_zero]; exact a1)
  have a3 := div_close hB (by norm_num) (by norm_num) (by norm_num) hb a2
  have a4 := fl_close (by norm_num) (by norm_num) a3
  refine a4.trans ?_
  have := abs_nonneg (l * S / B)
  norm_num
  linarith

theorem whole_margin (m : ℕ) (hm : m ≤ 2 ^ 44) (n : ℤ) : (|(m : ℚ)| + 1) / 2 ^ 46 < |(m : ℚ) + 1 / 2 - n| := by
  have hmq : (m : ℚ) ≤ 2 ^ 44 := by exact_mod_cast hm
  have hm0 : (0 : ℚ) ≤ m := by positivity
  rw [abs_of_nonneg hm0]
  have a : ((m : ℚ) + 1) / 2 ^ 46 ≤ (2 ^ 44 + 1) / 2 ^ 46 := by gcongr
  have b : (2 ^ 44 + 1 : ℚ) / 2 ^ 46 < 1 / 2 := by norm_num
  rcases le_or_gt n m with hk | hk
  · have : (n : ℚ) ≤ m := by exact_mod_cast hk
    rw [abs_of_nonneg (by linarith)]
    linarith
  · have : (m : ℚ) + 1 ≤ n := by exact_mod_cast hk
    rw [abs_of_nonpos (by linarith)]
    linarith

/-- A latency of a whole number of samples. -/
theorem latency_whole {l s S b B : ℚ} {m : ℕ} (hB : 1 ≤ B) (hS : 1 ≤ S) (hb : |b - B| ≤ B / 2 ^ 50)
    (hs : |s - S| ≤ S * (1 / 2 ^ 50 + 1 / 2 ^ 52)) (hm : l * S / B = m) (hm2 : m ≤ 2 ^ 44) :
    latencyPointsR fl l b s = m ∧ latencyPoints l B S = m := by
  have h2 : latencyPoints l B S = m := by
    unfold latencyPoints
    rw [hm, toRate_nat]
  refine ⟨?_, h2⟩
  rw [latency_same hB hS hb hs, h2]
  rw [hm]
  exact fun n _ => whole_margin m hm2 n

theorem toRateR_nat {n : ℕ} (hn : n ≤ 2 ^ 50) : toRateR fl n = n := rate_whole (by rw [sub_self, abs_zero]; norm_num) hn

theorem max_close {x y X Y ε : ℚ} (hε : 0 ≤ ε) (hx : |x - X| ≤ X * ε) (hy : |y - Y| ≤ Y * ε) :
    |max x y - max X Y| ≤ max X Y * ε := by
  obtain ⟨a, b⟩ := abs_le.mp hx
  obtain ⟨c, d⟩ := abs_le.mp hy
  have h1 : X * ε ≤ max X Y * ε := mul_le_mul_of_nonneg_right (le_max_left _ _) hε
  have h2 : Y * ε ≤ max X Y * ε := mul_le_mul_of_nonneg_right (le_max_right _ _) hε
  have e1 := le_max_left X Y
  have e2 := le_max_right X Y
  have f1 := le_max_left x y
  have f2 := le_max_right x y
  rw [abs_le]
  constructor
  · rcases max_cases X Y with ⟨h, -⟩ | ⟨h, -⟩ <;> rw [h] at * <;> linarith
  · have := max_le (a := x) (b := y) (c := max X Y + max X Y * ε) (by linarith) (by linarith)
    linarith

theorem recip_close {F d D ε : ℚ} (hF : 0 ≤ F) (hD : 0 < D) (hε : ε ≤ 1 / 2) (h : |d - D| ≤ D * ε) :
    |F / d - F / D| ≤ F / D * (ε + 2 * ε ^ 2) := by
  obtain ⟨a, b⟩ := abs_le.mp h
  have h6 : D * ε ≤ D * (1 / 2) := mul_le_mul_of_nonneg_left hε hD.le
  have hd : 0 < d := by linarith
  have e : F / d - F / D = F / D * ((D - d) / d) := by field_simp
  rw [e, abs_mul, abs_of_nonneg (div_nonneg hF hD.le)]
  refine mul_le_mul_of_nonneg_left ?_ (div_nonneg hF hD.le)
  rw [abs_div, abs_of_pos hd, div_le_iff₀ hd, abs_sub_comm]
  have h0 : 0 ≤ ε := by
    have := (abs_nonneg _).trans h
    by_contra hc
    nlinarith
  have k1 : D * ε ≤ D * (1 - ε) * (ε + 2 * ε ^ 2) := by
    have : ε ≤ (1 - ε) * (ε + 2 * ε ^ 2) := by
      have : 0 ≤ ε ^ 2 * (1 - 2 * ε) := by
        have := sq_nonneg ε
        have : 0 ≤ 1 - 2 * ε := by linarith
        positivity
      nlinarith
    have := mul_le_mul_of_nonneg_left this hD.le
    linarith
  have k2 : D * (1 - ε) * (ε + 2 * ε ^ 2) ≤ d * (ε + 2 * ε ^ 2) :=
    mul_le_mul_of_nonneg_right (by linarith) (by positivity)
  linarith

end PT
