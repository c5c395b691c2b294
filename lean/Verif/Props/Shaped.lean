import Verif.Props.Transmission
import Verif.Props.StreamFilter
import Mathlib.Analysis.SpecialFunctions.Log.Deriv
import Mathlib.Analysis.SpecialFunctions.Trigonometric.Bounds
import Mathlib.Analysis.Complex.ExponentialBounds
import Mathlib.Analysis.Real.Pi.Bounds

/-!
# C132: bit streams with a cutoff
-/

namespace PT
open Finset Spec

/-! ### The filter of order one -/

/-- The pole of the filter. -/
noncomputable def onePole (w : ℝ) : ℝ := (1 - warp w) / (1 + warp w)

theorem butterworth_first (w : ℝ) (h0 : 0 < w) (h1 : w < 1) :
    butterworth 1 w = ([(1 - onePole w) / 2, (1 - onePole w) / 2], [1, -onePole w]) := by
  have hw := warp_pos w h0 h1
  have ha : analogPole 1 (warp w) 0 = -((warp w : ℝ) : ℂ) := by
    unfold analogPole poleAngle
    simp
  have hd : digitalPole 1 (warp w) 0 = ((onePole w : ℝ) : ℂ) := by
    unfold digitalPole onePole
    rw [ha]
    push_cast
    ring
  have hg : (butterGain 1 (warp w)).re = (1 - onePole w) / 2 := by
    unfold butterGain onePole
    rw [Finset.prod_range_one, ha, pow_one, sub_neg_eq_add]
    have : ((warp w : ℝ) : ℂ) / (1 + ((warp w : ℝ) : ℂ)) = ((warp w / (1 + warp w) : ℝ) : ℂ) := by push_cast; rfl
    rw [this, Complex.ofReal_re]
    have : 1 + warp w ≠ 0 := by positivity
    field_simp
    ring
  have hden : butterDen 1 (warp w) = Polynomial.X - Polynomial.C ((onePole w : ℝ) : ℂ) := by
    unfold butterDen
    rw [Finset.prod_range_one, hd]
  unfold butterworth
  rw [hg, hden]
  simp [List.range_succ, Polynomial.coeff_sub, Polynomial.coeff_C, Polynomial.coeff_X]

theorem one_pole {V : Type} [AddCommGroup V] [Module ℝ V] (g ρ : ℝ) (T : ℕ) (x y : ℕ → V) (h : FilterEq [g, g] [1, -ρ] T x y) :
    (0 < T → y 0 = g • x 0) ∧ ∀ n, n + 1 < T → y (n + 1) = ρ • y n + g • (x (n + 1) + x n) := by
  refine ⟨fun hT => ?_, fun n hn => ?_⟩
  · have := h 0 hT
    simpa using this
  · have e := h (n + 1) hn
    have e1 : ∑ k ∈ range (n + 1 + 1), [g, g].getD k 0 • x (n + 1 - k) = g • (x (n + 1) + x n) := by
      rw [Finset.sum_range_succ', Finset.sum_range_succ', Finset.sum_eq_zero fun k _ => by simp]
      simp only [zero_add, List.getD_cons_succ, List.getD_cons_zero, Nat.add_sub_cancel, Nat.sub_zero]
      rw [smul_add, add_comm]
    have e2 : ∑ k ∈ range (n + 1), [1, -ρ].getD (k + 1) 0 • y (n + 1 - 1 - k) = -(ρ • y n) := by
      rw [Finset.sum_range_succ', Finset.sum_eq_zero fun k _ => by simp]
      simp
    rw [e1, e2] at e
    simp only [List.getD_cons_zero, one_smul, sub_neg_eq_add] at e
    rw [e, add_comm]

/-- The filtered bits stay between 0 and 1. -/
theorem one_pole_range (ρ : ℝ) (h0 : 0 ≤ ρ) (h1 : ρ ≤ 1) (T : ℕ) (x y : ℕ → ℝ) (hx : ∀ n, 0 ≤ x n ∧ x n ≤ 1) (hy0 : 0 < T → y 0 = (1 - ρ) / 2 * x 0)
    (hy : ∀ n, n + 1 < T → y (n + 1) = ρ * y n + (1 - ρ) / 2 * (x (n + 1) + x n)) (n : ℕ) (hn : n < T) : 0 ≤ y n ∧ y n ≤ 1 := by
  induction n with
  | zero =>
    rw [hy0 hn]
    obtain ⟨a, b⟩ := hx 0
    constructor <;> nlinarith
  | succ n ih =>
    obtain ⟨a, b⟩ := ih (by omega)
    obtain ⟨c, d⟩ := hx n
    obtain ⟨c', d'⟩ := hx (n + 1)
    rw [hy n hn]
    have k1 := mul_nonneg h0 a
    have k2 := mul_le_mul_of_nonneg_left b h0
    have k3 : 0 ≤ (1 - ρ) / 2 := by linarith
    have k4 := mul_nonneg k3 (add_nonneg c' c)
    have k5 : (1 - ρ) / 2 * (x (n + 1) + x n) ≤ (1 - ρ) / 2 * 2 := mul_le_mul_of_nonneg_left (by linarith) k3
    constructor <;> linarith

/-- After a change, the filtered bits approach the new bit. -/
theorem one_pole_follows (ρ : ℝ) (h0 : 0 ≤ ρ) (h1 : ρ ≤ 1) (T : ℕ) (x y : ℕ → ℝ) (hx : ∀ n, 0 ≤ x n ∧ x n ≤ 1) (hy0 : 0 < T → y 0 = (1 - ρ) / 2 * x 0)
    (hy : ∀ n, n + 1 < T → y (n + 1) = ρ * y n + (1 - ρ) / 2 * (x (n + 1) + x n)) (c : ℝ) (hc0 : 0 ≤ c) (hc1 : c ≤ 1) (P d : ℕ) (hn : P + d < T)
    (hc : ∀ j ≤ d, x (P + j) = c) : |y (P + d) - c| ≤ ρ ^ d := by
  induction d with
  | zero =>
    obtain ⟨a, b⟩ := one_pole_range ρ h0 h1 T x y hx hy0 hy P hn
    rw [pow_zero, Nat.add_zero, abs_le]
    constructor <;> linarith
  | succ d ih =>
    have e := hy (P + d) hn
    rw [show x (P + d) = c from hc d (by omega), show x (P + d + 1) = c from hc (d + 1) le_rfl] at e
    have : y (P + (d + 1)) - c = ρ * (y (P + d) - c) := by
      rw [← add_assoc, e]
      ring
    rw [this, abs_mul, abs_of_nonneg h0, pow_succ, mul_comm (ρ ^ d)]
    exact mul_le_mul_of_nonneg_left (ih (by omega) fun j hj => hc j (by omega)) h0

/-- The pole in terms of the cutoff. -/
theorem onePole_bounds (w : ℝ) (h0 : 0 < w) (h1 : w ≤ 1 / 2) : 0 ≤ onePole w ∧ onePole w ≤ Real.exp (-(Real.pi * w)) := by
  have hpi := Real.pi_pos
  set s := Real.pi * w / 2 with hs
  have hs0 : 0 < s := by positivity
  have hs1 : s ≤ Real.pi / 4 := by rw [hs]; nlinarith
  have ht : s ≤ warp w := Real.le_tan hs0.le (by linarith)
  have ht1 : warp w ≤ 1 := by
    rw [← Real.tan_pi_div_four]
    exact (Real.strictMonoOn_tan.le_iff_le ⟨by linarith, by linarith⟩ ⟨by linarith, by linarith⟩).2 hs1
  have hd : 0 < 1 + warp w := by linarith
  refine ⟨div_nonneg (by linarith) hd.le, ?_⟩
  have key : onePole w ≤ Real.exp (-(2 * warp w)) := by
    unfold onePole
    rcases ht1.lt_or_eq with h | h
    · have hsum := Real.hasSum_log_sub_log_of_abs_lt_one (x := warp w) (by rw [abs_of_nonneg (by linarith)]; exact h)
      have h2 := le_hasSum hsum 0 fun k _ => by
        have : 0 ≤ warp w := by linarith
        positivity
      norm_num at h2
      rw [div_le_iff₀ hd]
      have h3 : Real.log (1 - warp w) ≤ -(2 * warp w) + Real.log (1 + warp w) := by linarith
      calc 1 - warp w = Real.exp (Real.log (1 - warp w)) := (Real.exp_log (by linarith)).symm
        _ ≤ Real.exp (-(2 * warp w) + Real.log (1 + warp w)) := Real.exp_le_exp.2 h3
        _ = _ := by rw [Real.exp_add, Real.exp_log hd]
    · rw [h, sub_self, zero_div]
      exact (Real.exp_pos _).le
  refine key.trans (Real.exp_le_exp.2 ?_)
  rw [hs] at ht
  linarith

/-! ### Bit streams -/

/-- The samples of a bit stream are those of a recursion. -/
theorem shaped_recursion {ι : Type} (bits : List (ι → Bool)) (B S f : ℕ) (hB : 0 < B) (hS : 0 < S) (hf : 0 < f) (rng : ℕ → List (ι → ℝ)) :
    ∃ stream, bitStream rng (fun w => butterworth 1 (w : ℝ)) (.array (bitRows bits)) B S (some f) = .ok stream ∧
      stream.length = ⌈(bits.length : ℚ) * S / B⌉₊ ∧ ∃ R q q' : ℕ, R = B * q ∧ R = S * q' ∧ 0 < q ∧ 0 < R ∧ 4 * f ≤ R ∧ ∃ y : ℕ → ι → ℝ,
        (∀ k < stream.length, k * q' < bits.length * q ∧ stream.getD k 0 = y (k * q')) ∧ ∀ i,
          (0 < bits.length * q → y 0 i = (1 - onePole (2 * f / R)) / 2 * if bits.getD (0 / q) (fun _ => false) i then 1 else 0) ∧
          ∀ n, n + 1 < bits.length * q → y (n + 1) i = onePole (2 * f / R) * y n i + (1 - onePole (2 * f / R)) / 2 *
            ((if bits.getD ((n + 1) / q) (fun _ => false) i then 1 else 0) + if bits.getD (n / q) (fun _ => false) i then 1 else 0) := by
  obtain ⟨stream, h1, h2, R, ⟨q, hq⟩, ⟨q', hq'⟩, h5, h6, ⟨y, hy⟩, h8⟩ := C71_filtered rng (fun w => butterworth 1 (w : ℝ))
    (fun w => by rw [butterworth_one]; norm_num) (.array (bitRows bits)) (bitRows bits) rfl B S hB hS f (by exact_mod_cast hf)
  have l1 : (bitRows bits).length = bits.length := List.length_map _
  rw [l1] at h2 hy
  have hRB : R / B = q := by rw [hq, Nat.mul_div_cancel_left _ hB]
  have hRS : R / S = q' := by rw [hq', Nat.mul_div_cancel_left _ hS]
  have hq0 : 0 < q := Nat.pos_of_ne_zero fun h => by rw [h, mul_zero] at hq; omega
  have h4f : 4 * f ≤ R := by
    have : (4 * f : ℚ) < (R + 1 : ℚ) := lt_of_le_of_lt h6 (by linarith)
    have : 4 * f < R + 1 := by exact_mod_cast this
    omega
  refine ⟨stream, h1, h2, R, q, q', hq, hq', hq0, h5, h4f, y, fun k hk => ⟨?_, ?_⟩, fun i => ?_⟩
  · rw [h2] at hk
    have h3 := Nat.lt_ceil.1 hk
    have hBq : (0 : ℚ) < B := by exact_mod_cast hB
    have hSq : (0 : ℚ) < S := by exact_mod_cast hS
    rw [lt_div_iff₀ hBq] at h3
    have h3 : k * B < bits.length * S := by exact_mod_cast h3
    have : k * q' * (B * S) < bits.length * q * (B * S) := by
      calc k * q' * (B * S) = k * B * (S * q') := by ring
        _ = k * B * R := by rw [← hq']
        _ < bits.length * S * R := Nat.mul_lt_mul_of_pos_right h3 h5
        _ = bits.length * S * (B * q) := by rw [← hq]
        _ = _ := by ring
    exact Nat.lt_of_mul_lt_mul_right this
  · rw [List.getD_eq_getElem?_getD, h8 y (by rwa [l1]) k hk, Option.getD_some, hRS]
  · have hRr : (0 : ℝ) < R := by exact_mod_cast h5
    have hfr : (0 : ℝ) < f := by exact_mod_cast hf
    have hw' : ((2 * f / R : ℚ) : ℝ) = 2 * f / R := by push_cast; rfl
    have hw0 : (0 : ℝ) < 2 * f / R := by positivity
    have hw1 : (2 * f / R : ℝ) < 1 := by
      rw [div_lt_one hRr]
      have : (4 * f : ℝ) ≤ R := by exact_mod_cast h4f
      linarith
    rw [hw', butterworth_first _ hw0 hw1] at hy
    obtain ⟨y0, ys⟩ := one_pole _ _ _ _ _ hy
    rw [hRB] at y0 ys
    have hfl : ∀ j : ℕ, (bitRows bits).getD ⌊(j : ℚ) / R * B⌋₊ 0 i = if bits.getD (j / q) (fun _ => false) i then 1 else 0 := by
      intro j
      have : (j : ℚ) / R * B = (j : ℚ) / (q : ℕ) := by
        rw [hq]
        have : (B : ℚ) ≠ 0 := by exact_mod_cast hB.ne'
        have : (q : ℚ) ≠ 0 := by exact_mod_cast hq0.ne'
        push_cast
        field_simp
      rw [this, Nat.floor_div_eq_div, bitRows_getD]
    refine ⟨fun h => ?_, fun n h => ?_⟩
    · rw [y0 h, ← hfl 0]
      rfl
    · rw [ys n h, ← hfl n, ← hfl (n + 1)]
      rfl

theorem shaped_width (f R : ℕ) (hf : 0 < f) (hR : 0 < R) (h : 4 * f ≤ R) : 0 < (2 * f / R : ℝ) ∧ (2 * f / R : ℝ) ≤ 1 / 2 := by
  have hRr : (0 : ℝ) < R := by exact_mod_cast hR
  have hfr : (0 : ℝ) < f := by exact_mod_cast hf
  refine ⟨by positivity, ?_⟩
  rw [div_le_iff₀ hRr]
  have : (4 * f : ℝ) ≤ R := by exact_mod_cast h
  linarith

/-- **C132**. A bit stream with a cutoff and the filter of order one (the default): all samples are between 0 and 1, and a sample a time `τ` after
the last change of the bits differs from the bit by at most `exp (-2 π f τ)`. -/
theorem C132_follows {ι : Type} (bits : List (ι → Bool)) (B S f : ℕ) (hB : 0 < B) (hS : 0 < S) (hf : 0 < f) (rng : ℕ → List (ι → ℝ)) :
    ∃ stream, bitStream rng (fun w => butterworth 1 (w : ℝ)) (.array (bitRows bits)) B S (some f) = .ok stream ∧
      stream.length = ⌈(bits.length : ℚ) * S / B⌉₊ ∧ ∀ k < stream.length, ∀ i, (0 ≤ stream.getD k 0 i ∧ stream.getD k 0 i ≤ 1) ∧
        ∀ (p : ℕ) (c : Bool), (p : ℝ) / B ≤ k / S → (∀ j, p ≤ j → (j : ℝ) / B ≤ k / S → bits.getD j (fun _ => false) i = c) →
          |stream.getD k 0 i - if c then 1 else 0| ≤ Real.exp (-(2 * Real.pi * f * (k / S - p / B))) := by
  obtain ⟨stream, h1, h2, R, q, q', hq, hq', hq0, h5, h4f, y, hs, hy⟩ := shaped_recursion bits B S f hB hS hf rng
  refine ⟨stream, h1, h2, fun k hk i => ?_⟩
  obtain ⟨hJ, hval⟩ := hs k hk
  obtain ⟨y0, ys⟩ := hy i
  have hRr : (0 : ℝ) < R := by exact_mod_cast h5
  have hBr : (0 : ℝ) < B := by exact_mod_cast hB
  have hSr : (0 : ℝ) < S := by exact_mod_cast hS
  obtain ⟨hw0, hw1⟩ := shaped_width f R hf h5 h4f
  obtain ⟨hρ0, hρ1⟩ := onePole_bounds _ hw0 hw1
  have hρ2 : onePole (2 * f / R) ≤ 1 := hρ1.trans (Real.exp_le_one_iff.2 (by
    have := mul_nonneg Real.pi_pos.le hw0.le
    linarith))
  set x : ℕ → ℝ := fun j => if bits.getD (j / q) (fun _ => false) i then 1 else 0 with hx
  have hx01 : ∀ j, 0 ≤ x j ∧ x j ≤ 1 := by
    intro j
    rw [hx]
    dsimp only
    split <;> norm_num
  rw [hval]
  refine ⟨one_pole_range _ hρ0 hρ2 _ x (fun n => y n i) hx01 y0 ys _ hJ, fun p c hp hc => ?_⟩
  have hPJ : p * q ≤ k * q' := by
    have h3 : (p : ℝ) * S ≤ k * B := by
      rw [div_le_div_iff₀ hBr hSr] at hp
      exact hp
    have h3 : p * S ≤ k * B := by exact_mod_cast h3
    have : p * q * (B * S) ≤ k * q' * (B * S) := by
      calc p * q * (B * S) = p * S * (B * q) := by ring
        _ = p * S * R := by rw [← hq]
        _ ≤ k * B * R := Nat.mul_le_mul_right _ h3
        _ = k * B * (S * q') := by rw [← hq']
        _ = _ := by ring
    exact Nat.le_of_mul_le_mul_right this (Nat.mul_pos hB hS)
  have hkR : (k : ℝ) / S = (k * q' : ℕ) / R := by
    rw [hq']
    push_cast
    have : (q' : ℝ) ≠ 0 := fun h => by
      have : q' = 0 := by exact_mod_cast h
      rw [this, mul_zero] at hq'
      omega
    field_simp
  have hpR : (p : ℝ) / B = (p * q : ℕ) / R := by
    rw [hq]
    push_cast
    have : (q : ℝ) ≠ 0 := by exact_mod_cast hq0.ne'
    field_simp
  have key := one_pole_follows _ hρ0 hρ2 _ x (fun n => y n i) hx01 y0 ys (if c then 1 else 0) (by split <;> norm_num) (by split <;> norm_num)
    (p * q) (k * q' - p * q) (by omega) (fun j hj => by
      rw [hx]
      dsimp only
      rw [hc ((p * q + j) / q)]
      · rw [Nat.le_div_iff_mul_le hq0]
        omega
      · rw [hkR, div_le_div_iff₀ hBr hRr]
        have : (p * q + j) / q * R ≤ k * q' * B := by
          calc (p * q + j) / q * R = (p * q + j) / q * q * B := by rw [hq]; ring
            _ ≤ (p * q + j) * B := Nat.mul_le_mul_right _ (Nat.div_mul_le_self _ _)
            _ ≤ _ := Nat.mul_le_mul_right _ (by omega)
        exact_mod_cast this)
  rw [show p * q + (k * q' - p * q) = k * q' by omega] at key
  refine key.trans ((pow_le_pow_left₀ hρ0 hρ1 _).trans (le_of_eq ?_))
  rw [← Real.exp_nat_mul]
  congr 1
  rw [Nat.cast_sub hPJ, hkR, hpR]
  field_simp

/-- The sample in the middle of a bit, with `m` samples per bit. -/
theorem middle {ι : Type} (bits : List (ι → Bool)) (m B f : ℕ) (hm : 0 < m) (hB : 0 < B) (hf : 0 < f) (rng : ℕ → List (ι → ℝ)) :
    ∃ stream, bitStream rng (fun w => butterworth 1 (w : ℝ)) (.array (bitRows bits)) B (m * B : ℕ) (some f) = .ok stream ∧
      stream.length = bits.length * m ∧ ∀ j < bits.length, ∀ i, (0 ≤ stream.getD (j * m + m / 2) 0 i ∧ stream.getD (j * m + m / 2) 0 i ≤ 1) ∧
        |stream.getD (j * m + m / 2) 0 i - if bits.getD j (fun _ => false) i then 1 else 0| ≤
          Real.exp (-(2 * Real.pi * f * ((m / 2 : ℕ) / (m * B)))) := by
  obtain ⟨stream, h1, h2, h3⟩ := C132_follows bits B (m * B) f hB (Nat.mul_pos hm hB) hf rng
  have hBr : (0 : ℝ) < B := by exact_mod_cast hB
  have hmr : (0 : ℝ) < m := by exact_mod_cast hm
  have hl : stream.length = bits.length * m := by
    rw [h2]
    have : (bits.length : ℚ) * (m * B : ℕ) / B = (bits.length * m : ℕ) := by
      have : (B : ℚ) ≠ 0 := by exact_mod_cast hB.ne'
      push_cast
      field_simp
    rw [this, Nat.ceil_natCast]
  refine ⟨stream, h1, hl, fun j hj i => ?_⟩
  have hm2 : m / 2 < m := Nat.div_lt_self hm (by omega)
  have hk : j * m + m / 2 < stream.length := by
    rw [hl]
    calc j * m + m / 2 < j * m + m := by omega
      _ = (j + 1) * m := by ring
      _ ≤ _ := Nat.mul_le_mul_right _ hj
  obtain ⟨h4, h5⟩ := h3 _ hk i
  refine ⟨h4, ?_⟩
  have e : ((j * m + m / 2 : ℕ) : ℝ) / (m * B : ℕ) = j / B + (m / 2 : ℕ) / (m * B) := by
    push_cast
    field_simp
  have := h5 j (bits.getD j (fun _ => false) i) (by rw [e]; linarith [show (0 : ℝ) ≤ (m / 2 : ℕ) / (m * B) by positivity]) (by
    intro j' hj' h'
    have : j' = j := by
      rw [div_le_div_iff₀ hBr (by exact_mod_cast Nat.mul_pos hm hB)] at h'
      have h' : j' * (m * B) ≤ (j * m + m / 2) * B := by exact_mod_cast h'
      have h6 : j' * m ≤ j * m + m / 2 := Nat.le_of_mul_le_mul_right (by rw [mul_assoc]; exact h') hB
      have h7 : j' * m < (j + 1) * m := by rw [add_mul, one_mul]; omega
      have := Nat.lt_of_mul_lt_mul_right h7
      omega
    rw [this])
  rw [e, show (j : ℝ) / B + (m / 2 : ℕ) / (m * B) - j / B = (m / 2 : ℕ) / (m * B) by ring] at this
  exact this

/-- **C132**. So the eye is open: a threshold that is farther than `exp (-2 π f τ)` from 0 and 1, where `τ` is half a bit, recovers all bits. -/
theorem C132_eye {ι : Type} [Fintype ι] [Nonempty ι] (bits : List (ι → Bool)) (m B f : ℕ) (hm : 0 < m) (hB : 0 < B) (hf : 0 < f)
    (hz : ∀ i, ∃ r ∈ bits, r i = false) (rng : ℕ → List (ι → ℝ)) (threshold : ℝ)
    (h0 : Real.exp (-(2 * Real.pi * f * ((m / 2 : ℕ) / (m * B)))) ≤ threshold)
    (h1 : threshold < 1 - Real.exp (-(2 * Real.pi * f * ((m / 2 : ℕ) / (m * B))))) :
    ∃ stream target, bitStream rng (fun w => butterworth 1 (w : ℝ)) (.array (bitRows bits)) B (m * B : ℕ) (some f) = .ok stream ∧
      bitStream rng (fun w => butterworth 1 (w : ℝ)) (.array (bitRows bits)) B (m * B : ℕ) none = .ok target ∧
      berLoss stream target threshold 0 0 B (m * B : ℕ) = .ok (some 0) := by
  obtain ⟨stream, s1, s2, s3⟩ := middle bits m B f hm hB hf rng
  obtain ⟨target, t1, t2⟩ := C127_rate bits m B hm hB hz rng (fun w => butterworth 1 (w : ℝ))
  refine ⟨stream, target, s1, t1, ?_⟩
  have hlen : 0 < bits.length := by
    obtain ⟨r, hr, -⟩ := hz (Classical.arbitrary ι)
    exact List.length_pos_of_mem hr
  have hm2 : m / 2 < m := Nat.div_lt_self hm (by omega)
  have hTm : m ≤ bits.length * m := Nat.le_mul_of_pos_left m hlen
  have hs : stream = samples (bits.length * m) fun n => stream.getD n 0 := by rw [← s2, samples_self]
  have hber := t2 0 (by omega) (fun n => stream.getD n 0) threshold
  rw [← hs] at hber
  have hrec : bitsReceived (bits.length * m) m 0 = bits.length := by
    unfold bitsReceived
    have : bits.length * m - (m / 2 + 0) + m - 1 = (m - 1 - m / 2) + m * bits.length := by rw [Nat.mul_comm m]; omega
    rw [this, Nat.add_mul_div_left _ _ hm, Nat.div_eq_of_lt (by omega), zero_add]
  simp only [Nat.cast_zero, zero_mul, zero_div] at hber
  rw [hber, hrec]
  refine congrArg (fun x => Except.ok (some x)) ?_
  rw [div_eq_zero_iff]
  left
  refine sum_eq_zero fun j hj => sum_eq_zero fun i _ => if_pos ?_
  obtain ⟨-, h⟩ := s3 j (mem_range.1 hj) i
  rw [abs_le] at h
  rw [Nat.add_zero]
  by_cases hbit : bits.getD j (fun _ => false) i = true
  · rw [if_pos hbit] at h
    exact ⟨fun _ => hbit, fun _ => by linarith [h.1]⟩
  · rw [if_neg hbit] at h
    exact ⟨fun h' => absurd h' (by linarith [h.2]), fun h' => absurd h' hbit⟩

/-- **C132**. The same for a link of a source, a waveguide and a detector without filter: now the powers, which are the squares of the
samples, decide. -/
theorem C132_link (z : Wg) (R : ℝ) (hR : 0 ≤ R) (butter : ℚ → List ℝ × List ℝ) :
    ∃ d, LinkedNet (lineModules z) lineLinks d ∧ ∀ (nw b m B f : ℕ), 0 < b → 0 < m → 0 < B → 0 < f → ∀ (v : ℝ) (wl : Fin nw → ℝ)
      (env : SimEnv) (bits : List (Fin b → Bool)), env.freqdomain = false → env.dt = some (1 / (m * B : ℝ)) → env.t.length = bits.length * m →
      bits.length * m ≠ 2 → m / 2 + z.steps v (1 / (m * B : ℝ)) < bits.length * m → (∀ i, ∃ r ∈ bits, r i = false) →
      ∀ threshold : ℝ, R * z.transmission * Real.exp (-(2 * Real.pi * f * ((m / 2 : ℕ) / (m * B)))) ^ 2 ≤ threshold →
      threshold < R * z.transmission * (1 - Real.exp (-(2 * Real.pi * f * ((m / 2 : ℕ) / (m * B))))) ^ 2 →
      ∀ rng : ℕ → List (Fin b → ℝ), ∃ r stream target, initNet (d.plant v wl) env = .ok (some r) ∧
        bitStream rng (fun w => butterworth 1 (w : ℝ)) (.array (bitRows bits)) B (m * B : ℕ) (some f) = .ok stream ∧
        bitStream rng (fun w => butterworth 1 (w : ℝ)) (.array (bitRows bits)) B (m * B : ℕ) none = .ok target ∧
        ∀ cs : List (Actor (Fin nw) (Fin b)), ∃ out cur, forwardPower r env cs (fun n _ _ i => (stream.getD n 0 i, 0)) = .ok out ∧
          lowpassDetect butter ⟨[nw, 1, b], out.map (powers 1)⟩ (m * B : ℕ) ((m * B : ℕ) / 2) R = .ok ⟨[nw, 1, b], cur⟩ ∧
          ∀ q : Fin nw, berLoss (channel cur q 0) target threshold (z.steps v (1 / (m * B : ℝ)) * B / (m * B : ℕ)) (0 : ℕ) B (m * B : ℕ) =
            .ok (some 0) := by
  obtain ⟨d, hd, H⟩ := C127_line z
  refine ⟨d, hd, fun nw b m B f hb hm hB hf v wl env bits hfd hdt hT hT2 hD hz threshold h0 h1 rng => ?_⟩
  have hBr : (0 : ℝ) < B := by exact_mod_cast hB
  have hmr : (0 : ℝ) < m := by exact_mod_cast hm
  obtain ⟨r, hr, H⟩ := H (Fin nw) (Fin b) v wl env _ hfd hdt (by positivity)
  obtain ⟨stream, s1, s2, s3⟩ := middle bits m B f hm hB hf rng
  haveI : Nonempty (Fin b) := ⟨⟨0, hb⟩⟩
  obtain ⟨target, t1, t2⟩ := C127_rate bits m B hm hB hz rng (fun w => butterworth 1 (w : ℝ))
  refine ⟨r, stream, target, hr, s1, t1, fun cs => ?_⟩
  set D := z.steps v (1 / (m * B : ℝ))
  set e := Real.exp (-(2 * Real.pi * f * ((m / 2 : ℕ) / (m * B)))) with he
  have hα := z.transmission_pos
  have hS : ((m * B : ℕ) : ℚ) ≠ 0 := by exact_mod_cast (Nat.mul_pos hm hB).ne'
  let p : ℕ → Fin b → ℝ := fun n i => R * if n < D then 0 else z.transmission * ((stream.getD (n - D) 0 i) ^ 2 + (0 : ℝ) ^ 2)
  refine ⟨_, samples (bits.length * m) fun n => (fun _ _ i => p n i : Ten [nw, 1, b]), H cs _, ?_, fun q => ?_⟩
  · rw [samples_map, hT, unfiltered butter [nw, 1, b] _ hT2 _ _ hS R]
    refine congrArg (fun y => Except.ok (⟨[nw, 1, b], y⟩ : Sig)) (samples_congr _ _ _ fun n _ => ?_)
    funext w k i
    obtain rfl : k = 0 := Subsingleton.elim _ _
    rfl
  have hch : channel (samples (bits.length * m) fun n => (fun _ _ i => p n i : Ten [nw, 1, b])) q 0 = samples (bits.length * m) p :=
    samples_map _ _ _
  rw [hch, t2 D hD p threshold]
  refine congrArg (fun x => Except.ok (some x)) ?_
  rw [div_eq_zero_iff]
  left
  refine sum_eq_zero fun j hj => sum_eq_zero fun i _ => if_pos ?_
  have hjl : j < bits.length := by
    have h2 := mem_range.1 hj
    unfold bitsReceived at h2
    have h3 := (Nat.le_div_iff_mul_le hm).1 h2
    have h4 : (j + 1) * m < bits.length * m + m := lt_of_le_of_lt h3 (by omega)
    have h5 : (j + 1) * m < (bits.length + 1) * m := by rw [add_mul bits.length, one_mul]; exact h4
    have := Nat.lt_of_mul_lt_mul_right h5
    omega
  have hpj : p (j * m + m / 2 + D) i = R * z.transmission * stream.getD (j * m + m / 2) 0 i ^ 2 := by
    dsimp only [p]
    rw [if_neg (by omega), Nat.add_sub_cancel]
    ring
  obtain ⟨⟨k0, k1⟩, h⟩ := s3 j hjl i
  rw [abs_le] at h
  rw [hpj]
  have hRα : 0 ≤ R * z.transmission := mul_nonneg hR hα.le
  have he1 : e ≤ 1 := Real.exp_le_one_iff.2 (by
    have := Real.pi_pos
    have : 0 ≤ 2 * Real.pi * f * ((m / 2 : ℕ) / (m * B)) := by positivity
    linarith)
  by_cases hbit : bits.getD j (fun _ => false) i = true
  · rw [if_pos hbit] at h
    refine ⟨fun _ => hbit, fun _ => h1.trans_le (mul_le_mul_of_nonneg_left (pow_le_pow_left₀ (by linarith) (by linarith [h.1]) 2) hRα)⟩
  · rw [if_neg hbit] at h
    refine ⟨fun h' => absurd h' (not_lt.2 (le_trans (mul_le_mul_of_nonneg_left (pow_le_pow_left₀ k0 (by linarith [h.2]) 2) hRα) h0)), fun h' => absurd h' hbit⟩

/-- The step from 0 to 1, exactly: the bound of `C132_follows` is the right one up to the factor `(1 + ρ) / 2` and the warping of the frequency. -/
theorem one_pole_step (ρ : ℝ) (T P : ℕ) (x y : ℕ → ℝ) (hx : ∀ n, x n = if n < P then 0 else 1) (hP : 0 < P) (hy0 : 0 < T → y 0 = (1 - ρ) / 2 * x 0)
    (hy : ∀ n, n + 1 < T → y (n + 1) = ρ * y n + (1 - ρ) / 2 * (x (n + 1) + x n)) :
    (∀ n < P, n < T → y n = 0) ∧ ∀ d, P + d < T → y (P + d) = 1 - (1 + ρ) / 2 * ρ ^ d := by
  have hz : ∀ n < P, n < T → y n = 0 := by
    intro n hn hT
    induction n with
    | zero => rw [hy0 (by omega), hx, if_pos hP, mul_zero]
    | succ n ih => rw [hy n (by omega), hx, hx, if_pos hn, if_pos (by omega), ih (by omega) (by omega)]; ring
  refine ⟨hz, fun d hd => ?_⟩
  induction d with
  | zero =>
    obtain ⟨P', rfl⟩ : ∃ P', P = P' + 1 := ⟨P - 1, by omega⟩
    rw [Nat.add_zero, hy P' (by omega), hz P' (by omega) (by omega), hx, hx, if_neg (by omega), if_pos (by omega)]
    ring
  | succ d ih =>
    rw [← add_assoc, hy (P + d) (by omega), ih (by omega), hx, hx, if_neg (by omega), if_neg (by omega), pow_succ]
    ring

/-- **C132**. And it is not faster than the filter: after `p` zeros, the first of the ones that follow rises as the filter of order one with its pole at
the cutoff (for the rate `R` at which the stream is filtered). -/
theorem C132_rise (p n B S f : ℕ) (hp : 0 < p) (hB : 0 < B) (hS : 0 < S) (hf : 0 < f) (rng : ℕ → List (Unit → ℝ)) :
    ∃ stream, bitStream rng (fun w => butterworth 1 (w : ℝ)) (.array (bitRows (List.replicate p (fun _ : Unit => false) ++ List.replicate n fun _ => true)))
        B S (some f) = .ok stream ∧ ∃ R : ℕ, B ∣ R ∧ S ∣ R ∧ 0 < R ∧ 4 * f ≤ R ∧ ∀ k < stream.length, stream.getD k 0 () =
          if (k : ℝ) / S < p / B then 0 else 1 - (1 + onePole (2 * f / R)) / 2 * onePole (2 * f / R) ^ (k * (R / S) - p * (R / B)) := by
  set bits := List.replicate p (fun _ : Unit => false) ++ List.replicate n fun _ => true with hbits
  obtain ⟨stream, h1, h2, R, q, q', hq, hq', hq0, h5, h4f, y, hs, hy⟩ := shaped_recursion bits B S f hB hS hf rng
  refine ⟨stream, h1, R, ⟨q, hq⟩, ⟨q', hq'⟩, h5, h4f, fun k hk => ?_⟩
  obtain ⟨hJ, hval⟩ := hs k hk
  obtain ⟨y0, ys⟩ := hy ()
  have hRr : (0 : ℝ) < R := by exact_mod_cast h5
  have hBr : (0 : ℝ) < B := by exact_mod_cast hB
  have hSr : (0 : ℝ) < S := by exact_mod_cast hS
  have hRB : R / B = q := by rw [hq, Nat.mul_div_cancel_left _ hB]
  have hRS : R / S = q' := by rw [hq', Nat.mul_div_cancel_left _ hS]
  have hl : bits.length = p + n := by rw [hbits]; simp
  set x : ℕ → ℝ := fun j => if bits.getD (j / q) (fun _ => false) () then 1 else 0 with hx
  have hxv : ∀ j < bits.length * q, x j = if j < p * q then 0 else 1 := by
    intro j hj
    rw [hx]
    dsimp only
    have hjl : j / q < p + n := by rw [← hl]; exact (Nat.div_lt_iff_lt_mul hq0).2 hj
    by_cases h : j < p * q
    · have h' : j / q < p := (Nat.div_lt_iff_lt_mul hq0).2 h
      rw [if_pos h, hbits, List.getD_eq_getElem?_getD, List.getElem?_append_left (by simpa using h'), List.getElem?_replicate, if_pos h']
      simp
    · have h' : p ≤ j / q := (Nat.le_div_iff_mul_le hq0).2 (by omega)
      rw [if_neg h, hbits, List.getD_eq_getElem?_getD, List.getElem?_append_right (by simpa using h'), List.length_replicate, List.getElem?_replicate,
        if_pos (show j / q - p < n by omega)]
      simp
  have hlt : (k : ℝ) / S < p / B ↔ k * q' < p * q := by
    rw [div_lt_div_iff₀ hSr hBr]
    have e : ((k : ℝ) * B < p * S) ↔ k * B < p * S := by exact_mod_cast Iff.rfl
    rw [e, ← Nat.mul_lt_mul_right h5]
    rw [show k * B * R = k * q' * (B * S) by rw [hq']; ring, show p * S * R = p * q * (B * S) by rw [hq]; ring]
    exact Nat.mul_lt_mul_right (Nat.mul_pos hB hS)
  rw [hval, hRB, hRS]
  have hstep := one_pole_step (onePole (2 * f / R)) (bits.length * q) (p * q) (fun j => if j < p * q then 0 else 1) (fun j => y j ())
    (fun _ => rfl) (Nat.mul_pos hp hq0) (fun h => by rw [← hxv 0 h]; exact y0 h) (fun j h => by
      rw [← hxv (j + 1) h, ← hxv j (by omega)]
      exact ys j h)
  by_cases h : k * q' < p * q
  · rw [if_pos (hlt.2 h)]
    exact hstep.1 _ h hJ
  · rw [if_neg fun h' => h (hlt.1 h')]
    have := hstep.2 (k * q' - p * q) (by omega)
    rwa [show p * q + (k * q' - p * q) = k * q' by omega] at this

/-! ### Concrete instances -/

/-- 40 Gbit/s, sampled with 160 GS/s and limited to 40 GHz: in the middle of a bit, 12.5 ps after a change, the stream is within 1/16 of the bit. -/
theorem shaped_fast : Real.exp (-(2 * Real.pi * (40000000000 : ℕ) * ((4 / 2 : ℕ) / ((4 : ℕ) * (40000000000 : ℕ))))) ≤ 1 / 16 := by
  have h1 : -(2 * Real.pi * ((40000000000 : ℕ) : ℝ) * (((4 / 2 : ℕ) : ℝ) / (((4 : ℕ) : ℝ) * ((40000000000 : ℕ) : ℝ)))) = -Real.pi := by
    push_cast
    ring
  rw [h1, Real.exp_neg, show (1 : ℝ) / 16 = (16 : ℝ)⁻¹ by norm_num]
  apply inv_anti₀ (by norm_num)
  calc (16 : ℝ) ≤ 2.7 ^ 3 := by norm_num
    _ ≤ Real.exp 1 ^ 3 := pow_le_pow_left₀ (by norm_num) (by linarith [Real.exp_one_gt_d9]) 3
    _ = Real.exp 3 := by rw [← Real.exp_nat_mul]; norm_num
    _ ≤ _ := Real.exp_le_exp.2 Real.pi_gt_three.le

example : ∃ stream target, bitStream (fun _ => []) (fun w => butterworth 1 (w : ℝ)) (.array (bitRows [fun _ : Fin 1 => true, fun _ => false, fun _ => true]))
      (40000000000 : ℕ) (4 * 40000000000 : ℕ) (some (40000000000 : ℕ)) = .ok stream ∧
    bitStream (fun _ => []) (fun w => butterworth 1 (w : ℝ)) (.array (bitRows [fun _ : Fin 1 => true, fun _ => false, fun _ => true]))
      (40000000000 : ℕ) (4 * 40000000000 : ℕ) none = .ok target ∧
    berLoss stream target (1 / 2) 0 0 (40000000000 : ℕ) (4 * 40000000000 : ℕ) = .ok (some 0) :=
  C132_eye [fun _ : Fin 1 => true, fun _ => false, fun _ => true] 4 40000000000 40000000000 (by norm_num) (by norm_num) (by norm_num)
    (fun _ => ⟨fun _ => false, by simp, rfl⟩) _ (1 / 2) (shaped_fast.trans (by norm_num)) (by linarith [shaped_fast])

/-- With two bits at 1 Hz, 3 samples per bit and a cutoff of 5 Hz, 2/3 s after the change the stream is zero up to `exp (-20 π / 3)`. -/
example : ∃ stream, bitStream (fun _ => []) (fun w => butterworth 1 (w : ℝ)) (.array (bitRows [fun _ : Unit => true, fun _ => false])) (1 : ℕ) (3 : ℕ)
      (some (5 : ℕ)) = .ok stream ∧ stream.length = 6 ∧ |stream.getD 5 0 () - 0| ≤ Real.exp (-(2 * Real.pi * (5 : ℕ) * ((5 : ℕ) / (3 : ℕ) - (1 : ℕ) / (1 : ℕ)))) := by
  obtain ⟨stream, h1, h2, h3⟩ := C132_follows [fun _ : Unit => true, fun _ => false] 1 3 5 (by norm_num) (by norm_num) (by norm_num) (fun _ => [])
  have hl : stream.length = 6 := by
    rw [h2]
    norm_num
  refine ⟨stream, h1, hl, ?_⟩
  have := (h3 5 (by omega) ()).2 1 false (by norm_num) (by
    intro j h1 _
    rcases j with _ | _ | j
    · omega
    · rfl
    · simp)
  exact this

/-- A link that loses 20 dB, with a responsivity of 1 A/W: the threshold 0.005 is good (the conditions of `C132_link`). -/
example : 1 * (⟨2, 10, 3, 1.55e-6, 3, 0⟩ : Wg).transmission *
      Real.exp (-(2 * Real.pi * (40000000000 : ℕ) * ((4 / 2 : ℕ) / ((4 : ℕ) * (40000000000 : ℕ))))) ^ 2 ≤ 0.005 ∧
    0.005 < 1 * (⟨2, 10, 3, 1.55e-6, 3, 0⟩ : Wg).transmission *
      (1 - Real.exp (-(2 * Real.pi * (40000000000 : ℕ) * ((4 / 2 : ℕ) / ((4 : ℕ) * (40000000000 : ℕ)))))) ^ 2 := by
  have h := shaped_fast
  have h0 := Real.exp_pos (-(2 * Real.pi * ((40000000000 : ℕ) : ℝ) * (((4 / 2 : ℕ) : ℝ) / (((4 : ℕ) : ℝ) * ((40000000000 : ℕ) : ℝ)))))
  rw [line_twenty]
  set e := Real.exp (-(2 * Real.pi * ((40000000000 : ℕ) : ℝ) * (((4 / 2 : ℕ) : ℝ) / (((4 : ℕ) : ℝ) * ((40000000000 : ℕ) : ℝ)))))
  constructor <;> nlinarith

example : ∃ stream, bitStream (fun _ => []) (fun w => butterworth 1 (w : ℝ)) (.array (bitRows (List.replicate 1 (fun _ : Unit => false) ++ List.replicate 1 fun _ => true)))
      (1 : ℕ) (2 : ℕ) (some (3 : ℕ)) = .ok stream ∧ ∃ R : ℕ, 1 ∣ R ∧ 2 ∣ R ∧ 0 < R ∧ 4 * 3 ≤ R ∧ ∀ k < stream.length, stream.getD k 0 () =
        if (k : ℝ) / (2 : ℕ) < (1 : ℕ) / (1 : ℕ) then 0 else 1 - (1 + onePole (2 * (3 : ℕ) / R)) / 2 * onePole (2 * (3 : ℕ) / R) ^ (k * (R / 2) - 1 * (R / 1)) :=
  C132_rise 1 1 1 2 3 (by norm_num) (by norm_num) (by norm_num) (by norm_num) _

end PT
