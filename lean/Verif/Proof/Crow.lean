import Mathlib.Analysis.Complex.Basic
import Mathlib.Tactic.LinearCombination
import Mathlib.Algebra.BigOperators.Intervals

/-!
# A chain of couplers with two paths between neighbours
-/

namespace PT.Crow

variable {n : ℕ} {τ κ u w M N : ℕ → ℂ}

/-- Waves in a chain of couplers `j, …, n`: `c` arrives at a coupler, `r` stays on its side, `c'` passes on, `r'` comes back. -/
structure Fam (τ κ u w : ℕ → ℂ) (j n : ℕ) (c r c' r' : ℕ → ℂ) : Prop where
  pass : ∀ i, j ≤ i → i ≤ n → c' i = Complex.I * κ i * c i + τ i * r' i
  stay : ∀ i, j ≤ i → i ≤ n → r i = τ i * c i + Complex.I * κ i * r' i
  next : ∀ i, j ≤ i → i < n → c (i + 1) = w i * c' i
  back : ∀ i, j ≤ i → i < n → r' i = u i * r (i + 1)
  stop : r' n = 0

/-- Denominators and numerators. -/
structure Rec (n : ℕ) (τ z M N : ℕ → ℂ) : Prop where
  den : ∀ i < n, M i = M (i + 1) - τ i * z i * N (i + 1)
  num : ∀ i < n, N i = τ i * M (i + 1) - z i * N (i + 1)
  one : M n = 1
  last : N n = τ n

/-- The waves that start at coupler `j`. -/
def amp (κ w : ℕ → ℂ) (j i : ℕ) : ℂ := ∏ l ∈ Finset.Ico j i, w l * (Complex.I * κ l)

theorem amp_self (j : ℕ) : amp κ w j j = 1 := by simp [amp]

theorem amp_succ {j i : ℕ} (h : j ≤ i) : amp κ w j (i + 1) = amp κ w j i * (w i * (Complex.I * κ i)) :=
  Finset.prod_Ico_succ_top h _

theorem fam_exists (hR : Rec n τ (fun i => u i * w i) M N) (hs : ∀ i ≤ n, τ i ^ 2 + κ i ^ 2 = 1) (j : ℕ) (hj : j ≤ n) (s : ℂ) :
    ∃ c r c' r', Fam τ κ u w j n c r c' r' ∧ c j = s * M j ∧ r j = s * N j ∧ c' n = s * (Complex.I * κ n * amp κ w j n) := by
  refine ⟨fun i => s * (amp κ w j i * M i), fun i => s * (amp κ w j i * N i),
    fun i => s * (Complex.I * κ i * amp κ w j i * if i < n then M (i + 1) else 1),
    fun i => if i < n then u i * (s * (amp κ w j (i + 1) * N (i + 1))) else 0, ?_, by simp [amp_self], by simp [amp_self], ?_⟩
  · refine ⟨fun i h1 h2 => ?_, fun i h1 h2 => ?_, fun i h1 h2 => ?_, fun i h1 h2 => ?_, by simp⟩
    · by_cases h : i < n
      · simp only [if_pos h, amp_succ h1, hR.den i h]
        ring
      · obtain rfl : i = n := by omega
        simp only [if_neg h, hR.one]
        ring
    · by_cases h : i < n
      · simp only [if_pos h, amp_succ h1, hR.den i h, hR.num i h]
        linear_combination (s * amp κ w j i * u i * w i * N (i + 1)) * (hs i h2) -
          (s * amp κ w j i * u i * w i * N (i + 1) * κ i ^ 2) * (Complex.I_mul_I)
      · obtain rfl : i = n := by omega
        simp only [if_neg h, hR.one, hR.last]
        ring
    · simp only [if_pos h2, amp_succ h1]
      ring
    · simp only [if_pos h2]
  · simp only [lt_irrefl, if_false]
    ring

/-- If both vanish at some coupler, they vanish before it. -/
theorem rec_zero (hR : Rec n τ (fun i => u i * w i) M N) {i : ℕ} (hi : i ≤ n) (h : M i = 0 ∧ N i = 0) : ∀ j ≤ i, M j = 0 ∧ N j = 0 := by
  intro j hj
  induction hj using Nat.decreasingInduction with
  | self => exact h
  | of_succ k hk ih =>
    rw [hR.den k (by omega), hR.num k (by omega), ih.1, ih.2]
    simp

theorem fam_ratio {c r c' r' : ℕ → ℂ} {j : ℕ} (hR : Rec n τ (fun i => u i * w i) M N) (hs : ∀ i ≤ n, τ i ^ 2 + κ i ^ 2 = 1)
    (hF : Fam τ κ u w j n c r c' r') : ∀ i, j ≤ i → i ≤ n → M i * r i = N i * c i ∧ (i < n →
      M i * r' i = Complex.I * κ i * (u i * w i * N (i + 1)) * c i ∧ M i * c' i = Complex.I * κ i * M (i + 1) * c i) := by
  intro i hji hi
  induction hi using Nat.decreasingInduction with
  | self =>
    refine ⟨?_, fun h => absurd h (lt_irrefl _)⟩
    rw [hF.stay n hji le_rfl, hF.stop, hR.one, hR.last]
    ring
  | of_succ i hi ih =>
    obtain ⟨ih, -⟩ := ih (by omega)
    have e1 := hF.pass i hji (by omega)
    have e2 := hF.stay i hji (by omega)
    have e3 := hF.next i hji hi
    have e4 := hF.back i hji hi
    have h5 := hs i (by omega)
    have hII := Complex.I_mul_I
    rw [e3] at ih
    -- M' r' = z N' c'
    have k1 : M (i + 1) * r' i = u i * w i * N (i + 1) * c' i := by rw [e4]; linear_combination u i * ih
    have k2 : M i * r' i = Complex.I * κ i * (u i * w i * N (i + 1)) * c i := by
      rw [hR.den i hi]
      linear_combination k1 + u i * w i * N (i + 1) * e1
    have k3 : M i * c' i = Complex.I * κ i * M (i + 1) * c i := by
      rw [hR.den i hi]
      linear_combination τ i * k1 + M (i + 1) * e1
    refine ⟨?_, fun _ => ⟨k2, k3⟩⟩
    rw [e2, mul_add]
    have : M i * (Complex.I * κ i * r' i) = Complex.I * κ i * (M i * r' i) := by ring
    rw [this, k2, hR.num i hi, hR.den i hi]
    linear_combination (-(u i * w i * N (i + 1) * c i)) * h5 + (κ i ^ 2 * (u i * w i * N (i + 1)) * c i) * hII

/-- Without input there is no light in the chain unless the denominator vanishes. -/
theorem fam_zero {c r c' r' : ℕ → ℂ} {j : ℕ} (hR : Rec n τ (fun i => u i * w i) M N) (hs : ∀ i ≤ n, τ i ^ 2 + κ i ^ 2 = 1)
    (hτ : ∀ i ≤ n, κ i = 0 → τ i = 1) (hu : ∀ i < n, u i ≠ 0) (hj : j ≤ n)
    (hF : Fam τ κ u w j n c r c' r') (hM : M j ≠ 0) (hc : c j = 0) :
    ∀ i, j ≤ i → i ≤ n → c i = 0 ∧ r i = 0 ∧ c' i = 0 ∧ r' i = 0 := by
  have step : ∀ i, j ≤ i → i ≤ n → c i = 0 → r i = 0 → c' i = 0 ∧ r' i = 0 := by
    intro i h1 h2 hci hri
    have e1 := hF.pass i h1 h2
    have e2 := hF.stay i h1 h2
    have hr' : r' i = 0 := by
      rcases Nat.lt_or_ge i n with h | h
      · by_cases hk : κ i = 0
        · obtain ⟨-, hr⟩ := fam_ratio hR hs hF i h1 h2
          have hr := (hr h).1
          rw [hk, mul_zero, zero_mul, zero_mul] at hr
          rcases mul_eq_zero.mp hr with h0 | h0
          · exfalso
            have ht := hτ i h2 hk
            have : N i = 0 := by
              rw [hR.num i h, ht]
              rw [hR.den i h, ht] at h0
              linear_combination h0
            exact hM (rec_zero hR h2 ⟨h0, this⟩ j h1).1
          · exact h0
        · rw [hri, hci, mul_zero, zero_add] at e2
          rcases mul_eq_zero.mp e2.symm with h0 | h0
          · exact absurd h0 (mul_ne_zero Complex.I_ne_zero hk)
          · exact h0
      · obtain rfl : i = n := by omega
        exact hF.stop
    exact ⟨by rw [e1, hci, hr']; ring, hr'⟩
  have main : ∀ i, j ≤ i → i ≤ n → c i = 0 ∧ r i = 0 := by
    intro i hji
    induction i, hji using Nat.le_induction with
    | base =>
      intro _
      refine ⟨hc, ?_⟩
      have := (fam_ratio hR hs hF j le_rfl hj).1
      rw [hc, mul_zero] at this
      exact (mul_eq_zero.mp this).resolve_left hM
    | succ i hji ih =>
      intro hi
      obtain ⟨h1, h2⟩ := ih (by omega)
      obtain ⟨h3, h4⟩ := step i hji (by omega) h1 h2
      refine ⟨by rw [hF.next i hji (by omega), h3, mul_zero], ?_⟩
      rw [hF.back i hji (by omega)] at h4
      exact (mul_eq_zero.mp h4).resolve_left (hu i (by omega))
  intro i h1 h2
  obtain ⟨h3, h4⟩ := main i h1 h2
  exact ⟨h3, h4, step i h1 h2 h3 h4⟩

theorem fam_dark (hR : Rec n τ (fun i => u i * w i) M N) (hs : ∀ i ≤ n, τ i ^ 2 + κ i ^ 2 = 1)
    (hτ : ∀ i ≤ n, κ i = 0 → τ i = 1) (hu : ∀ i < n, u i ≠ 0) (hw : ∀ i < n, w i ≠ 0) {j : ℕ} (hj : j ≤ n) :
    M j = 0 → N j = 0 → ∃ c r c' r', Fam τ κ u w j n c r c' r' ∧ c j = 0 ∧ r j = 0 ∧ ∃ i, j ≤ i ∧ i ≤ n ∧ (c i ≠ 0 ∨ r' i ≠ 0) := by
  induction hj using Nat.decreasingInduction with
  | self =>
    intro h
    rw [hR.one] at h
    exact absurd h one_ne_zero
  | of_succ j hj ih =>
    intro hM hN
    by_cases h0 : M (j + 1) = 0 ∧ N (j + 1) = 0
    · obtain ⟨c, r, c', r', hF, hc, hr, i, hi1, hi2, hne⟩ := ih h0.1 h0.2
      refine ⟨fun i => if i = j then 0 else c i, fun i => if i = j then 0 else r i, fun i => if i = j then 0 else c' i,
        fun i => if i = j then 0 else r' i, ?_, by simp, by simp, i, by omega, hi2, ?_⟩
      · refine ⟨fun k h1 h2 => ?_, fun k h1 h2 => ?_, fun k h1 h2 => ?_, fun k h1 h2 => ?_, ?_⟩
        · rcases Nat.eq_or_lt_of_le h1 with rfl | h1
          · simp
          · simp only [if_neg (show k ≠ j by omega)]; exact hF.pass k h1 h2
        · rcases Nat.eq_or_lt_of_le h1 with rfl | h1
          · simp
          · simp only [if_neg (show k ≠ j by omega)]; exact hF.stay k h1 h2
        · rcases Nat.eq_or_lt_of_le h1 with rfl | h1
          · simp [hc]
          · simp only [if_neg (show k ≠ j by omega), if_neg (show k + 1 ≠ j by omega)]; exact hF.next k h1 h2
        · rcases Nat.eq_or_lt_of_le h1 with rfl | h1
          · simp [hr]
          · simp only [if_neg (show k ≠ j by omega), if_neg (show k + 1 ≠ j by omega)]; exact hF.back k h1 h2
        · simp only [if_neg (show n ≠ j by omega)]; exact hF.stop
      · simp only [if_neg (show i ≠ j by omega)]
        exact hne
    · obtain ⟨c, r, c', r', hF, hc, hr, -⟩ := fam_exists (κ := κ) hR hs (j + 1) hj (w j)
      have e1 := hR.den j hj
      have e2 := hR.num j hj
      rw [hM] at e1
      rw [hN] at e2
      have h5 := hs j hj.le
      have hz : u j * w j ≠ 0 := mul_ne_zero (hu j hj) (hw j hj)
      have hk : κ j = 0 := by
        have : κ j ^ 2 * (u j * w j * N (j + 1)) = 0 := by
          linear_combination e2 - τ j * e1 + u j * w j * N (j + 1) * h5
        rcases mul_eq_zero.mp this with h | h
        · exact pow_eq_zero_iff (two_ne_zero) |>.mp h
        · exfalso
          have hN' := (mul_eq_zero.mp h).resolve_left hz
          rw [hN', mul_zero, sub_zero] at e1
          exact h0 ⟨e1.symm, hN'⟩
      have ht := hτ j hj.le hk
      rw [ht, one_mul] at e1
      refine ⟨fun i => if i = j then 0 else c i, fun i => if i = j then 0 else r i, fun i => if i = j then M (j + 1) else c' i,
        fun i => if i = j then u j * w j * N (j + 1) else r' i, ?_, by simp, by simp, j, le_rfl, hj.le, Or.inr ?_⟩
      · refine ⟨fun k h1 h2 => ?_, fun k h1 h2 => ?_, fun k h1 h2 => ?_, fun k h1 h2 => ?_, ?_⟩
        · rcases Nat.eq_or_lt_of_le h1 with rfl | h1
          · simp only [if_true, ht]; linear_combination -e1
          · simp only [if_neg (show k ≠ j by omega)]; exact hF.pass k h1 h2
        · rcases Nat.eq_or_lt_of_le h1 with rfl | h1
          · simp [hk]
          · simp only [if_neg (show k ≠ j by omega)]; exact hF.stay k h1 h2
        · rcases Nat.eq_or_lt_of_le h1 with rfl | h1
          · simp [hc]
          · simp only [if_neg (show k ≠ j by omega), if_neg (show k + 1 ≠ j by omega)]; exact hF.next k h1 h2
        · rcases Nat.eq_or_lt_of_le h1 with rfl | h1
          · simp [hr, mul_assoc]
          · simp only [if_neg (show k ≠ j by omega), if_neg (show k + 1 ≠ j by omega)]; exact hF.back k h1 h2
        · simp only [if_neg (show n ≠ j by omega)]; exact hF.stop
      · simp only [if_true]
        intro h
        have hN' := (mul_eq_zero.mp h).resolve_left hz
        rw [hN', mul_zero, sub_zero] at e1
        exact h0 ⟨e1.symm, hN'⟩

/-- If the denominator vanishes, light can circulate without input. -/
theorem fam_trapped (hR : Rec n τ (fun i => u i * w i) M N) (hs : ∀ i ≤ n, τ i ^ 2 + κ i ^ 2 = 1)
    (hτ : ∀ i ≤ n, κ i = 0 → τ i = 1) (hu : ∀ i < n, u i ≠ 0) (hw : ∀ i < n, w i ≠ 0) (hM : M 0 = 0) :
    ∃ c r c' r', Fam τ κ u w 0 n c r c' r' ∧ c 0 = 0 ∧ ∃ i ≤ n, c i ≠ 0 ∨ r' i ≠ 0 := by
  by_cases hN : N 0 = 0
  · obtain ⟨c, r, c', r', hF, hc, -, i, -, hi, hne⟩ := fam_dark hR hs hτ hu hw (Nat.zero_le n) hM hN
    exact ⟨c, r, c', r', hF, hc, i, hi, hne⟩
  · obtain ⟨c, r, c', r', hF, hc, hr, -⟩ := fam_exists (κ := κ) hR hs 0 (Nat.zero_le n) 1
    rw [hM, mul_zero] at hc
    refine ⟨c, r, c', r', hF, hc, 0, Nat.zero_le n, Or.inr fun h => hN ?_⟩
    have := hF.stay 0 le_rfl (Nat.zero_le n)
    rw [hc, h, mul_zero, mul_zero, add_zero, hr, one_mul] at this
    exact this

end PT.Crow
