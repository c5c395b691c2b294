import Verif.Props.Stream

/-!
# Losses of sampled signals
-/

namespace PT

/-- The stream with samples `x 0, …, x (T - 1)`. -/
def samples {α : Type} (T : ℕ) (x : ℕ → α) : List α := (List.range T).map x

section Samples

variable {α β γ : Type}

theorem samples_length (T : ℕ) (x : ℕ → α) : (samples T x).length = T := by simp [samples]

theorem samples_get (T : ℕ) (x : ℕ → α) (k : ℕ) : (samples T x)[k]? = if k < T then some (x k) else none := by
  unfold samples
  rw [List.getElem?_map]
  split_ifs with h
  · rw [List.getElem?_range h]; rfl
  · rw [List.getElem?_eq_none (by simpa using h)]; rfl

/-- Every stream is one of these. -/
theorem samples_self (x : List α) (d : α) : samples x.length (fun k => x.getD k d) = x := by
  apply List.ext_getElem?
  intro k
  rw [samples_get]
  split_ifs with h
  · rw [List.getD_eq_getElem?_getD, List.getElem?_eq_getElem h]; rfl
  · rw [List.getElem?_eq_none (by omega)]

theorem samples_congr (T : ℕ) (x y : ℕ → α) (h : ∀ k < T, x k = y k) : samples T x = samples T y := by
  apply List.map_congr_left
  intro k hk
  exact h k (by simpa using hk)

theorem samples_drop (T a : ℕ) (x : ℕ → α) : (samples T x).drop a = samples (T - a) fun k => x (a + k) := by
  apply List.ext_getElem?
  intro k
  rw [List.getElem?_drop, samples_get, samples_get]
  split_ifs <;> first | rfl | omega

theorem samples_take (T a : ℕ) (x : ℕ → α) : (samples T x).take a = samples (min a T) x := by
  apply List.ext_getElem?
  intro k
  rw [List.getElem?_take, samples_get, samples_get]
  split_ifs <;> first | rfl | omega

theorem samples_map (T : ℕ) (x : ℕ → α) (f : α → β) : (samples T x).map f = samples T fun k => f (x k) := by
  simp [samples]

theorem samples_zip (T : ℕ) (x : ℕ → α) (y : ℕ → β) (f : α → β → γ) :
    List.zipWith f (samples T x) (samples T y) = samples T fun k => f (x k) (y k) := by
  apply List.ext_getElem?
  intro k
  rw [List.getElem?_zipWith, samples_get, samples_get, samples_get]
  split_ifs <;> rfl

theorem samples_repeat (T k : ℕ) (hk : 0 < k) (x : ℕ → α) : repeatEach k (samples T x) = samples (T * k) fun j => x (j / k) := by
  apply List.ext_getElem?
  intro j
  rw [repeatEach_get k hk, samples_get, samples_get]
  simp only [Nat.div_lt_iff_lt_mul hk]

theorem samples_stride (T k : ℕ) (hk : 0 < k) (x : ℕ → α) : stride k (samples T x) = samples ((T + k - 1) / k) fun j => x (j * k) := by
  apply List.ext_getElem?
  intro j
  rw [stride_get k hk, samples_get, samples_get]
  have : j * k < T ↔ j < (T + k - 1) / k := by
    rw [Nat.lt_div_iff_mul_lt hk]
    omega
  simp only [this]

theorem samples_broadcast (T : ℕ) (x y : ℕ → α) : broadcastTime (samples T x) (samples T y) = .ok (samples T x, samples T y) := by
  unfold broadcastTime
  rw [if_pos (by simp [samples_length])]

theorem samples_sum (T : ℕ) (x : ℕ → ℝ) : (samples T x).sum = ∑ k ∈ Finset.range T, x k := by
  induction T with
  | zero => simp [samples]
  | succ T ih =>
    rw [Finset.sum_range_succ, ← ih]
    simp [samples, List.range_succ]

end Samples

section Loss

variable {ι : Type} [Fintype ι]

theorem samples_mean (T : ℕ) (x : ℕ → ι → ℝ) (h : 0 < T) [Nonempty ι] :
    meanAll (samples T x) = some ((∑ k ∈ Finset.range T, ∑ i, x k i) / (T * Fintype.card ι)) := by
  unfold meanAll
  rw [samples_length, if_neg (Nat.mul_pos h Fintype.card_pos).ne', samples_map, samples_sum]
  push_cast
  rfl

theorem samples_mean_none (x : ℕ → ι → ℝ) : meanAll (samples 0 x) = none := by
  unfold meanAll
  simp [samples]

theorem toRate_nonneg (x : ℚ) (h : 0 ≤ x) : toRate x = ((⌊x + 1 / 2⌋₊ : ℕ) : ℤ) := by
  unfold toRate pyTrunc
  rw [if_pos (by linarith), Int.natCast_floor_eq_floor (by linarith)]

/-- The mean square error of two streams of the same length, in terms of the sample points of latency and warmup. -/
theorem mse_formula (T w : ℕ) (l : ℤ) (p t : ℕ → ι → ℝ) (latency warmup B S : ℚ) (hB : B ≠ 0)
    (hl : latencyPoints latency B S = l) (hw : warmupPoints warmup B S = w) (hwl : 0 ≤ w + l) :
    mseLoss (samples T p) (samples T t) latency warmup B S =
      .ok (meanAll (samples (min (T - w) (T - (w + l).toNat)) fun k i => (t (w + k) i - p ((w + l).toNat + k) i) ^ 2)) := by
  unfold mseLoss
  rw [samples_broadcast]
  simp only [hl, hw]
  rw [if_neg hB, if_neg (by omega), if_neg (by omega)]
  show Except.ok _ = Except.ok _
  congr 1
  rw [Int.toNat_natCast, samples_drop, samples_drop, samples_length, samples_length, samples_take, samples_take]
  have e1 : min (min (T - w) (T - (↑w + l).toNat)) (T - w) = min (T - w) (T - (↑w + l).toNat) := by omega
  have e2 : min (min (T - w) (T - (↑w + l).toNat)) (T - (↑w + l).toNat) = min (T - w) (T - (↑w + l).toNat) := by omega
  rw [e1, e2, samples_zip]

/-- The bit error rate of two streams of the same length, in terms of samples. -/
theorem ber_formula (T B S w : ℕ) (l : ℤ) (hB : 0 < B) (hS : 0 < S) (p t : ℕ → ι → ℝ) (threshold : ℝ) (latency warmup : ℚ)
    (hl : toRate (latency * (S / Nat.gcd S B : ℕ)) = l) (hw : toRate (toRate (toRate warmup) * (S / Nat.gcd S B : ℕ)) = w)
    (hwl : 0 ≤ ((w + S / Nat.gcd S B / 2 : ℕ) : ℤ) + l) :
    let rs := S / Nat.gcd S B
    let rb := B / Nat.gcd S B
    let a := w + rs / 2
    let b := ((a : ℤ) + l).toNat
    berLoss (samples T p) (samples T t) threshold latency warmup B S =
      .ok (meanAll (samples (min ((T * rb - a + rs - 1) / rs) ((T * rb - b + rs - 1) / rs)) fun k i =>
        wrongBit threshold (p ((b + k * rs) / rb) i)
          ((t ((a + k * rs) / rb) i - meanRow (samples T t) i) / stdAll (samples T t)))) := by
  intro rs rb a b
  obtain ⟨h1, h2, h3, h4, h5⟩ := gcd_parts S B hS hB
  have hB' : (B : ℚ) ≠ 0 := by exact_mod_cast hB.ne'
  have e0 : (((rb : ℤ) : ℚ) * (S : ℚ)) / B = (rs : ℕ) := by
    rw [div_eq_iff hB']
    have : rs * B = rb * S := h5
    exact_mod_cast this.symm
  have hlp : latencyPoints latency B (((rb : ℤ) : ℚ) * (S : ℚ)) = l := by
    unfold latencyPoints
    rw [mul_div_assoc, e0, hl]
  have hwp : warmupPoints warmup B (((rb : ℤ) : ℚ) * (S : ℚ)) = w := by
    unfold warmupPoints
    rw [mul_div_assoc, e0, hw]
  have hrb : ¬ ((rb : ℤ) ≤ 0) := by
    have : 0 < rb := h4
    omega
  have hs : toRate ((((rb : ℤ) : ℚ) * (S : ℚ)) / B) = (rs : ℕ) := by rw [e0, toRate_nat]
  have e3 : (w : ℤ) + (rs : ℤ) / 2 = (a : ℕ) := by
    show (w : ℤ) + (rs : ℤ) / 2 = ((w + rs / 2 : ℕ) : ℤ)
    push_cast; rfl
  unfold berLoss
  rw [samples_broadcast]
  simp only [toRate_nat]
  have h2' : (B : ℤ) / ((S : ℤ).gcd (B : ℤ) : ℤ) = (rb : ℤ) := h2
  rw [h2', if_neg hrb]
  simp only [hlp, hwp, hs, e3]
  rw [if_neg (by omega), if_neg (by exact not_lt.2 hwl), if_neg (by have : 0 < rs := h3; omega)]
  show Except.ok _ = Except.ok _
  congr 1
  rw [Int.toNat_natCast, Int.toNat_natCast, Int.toNat_natCast]
  have hn : normalize (samples T t) = samples T fun k i => (t k i - meanRow (samples T t) i) / stdAll (samples T t) := by
    unfold normalize
    rw [samples_map]
  rw [hn, samples_repeat _ _ h4, samples_repeat _ _ h4, samples_drop, samples_drop, samples_stride _ _ h3, samples_stride _ _ h3,
    samples_length, samples_length, samples_take, samples_take]
  set x := (T * rb - a + rs - 1) / rs
  set y := (T * rb - b + rs - 1) / rs
  have e1 : min (min x y) x = min x y := by omega
  have e2 : min (min x y) y = min x y := by omega
  show meanAll (List.zipWith _ (samples (min (min x y) y) _) (samples (min (min x y) x) _)) = _
  rw [e1, e2, samples_zip]

/-! ## The sign of the normalized target -/

theorem stdAll_ne_zero (x : List (ι → ℝ)) (r r' : ι → ℝ) (i j : ι) (hr : r ∈ x) (hr' : r' ∈ x) (hne : r i ≠ r' j) :
    0 < stdAll x := by
  unfold stdAll
  simp only
  set n : ℝ := ((x.length * Fintype.card ι : ℕ) : ℝ) with hn
  set m := (x.map fun r => ∑ i, r i).sum / n with hm
  rw [Real.sqrt_pos]
  have hlen : 2 ≤ x.length * Fintype.card ι := by
    by_contra hc
    have hx : 0 < x.length := List.length_pos_of_mem hr
    have hc1 : 0 < Fintype.card ι := Fintype.card_pos_iff.2 ⟨i⟩
    have : x.length = 1 ∧ Fintype.card ι = 1 := by
      constructor <;> nlinarith
    have hi : i = j := (Fintype.card_le_one_iff.1 this.2.le) i j
    obtain ⟨y, rfl⟩ := List.length_eq_one_iff.1 this.1
    rw [List.mem_singleton] at hr hr'
    subst hr hr' hi
    exact hne rfl
  have hn1 : 0 < n - 1 := by
    have : (2 : ℝ) ≤ n := by rw [hn]; exact_mod_cast hlen
    linarith
  apply div_pos _ hn1
  have hpos : ∀ z ∈ x.map (fun r => ∑ i, (r i - m) ^ 2), 0 ≤ z := by
    intro z hz
    obtain ⟨q, -, rfl⟩ := List.mem_map.1 hz
    exact Finset.sum_nonneg fun _ _ => sq_nonneg _
  rcases ne_or_eq (r i) m with h | h
  · refine lt_of_lt_of_le ?_ (List.single_le_sum hpos _ (List.mem_map.2 ⟨r, hr, rfl⟩))
    refine lt_of_lt_of_le ?_ (Finset.single_le_sum (fun k _ => sq_nonneg (r k - m)) (Finset.mem_univ i))
    exact pow_pos_of_ne_zero' h
  · refine lt_of_lt_of_le ?_ (List.single_le_sum hpos _ (List.mem_map.2 ⟨r', hr', rfl⟩))
    refine lt_of_lt_of_le ?_ (Finset.single_le_sum (fun k _ => sq_nonneg (r' k - m)) (Finset.mem_univ j))
    exact pow_pos_of_ne_zero' fun hh => hne (h.trans hh.symm)
where
  pow_pos_of_ne_zero' {a b : ℝ} (h : a ≠ b) : 0 < (a - b) ^ 2 := by
    have : a - b ≠ 0 := sub_ne_zero.2 h
    positivity

/-- In a channel of zeros and ones that is not constantly one, exactly the ones are above the mean. -/
theorem target_sign (T : ℕ) (t : ℕ → ι → ℝ) (i : ι) (h01 : ∀ k < T, t k i = 0 ∨ t k i = 1) (z : ℕ) (hz : z < T)
    (hz0 : t z i = 0) (k : ℕ) (hk : k < T) :
    0 < (t k i - meanRow (samples T t) i) / stdAll (samples T t) ↔ t k i = 1 := by
  have hmean : meanRow (samples T t) i = (∑ k ∈ Finset.range T, t k i) / T := by
    unfold meanRow
    rw [samples_map, samples_sum, samples_length]
  have hT : (0 : ℝ) < T := by exact_mod_cast (by omega : 0 < T)
  have hstd : 0 ≤ stdAll (samples T t) := Real.sqrt_nonneg _
  constructor
  · intro h
    rcases h01 k hk with h0 | h1
    · exfalso
      rw [h0] at h
      have hm : 0 ≤ meanRow (samples T t) i := by
        rw [hmean]
        apply div_nonneg _ hT.le
        apply Finset.sum_nonneg
        intro j hj
        rcases h01 j (by simpa using hj) with h | h <;> rw [h]
        exact zero_le_one
      have : (0 - meanRow (samples T t) i) / stdAll (samples T t) ≤ 0 := div_nonpos_of_nonpos_of_nonneg (by linarith) hstd
      linarith
    · exact h1
  · intro h1
    rw [h1]
    apply div_pos
    · rw [hmean, sub_pos, div_lt_one hT]
      calc ∑ k ∈ Finset.range T, t k i < ∑ k ∈ Finset.range T, (1 : ℝ) := by
            apply Finset.sum_lt_sum
            · intro j hj
              rcases h01 j (by simpa using hj) with h | h <;> rw [h]
              exact zero_le_one
            · exact ⟨z, by simpa using hz, by rw [hz0]; exact zero_lt_one⟩
        _ = T := by simp
    · have hmem : ∀ j < T, t j ∈ samples T t := by
        intro j hj
        exact List.mem_map.2 ⟨j, by simpa using hj, rfl⟩
      exact stdAll_ne_zero (samples T t) (t k) (t z) i i (hmem k hk) (hmem z hz) (by rw [h1, hz0]; exact one_ne_zero)

/-- In a constant channel nothing is above the mean. -/
theorem target_const (T : ℕ) (t : ℕ → ι → ℝ) (i : ι) (c : ℝ) (h : ∀ k < T, t k i = c) (k : ℕ) (hk : k < T) :
    ¬ 0 < (t k i - meanRow (samples T t) i) / stdAll (samples T t) := by
  have hT : (0 : ℝ) < T := by exact_mod_cast (by omega : 0 < T)
  have hmean : meanRow (samples T t) i = c := by
    unfold meanRow
    rw [samples_map, samples_sum, samples_length, Finset.sum_congr rfl fun k hk => h k (by simpa using hk)]
    simp
    field_simp
  rw [hmean, h k hk, sub_self, zero_div]
  exact lt_irrefl 0

end Loss

end PT
