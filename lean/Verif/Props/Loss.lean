import Verif.Proof.Signal

/-!
# C50–C53: losses

`samples T x` is the stream with samples `x 0, …, x (T - 1)`; every stream is one of these (`samples_self`).
-/

namespace PT

variable {ι : Type} [Fintype ι]

/-! ## C53: mean square error -/

namespace Spec

/-- A (non-negative) number of samples, rounded half up. -/
def rounded (x : ℚ) : ℕ := ⌊x + 1 / 2⌋₊

end Spec

open Spec

theorem warmup_nat (W : ℕ) (B S : ℚ) (hB : 0 < B) (hS : 0 < S) : warmupPoints W B S = (rounded (W * S / B) : ℕ) := by
  unfold warmupPoints rounded
  rw [toRate_nat]
  have : toRate (((W : ℕ) : ℤ) : ℚ) = W := by
    have := toRate_nat W
    simpa using this
  rw [this, toRate_nonneg]
  · norm_cast
  · have : (0 : ℚ) ≤ ((W : ℤ) : ℚ) := by exact_mod_cast Nat.zero_le W
    positivity

/-- C53: for a latency `≥ 0` the loss is the mean of the squared differences between the target after the warmup and the prediction
after warmup and latency, as far as there are samples of both. -/
theorem C53_formula [Nonempty ι] (T W : ℕ) (p t : ℕ → ι → ℝ) (latency B S : ℚ) (hB : 0 < B) (hS : 0 < S) (hl : 0 ≤ latency)
    (hT : rounded (W * S / B) + rounded (latency * S / B) < T) :
    mseLoss (samples T p) (samples T t) latency W B S =
      .ok (some ((∑ k ∈ Finset.range (T - (rounded (W * S / B) + rounded (latency * S / B))),
        ∑ i, (t (rounded (W * S / B) + k) i - p (rounded (W * S / B) + rounded (latency * S / B) + k) i) ^ 2) /
          ((T - (rounded (W * S / B) + rounded (latency * S / B)) : ℕ) * Fintype.card ι))) := by
  have h1 : latencyPoints latency B S = (rounded (latency * S / B) : ℕ) := by
    unfold latencyPoints rounded
    exact toRate_nonneg _ (by positivity)
  rw [mse_formula T _ _ p t latency W B S hB.ne' h1 (warmup_nat W B S hB hS) (by positivity)]
  set w := rounded (W * S / B)
  set l := rounded (latency * S / B)
  have e : ((w : ℤ) + (l : ℤ)).toNat = w + l := by omega
  rw [e]
  have e2 : min (T - w) (T - (w + l)) = T - (w + l) := by omega
  rw [e2, samples_mean _ _ (by omega)]

/-- C53: the loss is never negative, whatever the arguments. -/
theorem C53_nonneg (p t : List (ι → ℝ)) (latency W B S : ℚ) (e : ℝ) (h : mseLoss p t latency W B S = .ok (some e)) : 0 ≤ e := by
  unfold mseLoss at h
  cases hb : broadcastTime p t with
  | error _ => rw [hb] at h; cases h
  | ok q =>
    rw [hb] at h
    simp only at h
    split_ifs at h
    · have h' := Except.ok.inj h
      unfold meanAll at h'
      split_ifs at h' with hz
      cases h'
      apply div_nonneg _ (Nat.cast_nonneg _)
      apply List.sum_nonneg
      intro x hx
      obtain ⟨r, hr, rfl⟩ := List.mem_map.1 hx
      obtain ⟨n, hn, rfl⟩ := List.mem_iff_getElem.1 hr
      rw [List.getElem_zipWith]
      exact Finset.sum_nonneg fun _ _ => sq_nonneg _

/-- C53: it is zero exactly if target and prediction agree at all compared samples. -/
theorem C53_zero_iff [Nonempty ι] (T W : ℕ) (p t : ℕ → ι → ℝ) (latency B S : ℚ) (hB : 0 < B) (hS : 0 < S) (hl : 0 ≤ latency)
    (hT : rounded (W * S / B) + rounded (latency * S / B) < T) :
    mseLoss (samples T p) (samples T t) latency W B S = .ok (some 0) ↔
      ∀ k, rounded (W * S / B) ≤ k → k + rounded (latency * S / B) < T → t k = p (k + rounded (latency * S / B)) := by
  rw [C53_formula T W p t latency B S hB hS hl hT]
  set w := rounded (W * S / B)
  set l := rounded (latency * S / B)
  have hpos : (0 : ℝ) < ((T - (w + l) : ℕ) : ℝ) * Fintype.card ι := by
    have h1 : (0 : ℝ) < ((T - (w + l) : ℕ) : ℝ) := by exact_mod_cast (by omega : 0 < T - (w + l))
    have h2 : (0 : ℝ) < Fintype.card ι := by exact_mod_cast Fintype.card_pos
    exact mul_pos h1 h2
  constructor
  · intro h k hk hkT
    have h0 := Option.some.inj (Except.ok.inj h)
    rw [div_eq_zero_iff] at h0
    have h1 := h0.resolve_right hpos.ne'
    rw [Finset.sum_eq_zero_iff_of_nonneg fun _ _ => Finset.sum_nonneg fun _ _ => sq_nonneg _] at h1
    have h2 := h1 (k - w) (by rw [Finset.mem_range]; omega)
    rw [Finset.sum_eq_zero_iff_of_nonneg fun _ _ => sq_nonneg _] at h2
    funext i
    have h3 := h2 i (Finset.mem_univ i)
    have e1 : w + (k - w) = k := by omega
    have e2 : w + l + (k - w) = k + l := by omega
    rw [e1, e2] at h3
    have := pow_eq_zero_iff (two_ne_zero) |>.1 h3
    linarith
  · intro h
    congr 2
    rw [div_eq_zero_iff]
    left
    apply Finset.sum_eq_zero
    intro k hk
    rw [Finset.mem_range] at hk
    apply Finset.sum_eq_zero
    intro i _
    have := congrFun (h (w + k) (by omega) (by omega)) i
    have e : w + k + l = w + l + k := by omega
    rw [e] at this
    rw [this, sub_self]
    norm_num

/-- C53: without latency the loss does not distinguish target and prediction. -/
theorem C53_symmetric (T W : ℕ) (p t : ℕ → ι → ℝ) (B S : ℚ) :
    mseLoss (samples T p) (samples T t) 0 W B S = mseLoss (samples T t) (samples T p) 0 W B S := by
  have h1 : latencyPoints 0 B S = 0 := by
    unfold latencyPoints
    rw [zero_mul, zero_div]
    have := toRate_nat 0
    simpa using this
  by_cases hw : 0 ≤ warmupPoints W B S
  · obtain ⟨w, hw'⟩ := Int.eq_ofNat_of_zero_le hw
    by_cases hB : B = 0
    · unfold mseLoss
      rw [samples_broadcast, samples_broadcast]
      simp only
      rw [if_pos hB, if_pos hB]
    rw [mse_formula T w 0 p t 0 W B S hB h1 hw' (by omega), mse_formula T w 0 t p 0 W B S hB h1 hw' (by omega)]
    have e : ((w : ℤ) + 0).toNat = w := by omega
    rw [e]
    congr 2
    apply samples_congr
    intro k _
    funext i
    ring
  · unfold mseLoss
    rw [samples_broadcast, samples_broadcast]
    simp only
    by_cases hB : B = 0
    · rw [if_pos hB, if_pos hB]
    · rw [if_neg hB, if_pos (by omega), if_neg hB, if_pos (by omega)]

/-- C53: the samples during the warmup have no influence. -/
theorem C53_warmup [Nonempty ι] (T W : ℕ) (p t p' t' : ℕ → ι → ℝ) (latency B S : ℚ) (hB : 0 < B) (hS : 0 < S) (hl : 0 ≤ latency)
    (hT : rounded (W * S / B) + rounded (latency * S / B) < T)
    (hp : ∀ k, rounded (W * S / B) ≤ k → p k = p' k) (ht : ∀ k, rounded (W * S / B) ≤ k → t k = t' k) :
    mseLoss (samples T p) (samples T t) latency W B S = mseLoss (samples T p') (samples T t') latency W B S := by
  rw [C53_formula T W p t latency B S hB hS hl hT, C53_formula T W p' t' latency B S hB hS hl hT]
  congr 3
  apply Finset.sum_congr rfl
  intro k _
  apply Finset.sum_congr rfl
  intro i _
  rw [ht _ (by omega), hp _ (by omega)]

/-- Two signals with one channel and three samples, which differ in the last: a loss of 4/3. -/
example : mseLoss (samples 3 fun k (_ : Unit) => if k = 2 then (1 : ℝ) else 5) (samples 3 fun k _ => if k = 2 then 3 else 5) 0
    (0 : ℕ) 1 2 = .ok (some (4 / 3)) := by
  have h0 : rounded 0 = 0 := by
    unfold rounded
    rw [Nat.floor_eq_zero]
    norm_num
  have := C53_formula 3 0 (fun k (_ : Unit) => if k = 2 then (1 : ℝ) else 5) (fun k _ => if k = 2 then 3 else 5) 0 1 2 (by norm_num)
    (by norm_num) le_rfl (by simp [h0])
  rw [this]
  simp only [Nat.cast_zero, zero_mul, zero_div, h0]
  simp [Finset.sum_range_succ]
  norm_num

example (p : ℕ → Unit → ℝ) : mseLoss (samples 3 p) (samples 3 p) 0 (0 : ℕ) 1 2 = .ok (some 0) :=
  (C53_zero_iff 3 0 p p 0 1 2 (by norm_num) (by norm_num) le_rfl (by
    have h0 : rounded 0 = 0 := by
      unfold rounded
      rw [Nat.floor_eq_zero]
      norm_num
    simp [h0])).2 fun k _ _ => by
    have h0 : rounded (0 * 2 / 1) = 0 := by
      unfold rounded
      rw [Nat.floor_eq_zero]
      norm_num
    rw [h0, Nat.add_zero]

/-! ## C52: latency -/

/-- C52 (what holds), mean square error: a prediction which is the target delayed by `k ≥ 0` samples has loss zero at the latency
of `k` samples. -/
theorem C52_mse_partial [Nonempty ι] (T W k : ℕ) (t : ℕ → ι → ℝ) (p : ℕ → ι → ℝ) (B S : ℚ) (hB : 0 < B) (hS : 0 < S)
    (hT : rounded (W * S / B) + k < T) (hp : ∀ j, p (j + k) = t j) :
    mseLoss (samples T p) (samples T t) (k * B / S) W B S = .ok (some 0) := by
  have e : (k : ℚ) * B / S * S / B = k := by field_simp
  have hk : rounded ((k : ℚ) * B / S * S / B) = k := by
    rw [e]
    unfold rounded
    rw [Nat.floor_eq_iff (by positivity)]
    constructor <;> linarith
  apply (C53_zero_iff T W p t (k * B / S) B S hB hS (by positivity) (by rw [hk]; exact hT)).2
  intro j _ _
  rw [hk, hp]

example : mseLoss (samples 5 fun k (_ : Unit) => ((k : ℝ) - 2)) (samples 5 fun k _ => (k : ℝ)) ((2 : ℕ) * 1 / 4) (0 : ℕ) 1 4 =
    .ok (some 0) := by
  apply C52_mse_partial 5 0 2 _ _ 1 4 (by norm_num) (by norm_num)
  · have h0 : rounded 0 = 0 := by
      unfold rounded
      rw [Nat.floor_eq_zero]
      norm_num
    simp [h0]
  · intro j
    funext _
    push_cast
    ring

/-- A negative number of samples is rounded towards zero. -/
theorem toRate_neg (k : ℕ) : toRate (-((k : ℚ) + 1)) = -(k : ℤ) := by
  unfold toRate pyTrunc
  have hk : (0 : ℚ) ≤ k := by exact_mod_cast Nat.zero_le k
  rw [if_neg (by linarith), Int.ceil_eq_iff]
  push_cast
  constructor <;> linarith

/-- C52 (what holds for negative latencies), mean square error: at the latency of `-(k + 1)` samples a prediction which is the target advanced by
`k` samples, not `k + 1`, has loss zero. -/
theorem C52_negative_partial [Nonempty ι] (T W k : ℕ) (t : ℕ → ι → ℝ) (B S : ℚ) (hB : 0 < B) (hS : 0 < S)
    (hW : k ≤ rounded (W * S / B)) (hT : rounded (W * S / B) < T) :
    mseLoss (samples T fun j => t (j + k)) (samples T t) (-((k : ℚ) + 1) * B / S) W B S = .ok (some 0) := by
  have e : -((k : ℚ) + 1) * B / S * S / B = -((k : ℚ) + 1) := by field_simp
  have hl : latencyPoints (-((k : ℚ) + 1) * B / S) B S = -(k : ℤ) := by
    unfold latencyPoints
    rw [e, toRate_neg]
  set w := rounded (W * S / B)
  rw [mse_formula T w (-k) _ t _ W B S hB.ne' hl (warmup_nat W B S hB hS) (by omega)]
  have e1 : ((w : ℤ) + -(k : ℤ)).toNat = w - k := by omega
  rw [e1]
  have e2 : min (T - w) (T - (w - k)) = T - w := by omega
  rw [e2, samples_mean _ _ (by omega)]
  congr 2
  rw [div_eq_zero_iff]
  left
  refine Finset.sum_eq_zero fun j _ => Finset.sum_eq_zero fun i _ => ?_
  have e3 : w - k + j + k = w + j := by omega
  simp [e3]

example : mseLoss (samples 10 fun j (_ : Unit) => ((j + 2 : ℕ) : ℝ)) (samples 10 fun j _ => (j : ℝ)) (-((2 : ℕ) + 1) * 1 / 1) (4 : ℕ) 1 1 = .ok (some 0) :=
  C52_negative_partial 10 4 2 (fun j _ => (j : ℝ)) 1 1 one_pos one_pos (by norm_num [rounded]) (by norm_num [rounded])

/-- C52 is violated for negative latencies (mean square error): a prediction which is the target advanced by `k + 1` samples does not
have loss zero at the latency of `-(k + 1)` samples, unless the target is constant after the warmup. -/
theorem C52_violation [Nonempty ι] (T W k : ℕ) (t : ℕ → ι → ℝ) (B S : ℚ) (hB : 0 < B) (hS : 0 < S)
    (hW : k + 1 ≤ rounded (W * S / B)) (j : ℕ) (hj : rounded (W * S / B) ≤ j) (hjT : j < T) (hne : t j ≠ t (j + 1)) :
    ∃ e, mseLoss (samples T fun j => t (j + (k + 1))) (samples T t) (-((k : ℚ) + 1) * B / S) W B S = .ok (some e) ∧ 0 < e := by
  have e : -((k : ℚ) + 1) * B / S * S / B = -((k : ℚ) + 1) := by field_simp
  have hl : latencyPoints (-((k : ℚ) + 1) * B / S) B S = -(k : ℤ) := by
    unfold latencyPoints
    rw [e, toRate_neg]
  set w := rounded (W * S / B)
  rw [mse_formula T w (-k) _ t _ W B S hB.ne' hl (warmup_nat W B S hB hS) (by omega)]
  have e1 : ((w : ℤ) + -(k : ℤ)).toNat = w - k := by omega
  rw [e1]
  have e2 : min (T - w) (T - (w - k)) = T - w := by omega
  rw [e2, samples_mean _ _ (by omega)]
  refine ⟨_, rfl, ?_⟩
  apply div_pos
  · obtain ⟨i, hi⟩ : ∃ i, t j i ≠ t (j + 1) i := by
      by_contra hc
      push Not at hc
      exact hne (funext hc)
    refine Finset.sum_pos' (fun _ _ => Finset.sum_nonneg fun _ _ => sq_nonneg _) ⟨j - w, by rw [Finset.mem_range]; omega, ?_⟩
    refine Finset.sum_pos' (fun _ _ => sq_nonneg _) ⟨i, Finset.mem_univ i, ?_⟩
    have e3 : w + (j - w) = j := by omega
    have e4 : w - k + (j - w) + (k + 1) = j + 1 := by omega
    rw [e3, e4]
    have : t j i - t (j + 1) i ≠ 0 := sub_ne_zero.2 hi
    positivity
  · have h1 : (0 : ℝ) < ((T - w : ℕ) : ℝ) := by exact_mod_cast (by omega : 0 < T - w)
    have h2 : (0 : ℝ) < Fintype.card ι := by exact_mod_cast Fintype.card_pos
    exact mul_pos h1 h2

/-- A ramp advanced by one sample, with a latency of minus one sample and one bit (four samples) of warmup. -/
example : ∃ e, mseLoss (samples 6 fun j (_ : Unit) => ((j + (0 + 1) : ℕ) : ℝ)) (samples 6 fun k _ => (k : ℝ))
    (-(((0 : ℕ) : ℚ) + 1) * 1 / 4) (1 : ℕ) 1 4 = .ok (some e) ∧ 0 < e := by
  have hw : rounded (((1 : ℕ) : ℚ) * 4 / 1) = 4 := by
    unfold rounded
    rw [Nat.floor_eq_iff (by norm_num)]
    norm_num
  exact C52_violation 6 1 0 (fun k (_ : Unit) => (k : ℝ)) 1 4 (by norm_num) (by norm_num) (by rw [hw]; norm_num) 4 (by rw [hw])
    (by norm_num) (fun h => by
      have := congrFun h ()
      norm_num at this)

/-! ## C51, C52: bit error rate -/

theorem wrongBit_mem (threshold p t : ℝ) : wrongBit threshold p t = 0 ∨ wrongBit threshold p t = 1 := by
  unfold wrongBit
  split_ifs
  · exact .inr rfl
  · exact .inl rfl

/-- C51: the bit error rate is between 0 and 1 (or not a number, if no samples are compared), whatever the arguments. -/
theorem C51_bounds (p t : List (ι → ℝ)) (threshold : ℝ) (latency W B S : ℚ) (e : ℝ)
    (h : berLoss p t threshold latency W B S = .ok (some e)) : 0 ≤ e ∧ e ≤ 1 := by
  unfold berLoss at h
  cases hb : broadcastTime p t with
  | error _ => rw [hb] at h; cases h
  | ok q =>
    rw [hb] at h
    simp only at h
    split_ifs at h
    · have h' := Except.ok.inj h
      generalize hy : List.zipWith _ _ _ = y at h'
      have hrow : ∀ r ∈ y, 0 ≤ ∑ i, r i ∧ ∑ i, r i ≤ Fintype.card ι := by
        intro r hr
        rw [← hy] at hr
        obtain ⟨n, hn, rfl⟩ := List.mem_iff_getElem.1 hr
        rw [List.getElem_zipWith]
        have : ∀ a b : ℝ, 0 ≤ wrongBit threshold a b ∧ wrongBit threshold a b ≤ 1 := by
          intro a b
          rcases wrongBit_mem threshold a b with h | h <;> rw [h] <;> norm_num
        constructor
        · exact Finset.sum_nonneg fun i _ => (this _ _).1
        · refine (Finset.sum_le_sum fun i _ => (this _ _).2).trans ?_
          simp
      unfold meanAll at h'
      split_ifs at h' with hz
      cases h'
      have hpos : (0 : ℝ) < (y.length * Fintype.card ι : ℕ) := by exact_mod_cast Nat.pos_of_ne_zero hz
      constructor
      · apply div_nonneg _ hpos.le
        apply List.sum_nonneg
        intro x hx
        obtain ⟨r, hr, rfl⟩ := List.mem_map.1 hx
        exact (hrow r hr).1
      · rw [div_le_one hpos]
        have := List.sum_le_card_nsmul (y.map fun r => ∑ i, r i) (Fintype.card ι : ℝ) (by
          intro x hx
          obtain ⟨r, hr, rfl⟩ := List.mem_map.1 hx
          exact (hrow r hr).2)
        rw [List.length_map, nsmul_eq_mul] at this
        exact_mod_cast this

theorem warmup_whole (W r : ℕ) : toRate (toRate (toRate (W : ℚ)) * (r : ℕ)) = ((W * r : ℕ) : ℤ) := by
  rw [toRate_nat]
  have h1 : toRate (((W : ℕ) : ℤ) : ℚ) = W := by
    have := toRate_nat W
    simpa using this
  rw [h1]
  have := toRate_nat (W * r)
  push_cast at this ⊢
  exact this

/-- C51, C52 (what holds), bit error rate: a prediction which is the target delayed by `k ≥ 0` samples has no wrong bits at the latency
of `k` samples, if no channel of the target is constantly one. -/
theorem C52_ber_partial [Nonempty ι] (T W k B S : ℕ) (hB : 0 < B) (hS : 0 < S) (t p : ℕ → ι → ℝ) (threshold : ℝ)
    (hth : 0 ≤ threshold ∧ threshold < 1) (h01 : ∀ j < T, ∀ i, t j i = 0 ∨ t j i = 1)
    (hz : ∀ i, ∃ j < T, t j i = 0) (hp : ∀ j, p (j + k) = t j)
    (hT : (W * (S / Nat.gcd S B) + S / Nat.gcd S B / 2) / (B / Nat.gcd S B) + k < T) :
    berLoss (samples T p) (samples T t) threshold (k * B / S) W B S = .ok (some 0) := by
  obtain ⟨-, -, h3, h4, h5⟩ := gcd_parts S B hS hB
  set rs := S / Nat.gcd S B with hrs
  set rb := B / Nat.gcd S B with hrb
  have hl : toRate ((k : ℚ) * B / S * (rs : ℕ)) = ((k * rb : ℕ) : ℤ) := by
    have hS' : (S : ℚ) ≠ 0 := by exact_mod_cast hS.ne'
    have e : (k : ℚ) * B / S * (rs : ℕ) = ((k * rb : ℕ) : ℚ) := by
      rw [div_mul_eq_mul_div, div_eq_iff hS']
      have : k * B * rs = k * rb * S := by
        calc k * B * rs = k * (rs * B) := by ring
          _ = k * (rb * S) := by rw [h5]
          _ = k * rb * S := by ring
      exact_mod_cast this
    rw [e, toRate_nat]
  have := ber_formula T B S (W * rs) (k * rb : ℕ) hB hS p t threshold (k * B / S) W hl (warmup_whole W rs) (by positivity)
  simp only at this
  rw [← hrs, ← hrb] at this
  rw [this]
  clear this
  set a := W * rs + rs / 2 with ha
  have eb : ((a : ℤ) + ((k * rb : ℕ) : ℤ)).toNat = a + k * rb := by omega
  rw [eb]
  have hlt : a + k * rb < T * rb := by
    rw [← Nat.div_lt_iff_lt_mul h4, Nat.add_mul_div_right _ _ h4]
    exact hT
  have hm : 0 < (T * rb - (a + k * rb) + rs - 1) / rs := Nat.div_pos (by omega) h3
  have hm' : (T * rb - (a + k * rb) + rs - 1) / rs ≤ (T * rb - a + rs - 1) / rs := Nat.div_le_div_right (by omega)
  rw [Nat.min_eq_right hm', samples_mean _ _ hm]
  congr 2
  rw [div_eq_zero_iff]
  left
  apply Finset.sum_eq_zero
  intro j hj
  rw [Finset.mem_range, Nat.lt_div_iff_mul_lt h3] at hj
  have hj' : a + k * rb + j * rs < T * rb := by omega
  have e1 : (a + k * rb + j * rs) / rb = (a + j * rs) / rb + k := by
    have : a + k * rb + j * rs = a + j * rs + k * rb := by ring
    rw [this, Nat.add_mul_div_right _ _ h4]
  have hjT : (a + j * rs) / rb < T := by
    rw [Nat.div_lt_iff_lt_mul h4]
    omega
  apply Finset.sum_eq_zero
  intro i _
  obtain ⟨z, hzT, hz0⟩ := hz i
  rw [e1, hp]
  unfold wrongBit
  rw [if_neg]
  rw [not_not]
  have hs := target_sign T t i (fun k hk => h01 k hk i) z hzT hz0 _ hjT
  rw [decide_eq_decide, hs]
  rcases h01 _ hjT i with h | h <;> rw [h]
  · constructor <;> intro h' <;> linarith [hth.1]
  · exact ⟨fun _ => rfl, fun _ => hth.2⟩

/-- C51 (what holds): the bit error rate of a stream of zeros and ones compared with itself is zero, if no channel is
constantly one. -/
theorem C51_perfect_partial [Nonempty ι] (T W B S : ℕ) (hB : 0 < B) (hS : 0 < S) (t : ℕ → ι → ℝ) (threshold : ℝ)
    (hth : 0 ≤ threshold ∧ threshold < 1) (h01 : ∀ j < T, ∀ i, t j i = 0 ∨ t j i = 1) (hz : ∀ i, ∃ j < T, t j i = 0)
    (hT : (W * (S / Nat.gcd S B) + S / Nat.gcd S B / 2) / (B / Nat.gcd S B) < T) :
    berLoss (samples T t) (samples T t) threshold 0 W B S = .ok (some 0) := by
  have := C52_ber_partial T W 0 B S hB hS t t threshold hth h01 hz (fun _ => rfl) (by simpa using hT)
  simpa using this

example : berLoss (samples 6 fun k (_ : Unit) => if k < 3 then (1 : ℝ) else 0) (samples 6 fun k _ => if k < 3 then 1 else 0) (1 / 2)
    0 (0 : ℕ) (2 : ℕ) (3 : ℕ) = .ok (some 0) :=
  C51_perfect_partial 6 0 2 3 (by norm_num) (by norm_num) _ _ (by norm_num) (by
    intro j _ i
    by_cases h : j < 3
    · exact .inr (if_pos h)
    · exact .inl (if_neg h)) (fun _ => ⟨5, by norm_num, by norm_num⟩) (by decide)

/-- C51 is violated: a target of ones compared with itself has bit error rate one. -/
theorem C51_violation [Nonempty ι] (T W B S : ℕ) (hB : 0 < B) (hS : 0 < S) (threshold : ℝ) (hth : threshold < 1)
    (hT : (W * (S / Nat.gcd S B) + S / Nat.gcd S B / 2) / (B / Nat.gcd S B) < T) :
    berLoss (samples T fun _ (_ : ι) => (1 : ℝ)) (samples T fun _ _ => 1) threshold 0 W B S = .ok (some 1) := by
  obtain ⟨-, -, h3, h4, h5⟩ := gcd_parts S B hS hB
  set rs := S / Nat.gcd S B with hrs
  set rb := B / Nat.gcd S B with hrb
  have hl : toRate ((0 : ℚ) * (rs : ℕ)) = 0 := by
    rw [zero_mul]
    have := toRate_nat 0
    simpa using this
  have := ber_formula T B S (W * rs) 0 hB hS (fun _ (_ : ι) => (1 : ℝ)) (fun _ _ => 1) threshold 0 W hl (warmup_whole W rs)
    (by positivity)
  simp only at this
  rw [← hrs, ← hrb] at this
  rw [this]
  clear this
  set a := W * rs + rs / 2 with ha
  have eb : ((a : ℤ) + 0).toNat = a := by omega
  rw [eb]
  have hlt : a < T * rb := by
    rw [← Nat.div_lt_iff_lt_mul h4]
    exact hT
  have hm : 0 < (T * rb - a + rs - 1) / rs := Nat.div_pos (by omega) h3
  rw [Nat.min_self, samples_mean _ _ hm]
  have hone : ∀ i : ι, wrongBit threshold 1
      ((1 - meanRow (samples T fun _ _ => (1 : ℝ)) i) / stdAll (samples T fun _ (_ : ι) => (1 : ℝ))) = 1 := by
    intro i
    unfold wrongBit
    rw [if_pos]
    have h0 := target_const T (fun _ (_ : ι) => (1 : ℝ)) i 1 (fun _ _ => rfl) 0 (lt_of_le_of_lt (Nat.zero_le _) hT)
    simp [hth, h0]
  congr 2
  rw [Finset.sum_congr rfl fun k _ => Finset.sum_congr rfl fun i _ => hone i]
  simp only [Finset.sum_const, Finset.card_univ, Finset.card_range, nsmul_eq_mul, mul_one]
  have h1 : ((((T * rb - a + rs - 1) / rs : ℕ)) : ℝ) ≠ 0 := by exact_mod_cast hm.ne'
  have h2 : (Fintype.card ι : ℝ) ≠ 0 := by exact_mod_cast Fintype.card_ne_zero
  field_simp

example : berLoss (samples 6 fun _ (_ : Unit) => (1 : ℝ)) (samples 6 fun _ _ => 1) (1 / 2) 0 (0 : ℕ) (2 : ℕ) (3 : ℕ) = .ok (some 1) :=
  C51_violation 6 0 2 3 (by norm_num) (by norm_num) _ (by norm_num) (by decide)

/-- C51 (what holds, exactly): the bit error rate of a stream of zeros and ones compared with itself is the fraction of channels that are
constantly one. -/
theorem C51_exact_partial [Nonempty ι] (T W B S : ℕ) (hB : 0 < B) (hS : 0 < S) (t : ℕ → ι → ℝ) (threshold : ℝ)
    (hth : 0 ≤ threshold ∧ threshold < 1) (h01 : ∀ j < T, ∀ i, t j i = 0 ∨ t j i = 1)
    (hT : (W * (S / Nat.gcd S B) + S / Nat.gcd S B / 2) / (B / Nat.gcd S B) < T) :
    berLoss (samples T t) (samples T t) threshold 0 W B S = .ok (some (({i | ∀ j < T, t j i = 1} : Set ι).ncard / Fintype.card ι)) := by
  obtain ⟨-, -, h3, h4, h5⟩ := gcd_parts S B hS hB
  set rs := S / Nat.gcd S B with hrs
  set rb := B / Nat.gcd S B with hrb
  have hl : toRate ((0 : ℚ) * (rs : ℕ)) = 0 := by
    rw [zero_mul]
    have := toRate_nat 0
    simpa using this
  have := ber_formula T B S (W * rs) 0 hB hS t t threshold 0 W hl (warmup_whole W rs) (by positivity)
  simp only at this
  rw [← hrs, ← hrb] at this
  rw [this]
  clear this
  set a := W * rs + rs / 2 with ha
  have eb : ((a : ℤ) + 0).toNat = a := by omega
  rw [eb]
  have hlt : a < T * rb := by
    rw [← Nat.div_lt_iff_lt_mul h4]
    exact hT
  have hm : 0 < (T * rb - a + rs - 1) / rs := Nat.div_pos (by omega) h3
  rw [Nat.min_self, samples_mean _ _ hm]
  classical
  have hone : ∀ j < (T * rb - a + rs - 1) / rs, ∀ i : ι, wrongBit threshold (t ((a + j * rs) / rb) i)
      ((t ((a + j * rs) / rb) i - meanRow (samples T t) i) / stdAll (samples T t)) = if ∀ j < T, t j i = 1 then 1 else 0 := by
    intro j hj i
    rw [Nat.lt_div_iff_mul_lt h3] at hj
    have hjT : (a + j * rs) / rb < T := by
      rw [Nat.div_lt_iff_lt_mul h4]
      omega
    unfold wrongBit
    by_cases h1 : ∀ j < T, t j i = 1
    · rw [if_pos h1, if_pos]
      have h0 := target_const T t i 1 h1 _ hjT
      rw [h1 _ hjT] at h0 ⊢
      simp [hth.2, h0]
    · rw [if_neg h1, if_neg]
      push Not at h1
      obtain ⟨z, hzT, hz⟩ := h1
      have hz0 := (h01 z hzT i).resolve_right hz
      rw [not_not, decide_eq_decide, target_sign T t i (fun k hk => h01 k hk i) z hzT hz0 _ hjT]
      rcases h01 _ hjT i with h | h <;> rw [h]
      · constructor <;> intro h' <;> linarith [hth.1]
      · exact ⟨fun _ => rfl, fun _ => hth.2⟩
  congr 2
  rw [Finset.sum_congr rfl fun k hk => Finset.sum_congr rfl fun i _ => hone k (Finset.mem_range.1 hk) i]
  simp only [Finset.sum_const, Finset.card_range, nsmul_eq_mul, Finset.sum_boole]
  have h1 : ((((T * rb - a + rs - 1) / rs : ℕ)) : ℝ) ≠ 0 := by exact_mod_cast hm.ne'
  have h2 : (Fintype.card ι : ℝ) ≠ 0 := by exact_mod_cast Fintype.card_ne_zero
  have h3 : ({i | ∀ j < T, t j i = 1} : Set ι).ncard = (Finset.univ.filter fun i => ∀ j < T, t j i = 1).card := by
    rw [← Set.ncard_coe_finset]
    congr 1
    ext i
    simp
  rw [h3]
  field_simp

/-- Two channels, one constantly one: the error rate of the prediction that equals the target is one half. -/
example : berLoss (samples 6 fun k (i : Fin 2) => if i = 0 ∨ k < 3 then (1 : ℝ) else 0) (samples 6 fun k i => if i = 0 ∨ k < 3 then 1 else 0) (1 / 2)
    0 (0 : ℕ) (2 : ℕ) (3 : ℕ) = .ok (some (1 / 2)) := by
  rw [C51_exact_partial 6 0 2 3 (by norm_num) (by norm_num) _ _ (by norm_num) (by
    intro j _ i
    by_cases h : i = 0 ∨ j < 3
    · exact .inr (if_pos h)
    · exact .inl (if_neg h)) (by decide)]
  have : ({i | ∀ j < 6, (if i = 0 ∨ j < 3 then (1 : ℝ) else 0) = 1} : Set (Fin 2)) = {0} := by
    ext i
    fin_cases i
    · simp
    · simp only [Set.mem_setOf_eq, Set.mem_singleton_iff]
      constructor
      · intro h
        have := h 5 (by norm_num)
        norm_num at this
      · intro h
        simp at h
  rw [this, Set.ncard_singleton]
  norm_num

/-- C52 is violated for negative latencies (bit error rate), here with one sample per bit: a prediction which is the target advanced by
`k + 1` samples has wrong bits at the latency of `-(k + 1)` samples. -/
theorem C52_ber_violation [Nonempty ι] (T W k B : ℕ) (hB : 0 < B) (t : ℕ → ι → ℝ) (threshold : ℝ)
    (hth : 0 ≤ threshold ∧ threshold < 1) (h01 : ∀ j i, t j i = 0 ∨ t j i = 1)
    (hz : ∀ i, ∃ j < T, t j i = 0) (hW : k + 1 ≤ W) (j : ℕ) (hj : W ≤ j) (hjT : j < T) (hne : t j ≠ t (j + 1)) :
    ∃ e, berLoss (samples T fun j => t (j + (k + 1))) (samples T t) threshold (-((k : ℚ) + 1) * B / B) W B B = .ok (some e) ∧
      0 < e := by
  have hg : B / Nat.gcd B B = 1 := by rw [Nat.gcd_self, Nat.div_self hB]
  have hB' : (B : ℚ) ≠ 0 := by exact_mod_cast hB.ne'
  have hl : toRate (-((k : ℚ) + 1) * B / B * (B / Nat.gcd B B : ℕ)) = -(k : ℤ) := by
    rw [hg, Nat.cast_one, mul_one, mul_div_assoc, div_self hB', mul_one, toRate_neg]
  have hw := warmup_whole W (B / Nat.gcd B B)
  have hw' : W * (B / Nat.gcd B B) = W := by rw [hg, Nat.mul_one]
  rw [hw'] at hw
  have key := ber_formula T B B W (-(k : ℤ)) hB hB (fun j => t (j + (k + 1))) t threshold _ W hl hw (by omega)
  simp only [hg] at key
  rw [key]
  clear key
  have e1 : (((W + 1 / 2 : ℕ) : ℤ) + -(k : ℤ)).toNat = W - k := by omega
  rw [e1]
  simp only [Nat.div_one, Nat.mul_one]
  have e2 : W + 1 / 2 = W := by omega
  rw [e2]
  have e3 : min (T - W + 1 - 1) (T - (W - k) + 1 - 1) = T - W := by omega
  rw [e3, samples_mean _ _ (by omega)]
  refine ⟨_, rfl, ?_⟩
  have hnn : ∀ a b : ℝ, 0 ≤ wrongBit threshold a b := by
    intro a b
    rcases wrongBit_mem threshold a b with h | h <;> rw [h]
    exact zero_le_one
  apply div_pos
  · obtain ⟨i, hi⟩ : ∃ i, t j i ≠ t (j + 1) i := by
      by_contra hc
      push Not at hc
      exact hne (funext hc)
    refine Finset.sum_pos' (fun _ _ => Finset.sum_nonneg fun _ _ => hnn _ _) ⟨j - W, by rw [Finset.mem_range]; omega, ?_⟩
    refine Finset.sum_pos' (fun _ _ => hnn _ _) ⟨i, Finset.mem_univ i, ?_⟩
    have e4 : W + (j - W) = j := by omega
    have e5 : W - k + (j - W) + (k + 1) = j + 1 := by omega
    rw [e4, e5]
    obtain ⟨z, hzT, hz0⟩ := hz i
    have hs := target_sign T t i (fun k _ => h01 k i) z hzT hz0 j hjT
    have : wrongBit threshold (t (j + 1) i) ((t j i - meanRow (samples T t) i) / stdAll (samples T t)) = 1 := by
      unfold wrongBit
      rw [if_pos]
      rw [ne_eq, decide_eq_decide, hs]
      rcases h01 j i with h | h <;> rcases h01 (j + 1) i with h' | h' <;> rw [h, h'] at hi ⊢
      · exact absurd rfl hi
      · simp [hth.2]
      · simp [not_lt.2 hth.1]
      · exact absurd rfl hi
    rw [this]
    exact one_pos
  · have h1 : (0 : ℝ) < ((T - W : ℕ) : ℝ) := by exact_mod_cast (by omega : 0 < T - W)
    have h2 : (0 : ℝ) < Fintype.card ι := by exact_mod_cast Fintype.card_pos
    exact mul_pos h1 h2

/-- Alternating bits. -/
example : ∃ e, berLoss (samples 6 fun j (_ : Unit) => if (j + (0 + 1)) % 2 = 0 then (1 : ℝ) else 0) (samples 6 fun j _ => if j % 2 = 0 then (1 : ℝ) else 0)
    (1 / 2) (-(((0 : ℕ) : ℚ) + 1) * (3 : ℕ) / (3 : ℕ)) (1 : ℕ) (3 : ℕ) (3 : ℕ) = .ok (some e) ∧ 0 < e :=
  C52_ber_violation 6 1 0 3 (by norm_num) (fun j (_ : Unit) => if j % 2 = 0 then (1 : ℝ) else 0) (1 / 2) (by norm_num)
    (by
      intro j i
      by_cases h : j % 2 = 0
      · exact .inr (if_pos h)
      · exact .inl (if_neg h)) (fun _ => ⟨1, by norm_num, by norm_num⟩) le_rfl 2 (by norm_num) (by norm_num) (fun h => by
      have := congrFun h ()
      norm_num at this)

/-! ## C50 -/

/-- The samples of a generated stream. -/
theorem stream_samples (rng : ℕ → List (ι → ℝ)) (butter : ℚ → List ℝ × List ℝ) (bits : List (ι → ℝ)) (B S : ℕ) (hB : 0 < B)
    (hS : 0 < S) : ∃ N, bitStream rng butter (.array bits) B S none = .ok (samples N fun k => bits.getD (k * B / S) 0) ∧
      bits.length * S ≤ N * B ∧ ∀ m < N, m * B < bits.length * S := by
  obtain ⟨s, h1, h2, h3⟩ := C49_samples rng butter (.array bits) bits rfl B S hB hS
  have hB' : (0 : ℚ) < B := by exact_mod_cast hB
  have hlt : ∀ m < s.length, m * B < bits.length * S := by
    intro m hm
    rw [h2, Nat.lt_ceil, lt_div_iff₀ hB'] at hm
    exact_mod_cast hm
  refine ⟨s.length, ?_, ?_, hlt⟩
  · rw [h1]
    congr 1
    apply List.ext_getElem?
    intro k
    rw [samples_get]
    split_ifs with hk
    · rw [h3 k hk]
      have e : (k : ℚ) / S * B = ((k * B : ℕ) : ℚ) / (S : ℕ) := by push_cast; ring
      rw [e, Nat.floor_div_eq_div]
      have hlen : k * B / S < bits.length := by
        rw [Nat.div_lt_iff_lt_mul hS]
        exact hlt k hk
      rw [List.getD_eq_getElem?_getD, List.getElem?_eq_getElem hlen]
      rfl
    · rw [List.getElem?_eq_none (by omega)]
  · have := Nat.le_ceil ((bits.length : ℚ) * S / B)
    rw [div_le_iff₀ hB', ← h2] at this
    exact_mod_cast this

/-- C50: the bit error rate of the streams of two bit sequences is the fraction of bits that differ, if there are at least two samples per
bit and no channel of the target is constantly one. -/
theorem C50_fraction [Nonempty ι] (rng : ℕ → List (ι → ℝ)) (butter : ℚ → List ℝ × List ℝ) (bits target : List (ι → ℝ))
    (hlen : bits.length = target.length) (hn : 0 < target.length) (B S : ℕ) (hB : 0 < B) (hBS : 2 * B ≤ S) (threshold : ℝ)
    (hth : 0 ≤ threshold ∧ threshold < 1) (h01 : ∀ r ∈ bits, ∀ i, r i = 0 ∨ r i = 1)
    (h01' : ∀ r ∈ target, ∀ i, r i = 0 ∨ r i = 1) (hz : ∀ i, ∃ r ∈ target, r i = 0) :
    ∃ s s', bitStream rng butter (.array bits) B S none = .ok s ∧ bitStream rng butter (.array target) B S none = .ok s' ∧
      berLoss s s' threshold 0 (0 : ℕ) B S =
        .ok (some ((∑ k ∈ Finset.range target.length, ∑ i,
          open Classical in if (bits.getD k 0) i ≠ (target.getD k 0) i then (1 : ℝ) else 0) /
            (target.length * Fintype.card ι))) := by
  have hS : 0 < S := by omega
  obtain ⟨N, hs, hN1, hN2⟩ := stream_samples rng butter bits B S hB hS
  obtain ⟨N', hs', hN1', hN2'⟩ := stream_samples rng butter target B S hB hS
  have hNN : N = N' := by
    apply le_antisymm
    · by_contra hc
      have := hN2 N' (by omega)
      rw [hlen] at this
      omega
    · by_contra hc
      have := hN2' N (by omega)
      rw [hlen] at hN1
      omega
  subst hNN
  refine ⟨_, _, hs, hs', ?_⟩
  obtain ⟨-, -, h3, h4, h5⟩ := gcd_parts S B hS hB
  have hcb := (ceil_bound target.length S B _ _ N h3 h4 hB h5 hS).2 ⟨hN1', hN2'⟩
  set rs := S / Nat.gcd S B with hrs
  set rb := B / Nat.gcd S B with hrb
  have hrr : 2 * rb ≤ rs := by
    have : 2 * rb * S ≤ rs * S := by
      calc 2 * rb * S = 2 * (rb * S) := by ring
        _ = rs * (2 * B) := by rw [← h5]; ring
        _ ≤ rs * S := Nat.mul_le_mul_left _ hBS
    exact Nat.le_of_mul_le_mul_right this hS
  set n := target.length with hnn
  have hl : toRate ((0 : ℚ) * (rs : ℕ)) = 0 := by
    rw [zero_mul]
    have := toRate_nat 0
    simpa using this
  have key := ber_formula N B S 0 0 hB hS (fun k => bits.getD (k * B / S) 0) (fun k => target.getD (k * B / S) 0) threshold 0
    (0 : ℕ) hl (by have := warmup_whole 0 rs; rw [Nat.zero_mul] at this; exact this) (by positivity)
  simp only at key
  rw [← hrs, ← hrb] at key
  rw [key]
  clear key
  rw [Nat.zero_add]
  have eb : (((rs / 2 : ℕ) : ℤ) + 0).toNat = rs / 2 := by omega
  rw [eb, Nat.min_self]
  have hNpos : 0 < N := by
    by_contra hc
    have : N = 0 := by omega
    rw [this, Nat.zero_mul] at hcb
    have := Nat.mul_pos hn h3
    omega
  have hNup : N * rb < n * rs + rb := by
    have := hcb.2 (N - 1) (by omega)
    rw [Nat.sub_mul, Nat.one_mul] at this
    have : rb ≤ N * rb := Nat.le_mul_of_pos_left _ hNpos
    omega
  have hm : (N * rb - rs / 2 + rs - 1) / rs = n := by
    have := hcb.1
    rw [Nat.div_eq_iff h3]
    omega
  have hidx : ∀ k < n, (rs / 2 + k * rs) / rb < N ∧ (rs / 2 + k * rs) / rb * B / S = k := by
    intro k hk
    have hkn : k * rs + rs ≤ n * rs := by
      have : (k + 1) * rs ≤ n * rs := Nat.mul_le_mul_right _ hk
      rw [Nat.add_mul, Nat.one_mul] at this
      exact this
    constructor
    · rw [Nat.div_lt_iff_lt_mul h4]
      have := hcb.1
      omega
    · rw [← div_parts _ S B rs rb hS h3 h5, Nat.div_eq_iff h3]
      have h6 := Nat.div_mul_le_self (rs / 2 + k * rs) rb
      have h7 := Nat.lt_div_mul_add (a := rs / 2 + k * rs) h4
      omega
  have hget : ∀ (x : List (ι → ℝ)) (hx : ∀ r ∈ x, ∀ i, r i = 0 ∨ r i = 1) (k : ℕ) (i : ι), (x.getD k 0) i = 0 ∨ (x.getD k 0) i = 1 := by
    intro x hx k i
    rw [List.getD_eq_getElem?_getD]
    cases h : x[k]? with
    | none => left; rfl
    | some r => exact hx r (List.mem_of_getElem? h) i
  rw [hm, samples_mean _ _ hn]
  congr 3
  apply Finset.sum_congr rfl
  intro k hk
  rw [Finset.mem_range] at hk
  obtain ⟨hk1, hk2⟩ := hidx k hk
  apply Finset.sum_congr rfl
  intro i _
  obtain ⟨r, hr, hr0⟩ := hz i
  obtain ⟨z, hzn, hzr⟩ := List.mem_iff_getElem.1 hr
  obtain ⟨hz1, hz2⟩ := hidx z hzn
  have hsign := target_sign N (fun k => target.getD (k * B / S) 0) i (fun k _ => hget target h01' _ i)
    ((rs / 2 + z * rs) / rb) hz1 (by
      simp only [hz2]
      rw [List.getD_eq_getElem?_getD, List.getElem?_eq_getElem hzn]
      simp only [Option.getD_some, hzr, hr0]) _ hk1
  simp only [hk2] at hsign ⊢
  unfold wrongBit
  have hbit : threshold < (bits.getD k 0) i ↔ (bits.getD k 0) i = 1 := by
    rcases hget bits h01 k i with h | h <;> rw [h]
    · constructor <;> intro h' <;> linarith [hth.1]
    · exact ⟨fun _ => rfl, fun _ => hth.2⟩
  have hiff : (decide (threshold < (bits.getD k 0) i) ≠ decide (0 < ((target.getD k 0) i - meanRow (samples N fun k =>
      target.getD (k * B / S) 0) i) / stdAll (samples N fun k => target.getD (k * B / S) 0))) ↔ (bits.getD k 0) i ≠ (target.getD k 0) i := by
    rw [not_iff_not, decide_eq_decide, hbit, hsign]
    rcases hget bits h01 k i with h | h <;> rcases hget target h01' k i with h' | h' <;> rw [h, h'] <;> simp
  simp only [hiff]

/-- Two of four bits differ. -/
example (butter) : ∃ s s', bitStream (fun _ => []) butter (.array [fun _ : Unit => (1 : ℝ), fun _ => 1, fun _ => 0, fun _ => 1]) (2 : ℕ) (5 : ℕ) none =
    .ok s ∧ bitStream (fun _ => []) butter (.array [fun _ : Unit => (1 : ℝ), fun _ => 0, fun _ => 1, fun _ => 1]) (2 : ℕ) (5 : ℕ) none = .ok s' ∧
    berLoss s s' (1 / 2) 0 (0 : ℕ) (2 : ℕ) (5 : ℕ) = .ok (some (1 / 2)) := by
  obtain ⟨s, s', h1, h2, h3⟩ := C50_fraction (fun _ => []) butter [fun _ : Unit => (1 : ℝ), fun _ => 1, fun _ => 0, fun _ => 1]
    [fun _ : Unit => (1 : ℝ), fun _ => 0, fun _ => 1, fun _ => 1] rfl (by simp) 2 5 (by norm_num) (by norm_num) (1 / 2) (by norm_num)
    (by simp) (by simp) (by simp)
  refine ⟨s, s', h1, h2, ?_⟩
  rw [h3]
  congr 2
  simp [Finset.sum_range_succ]
  norm_num

/-! ## Examples of use -/

example (e : ℝ) (p t : List (Unit → ℝ)) (h : mseLoss p t 1 1 2 7 = .ok (some e)) : 0 ≤ e := C53_nonneg p t 1 1 2 7 e h

example (p t : ℕ → Unit → ℝ) : mseLoss (samples 9 p) (samples 9 t) 0 (2 : ℕ) 3 4 = mseLoss (samples 9 t) (samples 9 p) 0 (2 : ℕ) 3 4 :=
  C53_symmetric 9 2 p t 3 4

/-- What happens in the four samples of the warm-up bit does not matter. -/
example (p t : ℕ → Unit → ℝ) : mseLoss (samples 9 p) (samples 9 t) 0 (1 : ℕ) 1 4 =
    mseLoss (samples 9 fun k => if k < 4 then 0 else p k) (samples 9 fun k => if k < 4 then 0 else t k) 0 (1 : ℕ) 1 4 := by
  have hw : rounded (((1 : ℕ) : ℚ) * 4 / 1) = 4 := by
    unfold rounded
    rw [Nat.floor_eq_iff (by norm_num)]
    norm_num
  have h0 : rounded (0 * 4 / 1) = 0 := by
    unfold rounded
    rw [Nat.floor_eq_zero]
    norm_num
  exact C53_warmup 9 1 p t _ _ 0 1 4 (by norm_num) (by norm_num) le_rfl (by rw [hw, h0]; norm_num)
    (fun k hk => by rw [hw] at hk; exact (if_neg (by omega)).symm) (fun k hk => by rw [hw] at hk; exact (if_neg (by omega)).symm)

example (e : ℝ) (p t : List (Unit → ℝ)) (h : berLoss p t (1 / 2) 0 0 2 7 = .ok (some e)) : 0 ≤ e ∧ e ≤ 1 := C51_bounds p t _ 0 0 2 7 e h

/-- A stream that arrives two samples later has no errors when the latency says so. -/
example : berLoss (samples 9 fun k (_ : Unit) => if k < 5 then (1 : ℝ) else 0) (samples 9 fun k _ => if k < 3 then 1 else 0) (1 / 2)
    ((2 : ℕ) * (2 : ℕ) / (3 : ℕ)) (0 : ℕ) (2 : ℕ) (3 : ℕ) = .ok (some 0) :=
  C52_ber_partial 9 0 2 2 3 (by norm_num) (by norm_num) (fun k (_ : Unit) => if k < 3 then (1 : ℝ) else 0) _ _ (by norm_num) (by
    intro j _ i
    by_cases h : j < 3
    · exact .inr (if_pos h)
    · exact .inl (if_neg h)) (fun _ => ⟨5, by norm_num, by norm_num⟩) (fun j => by simp only [show j + 2 < 5 ↔ j < 3 by omega]) (by decide)

end PT
