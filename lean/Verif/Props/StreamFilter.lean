import Verif.Proof.Filter
import Verif.Props.Stream

/-!
# C71: the filtered bit streams, and C53: losses with respect to constants
-/

namespace PT
open Spec Finset

section Filtered
variable {V : Type} [AddCommGroup V] [Module ℝ V]

theorem zip_sum_any (c : List ℝ) (L : ℕ) (v : ℕ → V) :
    (List.zipWith (fun a r => a • r) c (samples L v)).sum = ∑ i ∈ range L, c.getD i 0 • v i := by
  induction L generalizing c v with
  | zero => simp [samples]
  | succ L ih =>
    have e : samples (L + 1) v = v 0 :: samples L fun k => v (k + 1) := by
      unfold samples
      rw [List.range_succ_eq_map]
      simp [Function.comp_def]
    cases c with
    | nil => simp
    | cons a c =>
      rw [e, List.zipWith_cons_cons, List.sum_cons, ih c _, sum_range_succ']
      simp [add_comm]

theorem samples_reverse {α : Type} (n : ℕ) (x : ℕ → α) : (samples n x).reverse = samples n fun k => x (n - 1 - k) := by
  apply List.ext_getElem
  · simp [samples]
  · intro i h1 h2
    simp [samples] at h1 h2 ⊢

theorem samples_cons {α : Type} (n : ℕ) (x : ℕ → α) : (samples (n + 1) x).reverse = x n :: (samples n x).reverse := by
  simp [samples, List.range_succ]

theorem filterFrom_eq (b a : List ℝ) (ha : a.getD 0 0 ≠ 0) (x : ℕ → V) (k n : ℕ) (y : ℕ → V) (hy : FilterEq b a n x y) :
    ∃ z, filterFrom b a (samples n x).reverse (samples n y).reverse (samples k fun j => x (n + j)) = (samples (n + k) z).reverse ∧
      FilterEq b a (n + k) x z := by
  induction k generalizing n y with
  | zero => exact ⟨y, rfl, hy⟩
  | succ k ih =>
    have e : (samples (k + 1) fun j => x (n + j)) = x n :: samples k fun j => x (n + 1 + j) := by
      unfold samples
      rw [List.range_succ_eq_map]
      simp [Function.comp_def, Nat.add_assoc, Nat.add_comm 1]
    rw [e, filterFrom, ← samples_cons]
    set v := filterNext b a (samples (n + 1) x).reverse (samples n y).reverse with hv
    have h1 : a.getD 0 0 • v = (∑ i ∈ range (n + 1), b.getD i 0 • x (n - i)) - ∑ i ∈ range n, a.getD (i + 1) 0 • y (n - 1 - i) := by
      have hh : a.headD 0 = a.getD 0 0 := by cases a <;> rfl
      rw [hv]
      unfold filterNext
      rw [hh, smul_smul, mul_inv_cancel₀ ha, one_smul, samples_reverse, samples_reverse, zip_sum_any, zip_sum_any]
      congr 1
      refine sum_congr rfl fun i _ => ?_
      congr 1
      cases a <;> simp
    obtain ⟨z, hz, hz'⟩ := ih (n + 1) (fun j => if j = n then v else y j) (by
      intro m hm
      dsimp only
      rcases Nat.lt_succ_iff_lt_or_eq.mp hm with h | rfl
      · rw [if_neg (by omega), hy m h]
        congr 1
        refine sum_congr rfl fun i hi => ?_
        rw [mem_range] at hi
        rw [if_neg (by omega)]
      · rw [if_pos rfl, h1]
        congr 1
        refine sum_congr rfl fun i hi => ?_
        rw [mem_range] at hi
        rw [if_neg (by omega)])
    have e2 : n + 1 + k = n + (k + 1) := by omega
    rw [e2] at hz hz'
    refine ⟨z, ?_, hz'⟩
    rw [← hz]
    congr 1
    rw [samples_cons, if_pos rfl]
    congr 2
    refine samples_congr _ _ _ fun j hj => ?_
    rw [if_neg (by omega)]

/-- scipy's filter is the digital filter. -/
theorem scipyFilter_eq (b a : List ℝ) (ha : a.getD 0 0 ≠ 0) (T : ℕ) (x : ℕ → V) :
    ∃ y, scipyFilter b a (samples T x) = samples T y ∧ FilterEq b a T x y := by
  obtain ⟨z, h1, h2⟩ := filterFrom_eq b a ha x T 0 (fun _ => 0) (by intro n hn; omega)
  refine ⟨z, ?_, by simpa using h2⟩
  unfold scipyFilter
  have : filterFrom b a [] [] (samples T x) = (samples T z).reverse := by simpa [samples] using h1
  rw [this, List.reverse_reverse]

/-- C71: with a cutoff, the samples are those of the bits (held for `1 / bitrate` each) filtered at a rate `R` that is a multiple of
both rates and at least about four times the cutoff: whichever `y` is the output of the digital filter that `butter` designed for the
cutoff (relative to half of that rate), sample `k` is its value at time `k / samplerate`. -/
theorem C71_filtered (rng : ℕ → List V) (butter : ℚ → List ℝ × List ℝ) (hbutter : ∀ w, (butter w).2.getD 0 0 ≠ 0) (arg : BitsArg V)
    (bits : List V) (hb : arg.rows rng = some bits) (B S : ℕ) (hB : 0 < B) (hS : 0 < S) (f : ℚ) (hf : 0 < f) :
    ∃ stream, bitStream rng butter arg B S (some f) = .ok stream ∧ stream.length = ⌈(bits.length : ℚ) * S / B⌉₊ ∧
      ∃ R : ℕ, B ∣ R ∧ S ∣ R ∧ 0 < R ∧ 4 * f ≤ R + 1 / 4 ∧
        (∃ y, FilterEq (butter (2 * f / R)).1 (butter (2 * f / R)).2 (bits.length * (R / B))
          (fun j : ℕ => bits.getD ⌊(j : ℚ) / R * B⌋₊ 0) y) ∧
        ∀ y, FilterEq (butter (2 * f / R)).1 (butter (2 * f / R)).2 (bits.length * (R / B))
            (fun j : ℕ => bits.getD ⌊(j : ℚ) / R * B⌋₊ 0) y →
          ∀ k < stream.length, stream[k]? = some (y (k * (R / S))) := by
  obtain ⟨stream, h1, h2, R, fine, h3, h4, h5, h6, h7, h8, h9⟩ := C49_cutoff rng butter arg bits hb B S hB hS f hf
  have hfine : fine = samples (bits.length * (R / B)) fun j : ℕ => bits.getD ⌊(j : ℚ) / R * B⌋₊ 0 := by
    rw [← h7, ← samples_self fine 0]
    rw [samples_length]
    refine samples_congr _ _ _ fun j hj => ?_
    rw [List.getD_eq_getElem?_getD, List.getD_eq_getElem?_getD, h8 j]
  obtain ⟨y, hy1, hy2⟩ := scipyFilter_eq (butter (2 * f / R)).1 (butter (2 * f / R)).2 (hbutter _) (bits.length * (R / B))
    fun j : ℕ => bits.getD ⌊(j : ℚ) / R * B⌋₊ 0
  refine ⟨stream, h1, h2, R, h3, h4, h5, h6, ⟨y, hy2⟩, fun y' hy' k hk => ?_⟩
  have hs := h9 k
  rw [hfine, hy1, samples_get] at hs
  have hlt : k * (R / S) < bits.length * (R / B) := by
    by_contra hc
    rw [if_neg hc, List.getElem?_eq_none_iff] at hs
    omega
  rw [hs, if_pos hlt, filterEq_unique _ _ (hbutter _) _ _ _ _ hy2 hy' _ hlt]

/-- A filter that averages two values: of the bits 1, 0, 1 sampled at twice the bit rate, refined four times. -/
example : ∃ stream, bitStream (fun _ => []) (fun _ => ([1 / 2, 1 / 2], [1])) (.array [(1 : ℝ), 0, 1]) (1 : ℕ) (2 : ℕ) (some 1) = .ok stream ∧
    stream.length = 6 := by
  obtain ⟨s, h1, h2, -⟩ := C71_filtered (fun _ => []) (fun _ => ([1 / 2, 1 / 2], [1])) (by simp) (.array [1, 0, 1]) [(1 : ℝ), 0, 1] rfl
    1 2 (by norm_num) (by norm_num) 1 (by norm_num)
  refine ⟨s, h1, ?_⟩
  rw [h2]
  have : (([1, 0, 1] : List ℝ).length : ℚ) * (2 : ℕ) / (1 : ℕ) = (6 : ℕ) := by norm_num
  rw [this, Nat.ceil_natCast]

end Filtered

section Constant
variable {ι : Type} [Fintype ι]

theorem broadcast_single {α : Type} (T : ℕ) (p : ℕ → α) (v : α) :
    broadcastTime (samples T p) [v] = broadcastTime (samples T p) (samples T fun _ => v) ∧
      broadcastTime [v] (samples T p) = broadcastTime (samples T fun _ => v) (samples T p) := by
  rw [samples_broadcast, samples_broadcast]
  have hrep : samples T (fun _ => v) = List.replicate T v := by simp [samples]
  rw [hrep]
  unfold broadcastTime
  rw [samples_length]
  by_cases h : T = 1
  · subst h
    simp
  · rw [if_neg (by simpa using h), if_neg (by simpa using Ne.symm h)]
    refine ⟨?_, rfl⟩
    match hs : samples T p with
    | [] => rfl
    | [r] => exact absurd (by rw [← samples_length T p, hs]; rfl) h
    | _ :: _ :: _ => rfl

/-- C53: a target (or prediction) with one time step means the constant signal, for both losses. -/
theorem C53_constant (T : ℕ) (p : ℕ → ι → ℝ) (v : ι → ℝ) (threshold : ℝ) (latency W B S : ℚ) :
    mseLoss (samples T p) [v] latency W B S = mseLoss (samples T p) (samples T fun _ => v) latency W B S ∧
    mseLoss [v] (samples T p) latency W B S = mseLoss (samples T fun _ => v) (samples T p) latency W B S ∧
    berLoss (samples T p) [v] threshold latency W B S = berLoss (samples T p) (samples T fun _ => v) threshold latency W B S ∧
    berLoss [v] (samples T p) threshold latency W B S = berLoss (samples T fun _ => v) (samples T p) threshold latency W B S := by
  unfold mseLoss berLoss
  rw [(broadcast_single T p v).1, (broadcast_single T p v).2]
  exact ⟨rfl, rfl, rfl, rfl⟩

/-- C53: signals of different lengths, neither of which is a constant, are rejected. -/
theorem C53_lengths (T T' : ℕ) (h : T ≠ T') (h1 : T ≠ 1) (h2 : T' ≠ 1) (p q : ℕ → ι → ℝ) (threshold : ℝ) (latency W B S : ℚ) :
    mseLoss (samples T p) (samples T' q) latency W B S = .error .runtimeError ∧
      berLoss (samples T p) (samples T' q) threshold latency W B S = .error .runtimeError := by
  have : broadcastTime (samples T p) (samples T' q) = .error .runtimeError := by
    unfold broadcastTime
    rw [samples_length, samples_length, if_neg h]
    match hs : samples T p, hs' : samples T' q with
    | [r], _ => exact absurd (by rw [← samples_length T p, hs]; rfl) h1
    | [], [r] => exact absurd (by rw [← samples_length T' q, hs']; rfl) h2
    | _ :: _ :: _, [r] => exact absurd (by rw [← samples_length T' q, hs']; rfl) h2
    | [], [] => rfl
    | [], _ :: _ :: _ => rfl
    | _ :: _ :: _, [] => rfl
    | _ :: _ :: _, _ :: _ :: _ => rfl
  unfold mseLoss berLoss
  rw [this]
  exact ⟨rfl, rfl⟩

example (p q : ℕ → Unit → ℝ) : mseLoss (samples 3 p) (samples 2 q) 0 (0 : ℕ) 1 1 = .error .runtimeError :=
  (C53_lengths 3 2 (by decide) (by decide) (by decide) p q 0 0 0 1 1).1

end Constant

end PT
