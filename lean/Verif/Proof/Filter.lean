import Verif.Model.Detector
import Verif.Proof.Signal

/-!
# The pure python `lfilter`
-/

namespace PT

open Finset

section Filter

variable {V : Type} [AddCommGroup V] [Module ℝ V]

namespace Spec

/-- The first `T` values of `y` are the output of the digital filter with numerator `b` and denominator `a` for the input `x`, with
zero history: `a₀ yₙ = b₀ xₙ + b₁ xₙ₋₁ + … - a₁ yₙ₋₁ - …`. -/
def FilterEq (b a : List ℝ) (T : ℕ) (x y : ℕ → V) : Prop :=
  ∀ n < T, a.getD 0 0 • y n = (∑ k ∈ range (n + 1), b.getD k 0 • x (n - k)) - ∑ k ∈ range n, a.getD (k + 1) 0 • y (n - 1 - k)

end Spec

open Spec

/-- There is only one solution. -/
theorem filterEq_unique (b a : List ℝ) (ha : a.getD 0 0 ≠ 0) (T : ℕ) (x y y' : ℕ → V) (h : FilterEq b a T x y)
    (h' : FilterEq b a T x y') (n : ℕ) (hn : n < T) : y n = y' n := by
  induction n using Nat.strong_induction_on with
  | _ n ih =>
    have e : a.getD 0 0 • y n = a.getD 0 0 • y' n := by
      rw [h n hn, h' n hn]
      congr 1
      apply sum_congr rfl
      intro k hk
      rw [mem_range] at hk
      rw [ih (n - 1 - k) (by omega) (by omega)]
    exact smul_right_injective V ha e

theorem zip_sum (c : List ℝ) (L : ℕ) (v : ℕ → V) (h : c.length = L) :
    (List.zipWith (fun a r => a • r) c (samples L v)).sum = ∑ i ∈ range L, c.getD i 0 • v i := by
  induction L generalizing c v with
  | zero => simp [samples]
  | succ L ih =>
    cases c with
    | nil => cases h
    | cons a c =>
      have e : samples (L + 1) v = v 0 :: samples L fun k => v (k + 1) := by
        unfold samples
        rw [List.range_succ_eq_map]
        simp [Function.comp_def]
      rw [e, List.zipWith_cons_cons, List.sum_cons, ih c _ (by simpa using h), sum_range_succ']
      simp [add_comm]

theorem mulSum_eq (c : List ℝ) (L : ℕ) (v : ℕ → V) (h : c.length = L) :
    mulSum c (samples L v) = .ok (∑ i ∈ range L, c.getD i 0 • v i) := by
  unfold mulSum
  rw [if_pos (by rw [samples_length, h]), zip_sum c L v h]

theorem reverse_getD (b : List ℝ) (k : ℕ) (hk : k < b.length) : b.reverse.getD k 0 = b.getD (b.length - 1 - k) 0 := by
  rw [List.getD_eq_getElem?_getD, List.getD_eq_getElem?_getD, List.getElem?_reverse hk]

theorem getD_big (b : List ℝ) (k : ℕ) (hk : b.length ≤ k) : b.getD k 0 = 0 := by
  rw [List.getD_eq_getElem?_getD, List.getElem?_eq_none hk]
  rfl

theorem drop_getD (b : List ℝ) (n k : ℕ) : (b.drop n).getD k 0 = b.getD (n + k) 0 := by
  rw [List.getD_eq_getElem?_getD, List.getD_eq_getElem?_getD, List.getElem?_drop]

theorem scale_getD (b : List ℝ) (c : ℝ) (k : ℕ) : (b.map fun x => x / c).getD k 0 = b.getD k 0 / c := by
  rw [List.getD_eq_getElem?_getD, List.getD_eq_getElem?_getD, List.getElem?_map]
  cases b[k]? with
  | none => simp
  | some x => rfl

/-- One row of the filter. -/
theorem lfilterRow_eq (b : List ℝ) (a0 : ℝ) (rest : List ℝ) (ha : a0 ≠ 0) (hlen : rest.length + 1 = b.length) (T : ℕ)
    (x y : ℕ → V) (n : ℕ) (hn : n < T) :
    ∃ v, lfilterRow (b.map fun c => c / a0) (rest.reverse.map fun c => c / a0) (samples T x) (samples n y) n = .ok v ∧
      a0 • v = (∑ k ∈ range (n + 1), b.reverse.getD k 0 • x (n - k)) - ∑ k ∈ range n, (a0 :: rest).getD (k + 1) 0 • y (n - 1 - k) := by
  have hinv : ∀ (c : ℝ) (r : V), a0 • ((c / a0) • r) = c • r := by
    intro c r
    rw [smul_smul, mul_div_cancel₀ _ ha]
  unfold lfilterRow
  rw [samples_length, if_neg (by omega)]
  by_cases h0 : n = 0
  · subst h0
    rw [if_pos rfl]
    have hb : (b.map fun c => c / a0).getLast? = some (b.getD (b.length - 1) 0 / a0) := by
      rw [List.getLast?_eq_getElem?, List.length_map, List.getElem?_map]
      have : b.length - 1 < b.length := by omega
      rw [List.getD_eq_getElem?_getD, List.getElem?_eq_getElem this]
      rfl
    have hx : (samples T x).head? = some (x 0) := by
      rw [List.head?_eq_getElem?, samples_get, if_pos hn]
    rw [hb, hx]
    refine ⟨_, rfl, ?_⟩
    rw [hinv]
    simp only [zero_add, range_one, sum_singleton, range_zero, sum_empty, sub_zero, Nat.sub_self]
    rw [reverse_getD b 0 (by omega), Nat.sub_zero]
  · rw [if_neg h0]
    by_cases hm : n < b.length
    · rw [if_pos (by simpa using hm), samples_take]
      have e1 : min (n + 1) T = n + 1 := by omega
      rw [e1, mulSum_eq _ (n + 1) x (by simp; omega), mulSum_eq _ n y (by simp; omega)]
      refine ⟨_, rfl, ?_⟩
      rw [smul_sub, smul_sum, smul_sum]
      congr 1
      · rw [← sum_range_reflect]
        apply sum_congr rfl
        intro k hk
        rw [mem_range] at hk
        rw [drop_getD, scale_getD, hinv, reverse_getD b k (by omega)]
        have e2 : (b.map fun c => c / a0).length - 1 - n + (n + 1 - 1 - k) = b.length - 1 - k := by simp; omega
        have e3 : n + 1 - 1 - k = n - k := by omega
        rw [e2, e3]
      · rw [← sum_range_reflect]
        apply sum_congr rfl
        intro k hk
        rw [mem_range] at hk
        rw [drop_getD, scale_getD, hinv]
        have e2 : (rest.reverse.map fun c => c / a0).length - n + (n - 1 - k) = rest.length - 1 - k := by simp; omega
        rw [e2, reverse_getD rest _ (by omega)]
        have e3 : rest.length - 1 - (rest.length - 1 - k) = k := by omega
        rw [e3]
        rfl
    · rw [if_neg (by simpa using hm)]
      push Not at hm
      rw [samples_take, samples_drop, samples_drop]
      have e1 : min (n + 1) T - (n + 1 - (b.map fun c => c / a0).length) = b.length := by simp; omega
      have e2 : n - (n + 1 - (b.map fun c => c / a0).length) = rest.length := by simp; omega
      rw [e1, e2, mulSum_eq _ b.length _ (by simp), mulSum_eq _ rest.length _ (by simp)]
      refine ⟨_, rfl, ?_⟩
      rw [smul_sub, smul_sum, smul_sum]
      congr 1
      · rw [← sum_range_reflect]
        rw [← sum_subset (s₁ := range b.length) (s₂ := range (n + 1)) (by intro k; simp only [mem_range]; omega) (by
          intro k _ hk
          rw [mem_range] at hk
          rw [getD_big _ _ (by simp; omega), zero_smul])]
        apply sum_congr rfl
        intro k hk
        rw [mem_range] at hk
        rw [scale_getD, hinv, reverse_getD b k hk]
        have e3 : n + 1 - (b.map fun c => c / a0).length + (b.length - 1 - k) = n - k := by simp; omega
        rw [e3]
      · rw [← sum_range_reflect]
        rw [← sum_subset (s₁ := range rest.length) (s₂ := range n) (by intro k; simp only [mem_range]; omega) (by
          intro k _ hk
          rw [mem_range] at hk
          rw [getD_big _ _ (by simp; omega), zero_smul])]
        apply sum_congr rfl
        intro k hk
        rw [mem_range] at hk
        rw [scale_getD, hinv, reverse_getD rest _ (by omega)]
        have e3 : n + 1 - (b.map fun c => c / a0).length + (rest.length - 1 - k) = n - 1 - k := by simp; omega
        have e4 : rest.length - 1 - (rest.length - 1 - k) = k := by omega
        rw [e3, e4]
        rfl

theorem lfilterLoop_eq (b : List ℝ) (a0 : ℝ) (rest : List ℝ) (ha : a0 ≠ 0) (hlen : rest.length + 1 = b.length) (T : ℕ)
    (x : ℕ → V) (k n : ℕ) (y : ℕ → V) (hk : n + k = T) (hy : FilterEq b.reverse (a0 :: rest) n x y) :
    ∃ z, lfilterLoop (b.map fun c => c / a0) (rest.reverse.map fun c => c / a0) (samples T x) k n (samples n y) =
      .ok (samples T z) ∧ FilterEq b.reverse (a0 :: rest) T x z := by
  induction k generalizing n y with
  | zero =>
    rw [Nat.add_zero] at hk
    subst hk
    exact ⟨y, rfl, hy⟩
  | succ k ih =>
    obtain ⟨v, hv, he⟩ := lfilterRow_eq b a0 rest ha hlen T x y n (by omega)
    obtain ⟨z, hz, hz'⟩ := ih (n + 1) (fun j => if j = n then v else y j) (by omega) (by
      intro j hj
      by_cases hjn : j = n
      · subst hjn
        simp only [if_true]
        have : (a0 :: rest).getD 0 0 = a0 := rfl
        rw [this, he]
        congr 1
        apply sum_congr rfl
        intro i hi
        rw [mem_range] at hi
        rw [if_neg (by omega)]
      · simp only [if_neg hjn]
        rw [hy j (by omega)]
        congr 1
        apply sum_congr rfl
        intro i hi
        rw [mem_range] at hi
        rw [if_neg (by omega)])
    refine ⟨z, ?_, hz'⟩
    rw [lfilterLoop, hv]
    show lfilterLoop _ _ _ k (n + 1) (samples n y ++ [v]) = _
    rw [← hz]
    congr 1
    unfold samples
    rw [List.range_succ, List.map_append]
    congr 1
    · apply List.map_congr_left
      intro j hj
      rw [List.mem_range] at hj
      rw [if_neg (by omega)]
    · simp

/-- With equally long coefficient lists and enough time steps, `lfilter` computes the filter with reversed numerator. -/
theorem lfilter_eq (b a : List ℝ) (ha : a.getD 0 0 ≠ 0) (hlen : a.length = b.length) (T : ℕ) (hT : b.length ≤ T) (x : ℕ → V) :
    ∃ y, lfilter b a (samples T x) = .ok (samples T y) ∧ FilterEq b.reverse a T x y := by
  cases a with
  | nil => exact absurd rfl ha
  | cons a0 rest =>
    have ha' : a0 ≠ 0 := ha
    simp only [List.length_cons] at hlen
    obtain ⟨z, hz, hz'⟩ := lfilterLoop_eq b a0 rest ha' hlen T x T 0 (fun _ => 0) (by omega) (by intro n hn; omega)
    refine ⟨z, ?_, hz'⟩
    unfold lfilter
    simp only
    rw [if_neg ha', if_neg (by
      intro h
      have := congrArg List.length h
      rw [samples_length] at this
      simp at this
      omega)]
    rw [samples_length, Nat.max_eq_right hT]
    exact hz

end Filter

end PT
