import Verif.Proof.Sensitive
import Mathlib.Algebra.Order.Chebyshev

/-! Proof support for C149: circuits in which light passes from column to column. -/

namespace PT
open Spec Matrix

namespace Sens

variable {ι : Type} [Fintype ι]

theorem power_add_disjoint {u v : ι → ℂ} (h : ∀ i, u i = 0 ∨ v i = 0) : power (u + v) = power u + power v := by
  unfold power
  rw [← Finset.sum_add_distrib]
  refine Finset.sum_congr rfl fun i _ => ?_
  rcases h i with h | h <;> rw [Pi.add_apply, h] <;> simp

theorem power_nonneg (u : ι → ℂ) : 0 ≤ power u := Finset.sum_nonneg fun _ _ => Complex.normSq_nonneg _

/-- The part of a field on ports that satisfy `q`. -/
def part (q : ι → Prop) [DecidablePred q] (u : ι → ℂ) : ι → ℂ := fun i => if q i then u i else 0

theorem power_part_le (q : ι → Prop) [DecidablePred q] (u : ι → ℂ) : power (part q u) ≤ power u := by
  refine Finset.sum_le_sum fun i _ => ?_
  unfold part
  split
  · exact le_rfl
  · rw [Complex.normSq_zero]; exact Complex.normSq_nonneg _

/-- Columns: a matrix that leads to higher levels only, each row starting from ports of one level. -/
structure Levels (M : Matrix ι ι ℂ) (φ : ι → ℕ) : Prop where
  up : ∀ i k, M i k ≠ 0 → φ k < φ i
  row : ∀ i k k', M i k ≠ 0 → M i k' ≠ 0 → φ k = φ k'

section
variable {M : Matrix ι ι ℂ} {φ : ι → ℕ} (hφ : Levels M φ) (hM : ∀ v, power (M *ᵥ v) ≤ power v) {a f : ι → ℂ} (ha : a = M *ᵥ a + f)

/-- What has been sent on from levels below `r` to ports of level `r` and above. -/
def cut (M : Matrix ι ι ℂ) (φ : ι → ℕ) (a : ι → ℂ) (r : ℕ) : ι → ℂ := part (fun i => r ≤ φ i) (M *ᵥ part (fun i => φ i < r) a)

theorem mulVec_congr {i : ι} {u v : ι → ℂ} (h : ∀ k, M i k ≠ 0 → u k = v k) : (M *ᵥ u) i = (M *ᵥ v) i := by
  simp only [Matrix.mulVec, dotProduct]
  refine Finset.sum_congr rfl fun k _ => ?_
  by_cases hk : M i k = 0
  · rw [hk, zero_mul, zero_mul]
  · rw [h k hk]

include hφ ha in
theorem level_eq (r : ℕ) : part (fun i => φ i = r) a = part (fun i => φ i = r) (cut M φ a r + part (fun i => φ i = r) f) := by
  funext i
  unfold part
  by_cases h : φ i = r
  · rw [if_pos h, if_pos h, Pi.add_apply, if_pos h]
    have e : cut M φ a r i = (M *ᵥ a) i := by
      unfold cut part
      rw [if_pos h.ge]
      refine mulVec_congr fun k hk => if_pos ?_
      have := hφ.up i k hk
      omega
    rw [e]
    exact congrFun ha i
  · rw [if_neg h, if_neg h]

include hφ in
theorem cut_succ (r : ℕ) : cut M φ a (r + 1) = part (fun i => r < φ i) (cut M φ a r) + M *ᵥ part (fun i => φ i = r) a := by
  funext i
  have hsplit : M *ᵥ part (fun i => φ i < r + 1) a = M *ᵥ part (fun i => φ i < r) a + M *ᵥ part (fun i => φ i = r) a := by
    rw [← Matrix.mulVec_add]
    congr 1
    funext k
    simp only [part, Pi.add_apply]
    by_cases h1 : φ k < r
    · rw [if_pos (by omega), if_pos h1, if_neg (by omega), add_zero]
    · by_cases h2 : φ k = r
      · rw [if_pos (by omega), if_neg h1, if_pos h2, zero_add]
      · rw [if_neg (by omega), if_neg h1, if_neg h2, add_zero]
  have hz : ¬r < φ i → (M *ᵥ part (fun i => φ i = r) a) i = 0 := by
    intro h
    refine mulVec_entry_zero fun k hk => if_neg ?_
    have := hφ.up i k hk
    omega
  unfold cut
  rw [hsplit]
  simp only [part, Pi.add_apply]
  by_cases h : r < φ i
  · rw [if_pos (by omega), if_pos h, if_pos h.le]
  · rw [if_neg (by omega), if_neg h, zero_add]
    exact (hz h).symm

include hφ hM ha in
theorem cut_power (r : ℕ) : power (cut M φ a (r + 1)) ≤ power (cut M φ a r + part (fun i => φ i = r) f) := by
  rw [cut_succ hφ, power_add_disjoint]
  · have h1 := hM (part (fun i => φ i = r) a)
    have h2 : cut M φ a r + part (fun i => φ i = r) f =
        part (fun i => r < φ i) (cut M φ a r) + part (fun i => φ i = r) (cut M φ a r + part (fun i => φ i = r) f) := by
      funext i
      simp only [part, Pi.add_apply]
      by_cases h : r < φ i
      · rw [if_neg (show ¬φ i = r by omega), if_neg (show ¬φ i = r by omega), if_pos h, add_zero]
      · by_cases h' : φ i = r
        · rw [if_pos h', if_neg h, zero_add, if_pos h']
        · rw [if_neg h', if_neg h, if_neg h', add_zero, add_zero]
          unfold cut part
          rw [if_neg (by omega)]
    rw [h2, power_add_disjoint, ← level_eq hφ ha]
    · linarith
    · intro i
      by_cases h : r < φ i
      · exact .inr (if_neg (by omega))
      · exact .inl (if_neg h)
  · intro i
    by_cases h : ∃ k, M i k ≠ 0 ∧ φ k = r
    · left
      obtain ⟨k, hk, hr⟩ := h
      unfold part
      split
      · unfold cut part
        split
        · refine mulVec_entry_zero fun k' hk' => if_neg ?_
          have := hφ.row i k k' hk hk'
          omega
        · rfl
      · rfl
    · right
      push Not at h
      exact mulVec_entry_zero fun k hk => if_neg (h k hk)

include hφ ha in
theorem level_power (r : ℕ) : power (part (fun i => φ i = r) a) ≤ power (cut M φ a r + part (fun i => φ i = r) f) := by
  rw [level_eq hφ ha]
  exact power_part_le _ _

theorem cut_zero : cut M φ a 0 = 0 := by
  have e : part (fun i => φ i < 0) a = 0 := by
    funext i
    exact if_neg (by omega)
  unfold cut
  rw [e, Matrix.mulVec_zero]
  funext i
  unfold part
  split <;> rfl

theorem sum_levels (u : ι → ℂ) (n : ℕ) : ∑ r ∈ Finset.range n, power (part (fun i => φ i = r) u) ≤ power u := by
  unfold power
  rw [Finset.sum_comm]
  refine Finset.sum_le_sum fun i _ => ?_
  by_cases h : φ i < n
  · rw [Finset.sum_eq_single (φ i)]
    · exact le_of_eq (by unfold part; rw [if_pos rfl])
    · intro r _ hr
      unfold part
      rw [if_neg (Ne.symm hr), Complex.normSq_zero]
    · intro hn
      exact absurd (Finset.mem_range.2 h) hn
  · refine le_trans (le_of_eq (Finset.sum_eq_zero fun r hr => ?_)) (Complex.normSq_nonneg _)
    unfold part
    rw [if_neg (by have := Finset.mem_range.1 hr; omega), Complex.normSq_zero]

theorem sum_all (u : ι → ℂ) (n : ℕ) (hn : ∀ i, φ i < n) : power u = ∑ r ∈ Finset.range n, power (part (fun i => φ i = r) u) := by
  unfold power
  rw [Finset.sum_comm]
  refine Finset.sum_congr rfl fun i _ => ?_
  rw [Finset.sum_eq_single (φ i)]
  · unfold part; rw [if_pos rfl]
  · intro r _ hr
    unfold part
    rw [if_neg (Ne.symm hr), Complex.normSq_zero]
  · intro h
    exact absurd (Finset.mem_range.2 (hn i)) h

include hφ hM ha in
/-- Light from sources that do not interfere with other light: each level carries at most all of it. -/
theorem field_of_sources (hf : ∀ i, f i ≠ 0 → ∀ k, M i k = 0) (D : ℕ) (hD : ∀ i, φ i ≤ D) : power a ≤ (D + 1) * power f := by
  have hdis : ∀ r, power (cut M φ a r + part (fun i => φ i = r) f) = power (cut M φ a r) + power (part (fun i => φ i = r) f) := by
    intro r
    refine power_add_disjoint fun i => ?_
    by_cases h : f i = 0
    · right
      unfold part
      split
      · exact h
      · rfl
    · left
      unfold cut part
      split
      · exact mulVec_entry_zero fun k hk => absurd (hf i h k) hk
      · rfl
  have hcut : ∀ r, power (cut M φ a r) ≤ ∑ q ∈ Finset.range r, power (part (fun i => φ i = q) f) := by
    intro r
    induction r with
    | zero => rw [cut_zero]; simp [power]
    | succ r ih =>
      rw [Finset.sum_range_succ]
      have := cut_power hφ hM ha r
      rw [hdis] at this
      linarith
  have hlev : ∀ r, power (part (fun i => φ i = r) a) ≤ power f := by
    intro r
    have h1 := level_power hφ ha r
    rw [hdis] at h1
    have h2 := hcut r
    have h3 := sum_levels (φ := φ) f (r + 1)
    rw [Finset.sum_range_succ] at h3
    linarith
  rw [sum_all (φ := φ) a (D + 1) (fun i => by have := hD i; omega)]
  refine (Finset.sum_le_sum fun r _ => hlev r).trans (le_of_eq ?_)
  rw [Finset.sum_const, Finset.card_range, nsmul_eq_mul]
  push_cast
  ring

include hφ hM ha in
/-- Light that is added anywhere on the way to level `r`. -/
theorem level_of_any (r : ℕ) : √(power (part (fun i => φ i = r) a)) ≤ √(r + 1) * √(power f) := by
  have hcut : ∀ r, √(power (cut M φ a r)) ≤ ∑ q ∈ Finset.range r, √(power (part (fun i => φ i = q) f)) := by
    intro r
    induction r with
    | zero => rw [cut_zero]; simp [power]
    | succ r ih =>
      rw [Finset.sum_range_succ]
      have h1 := Real.sqrt_le_sqrt (cut_power hφ hM ha r)
      have h2 := sqrt_power_add (cut M φ a r) (part (fun i => φ i = r) f)
      linarith
  have h1 := Real.sqrt_le_sqrt (level_power hφ ha r)
  have h2 := sqrt_power_add (cut M φ a r) (part (fun i => φ i = r) f)
  have h3 : √(power (part (fun i => φ i = r) a)) ≤ ∑ q ∈ Finset.range (r + 1), √(power (part (fun i => φ i = q) f)) := by
    rw [Finset.sum_range_succ]
    have := hcut r
    linarith
  refine h3.trans ?_
  have h4 : (∑ q ∈ Finset.range (r + 1), √(power (part (fun i => φ i = q) f))) ^ 2 ≤ (r + 1) * power f := by
    refine (sq_sum_le_card_mul_sum_sq (s := Finset.range (r + 1)) (f := fun q => √(power (part (fun i => φ i = q) f)))).trans ?_
    rw [Finset.card_range]
    push_cast
    refine mul_le_mul_of_nonneg_left ?_ (by positivity)
    refine le_trans (le_of_eq (Finset.sum_congr rfl fun q _ => Real.sq_sqrt (power_nonneg _))) (sum_levels (φ := φ) f (r + 1))
  rw [← Real.sqrt_mul (by positivity)]
  exact Real.le_sqrt_of_sq_le h4

end

/-- The error of what is detected, for circuits in which light passes from column to column: errors add up, once per column. -/
theorem columns_near [DecidableEq ι] {C : Matrix ι ι ℝ} (hC : Paired C) {S S' : Matrix ι ι ℂ} (hS : Contracts S) {φ : ι → ℕ}
    (hφ : Levels (cx C 0 * S) φ) {D : ℕ} (hD : ∀ i, φ i ≤ D) {ε : ℝ} (h0 : 0 ≤ ε) (hε : DeviatesBy ε S S') (hs : (D + 1) * ε < 1)
    {q : ι → Bool} (hq : ∀ i, q i = true → ∀ j, S j i = 0) {s a b a' b' : ι → ℂ} (hsrc : ∀ i, s i ≠ 0 → ∀ j, S i j = 0)
    (h : SolvesStatic (cx C 0) S s a b) (h' : SolvesStatic (cx C 0) S' s a' b') :
    √(power (part (fun i => q i = true) (a' - a))) ≤ (D + 2) * ε / (1 - (D + 1) * ε) * √(power s) := by
  set M := cx C 0 * S with hMd
  have hM : ∀ v, power (M *ᵥ v) ≤ power v := fun v => by
    rw [hMd, ← Matrix.mulVec_mulVec, power_paired hC]
    exact hS v
  have hfield : ∀ {s a b}, SolvesStatic (cx C 0) S s a b → a = M *ᵥ a + cx C 0 *ᵥ s := fun {s a b} h => by
    rw [hMd, ← Matrix.mulVec_mulVec, ← Matrix.mulVec_add, ← h.outgoing]
    exact h.incoming
  -- the exact fields
  have hrow : ∀ i, (cx C 0 *ᵥ s) i ≠ 0 → ∀ k, M i k = 0 := by
    obtain ⟨σ, -, hσ⟩ := hC
    have hcx : ∀ i j, cx C 0 i j = if j = σ i then 1 else 0 := by
      intro i j
      apply Complex.ext
      · show C i j = _
        rw [hσ]
        split <;> rfl
      · show (0 : ℝ) = _
        split <;> rfl
    intro i hi k
    have e : (cx C 0 *ᵥ s) i = s (σ i) := by
      simp only [Matrix.mulVec, dotProduct, hcx, ite_mul, one_mul, zero_mul, Finset.sum_ite_eq', Finset.mem_univ, if_true]
    rw [e] at hi
    rw [hMd, Matrix.mul_apply]
    simp only [hcx, ite_mul, one_mul, zero_mul, Finset.sum_ite_eq', Finset.mem_univ, if_true]
    exact hsrc _ hi k
  have h1 : √(power a) ≤ √(D + 1) * √(power s) := by
    have := field_of_sources hφ hM (hfield h) hrow D hD
    rw [power_paired hC] at this
    rw [← Real.sqrt_mul (by positivity)]
    exact Real.sqrt_le_sqrt this
  -- the errors
  have hd := diff_solves h h'
  have h2 : √(power (a' - a)) ≤ (D + 1) * (ε * √(power a')) := by
    have hk := enhances_of_potential hC S hS φ D hφ.up hD _ _ _ hd
    exact hk.trans (mul_le_mul_of_nonneg_left (hε a') (by positivity))
  have h3 : √(power a') ≤ √(power (a' - a)) + √(power a) := by
    have := sqrt_power_add (a' - a) a
    rwa [sub_add_cancel] at this
  have hpos : 0 < 1 - (D + 1) * ε := by linarith
  have h4 : √(power a') ≤ √(D + 1) * √(power s) / (1 - (D + 1) * ε) := by
    rw [le_div_iff₀ hpos]
    linarith
  -- detectors are put behind the last column
  have hφ' : Levels M fun i => if q i = true then D + 1 else φ i := by
    have hnq : ∀ i k, M i k ≠ 0 → q k = false := by
      intro i k hk
      by_contra hc
      rw [Bool.not_eq_false] at hc
      apply hk
      rw [hMd, Matrix.mul_apply]
      exact Finset.sum_eq_zero fun j _ => by rw [hq k hc j, mul_zero]
    constructor
    · intro i k hk
      have h5 := hφ.up i k hk
      have h6 := hnq i k hk
      have h7 := hD k
      rw [h6, if_neg (by simp)]
      split <;> omega
    · intro i k k' hk hk'
      rw [hnq i k hk, hnq i k' hk', if_neg (by simp), if_neg (by simp)]
      exact hφ.row i k k' hk hk'
  have h5 := level_of_any hφ' hM (hfield hd) (D + 1)
  have e5 : part (fun i => (if q i = true then D + 1 else φ i) = D + 1) (a' - a) = part (fun i => q i = true) (a' - a) := by
    funext i
    unfold part
    by_cases hqi : q i = true
    · rw [if_pos hqi, if_pos (if_pos hqi)]
    · rw [if_neg hqi]
      refine if_neg ?_
      show ¬(if q i = true then D + 1 else φ i) = D + 1
      rw [if_neg hqi]
      have := hD i
      omega
  rw [e5, power_paired hC] at h5
  have h6 := hε a'
  have h7 : √((D + 1 : ℕ) + 1 : ℝ) = √(D + 2) := by
    congr 1
    push_cast
    ring
  rw [h7] at h5
  have h8 : √(D + 2 : ℝ) * √(D + 1) ≤ D + 2 := by
    have h9 : √(D + 1 : ℝ) ≤ √(D + 2) := Real.sqrt_le_sqrt (by linarith)
    have h10 : √(D + 2 : ℝ) * √(D + 2) = D + 2 := Real.mul_self_sqrt (by positivity)
    nlinarith [Real.sqrt_nonneg (D + 2 : ℝ)]
  calc √(power (part (fun i => q i = true) (a' - a))) ≤ √(D + 2) * √(power ((S' - S) *ᵥ a')) := h5
    _ ≤ √(D + 2) * (ε * √(power a')) := mul_le_mul_of_nonneg_left h6 (Real.sqrt_nonneg _)
    _ ≤ √(D + 2) * (ε * (√(D + 1) * √(power s) / (1 - (D + 1) * ε))) := by gcongr
    _ = (√(D + 2) * √(D + 1)) * (ε / (1 - (D + 1) * ε) * √(power s)) := by ring
    _ ≤ (D + 2) * (ε / (1 - (D + 1) * ε) * √(power s)) := by gcongr
    _ = (D + 2) * ε / (1 - (D + 1) * ε) * √(power s) := by ring

end Sens

end PT
