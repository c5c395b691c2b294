import Verif.Spec.Sim
import Mathlib.Algebra.BigOperators.Intervals
import Mathlib.Algebra.Star.BigOperators

/-!
# Energy balance of the circuit equations
-/

namespace PT

open Matrix Spec

variable {ι : Type} [Fintype ι] [DecidableEq ι]

theorem power_paired {C : Matrix ι ι ℝ} (h : Paired C) (v : ι → ℂ) : power (cx C 0 *ᵥ v) = power v := by
  obtain ⟨σ, hσ, hC⟩ := h
  have h1 : ∀ i, (cx C 0 *ᵥ v) i = v (σ i) := by
    intro i
    simp only [Matrix.mulVec, dotProduct]
    rw [Finset.sum_eq_single (σ i)]
    · have : cx C 0 i (σ i) = 1 := by
        apply Complex.ext
        · show C i (σ i) = 1; rw [hC, if_pos rfl]
        · rfl
      rw [this, one_mul]
    · intro j _ hj
      have : cx C 0 i j = 0 := by
        apply Complex.ext
        · show C i j = 0; rw [hC, if_neg hj]
        · rfl
      rw [this, zero_mul]
    · simp
  unfold power
  simp only [h1]
  exact Fintype.sum_bijective σ hσ.bijective _ _ fun _ => rfl

/-- Power at ports with and without a property. -/
theorem power_split (q : ι → Bool) (v : ι → ℂ) :
    power v = powerAt q v + powerAt (fun i => !q i) v := by
  unfold power powerAt
  rw [← Finset.sum_add_distrib]
  apply Finset.sum_congr rfl
  intro i _
  cases h : q i <;> simp [h]

theorem power_add_disjoint (q : ι → Bool) (u v : ι → ℂ) (hu : ∀ i, q i = true → u i = 0)
    (hv : ∀ i, q i = false → v i = 0) : power (u + v) = power u + power v := by
  unfold power
  rw [← Finset.sum_add_distrib]
  apply Finset.sum_congr rfl
  intro i _
  cases h : q i with
  | true => simp [hu i h]
  | false => simp [hv i h]

/-- The part of a vector away from some ports. -/
def mask (q : ι → Bool) (v : ι → ℂ) : ι → ℂ := fun i => if q i then 0 else v i

theorem power_mask (q : ι → Bool) (v : ι → ℂ) : power (mask q v) = powerAt (fun i => !q i) v := by
  unfold power powerAt mask
  apply Finset.sum_congr rfl
  intro i _
  cases h : q i <;> simp [h]

theorem mulVec_mask (S : Matrix ι ι ℂ) (q : ι → Bool) (h : ∀ j, q j = true → ∀ i, S i j = 0) (v : ι → ℂ) :
    S *ᵥ mask q v = S *ᵥ v := by
  funext i
  simp only [Matrix.mulVec, dotProduct, mask]
  apply Finset.sum_congr rfl
  intro j _
  cases hj : q j with
  | true => simp [h j hj]
  | false => simp

theorem powerAt_nonneg (q : ι → Bool) (v : ι → ℂ) : 0 ≤ powerAt q v := by
  unfold powerAt
  apply Finset.sum_nonneg
  intro i _
  split
  · exact Complex.normSq_nonneg _
  · exact le_rfl

theorem sum_delayed_le (d : ℕ) (a : ℕ → ℝ) (ha : ∀ t, 0 ≤ a t) (T : ℕ) :
    ∑ t ∈ Finset.range T, (if d ≤ t then a (t - d) else 0) ≤ ∑ t ∈ Finset.range T, a t := by
  by_cases hd : d ≤ T
  · obtain ⟨n, rfl⟩ := Nat.exists_eq_add_of_le hd
    rw [Finset.sum_range_add]
    have h0 : ∑ x ∈ Finset.range d, (if d ≤ x then a (x - d) else 0) = 0 := by
      apply Finset.sum_eq_zero
      intro x hx
      rw [Finset.mem_range] at hx
      rw [if_neg (by omega)]
    rw [h0, zero_add]
    have h1 : ∀ x, (if d ≤ d + x then a (d + x - d) else 0) = a x := by
      intro x
      rw [if_pos (by omega), Nat.add_sub_cancel_left]
    simp only [h1]
    exact Finset.sum_le_sum_of_subset_of_nonneg
      (Finset.range_subset_range.2 (by omega)) fun i _ _ => ha i
  · have : ∑ t ∈ Finset.range T, (if d ≤ t then a (t - d) else 0) = 0 := by
      apply Finset.sum_eq_zero
      intro x hx
      rw [Finset.mem_range] at hx
      rw [if_neg (by omega)]
    rw [this]
    exact Finset.sum_nonneg fun i _ => ha i

theorem powerAt_delayed_le (q : ι → Bool) (d : ι → ℕ) (a : ℕ → ι → ℂ) (T : ℕ) :
    ∑ t ∈ Finset.range T, powerAt q (delayed d a t) ≤ ∑ t ∈ Finset.range T, powerAt q (a t) := by
  unfold powerAt
  rw [Finset.sum_comm, Finset.sum_comm (s := Finset.range T)]
  apply Finset.sum_le_sum
  intro i _
  cases q i with
  | false => simp
  | true =>
    simp only [if_true]
    have := sum_delayed_le (d i) (fun t => Complex.normSq (a t i)) (fun t => Complex.normSq_nonneg _) T
    refine le_trans (le_of_eq ?_) this
    apply Finset.sum_congr rfl
    intro t _
    simp only [delayed]
    split
    · rfl
    · simp

/-- Energy balance in time: what arrives at the terminals is at most what the sources emitted. -/
theorem energy_le {C : Matrix ι ι ℝ} (hC : Paired C) (S : Matrix ι ι ℂ) (hS : Contracts S)
    (term : ι → Bool) (hrow : ∀ i, term i = true → ∀ j, S i j = 0)
    (hcol : ∀ j, term j = true → ∀ i, S i j = 0) (d : ι → ℕ) (T : ℕ) (s a b : ℕ → ι → ℂ)
    (hs : ∀ t i, term i = false → s t i = 0) (h : Solves (cx C 0) S d T s a b) :
    ∑ t ∈ Finset.range T, powerAt term (a t) ≤ ∑ t ∈ Finset.range T, power (s t) := by
  have h1 : ∀ t < T, power (a t) ≤ powerAt (fun i => !term i) (delayed d a t) + power (s t) := by
    intro t ht
    rw [h.incoming t ht, power_paired hC, h.outgoing t ht,
      power_add_disjoint term _ _ (fun i hi => by simp [Matrix.mulVec, dotProduct, hrow i hi]) (hs t),
      ← mulVec_mask S term hcol, ← power_mask]
    have := hS (mask term (delayed d a t))
    linarith
  have h2 : ∑ t ∈ Finset.range T, power (a t) ≤
      ∑ t ∈ Finset.range T, powerAt (fun i => !term i) (delayed d a t) +
        ∑ t ∈ Finset.range T, power (s t) := by
    rw [← Finset.sum_add_distrib]
    exact Finset.sum_le_sum fun t ht => h1 t (Finset.mem_range.1 ht)
  have h3 := powerAt_delayed_le (fun i => !term i) d a T
  have h4 : ∑ t ∈ Finset.range T, power (a t) = ∑ t ∈ Finset.range T, powerAt term (a t) +
      ∑ t ∈ Finset.range T, powerAt (fun i => !term i) (a t) := by
    rw [← Finset.sum_add_distrib]
    exact Finset.sum_congr rfl fun t _ => power_split term (a t)
  linarith

theorem power_star (v : ι → ℂ) : (power v : ℂ) = ∑ i, star (v i) * v i := by
  unfold power
  rw [Complex.ofReal_sum]
  apply Finset.sum_congr rfl
  intro i _
  rw [Complex.normSq_eq_conj_mul_self]
  rfl

theorem lossless_power {S : Matrix ι ι ℂ} {term : ι → Bool} (h : Lossless S term) (v : ι → ℂ) :
    power (S *ᵥ v) = powerAt (fun i => !term i) v := by
  have : (power (S *ᵥ v) : ℂ) = (powerAt (fun i => !term i) v : ℝ) := by
    rw [power_star]
    simp only [Matrix.mulVec, dotProduct, star_sum, star_mul', Finset.sum_mul, Finset.mul_sum]
    calc ∑ k, ∑ j, ∑ i, star (S k i) * star (v i) * (S k j * v j)
        = ∑ i, ∑ j, star (v i) * v j * ∑ k, star (S k i) * S k j := by
          rw [Finset.sum_comm' (t' := Finset.univ) (s' := fun _ => Finset.univ) (by simp)]
          rw [Finset.sum_comm (s := Finset.univ) (t := Finset.univ)
            (f := fun i j => star (v i) * v j * ∑ k, star (S k i) * S k j)]
          apply Finset.sum_congr rfl
          intro j _
          rw [Finset.sum_comm]
          apply Finset.sum_congr rfl
          intro i _
          rw [Finset.mul_sum]
          apply Finset.sum_congr rfl
          intro k _
          ring
      _ = _ := by
          unfold powerAt
          rw [Complex.ofReal_sum]
          apply Finset.sum_congr rfl
          intro i _
          rw [Finset.sum_eq_single i]
          · rw [h i i]
            show _ = (((if (!term i) = true then Complex.normSq (v i) else 0 : ℝ)) : ℂ)
            cases ht : term i with
            | true => simp
            | false =>
              simp only [and_self, if_true, mul_one, Bool.not_false]
              rw [Complex.normSq_eq_conj_mul_self]
              rfl
          · intro j _ hj
            rw [h i j, if_neg (fun hh => hj hh.1.symm), mul_zero]
          · simp
  exact_mod_cast this

theorem lossless_col {S : Matrix ι ι ℂ} {term : ι → Bool} (h : Lossless S term) (j : ι)
    (hj : term j = true) (i : ι) : S i j = 0 := by
  have h1 := lossless_power h (Pi.single j 1)
  have h2 : powerAt (fun i => !term i) (Pi.single j (1 : ℂ)) = 0 := by
    unfold powerAt
    apply Finset.sum_eq_zero
    intro k _
    by_cases hk : k = j
    · subst hk; simp [hj]
    · simp [hk]
  rw [h2] at h1
  unfold power at h1
  have h3 := (Finset.sum_eq_zero_iff_of_nonneg (fun i _ => Complex.normSq_nonneg _)).1 h1 i (Finset.mem_univ _)
  simpa using h3

/-- Power balance in the steady state. -/
theorem power_balance {C : Matrix ι ι ℝ} (hC : Paired C) (S : Matrix ι ι ℂ)
    (term : ι → Bool) (hS : Lossless S term) (hrow : ∀ i, term i = true → ∀ j, S i j = 0)
    (s a b : ι → ℂ) (hs : ∀ i, term i = false → s i = 0) (h : SolvesStatic (cx C 0) S s a b) :
    powerAt term a = power s := by
  have h1 : power a = powerAt (fun i => !term i) a + power s := by
    conv_lhs => rw [h.incoming, power_paired hC, h.outgoing]
    rw [power_add_disjoint term _ _ (fun i hi => by simp [Matrix.mulVec, dotProduct, hrow i hi]) hs,
      lossless_power hS]
  have h2 := power_split term a
  linarith

/-- Reciprocity of the circuit equations. -/
theorem reciprocal (C S : Matrix ι ι ℂ) (hC : Cᵀ = C) (hS : Sᵀ = S) (s a b s' a' b' : ι → ℂ)
    (h : SolvesStatic C S s a b) (h' : SolvesStatic C S s' a' b') : s' ⬝ᵥ a = a' ⬝ᵥ s := by
  have h1 : b' ⬝ᵥ a = a' ⬝ᵥ b := by
    rw [h.incoming, h'.incoming, Matrix.dotProduct_mulVec, ← Matrix.mulVec_transpose, hC]
  rw [h.outgoing, h'.outgoing, add_dotProduct, dotProduct_add, Matrix.dotProduct_mulVec,
    ← Matrix.mulVec_transpose, hS] at h1
  exact add_left_cancel h1

end PT
