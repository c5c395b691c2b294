import Verif.Proof.Stable
import Verif.Spec.Damped
import Verif.Proof.Energy

/-!
# The response of a damped circuit to a modulated source
-/

namespace PT
open Matrix Spec Filter Topology

variable {ι : Type} [Fintype ι]

/-- Waves that grow are not possible in a circuit that does not amplify. -/
theorem damped_outside [DecidableEq ι] {C : Matrix ι ι ℝ} (hC : Paired C) (S : Matrix ι ι ℂ) (hS : Contracts S) (d : ι → ℕ)
    (h0 : ∀ v : ι → ℂ, v = (cx C 0 * S) *ᵥ (fun k => if d k = 0 then v k else 0) → v = 0) (hd : Damped (cx C 0) S d)
    (z : ℂ) (hz : 1 ≤ ‖z‖) (v : ι → ℂ) (hv : v = (cx C 0 * S) *ᵥ (fun k => (z ^ d k)⁻¹ * v k)) : v = 0 := by
  rw [← Matrix.mulVec_mulVec] at hv
  rcases hz.eq_or_lt with h1 | h1
  · exact hd z h1.symm v hv
  -- the delayed ports are dark
  have hn : ∀ k, Complex.normSq ((z ^ d k)⁻¹ * v k) ≤ Complex.normSq (v k) ∧
      (Complex.normSq ((z ^ d k)⁻¹ * v k) = Complex.normSq (v k) → d k = 0 ∨ v k = 0) := by
    intro k
    have hz2 : 1 < Complex.normSq z := by
      rw [Complex.normSq_eq_norm_sq]
      nlinarith
    have e : Complex.normSq ((z ^ d k)⁻¹ * v k) = (Complex.normSq z ^ d k)⁻¹ * Complex.normSq (v k) := by
      rw [Complex.normSq_mul, Complex.normSq_inv, map_pow]
    have hv0 := Complex.normSq_nonneg (v k)
    by_cases hk : d k = 0
    · rw [e, hk]
      simp
    · have h2 : 1 < Complex.normSq z ^ d k := one_lt_pow₀ hz2 hk
      have h3 : (Complex.normSq z ^ d k)⁻¹ < 1 := inv_lt_one_of_one_lt₀ h2
      rw [e]
      refine ⟨by nlinarith, fun h => ?_⟩
      right
      have : Complex.normSq (v k) = 0 := by nlinarith
      exact Complex.normSq_eq_zero.1 this
  have hle : power v ≤ power (fun k => (z ^ d k)⁻¹ * v k) := by
    conv_lhs => rw [hv]
    rw [power_paired hC]
    exact hS _
  have heq : ∀ k ∈ Finset.univ, Complex.normSq ((z ^ d k)⁻¹ * v k) = Complex.normSq (v k) := by
    refine (Finset.sum_eq_sum_iff_of_le fun k _ => (hn k).1).1 ?_
    refine le_antisymm (Finset.sum_le_sum fun k _ => (hn k).1) hle
  refine h0 v ?_
  rw [← Matrix.mulVec_mulVec]
  conv_lhs => rw [hv]
  congr 2
  funext k
  by_cases hk : d k = 0
  · rw [if_pos hk, hk]
    simp
  · rw [if_neg hk]
    have := (hn k).2 (heq k (Finset.mem_univ k))
    rw [this.resolve_left hk, mul_zero]

/-- A solution for all times. -/
noncomputable def solveAll (g : (ι → ℂ) → ι → ℂ) (M : Matrix ι ι ℂ) (d : ι → ℕ) (c : ℕ → ι → ℂ) (t : ℕ) : ι → ℂ :=
  g (M *ᵥ (fun k => if _ : d k ≠ 0 ∧ d k ≤ t then solveAll g M d c (t - d k) k else 0) + c t)
termination_by t
decreasing_by omega

theorem solution_exists (M : Matrix ι ι ℂ) (d : ι → ℕ)
    (h0 : ∀ v : ι → ℂ, v = M *ᵥ (fun k => if d k = 0 then v k else 0) → v = 0) (c : ℕ → ι → ℂ) :
    ∃ a : ℕ → ι → ℂ, ∀ t, a t = M *ᵥ delayed d a t + c t := by
  let f : (ι → ℂ) →ₗ[ℂ] (ι → ℂ) :=
    { toFun := fun v => v - M *ᵥ (fun k => if d k = 0 then v k else 0)
      map_add' := by
        intro u v
        have : (fun k => if d k = 0 then (u + v) k else 0) =
            (fun k => if d k = 0 then u k else 0) + fun k => if d k = 0 then v k else 0 := by
          funext k
          by_cases h : d k = 0 <;> simp [h]
        rw [this, Matrix.mulVec_add]
        abel
      map_smul' := by
        intro x v
        have : (fun k => if d k = 0 then (x • v) k else 0) = x • fun k => if d k = 0 then v k else 0 := by
          funext k
          by_cases h : d k = 0 <;> simp [h]
        rw [this, Matrix.mulVec_smul, smul_sub]
        rfl }
  have hinj : Function.Injective f := by
    rw [← LinearMap.ker_eq_bot, LinearMap.ker_eq_bot']
    intro v hv
    exact h0 v (sub_eq_zero.1 hv)
  obtain ⟨g, hg⟩ := (LinearMap.injective_iff_surjective.1 hinj).hasRightInverse
  refine ⟨solveAll g M d c, fun t => ?_⟩
  have h1 := hg (M *ᵥ (fun k => if _ : d k ≠ 0 ∧ d k ≤ t then solveAll g M d c (t - d k) k else 0) + c t)
  have h2 : g (M *ᵥ (fun k => if _ : d k ≠ 0 ∧ d k ≤ t then solveAll g M d c (t - d k) k else 0) + c t) = solveAll g M d c t := by
    rw [solveAll]
  rw [h2] at h1
  have h3 : solveAll g M d c t - M *ᵥ (fun k => if d k = 0 then solveAll g M d c t k else 0) = _ := h1
  rw [sub_eq_iff_eq_add] at h3
  rw [h3, add_right_comm, ← Matrix.mulVec_add]
  congr 2
  funext k
  unfold delayed
  simp only [Pi.add_apply]
  by_cases hk : d k = 0
  · simp [hk]
  · by_cases hl : d k ≤ t <;> simp [hk, hl]

theorem solution_unique (M : Matrix ι ι ℂ) (d : ι → ℕ)
    (h0 : ∀ v : ι → ℂ, v = M *ᵥ (fun k => if d k = 0 then v k else 0) → v = 0) (c : ℕ → ι → ℂ) (T : ℕ) (a a' : ℕ → ι → ℂ)
    (h : ∀ t < T, a t = M *ᵥ delayed d a t + c t) (h' : ∀ t < T, a' t = M *ᵥ delayed d a' t + c t) (t : ℕ) (ht : t < T) :
    a t = a' t := by
  induction t using Nat.strong_induction_on with
  | _ t ih =>
    rw [← sub_eq_zero]
    refine h0 _ ?_
    conv_lhs => rw [h t ht, h' t ht, add_sub_add_right_eq_sub, ← Matrix.mulVec_sub]
    congr 1
    funext k
    simp only [Pi.sub_apply, delayed]
    by_cases hk : d k = 0
    · simp [hk]
    · by_cases hl : d k ≤ t
      · rw [if_pos hl, if_pos hl, if_neg hk, ih (t - d k) (by omega) (by omega), sub_self]
      · simp [hk, hl]

/-- Driven with a source that is multiplied by `z` in every step, a circuit without oscillations that grow or persist approaches the
static solution for the scattering matrix in which every delay is replaced by the corresponding power of `z`. -/
theorem settle_stable [DecidableEq ι] (C : Matrix ι ι ℝ) (S S' : Matrix ι ι ℂ) (d : ι → ℕ)
    (h0 : ∀ v : ι → ℂ, v = (cx C 0 * S) *ᵥ (fun k => if d k = 0 then v k else 0) → v = 0) (hd : Stable (cx C 0) S d)
    (z : ℂ) (hz : ‖z‖ = 1) (hS' : ∀ i j, S' i j = S i j * (z ^ d j)⁻¹) (s a₀ b₀ : ι → ℂ)
    (hstat : SolvesStatic (cx C 0) S' s a₀ b₀) (ε : ℝ) (hε : 0 < ε) :
    ∃ N, ∀ T a b, Solves (cx C 0) S d T (fun t => z ^ t • s) a b → ∀ t, N ≤ t → t < T → ∀ i, ‖a t i - z ^ t * a₀ i‖ < ε := by
  have hz0 : z ≠ 0 := by
    rintro rfl
    rw [norm_zero] at hz
    linarith
  obtain ⟨A, hA⟩ := solution_exists (cx C 0 * S) d h0 (fun t => z ^ t • (cx C 0 *ᵥ s))
  set D := Finset.univ.sup d with hDdef
  have hD : ∀ k, d k ≤ D := fun k => Finset.le_sup (Finset.mem_univ k)
  set e : ℕ → ι → ℂ := fun t => (z ^ t)⁻¹ • A t - a₀ with he
  have hSv : ∀ u : ι → ℂ, S' *ᵥ u = S *ᵥ fun k => (z ^ d k)⁻¹ * u k := by
    intro u
    funext i
    simp only [Matrix.mulVec, dotProduct]
    exact Finset.sum_congr rfl fun j _ => by rw [hS', mul_assoc]
  have hfree : ∀ t, D ≤ t → e t = (cx C 0 * S') *ᵥ fun k => e (t - d k) k := by
    intro t ht
    have h1 : a₀ = cx C 0 *ᵥ (S' *ᵥ a₀) + cx C 0 *ᵥ s := by
      rw [← Matrix.mulVec_add, ← hstat.outgoing]
      exact hstat.incoming
    have h2 : (z ^ t)⁻¹ • A t = cx C 0 *ᵥ (S' *ᵥ fun k => (z ^ (t - d k))⁻¹ * A (t - d k) k) + cx C 0 *ᵥ s := by
      rw [hA t, smul_add, smul_smul, inv_mul_cancel₀ (pow_ne_zero t hz0), one_smul, ← Matrix.mulVec_smul,
        ← Matrix.mulVec_mulVec, hSv]
      congr 3
      funext k
      have hk := hD k
      simp only [Pi.smul_apply, delayed, smul_eq_mul]
      rw [if_pos (by omega), ← mul_assoc]
      congr 1
      rw [← mul_inv, ← pow_add]
      congr 2
      omega
    simp only [he]
    conv_lhs => rw [h2, h1]
    rw [add_sub_add_right_eq_sub, ← Matrix.mulVec_sub, ← Matrix.mulVec_sub, Matrix.mulVec_mulVec]
    congr 1
  have hconv : ∀ i, Tendsto (fun t => e t i) atTop (𝓝 0) := by
    refine fun i => free_tendsto (cx C 0 * S') d D hD ?_ ?_ e hfree i
    · intro v hv
      refine h0 v ?_
      conv_lhs => rw [hv]
      rw [← Matrix.mulVec_mulVec, ← Matrix.mulVec_mulVec, hSv]
      congr 2
      funext k
      by_cases hk : d k = 0 <;> simp [hk]
    · intro ζ hζ v hv
      refine hd (ζ * z) (by rw [norm_mul, hz, mul_one]; exact hζ) v ?_
      conv_lhs => rw [hv]
      rw [← Matrix.mulVec_mulVec, hSv]
      congr 2
      funext k
      rw [mul_pow, mul_inv]
      ring
  have hN : ∃ N, ∀ t, N ≤ t → ∀ i, ‖e t i‖ < ε := by
    have h1 : ∀ i, ∃ N, ∀ t, N ≤ t → ‖e t i‖ < ε := by
      intro i
      obtain ⟨N, hN⟩ := (Metric.tendsto_atTop.1 (hconv i)) ε hε
      exact ⟨N, fun t ht => by simpa using hN t ht⟩
    choose N hN using h1
    exact ⟨Finset.univ.sup N, fun t ht i => hN i t ((Finset.le_sup (Finset.mem_univ i)).trans ht)⟩
  obtain ⟨N, hN⟩ := hN
  refine ⟨N, fun T a b h t hNt ht i => ?_⟩
  have hu : a t = A t := by
    refine solution_unique (cx C 0 * S) d h0 (fun t => z ^ t • (cx C 0 *ᵥ s)) T a A (fun t ht => ?_) (fun t _ => hA t) t ht
    rw [h.incoming t ht, h.outgoing t ht, Matrix.mulVec_add, Matrix.mulVec_mulVec, Matrix.mulVec_smul]
  have h1 := hN t hNt i
  have h2 : e t i = (z ^ t)⁻¹ * (a t i - z ^ t * a₀ i) := by
    rw [hu]
    simp only [he, Pi.sub_apply, Pi.smul_apply, smul_eq_mul]
    field_simp
  rw [h2, norm_mul, norm_inv, norm_pow, hz, one_pow, inv_one, one_mul] at h1
  exact h1

/-- Driven with a source that is multiplied by `z` in every step, a damped circuit approaches the static solution for the
scattering matrix in which every delay is replaced by the corresponding power of `z`. -/
theorem settle_core [DecidableEq ι] {C : Matrix ι ι ℝ} (hC : Paired C) (S S' : Matrix ι ι ℂ) (hS : Contracts S) (d : ι → ℕ)
    (h0 : ∀ v : ι → ℂ, v = (cx C 0 * S) *ᵥ (fun k => if d k = 0 then v k else 0) → v = 0) (hd : Damped (cx C 0) S d)
    (z : ℂ) (hz : ‖z‖ = 1) (hS' : ∀ i j, S' i j = S i j * (z ^ d j)⁻¹) (s a₀ b₀ : ι → ℂ)
    (hstat : SolvesStatic (cx C 0) S' s a₀ b₀) (ε : ℝ) (hε : 0 < ε) :
    ∃ N, ∀ T a b, Solves (cx C 0) S d T (fun t => z ^ t • s) a b → ∀ t, N ≤ t → t < T → ∀ i, ‖a t i - z ^ t * a₀ i‖ < ε :=
  settle_stable C S S' d h0 (fun ζ hζ a ha => damped_outside hC S hS d h0 hd ζ hζ a (by
    rw [← Matrix.mulVec_mulVec]; exact ha)) z hz hS' s a₀ b₀ hstat ε hε

/-- A circuit that does not amplify is damped if every way of the light along which it might return leads through something
that absorbs. -/
theorem damped_of_rank [DecidableEq ι] {C : Matrix ι ι ℝ} (hC : Paired C) (S : Matrix ι ι ℂ) (hS : Contracts S) (d : ι → ℕ)
    (lossy : ι → Prop) (hl : ∀ u : ι → ℂ, power (S *ᵥ u) = power u → ∀ k, lossy k → u k = 0) (φ : ι → ℕ)
    (hφ : ∀ i j, (cx C 0 * S) i j ≠ 0 → lossy j ∨ φ j < φ i) : Damped (cx C 0) S d := by
  intro z hz a ha
  set u : ι → ℂ := fun k => (z ^ d k)⁻¹ * a k with hu
  have hpu : power u = power a := by
    unfold power
    refine Finset.sum_congr rfl fun k _ => ?_
    rw [hu, Complex.normSq_mul, Complex.normSq_inv, map_pow, Complex.normSq_eq_norm_sq z, hz]
    simp
  have hdark : ∀ k, lossy k → u k = 0 := by
    refine hl u (le_antisymm (hS u) ?_)
    rw [hpu]
    conv_lhs => rw [ha]
    rw [power_paired hC]
  have key : ∀ n i, φ i < n → a i = 0 := by
    intro n
    induction n with
    | zero => intro i hi; omega
    | succ n ih =>
      intro i hi
      rw [ha, Matrix.mulVec_mulVec]
      simp only [Matrix.mulVec, dotProduct]
      refine Finset.sum_eq_zero fun j _ => ?_
      by_cases hM : (cx C 0 * S) i j = 0
      · rw [hM, zero_mul]
      · have : u j = 0 := by
          rcases hφ i j hM with h | h
          · exact hdark j h
          · rw [hu]
            show _ * a j = 0
            rw [ih j (by omega), mul_zero]
        show _ * u j = 0
        rw [this, mul_zero]
  funext i
  exact key (φ i + 1) i (by omega)

end PT
