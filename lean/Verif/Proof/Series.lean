import Verif.Spec.Sim
import Mathlib.RingTheory.PowerSeries.Basic
import Mathlib.LinearAlgebra.Matrix.Adjugate
import Mathlib.LinearAlgebra.Matrix.Polynomial
import Mathlib.Analysis.Complex.Basic

/-!
# The circuit equations as power series: reciprocity in time, and settled values
-/

namespace PT

open Matrix Spec

variable {ι : Type} [Fintype ι]

theorem conv_delay (d T : ℕ) (f g : ℕ → ℂ) :
    ∑ x ∈ Finset.antidiagonal T, (if d ≤ x.1 then f (x.1 - d) else 0) * g x.2 =
      ∑ x ∈ Finset.antidiagonal T, f x.1 * (if d ≤ x.2 then g (x.2 - d) else 0) := by
  have h : PowerSeries.coeff T ((PowerSeries.X ^ d * PowerSeries.mk f) * PowerSeries.mk g) =
      PowerSeries.coeff T (PowerSeries.mk f * (PowerSeries.X ^ d * PowerSeries.mk g)) := by
    congr 1; ring
  rw [PowerSeries.coeff_mul, PowerSeries.coeff_mul] at h
  simpa only [PowerSeries.coeff_X_pow_mul', PowerSeries.coeff_mk] using h

/-- Reciprocity in time. -/
theorem reciprocal_time (C S : Matrix ι ι ℂ) (hC : Cᵀ = C) (hS : Sᵀ = S) (d : ι → ℕ)
    (hd : ∀ i j, S i j ≠ 0 → d i = d j) (T : ℕ) (s a b s' a' b' : ℕ → ι → ℂ)
    (h : Solves C S d T s a b) (h' : Solves C S d T s' a' b') (t : ℕ) (ht : t < T) :
    ∑ x ∈ Finset.antidiagonal t, s' x.1 ⬝ᵥ a x.2 = ∑ x ∈ Finset.antidiagonal t, a' x.1 ⬝ᵥ s x.2 := by
  have h1 : ∀ x ∈ Finset.antidiagonal t, b' x.1 ⬝ᵥ a x.2 = a' x.1 ⬝ᵥ b x.2 := by
    intro x hx
    rw [Finset.mem_antidiagonal] at hx
    rw [h.incoming x.2 (by omega), h'.incoming x.1 (by omega), Matrix.dotProduct_mulVec,
      ← Matrix.mulVec_transpose, hC]
  have h2 : ∑ x ∈ Finset.antidiagonal t, (S *ᵥ delayed d a' x.1) ⬝ᵥ a x.2 =
      ∑ x ∈ Finset.antidiagonal t, a' x.1 ⬝ᵥ (S *ᵥ delayed d a x.2) := by
    have e1 : ∀ x : ℕ × ℕ, (S *ᵥ delayed d a' x.1) ⬝ᵥ a x.2 =
        ∑ i, ∑ j, S i j * ((if d j ≤ x.1 then a' (x.1 - d j) j else 0) * a x.2 i) := by
      intro x
      simp only [dotProduct, Matrix.mulVec, Finset.sum_mul, delayed]
      exact Finset.sum_congr rfl fun i _ => Finset.sum_congr rfl fun j _ => by ring
    have e2 : ∀ x : ℕ × ℕ, a' x.1 ⬝ᵥ (S *ᵥ delayed d a x.2) =
        ∑ i, ∑ j, S i j * (a' x.1 j * (if d i ≤ x.2 then a (x.2 - d i) i else 0)) := by
      intro x
      simp only [dotProduct, Matrix.mulVec, Finset.mul_sum, delayed]
      rw [Finset.sum_comm]
      refine Finset.sum_congr rfl fun i _ => Finset.sum_congr rfl fun j _ => ?_
      have : S j i = S i j := congrFun (congrFun hS i) j
      rw [this]; ring
    simp only [e1, e2]
    rw [Finset.sum_comm, Finset.sum_comm (s := Finset.antidiagonal t)]
    refine Finset.sum_congr rfl fun i _ => ?_
    rw [Finset.sum_comm, Finset.sum_comm (s := Finset.antidiagonal t)]
    refine Finset.sum_congr rfl fun j _ => ?_
    rw [← Finset.mul_sum, ← Finset.mul_sum]
    by_cases hz : S i j = 0
    · rw [hz, zero_mul, zero_mul]
    · rw [hd i j hz, conv_delay (d j) t (fun u => a' u j) (fun u => a u i)]
  have h3 := Finset.sum_congr rfl h1
  have e3 : ∑ x ∈ Finset.antidiagonal t, b' x.1 ⬝ᵥ a x.2 =
      ∑ x ∈ Finset.antidiagonal t, (S *ᵥ delayed d a' x.1) ⬝ᵥ a x.2 +
        ∑ x ∈ Finset.antidiagonal t, s' x.1 ⬝ᵥ a x.2 := by
    rw [← Finset.sum_add_distrib]
    refine Finset.sum_congr rfl fun x hx => ?_
    rw [Finset.mem_antidiagonal] at hx
    rw [h'.outgoing x.1 (by omega), add_dotProduct]
  have e4 : ∑ x ∈ Finset.antidiagonal t, a' x.1 ⬝ᵥ b x.2 =
      ∑ x ∈ Finset.antidiagonal t, a' x.1 ⬝ᵥ (S *ᵥ delayed d a x.2) +
        ∑ x ∈ Finset.antidiagonal t, a' x.1 ⬝ᵥ s x.2 := by
    rw [← Finset.sum_add_distrib]
    refine Finset.sum_congr rfl fun x hx => ?_
    rw [Finset.mem_antidiagonal] at hx
    rw [h.outgoing x.2 (by omega), dotProduct_add]
  rw [e3, e4, h2] at h3
  exact add_left_cancel h3

variable [DecidableEq ι]

/-- `1 - K D(X)` with `D(X)` the diagonal of `X ^ d i`. -/
noncomputable def delayMatrix (K : Matrix ι ι ℂ) (d : ι → ℕ) : Matrix ι ι (Polynomial ℂ) :=
  1 - Matrix.of fun i j => Polynomial.C (K i j) * Polynomial.X ^ d j

theorem delayMatrix_eval (K : Matrix ι ι ℂ) (d : ι → ℕ) :
    (delayMatrix K d).map (Polynomial.eval 1) = 1 - K := by
  ext i j
  simp only [delayMatrix, Matrix.map_apply, Matrix.sub_apply, Matrix.of_apply, Polynomial.eval_sub,
    Polynomial.eval_mul, Polynomial.eval_C, Polynomial.eval_pow, Polynomial.eval_X, one_pow, mul_one]
  by_cases h : i = j
  · subst h; simp
  · simp [h]

theorem det_eval (K : Matrix ι ι ℂ) (d : ι → ℕ) :
    (delayMatrix K d).det.eval 1 = (1 - K).det := by
  rw [← delayMatrix_eval K d]
  exact RingHom.map_det (Polynomial.evalRingHom (1 : ℂ)) (delayMatrix K d)

theorem adjugate_eval (K : Matrix ι ι ℂ) (d : ι → ℕ) (i j : ι) :
    ((delayMatrix K d).adjugate i j).eval 1 = (1 - K).adjugate i j := by
  rw [← delayMatrix_eval K d]
  have := RingHom.map_adjugate (Polynomial.evalRingHom (1 : ℂ)) (delayMatrix K d)
  exact congrFun (congrFun this i) j

theorem coeff_mul_congr (p : PowerSeries ℂ) (f g : PowerSeries ℂ) (t : ℕ)
    (h : ∀ k ≤ t, PowerSeries.coeff k f = PowerSeries.coeff k g) :
    PowerSeries.coeff t (p * f) = PowerSeries.coeff t (p * g) := by
  rw [PowerSeries.coeff_mul, PowerSeries.coeff_mul]
  refine Finset.sum_congr rfl fun x hx => ?_
  rw [Finset.mem_antidiagonal] at hx
  rw [h x.2 (by omega)]

/-- Cramer's rule for the circuit equations with a constant source, one time step at a time. -/
theorem cramer_step (K : Matrix ι ι ℂ) (d : ι → ℕ) (T : ℕ) (c : ι → ℂ) (a : ℕ → ι → ℂ)
    (h : ∀ t < T, a t = K *ᵥ delayed d a t + c) (q : ι) (t : ℕ) (ht : t < T) :
    ∑ x ∈ Finset.antidiagonal t, (delayMatrix K d).det.coeff x.1 * a x.2 q =
      ∑ j, ∑ x ∈ Finset.antidiagonal t, ((delayMatrix K d).adjugate q j).coeff x.1 * c j := by
  set M := (delayMatrix K d).map (Polynomial.coeToPowerSeries.ringHom : Polynomial ℂ →+* PowerSeries ℂ) with hM
  set A : ι → PowerSeries ℂ := fun i => PowerSeries.mk fun t => a t i with hA
  have hMA : ∀ j, ∀ k < T, PowerSeries.coeff k ((M *ᵥ A) j) = c j := by
    intro j k hk
    have e : (M *ᵥ A) j = A j - ∑ i, PowerSeries.C (K j i) * (PowerSeries.X ^ d i * A i) := by
      have : M = 1 - Matrix.of fun i j => PowerSeries.C (K i j) * PowerSeries.X ^ d j := by
        ext1 i j
        simp only [hM, delayMatrix, Matrix.map_apply, Matrix.sub_apply, Matrix.of_apply]
        by_cases hij : i = j
        · subst hij; simp
        · simp [hij]
      rw [this, Matrix.sub_mulVec, Matrix.one_mulVec, Pi.sub_apply]
      congr 1
      simp only [Matrix.mulVec, dotProduct, Matrix.of_apply, mul_assoc]
    rw [e, map_sub, map_sum]
    simp only [PowerSeries.coeff_C_mul, PowerSeries.coeff_X_pow_mul', hA, PowerSeries.coeff_mk]
    have h2 := congrFun (h k hk) j
    rw [Pi.add_apply] at h2
    rw [h2]
    simp only [Matrix.mulVec, dotProduct, delayed]
    ring
  have hdet : M.det * A q = ∑ j, M.adjugate q j * (M *ᵥ A) j := by
    have : M.adjugate *ᵥ (M *ᵥ A) = M.det • A := by
      rw [Matrix.mulVec_mulVec, Matrix.adjugate_mul, Matrix.smul_mulVec, Matrix.one_mulVec]
    have := congrFun this q
    rw [Pi.smul_apply, smul_eq_mul] at this
    rw [← this]
    rfl
  have h1 := congrArg (PowerSeries.coeff t) hdet
  have hd1 : M.det = ((delayMatrix K d).det : PowerSeries ℂ) :=
    (RingHom.map_det (Polynomial.coeToPowerSeries.ringHom : Polynomial ℂ →+* PowerSeries ℂ)
      (delayMatrix K d)).symm
  have hd2 : ∀ j, M.adjugate q j = ((delayMatrix K d).adjugate q j : PowerSeries ℂ) := fun j => by
    have := RingHom.map_adjugate (Polynomial.coeToPowerSeries.ringHom : Polynomial ℂ →+* PowerSeries ℂ)
      (delayMatrix K d)
    exact (congrFun (congrFun this q) j).symm
  rw [map_sum, hd1, PowerSeries.coeff_mul] at h1
  simp only [hA, PowerSeries.coeff_mk, Polynomial.coeff_coe] at h1
  rw [h1]
  refine Finset.sum_congr rfl fun j _ => ?_
  rw [coeff_mul_congr (M.adjugate q j) _ (PowerSeries.mk fun _ => c j) t (by
    intro k hk
    rw [PowerSeries.coeff_mk]
    exact hMA j k (by omega)), hd2, PowerSeries.coeff_mul]
  simp only [PowerSeries.coeff_mk, Polynomial.coeff_coe]

open Filter Topology

theorem conv_limit (p : Polynomial ℂ) (y : ℕ → ℂ) (L : ℂ) (hy : Tendsto y atTop (𝓝 L)) :
    Tendsto (fun t => ∑ x ∈ Finset.antidiagonal t, p.coeff x.1 * y x.2) atTop (𝓝 (p.eval 1 * L)) := by
  have h1 : ∀ t, p.natDegree ≤ t → ∑ x ∈ Finset.antidiagonal t, p.coeff x.1 * y x.2 =
      ∑ i ∈ Finset.range (p.natDegree + 1), p.coeff i * y (t - i) := by
    intro t ht
    rw [Finset.Nat.sum_antidiagonal_eq_sum_range_succ (fun i k => p.coeff i * y k)]
    symm
    apply Finset.sum_subset
    · intro i hi
      rw [Finset.mem_range] at hi ⊢
      omega
    · intro i _ hi
      rw [Finset.mem_range] at hi
      rw [Polynomial.coeff_eq_zero_of_natDegree_lt (by omega), zero_mul]
  have h2 : Tendsto (fun t => ∑ i ∈ Finset.range (p.natDegree + 1), p.coeff i * y (t - i)) atTop
      (𝓝 (∑ i ∈ Finset.range (p.natDegree + 1), p.coeff i * L)) := by
    apply tendsto_finsetSum
    intro i _
    apply Tendsto.const_mul
    exact hy.comp (tendsto_sub_atTop_nat i)
  rw [Polynomial.eval_eq_sum_range]
  simp only [one_pow, mul_one]
  rw [Finset.sum_mul]
  apply h2.congr'
  filter_upwards [eventually_ge_atTop p.natDegree] with t ht
  exact (h1 t ht).symm

/-- If the response to a constant source converges, the limit solves the steady-state equations (by Cramer's
rule). -/
theorem settled (K : Matrix ι ι ℂ) (d : ι → ℕ) (c : ι → ℂ) (q : ι) (y : ℕ → ℂ) (L : ℂ)
    (h : ∀ T, ∃ a : ℕ → ι → ℂ, (∀ t < T, a t = K *ᵥ delayed d a t + c) ∧ ∀ t < T, a t q = y t)
    (hy : Tendsto y atTop (𝓝 L)) : (1 - K).det * L = ((1 - K).adjugate *ᵥ c) q := by
  have h1 : ∀ t, ∑ x ∈ Finset.antidiagonal t, (delayMatrix K d).det.coeff x.1 * y x.2 =
      ∑ j, ∑ x ∈ Finset.antidiagonal t, ((delayMatrix K d).adjugate q j).coeff x.1 * c j := by
    intro t
    obtain ⟨a, ha, hq⟩ := h (t + 1)
    rw [← cramer_step K d (t + 1) c a ha q t (by omega)]
    refine Finset.sum_congr rfl fun x hx => ?_
    rw [Finset.mem_antidiagonal] at hx
    rw [hq x.2 (by omega)]
  have h2 := conv_limit (delayMatrix K d).det y L hy
  have h3 : Tendsto (fun t => ∑ j, ∑ x ∈ Finset.antidiagonal t,
      ((delayMatrix K d).adjugate q j).coeff x.1 * c j) atTop
      (𝓝 (∑ j, ((delayMatrix K d).adjugate q j).eval 1 * c j)) := by
    apply tendsto_finsetSum
    intro j _
    exact conv_limit _ (fun _ => c j) (c j) tendsto_const_nhds
  simp only [h1] at h2
  have h4 := tendsto_nhds_unique h2 h3
  rw [det_eval] at h4
  simp only [adjugate_eval] at h4
  exact h4

end PT
