import Mathlib.LinearAlgebra.Eigenspace.Triangularizable
import Mathlib.Analysis.Complex.Polynomial.Basic
import Mathlib.Analysis.SpecificLimits.Basic
import Verif.Spec.Sim

/-!
# Decay of the waves of a circuit without sources
-/

namespace PT
open Matrix Filter Topology

variable {ι : Type} [Fintype ι]

/-- A sequence driven by something that vanishes, with damping, vanishes. -/
theorem tendsto_zero_of_step (x f : ℕ → ℂ) (μ : ℂ) (hμ : ‖μ‖ < 1) (h : ∀ t, x (t + 1) = μ * x t + f t)
    (hf : Tendsto f atTop (𝓝 0)) : Tendsto x atTop (𝓝 0) := by
  rw [Metric.tendsto_atTop] at hf ⊢
  intro ε hε
  set q := ‖μ‖ with hq
  have hq0 : 0 ≤ q := norm_nonneg μ
  obtain ⟨N, hN⟩ := hf (ε * (1 - q) / 2) (by nlinarith)
  have hb : ∀ s, ‖x (N + s)‖ ≤ q ^ s * ‖x N‖ + ε / 2 := by
    intro s
    induction s with
    | zero => simp; linarith
    | succ s ih =>
      have h1 : ‖x (N + (s + 1))‖ ≤ q * ‖x (N + s)‖ + ‖f (N + s)‖ := by
        rw [← add_assoc, h, hq, ← norm_mul]
        exact norm_add_le _ _
      have h2 : ‖f (N + s)‖ < ε * (1 - q) / 2 := by simpa using hN (N + s) (by omega)
      have h3 := mul_le_mul_of_nonneg_left ih hq0
      calc ‖x (N + (s + 1))‖ ≤ q * (q ^ s * ‖x N‖ + ε / 2) + ε * (1 - q) / 2 := by linarith
        _ = q ^ (s + 1) * ‖x N‖ + ε / 2 := by ring
  have hp : Tendsto (fun s : ℕ => q ^ s * ‖x N‖) atTop (𝓝 0) := by
    simpa using (tendsto_pow_atTop_nhds_zero_of_lt_one hq0 hμ).mul_const ‖x N‖
  rw [Metric.tendsto_atTop] at hp
  obtain ⟨K, hK⟩ := hp (ε / 2) (by linarith)
  refine ⟨N + K, fun n hn => ?_⟩
  obtain ⟨s, rfl⟩ : ∃ s, n = N + s := ⟨n - N, by omega⟩
  have h1 := hb s
  have h2 := hK s (by omega)
  rw [Real.dist_eq, sub_zero] at h2
  have h3 := le_abs_self (q ^ s * ‖x N‖)
  rw [dist_zero_right]
  linarith

/-- The sequences of waves which, after `D` steps, satisfy the circuit equations without sources. -/
def freeWaves (M : Matrix ι ι ℂ) (d : ι → ℕ) (D : ℕ) : Submodule ℂ (ℕ → ι → ℂ) where
  carrier := {e | ∀ t, D ≤ t → e t = M *ᵥ fun k => e (t - d k) k}
  add_mem' := by
    intro e e' h h' t ht
    show e t + e' t = _
    rw [h t ht, h' t ht, ← Matrix.mulVec_add]
    rfl
  zero_mem' := by
    intro t _
    show (0 : ι → ℂ) = M *ᵥ 0
    rw [Matrix.mulVec_zero]
  smul_mem' := by
    intro c e h t ht
    show c • e t = _
    rw [h t ht, ← Matrix.mulVec_smul]
    rfl

/-- One time step later. -/
def shiftWaves (M : Matrix ι ι ℂ) (d : ι → ℕ) (D : ℕ) (hD : ∀ k, d k ≤ D) : Module.End ℂ (freeWaves M d D) where
  toFun e := ⟨fun t => e.1 (t + 1), by
    intro t ht
    refine (e.2 (t + 1) (by omega)).trans ?_
    congr 1
    funext k
    have := hD k
    rw [show t + 1 - d k = t - d k + 1 by omega]⟩
  map_add' _ _ := rfl
  map_smul' _ _ := rfl

theorem freeWaves_finite (M : Matrix ι ι ℂ) (d : ι → ℕ) (D : ℕ) (hD : ∀ k, d k ≤ D)
    (h0 : ∀ v : ι → ℂ, v = M *ᵥ (fun k => if d k = 0 then v k else 0) → v = 0) :
    FiniteDimensional ℂ (freeWaves M d D) := by
  let f : freeWaves M d D →ₗ[ℂ] (Fin D → ι → ℂ) :=
    { toFun := fun e t => e.1 t
      map_add' := fun _ _ => rfl
      map_smul' := fun _ _ => rfl }
  refine Module.Finite.of_injective f ?_
  rw [← LinearMap.ker_eq_bot, LinearMap.ker_eq_bot']
  intro e he
  apply Subtype.ext
  funext t
  induction t using Nat.strong_induction_on with
  | _ t ih =>
    by_cases ht : t < D
    · exact congrFun he ⟨t, ht⟩
    · refine h0 _ ?_
      refine (e.2 t (by omega)).trans ?_
      congr 1
      funext k
      by_cases hk : d k = 0
      · rw [if_pos hk, hk]
        rfl
      · rw [if_neg hk]
        have := hD k
        exact congrFun (ih (t - d k) (by omega)) k

theorem shift_eigen (M : Matrix ι ι ℂ) (d : ι → ℕ) (D : ℕ) (hD : ∀ k, d k ≤ D)
    (hz : ∀ z : ℂ, 1 ≤ ‖z‖ → ∀ v : ι → ℂ, v = M *ᵥ (fun k => (z ^ d k)⁻¹ * v k) → v = 0)
    (μ : ℂ) (hμ : 1 ≤ ‖μ‖) : LinearMap.ker (shiftWaves M d D hD - algebraMap ℂ (Module.End ℂ (freeWaves M d D)) μ) = ⊥ := by
  rw [LinearMap.ker_eq_bot']
  intro e he
  have hstep : ∀ t, e.1 (t + 1) = μ • e.1 t := by
    intro t
    have h1 := congrFun (congrArg Subtype.val he) t
    have h2 : e.1 (t + 1) - μ • e.1 t = 0 := h1
    exact sub_eq_zero.1 h2
  have hpow : ∀ t, e.1 t = μ ^ t • e.1 0 := by
    intro t
    induction t with
    | zero => simp
    | succ t ih => rw [hstep, ih, smul_smul, pow_succ']
  have hμ0 : μ ≠ 0 := by
    rintro rfl
    rw [norm_zero] at hμ
    linarith
  have hv : e.1 0 = 0 := by
    refine hz μ hμ _ ?_
    have h1 := e.2 D le_rfl
    rw [hpow D] at h1
    have h2 : (fun k => e.1 (D - d k) k) = μ ^ D • fun k => (μ ^ d k)⁻¹ * e.1 0 k := by
      funext k
      rw [hpow, Pi.smul_apply, Pi.smul_apply, smul_eq_mul, smul_eq_mul, ← mul_assoc]
      congr 1
      rw [pow_sub₀ _ hμ0 (hD k)]
    rw [h2, Matrix.mulVec_smul] at h1
    exact smul_right_injective _ (pow_ne_zero D hμ0) h1
  apply Subtype.ext
  funext t
  rw [hpow, hv, smul_zero]
  rfl

/-- Without undamped oscillations, waves without sources vanish. -/
theorem free_tendsto (M : Matrix ι ι ℂ) (d : ι → ℕ) (D : ℕ) (hD : ∀ k, d k ≤ D)
    (h0 : ∀ v : ι → ℂ, v = M *ᵥ (fun k => if d k = 0 then v k else 0) → v = 0)
    (hz : ∀ z : ℂ, 1 ≤ ‖z‖ → ∀ v : ι → ℂ, v = M *ᵥ (fun k => (z ^ d k)⁻¹ * v k) → v = 0)
    (e : ℕ → ι → ℂ) (he : ∀ t, D ≤ t → e t = M *ᵥ fun k => e (t - d k) k) (i : ι) :
    Tendsto (fun t => e t i) atTop (𝓝 0) := by
  haveI := freeWaves_finite M d D hD h0
  have hmem : (⟨e, he⟩ : freeWaves M d D) ∈ ⨆ μ, (shiftWaves M d D hD).maxGenEigenspace μ := by
    rw [Module.End.iSup_maxGenEigenspace_eq_top]
    trivial
  have key : ∀ x : freeWaves M d D, x ∈ ⨆ μ, (shiftWaves M d D hD).maxGenEigenspace μ →
      Tendsto (fun t => x.1 t i) atTop (𝓝 0) := by
    intro x hx
    induction hx using Submodule.iSup_induction' with
    | mem μ x hx =>
      obtain ⟨k, hk⟩ := (Module.End.mem_maxGenEigenspace _ _ _).1 hx
      have hk' : ((shiftWaves M d D hD - algebraMap ℂ _ μ) ^ k) x = 0 := by
        rw [Algebra.algebraMap_eq_smul_one]
        exact hk
      clear hk hx
      by_cases hμ : ‖μ‖ < 1
      · induction k generalizing x with
        | zero =>
          have : x = 0 := hk'
          subst this
          exact tendsto_const_nhds
        | succ k ih =>
          rw [pow_succ] at hk'
          have := ih ((shiftWaves M d D hD - algebraMap ℂ _ μ) x) hk'
          refine tendsto_zero_of_step _ _ μ hμ (fun t => ?_) this
          show x.1 (t + 1) i = μ * x.1 t i + (x.1 (t + 1) i - μ * x.1 t i)
          ring
      · have hker := shift_eigen M d D hD hz μ (not_lt.1 hμ)
        have : x = 0 := by
          induction k with
          | zero => exact hk'
          | succ k ih =>
            rw [pow_succ', Module.End.mul_apply] at hk'
            refine ih ?_
            have h2 := (LinearMap.mem_ker).2 hk'
            rw [hker] at h2
            exact h2
        subst this
        exact tendsto_const_nhds
    | zero => exact tendsto_const_nhds
    | add x y _ _ hx hy => simpa using hx.add hy
  exact key _ hmem

end PT
