import Verif.Spec.Gradient
import Verif.Proof.SimSolve
import Mathlib.Analysis.Complex.Basic
import Mathlib.Analysis.Calculus.FDeriv.Mul
import Mathlib.Analysis.Calculus.Deriv.Inv

/-! Proof support for C90: solutions of the circuit equations depend differentiably on the scattering matrix. -/

namespace PT
open Spec Matrix Filter Topology

variable {E : Type} [NormedAddCommGroup E] [NormedSpace ℝ E] {θ₀ : E}

theorem dif_det {ι : Type} [Fintype ι] [DecidableEq ι] {M : E → Matrix ι ι ℂ}
    (h : ∀ i j, DifferentiableAt ℝ (fun θ => M θ i j) θ₀) : DifferentiableAt ℝ (fun θ => (M θ).det) θ₀ := by
  simp only [Matrix.det_apply]
  refine DifferentiableAt.fun_sum fun σ _ => ?_
  refine DifferentiableAt.const_smul ?_ _
  exact (HasFDerivAt.finsetProd fun i _ => (h (σ i) i).hasFDerivAt).differentiableAt

theorem dif_mul {ι κ μ : Type} [Fintype κ] {M : E → Matrix ι κ ℂ} {N : E → Matrix κ μ ℂ}
    (h : ∀ i j, DifferentiableAt ℝ (fun θ => M θ i j) θ₀) (h' : ∀ i j, DifferentiableAt ℝ (fun θ => N θ i j) θ₀) (i : ι) (j : μ) :
    DifferentiableAt ℝ (fun θ => (M θ * N θ) i j) θ₀ := by
  simp only [Matrix.mul_apply]
  exact DifferentiableAt.fun_sum fun k _ => (h i k).mul (h' k j)

theorem dif_mulVec {ι κ : Type} [Fintype κ] {M : E → Matrix ι κ ℂ} {v : E → κ → ℂ}
    (h : ∀ i j, DifferentiableAt ℝ (fun θ => M θ i j) θ₀) (h' : ∀ i, DifferentiableAt ℝ (fun θ => v θ i) θ₀) (i : ι) :
    DifferentiableAt ℝ (fun θ => (M θ *ᵥ v θ) i) θ₀ := by
  simp only [Matrix.mulVec, dotProduct]
  exact DifferentiableAt.fun_sum fun k _ => (h i k).mul (h' k)

theorem dif_inv {ι : Type} [Fintype ι] [DecidableEq ι] {M : E → Matrix ι ι ℂ}
    (h : ∀ i j, DifferentiableAt ℝ (fun θ => M θ i j) θ₀) (h0 : (M θ₀).det ≠ 0) (i j : ι) :
    DifferentiableAt ℝ (fun θ => (M θ)⁻¹ i j) θ₀ := by
  simp only [Matrix.inv_def, Ring.inverse_eq_inv', Matrix.smul_apply, smul_eq_mul, Matrix.adjugate_apply]
  refine DifferentiableAt.mul (a := fun θ => ((M θ).det)⁻¹) ((dif_det h).inv h0) (dif_det fun a b => ?_)
  simp only [Matrix.updateRow_apply]
  split_ifs
  · exact differentiableAt_const _
  · exact h a b

section
variable {ι : Type} [Fintype ι] [DecidableEq ι] {mc ml : List ι} {C : Matrix ι ι ℂ} {S : E → Matrix ι ι ℂ} {d : ι → ℕ} {T : ℕ}
  {s : ℕ → ι → ℂ} {a b : E → ℕ → ι → ℂ}

theorem dif_pivot (hS : ∀ i j, DifferentiableAt ℝ (fun θ => S θ i j) θ₀) (C : Matrix ι ι ℂ) (ml : List ι) (i j : Fin ml.length) :
    DifferentiableAt ℝ (fun θ => (1 - pick C ml ml * pick (S θ) ml ml) i j) θ₀ := by
  have : ∀ i j, DifferentiableAt ℝ (fun θ => (pick C ml ml * pick (S θ) ml ml) i j) θ₀ :=
    dif_mul (M := fun _ => pick C ml ml) (fun i j => differentiableAt_const _) fun i j => hS _ _
  exact (differentiableAt_const _).sub (this i j)

/-- Near `θ₀` the network can still be initialized. -/
theorem pivot_near (hS : ∀ i j, DifferentiableAt ℝ (fun θ => S θ i j) θ₀)
    (hdet : (1 - pick C ml ml * pick (S θ₀) ml ml).det ≠ 0) :
    ∀ᶠ θ in 𝓝 θ₀, (1 - pick C ml ml * pick (S θ) ml ml).det ≠ 0 :=
  (dif_det (dif_pivot hS C ml)).continuousAt.eventually_ne hdet

/-- The waves at all ports depend differentiably on the parameters. -/
theorem solves_dif (hsp : Splits mc ml) (hml : ∀ k : Fin ml.length, d (ml.get k) = 0) (hmc : ∀ k : Fin mc.length, d (mc.get k) ≠ 0)
    (hS : ∀ i j, DifferentiableAt ℝ (fun θ => S θ i j) θ₀) (hdec : ∀ θ, Decoupled (S θ) mc ml)
    (hdet : (1 - pick C ml ml * pick (S θ₀) ml ml).det ≠ 0) (hs : ∀ t, s t ∘ ml.get = 0)
    (hsol : ∀ᶠ θ in 𝓝 θ₀, Solves C (S θ) d T s (a θ) (b θ)) (t : ℕ) (ht : t < T) (i : ι) :
    DifferentiableAt ℝ (fun θ => a θ t i) θ₀ := by
  induction t using Nat.strong_induction_on generalizing i with
  | _ t ih =>
    have hu : ∀ k : Fin mc.length, DifferentiableAt ℝ (fun θ => delayed d (a θ) t (mc.get k)) θ₀ := by
      intro k
      unfold delayed
      split_ifs with h
      · exact ih _ (by have := hmc k; omega) (by omega) _
      · exact differentiableAt_const _
    have hy : ∀ k : Fin mc.length, DifferentiableAt ℝ (fun θ => (pick (S θ) mc mc *ᵥ (delayed d (a θ) t ∘ mc.get) +
        s t ∘ mc.get) k) θ₀ := fun k => (dif_mulVec (M := fun θ => pick (S θ) mc mc) (v := fun θ => delayed d (a θ) t ∘ mc.get)
          (fun i j => hS _ _) hu k).add (differentiableAt_const _)
    have hinv := dif_inv (dif_pivot hS C ml) hdet
    have key : ∀ᶠ θ in 𝓝 θ₀, a θ t ∘ ml.get = ((1 - pick C ml ml * pick (S θ) ml ml)⁻¹ * pick C ml mc) *ᵥ
          (pick (S θ) mc mc *ᵥ (delayed d (a θ) t ∘ mc.get) + s t ∘ mc.get) ∧
        a θ t ∘ mc.get = redC C (S θ) mc ml *ᵥ (pick (S θ) mc mc *ᵥ (delayed d (a θ) t ∘ mc.get) + s t ∘ mc.get) := by
      filter_upwards [hsol, pivot_near (C := C) (ml := ml) hS hdet] with θ hθ hd
      exact hsp.reduce C (S θ) (hdec θ) hd (a θ t) (b θ t) (delayed d (a θ) t) (s t) (hθ.incoming t ht) (hθ.outgoing t ht)
        (by funext k; simp only [Function.comp_apply, delayed, hml k]; simp) (hs t)
    have hL : ∀ k : Fin ml.length, DifferentiableAt ℝ (fun θ => a θ t (ml.get k)) θ₀ := by
      intro k
      refine (dif_mulVec (M := fun θ => (1 - pick C ml ml * pick (S θ) ml ml)⁻¹ * pick C ml mc)
        (dif_mul hinv fun i j => differentiableAt_const _) hy k).congr_of_eventuallyEq ?_
      filter_upwards [key] with θ hθ
      exact congrFun hθ.1 k
    have hM : ∀ k : Fin mc.length, DifferentiableAt ℝ (fun θ => a θ t (mc.get k)) θ₀ := by
      intro k
      refine (dif_mulVec (M := fun θ => redC C (S θ) mc ml) (fun i j => ?_) hy k).congr_of_eventuallyEq ?_
      · unfold redC
        refine DifferentiableAt.add (f := fun θ => (pick C mc ml * pick (S θ) ml ml *
          (1 - pick C ml ml * pick (S θ) ml ml)⁻¹ * pick C ml mc) i j) ?_ (differentiableAt_const _)
        have h1 : ∀ i j, DifferentiableAt ℝ (fun θ => (pick C mc ml * pick (S θ) ml ml) i j) θ₀ :=
          dif_mul (M := fun _ => pick C mc ml) (fun i j => differentiableAt_const _) fun i j => hS _ _
        exact dif_mul (N := fun _ => pick C ml mc) (dif_mul h1 hinv) (fun i j => differentiableAt_const _) i j
      · filter_upwards [key] with θ hθ
        exact congrFun hθ.2 k
    rcases hsp.2 i with h | h
    · obtain ⟨k, rfl⟩ := List.get_of_mem h
      exact hM k
    · obtain ⟨k, rfl⟩ := List.get_of_mem h
      exact hL k

/-- The derivatives of the waves satisfy the circuit equations, with what the changes of the components scatter as sources. -/
theorem solves_fderiv (hS : ∀ i j, DifferentiableAt ℝ (fun θ => S θ i j) θ₀)
    (hsol : ∀ᶠ θ in 𝓝 θ₀, Solves C (S θ) d T s (a θ) (b θ)) (ha : ∀ t < T, ∀ i, DifferentiableAt ℝ (fun θ => a θ t i) θ₀) (h : E) :
    Solves C (S θ₀) d T (fun t => (Matrix.of fun i j => fderiv ℝ (fun θ => S θ i j) θ₀ h) *ᵥ delayed d (a θ₀) t)
      (fun t i => fderiv ℝ (fun θ => a θ t i) θ₀ h) fun t i => fderiv ℝ (fun θ => b θ t i) θ₀ h := by
  have hdel : ∀ t < T, ∀ i, HasFDerivAt (fun θ => delayed d (a θ) t i)
      (if d i ≤ t then fderiv ℝ (fun θ => a θ (t - d i) i) θ₀ else 0) θ₀ := by
    intro t ht i
    unfold delayed
    split_ifs
    · exact (ha _ (by omega) i).hasFDerivAt
    · exact hasFDerivAt_const _ _
  have hb : ∀ t < T, ∀ i, HasFDerivAt (fun θ => b θ t i) (∑ j, (S θ₀ i j • (if d j ≤ t then fderiv ℝ (fun θ => a θ (t - d j) j) θ₀
      else 0) + delayed d (a θ₀) t j • fderiv ℝ (fun θ => S θ i j) θ₀)) θ₀ := by
    intro t ht i
    have h1 : HasFDerivAt (fun θ => ∑ j, S θ i j * delayed d (a θ) t j + s t i) (∑ j, (S θ₀ i j •
        (if d j ≤ t then fderiv ℝ (fun θ => a θ (t - d j) j) θ₀ else 0) + delayed d (a θ₀) t j • fderiv ℝ (fun θ => S θ i j) θ₀)) θ₀ :=
      (HasFDerivAt.fun_sum fun j _ => (hS i j).hasFDerivAt.mul (hdel t ht j)).add_const _
    refine h1.congr_of_eventuallyEq ?_
    filter_upwards [hsol] with θ hθ
    exact congrFun (hθ.outgoing t ht) i
  constructor
  · intro t ht
    funext i
    have h1 : HasFDerivAt (fun θ => ∑ j, C i j * b θ t j) (∑ j, C i j • fderiv ℝ (fun θ => b θ t j) θ₀) θ₀ :=
      HasFDerivAt.fun_sum fun j _ => (hb t ht j).differentiableAt.hasFDerivAt.const_mul _
    have h2 : HasFDerivAt (fun θ => a θ t i) (∑ j, C i j • fderiv ℝ (fun θ => b θ t j) θ₀) θ₀ := by
      refine h1.congr_of_eventuallyEq ?_
      filter_upwards [hsol] with θ hθ
      exact congrFun (hθ.incoming t ht) i
    rw [h2.fderiv]
    simp [Matrix.mulVec, dotProduct]
  · intro t ht
    funext i
    rw [(hb t ht i).fderiv]
    simp only [ContinuousLinearMap.sum_apply, ContinuousLinearMap.add_apply, ContinuousLinearMap.smul_apply, smul_eq_mul,
      Matrix.mulVec, dotProduct, Pi.add_apply, Matrix.of_apply, Finset.sum_add_distrib]
    congr 1
    · refine Finset.sum_congr rfl fun j _ => ?_
      congr 1
      unfold delayed
      split_ifs <;> rfl
    · exact Finset.sum_congr rfl fun j _ => mul_comm _ _

/-- Two solutions with the same sources agree. -/
theorem solves_unique {S : Matrix ι ι ℂ} {a a' b b' : ℕ → ι → ℂ} (hsp : Splits mc ml) (hml : ∀ k : Fin ml.length, d (ml.get k) = 0)
    (hmc : ∀ k : Fin mc.length, d (mc.get k) ≠ 0) (hdec : Decoupled S mc ml) (hdet : (1 - pick C ml ml * pick S ml ml).det ≠ 0)
    (h : Solves C S d T s a b) (h' : Solves C S d T s a' b') (t : ℕ) (ht : t < T) : a t = a' t := by
  induction t using Nat.strong_induction_on with
  | _ t ih =>
    have key := hsp.reduce C S hdec hdet (a t - a' t) (b t - b' t) (delayed d a t - delayed d a' t) 0
      (by rw [h.incoming t ht, h'.incoming t ht, Matrix.mulVec_sub])
      (by rw [h.outgoing t ht, h'.outgoing t ht, Matrix.mulVec_sub]; abel)
      (by funext k; simp only [Function.comp_apply, Pi.sub_apply, delayed, hml k]; simp) rfl
    have h0 : (delayed d a t - delayed d a' t) ∘ mc.get = 0 := by
      funext k
      simp only [Function.comp_apply, Pi.sub_apply, delayed]
      split_ifs with hle
      · rw [ih _ (by have := hmc k; omega) (by omega)]; simp
      · simp
    rw [h0] at key
    have e0 : (0 : ι → ℂ) ∘ mc.get = 0 := rfl
    rw [e0, Matrix.mulVec_zero, add_zero, Matrix.mulVec_zero, Matrix.mulVec_zero] at key
    rw [← sub_eq_zero]
    exact hsp.ext (fun k => congrFun key.2 k) (fun k => congrFun key.1 k)

end

end PT
