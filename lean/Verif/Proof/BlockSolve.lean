import Verif.Model.Sim
import Verif.Spec.Sim
import Mathlib.LinearAlgebra.Matrix.ToLinearEquiv

/-!
# The real block solve and the complex solve
-/

namespace PT

open Matrix

@[simp] theorem cx_apply {m n : Type} (A B : Matrix m n ℝ) (i : m) (j : n) :
    cx A B i j = ⟨A i j, B i j⟩ := rfl

theorem cx_add {m n : Type} (A B A' B' : Matrix m n ℝ) :
    cx A B + cx A' B' = cx (A + A') (B + B') := by
  ext i j; apply Complex.ext <;> simp

theorem cx_sub {m n : Type} (A B A' B' : Matrix m n ℝ) :
    cx A B - cx A' B' = cx (A - A') (B - B') := by
  ext i j; apply Complex.ext <;> simp

theorem cx_zero {m n : Type} : cx (0 : Matrix m n ℝ) 0 = 0 := by
  ext i j; apply Complex.ext <;> simp

theorem cx_one {m : Type} [DecidableEq m] : cx (1 : Matrix m m ℝ) 0 = 1 := by
  ext i j; by_cases h : i = j <;> apply Complex.ext <;> simp [h, Matrix.one_apply]

theorem cx_mul {l m n : Type} [Fintype m] (A B : Matrix l m ℝ) (A' B' : Matrix m n ℝ) :
    cx A B * cx A' B' = cx (A * A' - B * B') (A * B' + B * A') := by
  ext i j
  apply Complex.ext
  · simp [Matrix.mul_apply, Finset.sum_sub_distrib]
  · simp [Matrix.mul_apply, Finset.sum_add_distrib]

theorem cx_real_mul {l m n : Type} [Fintype m] (A : Matrix l m ℝ) (A' B' : Matrix m n ℝ) :
    cx A 0 * cx A' B' = cx (A * A') (A * B') := by
  rw [cx_mul]; simp

theorem cx_injective {m n : Type} {A B A' B' : Matrix m n ℝ} (h : cx A B = cx A' B') :
    A = A' ∧ B = B' := by
  constructor
  · ext i j
    have := congrFun (congrFun h i) j
    simpa using congrArg Complex.re this
  · ext i j
    have := congrFun (congrFun h i) j
    simpa using congrArg Complex.im this

section
variable {ι : Type} [Fintype ι] [DecidableEq ι]

theorem blockReal_mulVec (rP iP : Matrix ι ι ℝ) (u : ι ⊕ ι → ℝ) (i : ι) :
    (blockReal rP iP *ᵥ u) (Sum.inl i) =
        (rP *ᵥ (u ∘ Sum.inl)) i - (iP *ᵥ (u ∘ Sum.inr)) i ∧
      (blockReal rP iP *ᵥ u) (Sum.inr i) =
        (iP *ᵥ (u ∘ Sum.inl)) i + (rP *ᵥ (u ∘ Sum.inr)) i := by
  constructor <;>
    simp [blockReal, Matrix.fromBlocks_mulVec, Matrix.neg_mulVec, sub_eq_add_neg]

theorem cx_mulVec (rP iP : Matrix ι ι ℝ) (v : ι → ℂ) (i : ι) :
    (cx rP iP *ᵥ v) i =
      ⟨(rP *ᵥ fun k => (v k).re) i - (iP *ᵥ fun k => (v k).im) i,
       (iP *ᵥ fun k => (v k).re) i + (rP *ᵥ fun k => (v k).im) i⟩ := by
  apply Complex.ext
  · simp [Matrix.mulVec, dotProduct, Finset.sum_sub_distrib]
  · simp [Matrix.mulVec, dotProduct, Finset.sum_add_distrib, add_comm]

theorem blockReal_det (rP iP : Matrix ι ι ℝ) :
    (blockReal rP iP).det = 0 ↔ (cx rP iP).det = 0 := by
  rw [← Matrix.exists_mulVec_eq_zero_iff, ← Matrix.exists_mulVec_eq_zero_iff]
  constructor
  · rintro ⟨u, hu, h⟩
    refine ⟨fun k => ⟨u (Sum.inl k), u (Sum.inr k)⟩, ?_, ?_⟩
    · intro h0
      apply hu
      funext k
      rcases k with k | k
      · simpa using congrArg Complex.re (congrFun h0 k)
      · simpa using congrArg Complex.im (congrFun h0 k)
    · funext i
      rw [cx_mulVec]
      have h1 := (blockReal_mulVec rP iP u i).1
      have h2 := (blockReal_mulVec rP iP u i).2
      rw [h] at h1 h2
      apply Complex.ext
      · exact h1.symm
      · exact h2.symm
  · rintro ⟨v, hv, h⟩
    refine ⟨Sum.elim (fun k => (v k).re) (fun k => (v k).im), ?_, ?_⟩
    · intro h0
      apply hv
      funext k
      apply Complex.ext
      · simpa using congrFun h0 (Sum.inl k)
      · simpa using congrFun h0 (Sum.inr k)
    · funext i
      have := fun k => congrFun h k
      simp only [cx_mulVec] at this
      rcases i with i | i
      · rw [(blockReal_mulVec rP iP _ i).1]
        simpa using congrArg Complex.re (this i)
      · rw [(blockReal_mulVec rP iP _ i).2]
        simpa using congrArg Complex.im (this i)

theorem blockReal_solve {κ : Type} (rP iP : Matrix ι ι ℝ) (M : Matrix ι κ ℝ)
    (h : (blockReal rP iP).det ≠ 0) :
    cx (Matrix.toRows₁ ((blockReal rP iP)⁻¹ * blockRhs M))
        (Matrix.toRows₂ ((blockReal rP iP)⁻¹ * blockRhs M)) =
      (cx rP iP)⁻¹ * cx M 0 := by
  have hc : (cx rP iP).det ≠ 0 := fun h0 => h ((blockReal_det _ _).2 h0)
  set X := (blockReal rP iP)⁻¹ * blockRhs M with hX
  have hPX : blockReal rP iP * X = blockRhs M := by
    rw [hX, Matrix.mul_nonsing_inv_cancel_left _ _ (isUnit_iff_ne_zero.2 h)]
  have key : cx rP iP * cx (Matrix.toRows₁ X) (Matrix.toRows₂ X) = cx M 0 := by
    rw [cx_mul]
    have hsplit : X = Matrix.fromRows (Matrix.toRows₁ X) (Matrix.toRows₂ X) := by
      rw [Matrix.fromRows_toRows]
    have h2 : blockReal rP iP * X = Matrix.fromRows
        (rP * Matrix.toRows₁ X - iP * Matrix.toRows₂ X)
        (iP * Matrix.toRows₁ X + rP * Matrix.toRows₂ X) := by
      conv_lhs => rw [hsplit]
      rw [blockReal, Matrix.fromBlocks_mul_fromRows]
      simp [sub_eq_add_neg]
    rw [h2, blockRhs] at hPX
    have := Matrix.fromRows_inj hPX
    obtain ⟨e1, e2⟩ := this
    rw [e1]
    congr 1
    rw [add_comm]; exact e2
  rw [← key, Matrix.nonsing_inv_mul_cancel_left _ _ (isUnit_iff_ne_zero.2 hc)]

end

theorem pick_cx {n : ℕ} (A B : Matrix (Fin n) (Fin n) ℝ) (rows cols : List (Fin n)) :
    Spec.pick (cx A B) rows cols = cx (sub A rows cols) (sub B rows cols) := rfl

theorem pick_real {n : ℕ} (A : Matrix (Fin n) (Fin n) ℝ) (rows cols : List (Fin n)) :
    Spec.pick (cx A 0) rows cols = cx (sub A rows cols) 0 := rfl

end PT
