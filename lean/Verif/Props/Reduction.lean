import Verif.Proof.BlockSolve

/-!
# C25: the real block solve is the complex solve
-/

namespace PT

open Matrix Spec

variable {W : Type} {n : ℕ}

theorem helper_matrix (C : Matrix (Fin n) (Fin n) ℝ) (rS iS : Matrix (Fin n) (Fin n) ℝ)
    (ml : List (Fin n)) :
    1 - pick (cx C 0) ml ml * pick (cx rS iS) ml ml =
      cx (1 - sub C ml ml * sub rS ml ml) (-(sub C ml ml * sub iS ml ml)) := by
  rw [pick_real, pick_cx, cx_real_mul, ← cx_one, cx_sub, zero_sub]

/-- Initialization's linear solve fails exactly when one of the complex matrices
`1 - Cmlml Smlml` is singular, and then with `RuntimeError`. -/
theorem C25_failure (C : Matrix (Fin n) (Fin n) ℝ) (rS iS : W → Matrix (Fin n) (Fin n) ℝ)
    (mc ml : List (Fin n)) (e : PyErr) :
    reducedC C rS iS mc ml = .error e ↔
      e = .runtimeError ∧
        ∃ w, (1 - pick (cx C 0) ml ml * pick (cx (rS w) (iS w)) ml ml).det = 0 := by
  simp only [helper_matrix, ← blockReal_det]
  unfold reducedC
  by_cases h : ml.length = 0
  · have : IsEmpty (Fin ml.length) := by rw [h]; infer_instance
    simp [h]
  · rw [if_neg h]
    unfold torchSolve
    dsimp only
    split
    · rename_i h'
      simp only [Except.map, Except.error.injEq, h', and_true]
      exact eq_comm
    · rename_i h'
      simp [Except.map, h']

/-- Two undelayed ports that reflect everything into each other: the solve fails. -/
example : ∃ e, reducedC (W := Unit) (n := 2) !![0, 1; 1, 0] (fun _ => !![0, 1; 1, 0]) (fun _ => 0) []
    [0, 1] = .error e := by
  refine ⟨.runtimeError, (C25_failure _ _ _ _ _ _).2 ⟨rfl, (), ?_⟩⟩
  have h : pick (cx (!![0, 1; 1, 0] : Matrix (Fin 2) (Fin 2) ℝ) 0) [0, 1] [0, 1] *
      pick (cx (!![0, 1; 1, 0] : Matrix (Fin 2) (Fin 2) ℝ) 0) [0, 1] [0, 1] = 1 := by
    have e : ∀ M : Matrix (Fin 2) (Fin 2) ℂ, (pick M [0, 1] [0, 1] : Matrix (Fin 2) (Fin 2) ℂ) = M := by
      intro M
      ext i j
      fin_cases i <;> fin_cases j <;> rfl
    have h2 : cx (!![0, 1; 1, 0] : Matrix (Fin 2) (Fin 2) ℝ) 0 *
        cx (!![0, 1; 1, 0] : Matrix (Fin 2) (Fin 2) ℝ) 0 = 1 := by
      rw [cx_real_mul]
      ext i j
      fin_cases i <;> fin_cases j <;> apply Complex.ext <;> simp [cx]
    have h3 := e (cx (!![0, 1; 1, 0] : Matrix (Fin 2) (Fin 2) ℝ) 0)
    rw [← h3] at h2
    exact h2
  rw [h, sub_self]
  have : Nonempty (Fin ([0, 1] : List (Fin 2)).length) := ⟨(0 : Fin 2)⟩
  exact Matrix.det_zero

/-- The matrices it returns are real and imaginary part of
`Cmcml Smlml (1 - Cmlml Smlml)⁻¹ Cmlmc + Cmcmc`. -/
theorem C25_solution (C : Matrix (Fin n) (Fin n) ℝ) (rS iS : W → Matrix (Fin n) (Fin n) ℝ)
    (mc ml : List (Fin n)) (rC iC : W → Matrix (Fin mc.length) (Fin mc.length) ℝ)
    (h : reducedC C rS iS mc ml = .ok (rC, iC)) (w : W) :
    cx (rC w) (iC w) =
      pick (cx C 0) mc ml * pick (cx (rS w) (iS w)) ml ml *
        (1 - pick (cx C 0) ml ml * pick (cx (rS w) (iS w)) ml ml)⁻¹ *
        pick (cx C 0) ml mc + pick (cx C 0) mc mc := by
  rw [helper_matrix]
  unfold reducedC at h
  by_cases hl : ml.length = 0
  · have : IsEmpty (Fin ml.length) := by rw [hl]; infer_instance
    rw [if_pos hl] at h
    simp only [Except.ok.injEq, Prod.mk.injEq] at h
    obtain ⟨rfl, rfl⟩ := h
    ext i j
    simp [Matrix.mul_apply, pick_real]
  · rw [if_neg hl] at h
    unfold torchSolve at h
    dsimp only at h
    split at h
    · simp [Except.map] at h
    · rename_i hd
      push Not at hd
      simp only [Except.map, Except.ok.injEq, Prod.mk.injEq] at h
      obtain ⟨rfl, rfl⟩ := h
      rw [pick_real, pick_real, pick_real, pick_cx, Matrix.mul_assoc _ _ (cx (sub C ml mc) 0),
        ← blockReal_solve _ _ _ (hd w), Matrix.mul_assoc, cx_mul, cx_real_mul, cx_add, add_zero]
      rw [add_comm (sub (rS w) ml ml * _) (sub (iS w) ml ml * _)]

/-- One undelayed port with scattering `i/2` looped onto itself: the solve succeeds. -/
example : ∃ C, reducedC (W := Unit) (n := 2) !![1, 0; 0, 1] (fun _ => 0) (fun _ => !![1 / 2, 0; 0, 0]) [1]
    [0] = .ok C := by
  cases h : reducedC (W := Unit) (n := 2) !![1, 0; 0, 1] (fun _ => 0) (fun _ => !![1 / 2, 0; 0, 0]) [1]
      [0] with
  | ok C => exact ⟨C, rfl⟩
  | error e =>
    exfalso
    obtain ⟨-, w, hw⟩ := (C25_failure _ _ _ _ _ _).1 h
    have h1 := congrArg Complex.re hw
    rw [Matrix.det_eq_elem_of_subsingleton _ (0 : Fin 1)] at h1
    simp only [Matrix.sub_apply, Matrix.mul_apply] at h1
    have : (∑ j : Fin 1, pick (cx (!![1, 0; 0, 1] : Matrix (Fin 2) (Fin 2) ℝ) 0) [0] [0] 0 j *
        pick (cx (0 : Matrix (Fin 2) (Fin 2) ℝ) !![1 / 2, 0; 0, 0]) [0] [0] j 0).re = 0 := by
      simp [pick, cx]
    erw [Complex.sub_re, this] at h1
    simp at h1

end PT
