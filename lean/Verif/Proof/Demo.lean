import Verif.Proof.Delays
import Mathlib.Data.Matrix.Reflection
import Mathlib.Data.Fin.VecNotation

/-!
# A concrete circuit: source – waveguide – detector

Used to show that the hypotheses of the simulation theorems can be met.
-/

namespace PT

open Matrix Spec

theorem cx_re {m n : Type} (A B : Matrix m n ℝ) (i : m) (j : n) : (cx A B i j).re = A i j := rfl
theorem cx_im {m n : Type} (A B : Matrix m n ℝ) (i : m) (j : n) : (cx A B i j).im = B i j := rfl

/-- Port 0 is a source, ports 1 and 2 a waveguide with delay `τ` and a phase shift, port 3 a detector. -/
noncomputable def demo (τ : ℝ) : Plant Unit where
  n := 4
  C := !![0, 1, 0, 0; 1, 0, 0, 0; 0, 0, 0, 1; 0, 0, 1, 0]
  rS := fun _ => !![0, 0, 0, 0; 0, 0, 3 / 5, 0; 0, 3 / 5, 0, 0; 0, 0, 0, 0]
  iS := fun _ => !![0, 0, 0, 0; 0, 0, 4 / 5, 0; 0, 4 / 5, 0, 0; 0, 0, 0, 0]
  delay := ![0, τ, τ, 0]
  src := ![true, false, false, false]
  det := ![false, false, false, true]
  act := fun _ => false

/-- Three steps of length one. -/
noncomputable def demoTime : SimEnv := ⟨some 1, false, [0, 1, 2]⟩
/-- A frequency-domain environment. -/
noncomputable def demoFreq : SimEnv := ⟨none, true, [0]⟩

theorem demo_exclusive (τ : ℝ) : (demo τ).Exclusive := by
  intro (i : Fin 4)
  fin_cases i <;> simp [demo]

theorem demo_terminated (τ : ℝ) : (demo τ).terminated := by
  intro (i : Fin 4)
  left
  show 0 < ∑ k : Fin 4, (demo τ).C k i
  rw [Fin.sum_univ_four]
  fin_cases i <;> simp [demo]

theorem demo_det (τ : ℝ) : portsWith (demo τ).det = [(3 : Fin 4)] := by
  show (List.finRange 4).filter ![false, false, false, true] = _
  decide

theorem demo_det_ne (τ : ℝ) : portsWith (demo τ).det ≠ [] := by
  rw [demo_det]; exact List.cons_ne_nil _ _

theorem demo_mc (τ : ℝ) (env : SimEnv) : ∃ i, (demo τ).mcAt env i = true :=
  ⟨(0 : Fin 4), by simp [Plant.mcAt, demo]⟩

theorem demo_Cml (τ : ℝ) (env : SimEnv) :
    pick (cx (demo τ).C 0) ((demo τ).mlPorts env) ((demo τ).mlPorts env) = 0 := by
  ext i j
  have hi := (mem_mlPorts (demo τ) env _).1 (List.get_mem ((demo τ).mlPorts env) i)
  have hj := (mem_mlPorts (demo τ) env _).1 (List.get_mem ((demo τ).mlPorts env) j)
  show cx (demo τ).C 0 (((demo τ).mlPorts env).get i) (((demo τ).mlPorts env).get j) = 0
  generalize ((demo τ).mlPorts env).get i = x at hi ⊢
  generalize ((demo τ).mlPorts env).get j = y at hj ⊢
  revert x y
  show ∀ x : Fin 4, _ → ∀ y : Fin 4, _ → _
  intro x hx y hy
  have h0 : ∀ z : Fin 4, (demo τ).mcAt env z = false → z = 1 ∨ z = 2 := by
    intro z hz
    fin_cases z
    · simp [Plant.mcAt, demo] at hz
    · simp
    · simp
    · simp [Plant.mcAt, demo] at hz
  rcases h0 x hx with rfl | rfl <;> rcases h0 y hy with rfl | rfl <;> simp [demo, cx] <;> rfl

theorem demo_solvable (τ : ℝ) (env : SimEnv) (w : Unit) :
    (1 - pick (cx (demo τ).C 0) ((demo τ).mlPorts env) ((demo τ).mlPorts env) *
      pick (cx ((demo τ).rS w) ((demo τ).iS w)) ((demo τ).mlPorts env) ((demo τ).mlPorts env)).det ≠ 0 := by
  rw [demo_Cml, Matrix.zero_mul, sub_zero, Matrix.det_one]
  exact one_ne_zero

theorem demo_S_zero (τ : ℝ) (w : Unit) (i : Fin 4) (h : ((demo τ).src i || (demo τ).det i) = true) (j : Fin 4) :
    cx ((demo τ).rS w) ((demo τ).iS w) i j = 0 ∧ cx ((demo τ).rS w) ((demo τ).iS w) j i = 0 := by
  refine ⟨Complex.ext ?_ ?_, Complex.ext ?_ ?_⟩ <;>
    fin_cases i <;> simp [demo] at h <;> fin_cases j <;> rfl

/-- The delays of the demo circuit in unit time steps. -/
noncomputable def demoDelay (τ : ℝ) : Fin 4 → ℕ := ![1, roundSteps τ, roundSteps τ, 1]

theorem demo_delay (τ : ℝ) (i : Fin 4) :
    demoDelay τ i = portDelay 1 ((demo τ).src i || (demo τ).det i) ((demo τ).delay i) := by
  have h0 : roundSteps (0 / 1) = 0 := by rw [zero_div, roundSteps_zero]
  fin_cases i
  · show 1 = max 1 (roundSteps (0 / 1)); rw [h0]; rfl
  · show roundSteps τ = roundSteps (τ / 1); rw [div_one]
  · show roundSteps τ = roundSteps (τ / 1); rw [div_one]
  · show 1 = max 1 (roundSteps (0 / 1)); rw [h0]; rfl

theorem demo_mix (τ : ℝ) (w : Unit) (i j : Fin 4) (hi : demoDelay τ i = 0) (hj : demoDelay τ j ≠ 0) :
    cx ((demo τ).rS w) ((demo τ).iS w) i j = 0 ∧ cx ((demo τ).rS w) ((demo τ).iS w) j i = 0 := by
  by_cases hm : ((demo τ).src j || (demo τ).det j) = true
  · exact (demo_S_zero τ w j hm i).symm
  · exfalso
    have hr : demoDelay τ j = roundSteps τ := by
      fin_cases j
      · simp [demo] at hm
      · rfl
      · rfl
      · simp [demo] at hm
    have hr' : demoDelay τ i = roundSteps τ := by
      fin_cases i
      · simp [demoDelay] at hi
      · rfl
      · rfl
      · simp [demoDelay] at hi
    omega

end PT
