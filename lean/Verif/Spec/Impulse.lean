import Verif.Spec.Sim

/-! Specification vocabulary for impulse responses. -/

namespace PT.Spec

variable {W B : Type}

/-- The field at detector `q` in step `t` (zero if there is no such step or detector). -/
noncomputable def heardAt (out : List (W → B → List (ℝ × ℝ))) (t : ℕ) (w : W) (b : B) (q : ℕ) : ℂ :=
  match out[t]? with
  | none => 0
  | some f => match (f w b)[q]? with
    | none => 0
    | some u => asComplex u

/-- Unit amplitude at source `k`, in the first step only. -/
noncomputable def pulse (k : ℕ) : ℕ → ℕ → W → B → ℝ × ℝ := fun t j _ _ => if t = 0 ∧ j = k then (1, 0) else (0, 0)

/-- Unit amplitude at source `k`, at all times. -/
noncomputable def steady (k : ℕ) : ℕ → W → B → ℝ × ℝ := fun j _ _ => if j = k then (1, 0) else (0, 0)

end PT.Spec
