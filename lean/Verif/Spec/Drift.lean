import Verif.Model.Sim
import Mathlib.Analysis.Real.Sqrt

/-! Specification vocabulary for simulations in inexact arithmetic. -/

namespace PT.Spec
open PT

variable {W B : Type}

/-- What is in the `len` slots of the buffer at step `j`, newest first, if `ys` are the fields computed so far. -/
def slots {m : ℕ} (len : ℕ) (ys : List (Fields m W B)) (j : ℕ) : List (Fields m W B) :=
  (List.range len).map fun q => if q < j then ys.getD (j - 1 - q) ⟨fun _ => 0, fun _ => 0⟩ else ⟨fun _ => 0, fun _ => 0⟩

/-- The distance between two fields, at one wavelength and batch. -/
noncomputable def apart {m : ℕ} (x y : Fields m W B) (w : W) (b : B) : ℝ :=
  √(∑ k, ((x.re w k b - y.re w k b) ^ 2 + (x.im w k b - y.im w k b) ^ 2))

/-- The fields `ys` are the result of a simulation in inexact arithmetic: what is computed in step `j`, from the sources and from the
fields computed before, is wrong by at most `ε j`. -/
structure Computes (r : Reduced W) (cs : List (Actor W B)) (len : ℕ) (src : ℕ → Fields r.m W B) (ts : List ℝ) (ε : ℕ → ℝ)
    (ys : List (Fields r.m W B)) : Prop where
  length : ys.length = ts.length
  near : ∀ j (hj : j < ts.length) (hy : j < ys.length) w b, apart ys[j] (stepField r cs ts[j] (src j) (slots len ys j)) w b ≤ ε j

/-- The squared distance between two lists of detected fields. -/
noncomputable def mismatch (u v : List (ℝ × ℝ)) : ℝ := (List.zipWith (fun x y => (x.1 - y.1) ^ 2 + (x.2 - y.2) ^ 2) u v).sum

end PT.Spec
