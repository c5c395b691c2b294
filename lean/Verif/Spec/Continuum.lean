import Verif.Spec.Sim

/-! Specification vocabulary for circuits in continuous time. -/

namespace PT.Spec
open Matrix

variable {ι : Type} [Fintype ι]

/-- The circuit in continuous time: it is dark until time zero; waves travel along the connections, and every component scatters what
entered port `k` the time `τ k` ago and adds what the sources emit. `a t` are the waves that enter the ports at time `t`. -/
structure Flows (C S : Matrix ι ι ℂ) (τ : ι → ℝ) (s a : ℝ → ι → ℂ) : Prop where
  dark : ∀ t ≤ 0, a t = 0
  flow : ∀ t, a t = C *ᵥ (S *ᵥ (fun k => a (t - τ k) k) + s t)

/-- No light circulates without delay. -/
def Timely (C S : Matrix ι ι ℂ) (τ : ι → ℝ) : Prop :=
  ∀ x, x = C *ᵥ (S *ᵥ fun k => if τ k = 0 then x k else 0) → x = 0

end PT.Spec
