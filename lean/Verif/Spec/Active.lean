import Verif.Props.Action

/-!
# Specification of the simulation of circuits with active components
-/

namespace PT.Spec
open Matrix

variable {W B : Type}

/-- The waves at one port, for all wavelengths and batches, as real and imaginary parts. -/
def node (z : W → B → ℂ) : NodeVal W B := (fun w β => (z w β).re, fun w β => (z w β).im)

/-- The waves at all ports (silence elsewhere). -/
def nodes {n : ℕ} (y : W → B → Fin n → ℂ) (q : ℕ) : NodeVal W B :=
  if hq : q < n then node fun w β => y w β ⟨q, hq⟩ else silent

/-- The circuit equations with active components, at the times `ts`: waves travel along the connections; every component
scatters the delayed incoming waves, adds what the sources emit, and then applies its own action (if it has one) to
what would leave its own ports. -/
structure ActiveSolves {n : ℕ} (C : Matrix (Fin n) (Fin n) ℂ) (S : W → Matrix (Fin n) (Fin n) ℂ) (d : Fin n → ℕ)
    (ts : List ℝ) (cs : List (Actor W B)) (s a b : ℕ → W → B → Fin n → ℂ) : Prop where
  incoming : ∀ t < ts.length, ∀ w β, a t w β = C *ᵥ b t w β
  outgoing : ∀ t (ht : t < ts.length), ∀ before c after, cs = before ++ c :: after →
    ∀ (i : Fin n) (j : ℕ), j < c.numPorts → (i : ℕ) = offset before + j →
      node (fun w β => b t w β i) =
        ownAction ts[t] (nodes fun w β => S w *ᵥ delayed d (fun t => a t w β) t + s t w β) c (offset before) j

end PT.Spec
