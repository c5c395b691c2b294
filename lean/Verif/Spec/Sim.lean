import Mathlib.Data.Complex.BigOperators
import Mathlib.Data.Matrix.Mul
import Mathlib.Algebra.Order.Archimedean.Real.Basic

/-!
# Specification of circuit simulation

A circuit with ports `ι` has a connection matrix `C` (which port feeds which) and a scattering matrix `S`.
At time step `t`, `a t` is the wave entering the component at each port, `b t` the wave leaving it.
-/

namespace PT

/-- The complex matrix with the given real and imaginary parts. -/
def cx {m n : Type} (A B : Matrix m n ℝ) : Matrix m n ℂ := Matrix.of fun i j => ⟨A i j, B i j⟩

end PT

namespace PT.Spec

open Matrix

/-- The submatrix of the listed rows and columns. -/
def pick {ι : Type} (M : Matrix ι ι ℂ) (rows cols : List ι) :
    Matrix (Fin rows.length) (Fin cols.length) ℂ := M.submatrix rows.get cols.get

variable {ι : Type} [Fintype ι]

/-- The incoming wave as the component's inside sees it: delayed by `d k` time steps at port `k`;
nothing before the start. -/
def delayed (d : ι → ℕ) (a : ℕ → ι → ℂ) (t : ℕ) (k : ι) : ℂ :=
  if d k ≤ t then a (t - d k) k else 0

/-- The (unreduced) circuit equations for the first `T` time steps: waves travel along the connections,
and every component scatters the delayed incoming waves and adds what the sources emit. -/
structure Solves (C S : Matrix ι ι ℂ) (d : ι → ℕ) (T : ℕ) (s a b : ℕ → ι → ℂ) : Prop where
  incoming : ∀ t < T, a t = C *ᵥ b t
  outgoing : ∀ t < T, b t = S *ᵥ delayed d a t + s t

/-- The circuit equations in the frequency domain (steady state). -/
structure SolvesStatic (C S : Matrix ι ι ℂ) (s a b : ι → ℂ) : Prop where
  incoming : a = C *ᵥ b
  outgoing : b = S *ᵥ a + s

/-- Rounding to the nearest natural number, halves up. -/
noncomputable def roundSteps (x : ℝ) : ℕ := ⌊x + 1 / 2⌋.toNat

/-- The delay of a port in time steps: its physical delay in units of the time step, rounded; sources,
detectors and active ports (`marked`) need at least one step. -/
noncomputable def portDelay (dt : ℝ) (marked : Bool) (delay : ℝ) : ℕ :=
  if marked then max 1 (roundSteps (delay / dt)) else roundSteps (delay / dt)

/-- The ports with a given marking, in port order. -/
def portsWith {n : ℕ} (q : Fin n → Bool) : List (Fin n) := (List.finRange n).filter q

/-- What the sources emit: channel `k` of the source signal at the `k`-th source port, nothing at the other
ports. -/
def emitted {n : ℕ} (isSource : Fin n → Bool) (channel : ℕ → ℂ) (i : Fin n) : ℂ :=
  if isSource i then channel ((portsWith isSource).idxOf i) else 0

/-- A pair of real and imaginary part as a complex number. -/
def asComplex (u : ℝ × ℝ) : ℂ := ⟨u.1, u.2⟩

/-- Total power of the waves at all ports. -/
def power (v : ι → ℂ) : ℝ := ∑ i, Complex.normSq (v i)

/-- Power at the ports satisfying `q`. -/
def powerAt (q : ι → Bool) (v : ι → ℂ) : ℝ := ∑ i, if q i then Complex.normSq (v i) else 0

/-- `S` never increases power. -/
def Contracts (S : Matrix ι ι ℂ) : Prop := ∀ v, power (S *ᵥ v) ≤ power v

/-- Every port is connected to exactly one port, its partner (which may be the port itself). -/
def Paired [DecidableEq ι] (C : Matrix ι ι ℝ) : Prop :=
  ∃ σ : ι → ι, Function.Involutive σ ∧ ∀ i j, C i j = if j = σ i then 1 else 0

/-- `S` conserves power away from the terminals: its other columns are orthonormal. -/
def Lossless [DecidableEq ι] (S : Matrix ι ι ℂ) (terminal : ι → Bool) : Prop :=
  ∀ i j, ∑ k, star (S k i) * S k j = if i = j ∧ terminal i = false then 1 else 0

end PT.Spec
