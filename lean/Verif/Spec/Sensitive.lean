import Verif.Spec.Drift
import Verif.Spec.Sim
import Verif.Spec.Components
import Mathlib.Analysis.Complex.Norm

/-! Specification vocabulary for circuits whose scattering matrices are known only approximately. -/

namespace PT.Spec
open Matrix

variable {ι : Type} [Fintype ι]

/-- Whatever light comes in, what `S'` makes of it is what `S` makes of it up to a fraction `ε` of the amplitude. -/
def DeviatesBy (ε : ℝ) (S S' : Matrix ι ι ℂ) : Prop := ∀ v, √(power ((S' - S) *ᵥ v)) ≤ ε * √(power v)

/-- The entries of `S'` are those of `S` up to `δ`, and in every row and every column at most `m` differ at all. -/
structure EntriesWithin (δ : ℝ) (m : ℕ) (S S' : Matrix ι ι ℂ) : Prop where
  near : ∀ i j, ‖S' i j - S i j‖ ≤ δ
  row : ∀ i, ∃ J : Finset ι, J.card ≤ m ∧ ∀ j, S' i j ≠ S i j → j ∈ J
  col : ∀ j, ∃ I : Finset ι, I.card ≤ m ∧ ∀ i, S' i j ≠ S i j → i ∈ I

/-- Light sent into the circuit, at whatever ports, is enhanced inside it by no more than `κ` in amplitude. -/
def EnhancesBy (κ : ℝ) (C S : Matrix ι ι ℂ) : Prop := ∀ s a b, SolvesStatic C S s a b → √(power a) ≤ κ * √(power s)

end PT.Spec

namespace PT.Spec
open PT

/-- The circuit with the scattering matrices `S'`, which may be rounded, in place of its own. -/
noncomputable def withS {W : Type} (p : Plant W) (S' : W → Matrix (Fin p.n) (Fin p.n) ℂ) : Plant W :=
  { p with rS := fun w => Matrix.of fun i j => (S' w i j).re, iS := fun w => Matrix.of fun i j => (S' w i j).im }

/-- Sources and detectors scatter nothing, also if rounded. -/
def EndsDark {W : Type} (p : Plant W) (S' : W → Matrix (Fin p.n) (Fin p.n) ℂ) : Prop :=
  ∀ w i, (p.src i || p.det i) = true → ∀ j, S' w i j = 0 ∧ S' w j i = 0

/-- In every environment of the frequency domain, both circuits can be simulated, and whatever amplitudes the sources have, what is
detected differs by at most `q` times the norm of these amplitudes. -/
def ResultsWithin {W : Type} (q : ℝ) (p p' : Plant W) : Prop :=
  ∀ env : SimEnv, env.freqdomain = true → env.t.length = 1 →
    ∃ r r', initNet p env = .ok (some r) ∧ initNet p' env = .ok (some r') ∧
      ∀ (B : Type) (cs : List (Actor W B)) (src : ℕ → ℕ → W → B → ℝ × ℝ),
        ∃ o o', forwardReduced r env cs src = .ok [o] ∧ forwardReduced r' env cs src = .ok [o'] ∧
          ∀ w b, (o' w b).length = (o w b).length ∧
            √(mismatch (o' w b) (o w b)) ≤ q * √(power (emitted p.src fun k => asComplex (src 0 k w b)))

end PT.Spec

namespace PT.Spec
open PT

/-- Each port is a port of one of the components `L`: of which one, and which port of it, says `at_`. Ports of the same component
scatter as `rnd` says for this component, ports of different components not at all. -/
structure BlockWise {W : Type} {n : ℕ} (rnd : (p : Part) → ℝ → Matrix (Fin p.n) (Fin p.n) ℂ) (wl : W → ℝ) (L : List Part)
    (at_ : Fin n → ℕ × ℕ) (S' : W → Matrix (Fin n) (Fin n) ℂ) : Prop where
  inj : Function.Injective at_
  block : ∀ i, ∃ p, L[(at_ i).1]? = some p ∧ ∃ h : (at_ i).2 < p.n, ∀ w j, ((at_ i).1 ≠ (at_ j).1 → S' w i j = 0) ∧
    ((at_ i).1 = (at_ j).1 → ∃ h' : (at_ j).2 < p.n, S' w i j = rnd p (wl w) ⟨(at_ i).2, h⟩ ⟨(at_ j).2, h'⟩)

end PT.Spec
