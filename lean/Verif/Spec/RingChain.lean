import Verif.Spec.Crow
import Verif.Model.Mesh

/-!
# Specification: ring networks of width two, as in the notebook `08_ring_networks`
-/

namespace PT.Spec
open Complex

/-- Couplers for the factory of interferometers, one in every layer. -/
def ringCouplers (k : ℕ → ℝ) (m _ : ℕ) : Part := .coupler (k m)

/-- Two waveguides in every layer. -/
noncomputable def ringWaveguides (wg₀ wg₁ : ℕ → Wg) (m i : ℕ) : Part := if i = 0 then (wg₀ m).part else (wg₁ m).part

/-- A term with a name. -/
noncomputable def namedTerm (x : Str) (p : Part) : Str × Dev := (x, { p.dev with comp := { p.dev.comp with name := some x } })

/-- The terms of the notebook. -/
noncomputable def notebookTerms : List (Str × Dev) :=
  [namedTerm "term_in".toList .source, namedTerm "term_pass".toList .detector, namedTerm "term_drop".toList .detector,
    namedTerm "term_add".toList .detector]

/-- What passes `n` rings and the waveguide behind them. -/
noncomputable def ringPass (n : ℕ) (k : ℕ → ℝ) (wg₀ wg₁ : ℕ → Wg) (wl : ℝ) : ℂ :=
  (if n % 2 = 0 then (wg₁ n).amp wl else (wg₀ n).amp wl) * crowPass n k wg₀ wg₁ wl

end PT.Spec
