import Verif.Spec.Mesh

/-! Specification vocabulary for the energy balance in time. -/

namespace PT.Spec

/-- The energy that is inside the components after `n` steps: of the light that entered at port `i`, which is delayed by `d i` steps, what
entered in the last `d i` steps.  Light that arrived at a terminal is not counted. -/
noncomputable def stored {ι : Type} [Fintype ι] (term : ι → Bool) (d : ι → ℕ) (a : ℕ → ι → ℂ) (n : ℕ) : ℝ :=
  ∑ i, if term i then 0 else ∑ j ∈ Finset.range (d i), if j < n then Complex.normSq (a (n - 1 - j) i) else 0

/-- A device with `N` sources which can be simulated in every time-domain environment, and in which the detected energy approaches the
injected energy once the sources are dark (from step `m` on): every error bound is met from some step on. -/
def Delivers (N : ℕ) (d : Dev) : Prop :=
  ∀ (W B : Type) (v : ℝ) (wl : W → ℝ) (dt : ℝ), 0 < dt → ∀ (src : ℕ → ℕ → W → B → ℝ × ℝ) (m : ℕ),
    (∀ t, m ≤ t → ∀ k w b, src t k w b = (0, 0)) → ∀ w b (ε : ℝ), 0 < ε →
      ∃ n₀, ∀ (ts : List ℝ) (cs : List (Actor W B)), ∃ (r : Reduced W) (out : List (W → B → List ℝ)),
        initNet (d.plant v wl) ⟨some dt, false, ts⟩ = .ok (some r) ∧
        forwardPower r ⟨some dt, false, ts⟩ cs src = .ok out ∧ out.length = ts.length ∧
          ∀ n, n₀ ≤ n → n ≤ ts.length → |((out.take n).map fun f => (f w b).sum).sum -
            ∑ t ∈ Finset.range m, ∑ k ∈ Finset.range N, ((src t k w b).1 ^ 2 + (src t k w b).2 ^ 2)| < ε

end PT.Spec
