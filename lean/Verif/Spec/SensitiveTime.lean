import Verif.Spec.Sensitive

/-! Specification vocabulary for simulations in time of circuits whose scattering matrices are known only approximately. -/

namespace PT.Spec
open Matrix PT

/-- The energy of waves up to time step `T`. -/
def energy {ι : Type} [Fintype ι] (T : ℕ) (a : ℕ → ι → ℂ) : ℝ := ∑ t ∈ Finset.range T, power (a t)

/-- The same over time: whatever signals are sent into the circuit, up to any time the energy of the waves inside it is at most `κ²` times
the energy sent in. -/
def EnhancesOverTime {ι : Type} [Fintype ι] (κ : ℝ) (C S : Matrix ι ι ℂ) (d : ι → ℕ) : Prop :=
  ∀ T s a b, Solves C S d T s a b → √(energy T a) ≤ κ * √(energy T s)

/-- Light is scattered between ports of the same delay only, also if rounded. -/
def KeepsDelays {W : Type} (p : Plant W) (S' : W → Matrix (Fin p.n) (Fin p.n) ℂ) : Prop := ∀ w i j, S' w i j ≠ 0 → p.delay i = p.delay j

/-- In every environment of the time domain with time step `dt`, both circuits can be simulated, and whatever signals the sources
send, at any time the energy of the difference of what was detected so far is at most `q²` times the energy sent so far. -/
def RunsWithin {W : Type} (q dt : ℝ) (p p' : Plant W) : Prop :=
  ∀ env : SimEnv, env.freqdomain = false → env.dt = some dt →
    ∃ r r', initNet p env = .ok (some r) ∧ initNet p' env = .ok (some r') ∧
      ∀ (B : Type) (cs : List (Actor W B)) (src : ℕ → ℕ → W → B → ℝ × ℝ),
        ∃ o o', forwardReduced r env cs src = .ok o ∧ forwardReduced r' env cs src = .ok o' ∧
          o.length = env.t.length ∧ o'.length = env.t.length ∧
          ∀ w b, (∀ t (h : t < o.length) (h' : t < o'.length), (o'[t] w b).length = (o[t] w b).length) ∧ ∀ T ≤ env.t.length,
            √((List.zipWith (fun x y => mismatch (y w b) (x w b)) (o.take T) (o'.take T)).sum) ≤
              q * √(energy T fun t => emitted p.src fun k => asComplex (src t k w b))

end PT.Spec
