import Verif.Spec.SensitiveTime

/-! Specification vocabulary for detected powers that are known only approximately. -/

namespace PT.Spec
open PT

/-- The sum of the differences of two lists of detected powers. -/
noncomputable def offBy (u v : List ℝ) : ℝ := (List.zipWith (fun x y => |y - x|) u v).sum

/-- In every environment of the frequency domain, both circuits can be simulated, and whatever amplitudes the sources have, detected powers
(the default, `power=True`) differ in total by at most `q` times the power of the sources. -/
def PowersWithin {W : Type} (q : ℝ) (p p' : Plant W) : Prop :=
  ∀ env : SimEnv, env.freqdomain = true → env.t.length = 1 →
    ∃ r r', initNet p env = .ok (some r) ∧ initNet p' env = .ok (some r') ∧
      ∀ (B : Type) (cs : List (Actor W B)) (src : ℕ → ℕ → W → B → ℝ × ℝ),
        ∃ o o', forwardPower r env cs src = .ok [o] ∧ forwardPower r' env cs src = .ok [o'] ∧
          ∀ w b, (o' w b).length = (o w b).length ∧
            offBy (o w b) (o' w b) ≤ q * ∑ k ∈ Finset.range (portsWith p.src).length, ((src 0 k w b).1 ^ 2 + (src 0 k w b).2 ^ 2)

/-- The same in the time domain, for the energies up to any time step. -/
def EnergiesWithin {W : Type} (q dt : ℝ) (p p' : Plant W) : Prop :=
  ∀ env : SimEnv, env.freqdomain = false → env.dt = some dt →
    ∃ r r', initNet p env = .ok (some r) ∧ initNet p' env = .ok (some r') ∧
      ∀ (B : Type) (cs : List (Actor W B)) (src : ℕ → ℕ → W → B → ℝ × ℝ),
        ∃ o o', forwardPower r env cs src = .ok o ∧ forwardPower r' env cs src = .ok o' ∧
          o.length = env.t.length ∧ o'.length = env.t.length ∧
          ∀ w b, (∀ t (h : t < o.length) (h' : t < o'.length), (o'[t] w b).length = (o[t] w b).length) ∧ ∀ T ≤ env.t.length,
            (List.zipWith (fun x y => offBy (x w b) (y w b)) (o.take T) (o'.take T)).sum ≤
              q * ∑ t ∈ Finset.range T, ∑ k ∈ Finset.range (portsWith p.src).length, ((src t k w b).1 ^ 2 + (src t k w b).2 ^ 2)

end PT.Spec
