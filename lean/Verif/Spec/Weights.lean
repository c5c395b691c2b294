import Verif.Props.Filters

/-!
# Specification: a collection of rings used as weights, as in the notebook `05_optical_readout`
-/

namespace PT.Spec
open Complex

/-- A ring on a bus with ports: a coupler, the ring and a waveguide at the output. -/
noncomputable def weightRing (k : ℝ) (z x : Wg) : List (Str × Part) :=
  [("dc".toList, .coupler k), ("wg".toList, z.part), ("wg_out".toList, x.part)]

/-- Its link, with the two ports of the network. -/
def weightRingLinks : List (List LinkArg) :=
  [[.int 0, .str "0:dc:2".toList, .str "0:wg:1".toList, .str "3:dc:1".toList, .str "0:wg_out:1".toList, .int 1]]

/-- A ring, a source and a detector for each of `n` weights. -/
noncomputable def weightModules (n : ℕ) (ap : ℕ → Dev) : List (Str × Dev) :=
  (List.range n).flatMap fun i => [("ap".toList ++ natStr i, ap i), ("s".toList ++ natStr i, Part.source.dev),
    ("d".toList ++ natStr i, Part.detector.dev)]

/-- Their links. -/
def weightLinks (n : ℕ) : List (List LinkArg) :=
  (List.range n).map fun i => [.str ("s".toList ++ natStr i ++ ":0".toList), .str ("0:ap".toList ++ natStr i ++ ":1".toList),
    .str ("0:d".toList ++ natStr i)]

/-- The collection of `n` rings: networks in a network. -/
def WeightsNet (n : ℕ) (k : ℕ → ℝ) (z x : ℕ → Wg) (d : Dev) : Prop :=
  ∃ ap : ℕ → Dev, (∀ i, LinkedNet (weightRing (k i) (z i) (x i)) weightRingLinks (ap i)) ∧
    (∀ l ∈ weightLinks n, (linkConns l).2 = .ok ()) ∧
    mkDev none (weightModules n ap) ((weightLinks n).flatMap fun l => (linkConns l).1) = .ok d

/-- The collection of rings detects the power of source `i`, times `y i`, at detector `i`. -/
def WeightsAre (n : ℕ) (k : ℕ → ℝ) (z x : ℕ → Wg) (wl : ℝ) (y : ℕ → ℝ) : Prop :=
  ∃ d, WeightsNet n k z x d ∧ ∀ (B : Type) (v : ℝ) (env : SimEnv), env.freqdomain = true → env.t.length = 1 →
    ∃ r, initNet (d.plant v fun _ : Unit => wl) env = .ok (some r) ∧
      ∀ (acts : List (Actor Unit B)) (src : ℕ → ℕ → Unit → B → ℝ × ℝ), ∃ o, forwardReduced r env acts src = .ok [o] ∧
        ∀ b, (o () b).map (fun c => ‖asComplex c‖ ^ 2) = (List.range n).map fun i => y i * ‖asComplex (src 0 i () b)‖ ^ 2

/-- The amplitude that is left after a waveguide. -/
noncomputable def Wg.left (g : Wg) : ℝ := (10 : ℝ) ^ (-(g.loss * g.length) / 20)

/-- The smallest power a ring with coupling `k` can pass, at resonance. -/
noncomputable def ringLow (k : ℝ) (z x : Wg) : ℝ := x.left ^ 2 * ((√(1 - k) - z.left) / (1 - √(1 - k) * z.left)) ^ 2

/-- The largest power, between two resonances. -/
noncomputable def ringHigh (k : ℝ) (z x : Wg) : ℝ := x.left ^ 2 * ((√(1 - k) + z.left) / (1 + √(1 - k) * z.left)) ^ 2

end PT.Spec
