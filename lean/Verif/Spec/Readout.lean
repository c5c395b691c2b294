import Verif.Spec.Weights

/-!
# Specification: rings as weights of a sum, as in the notebook `05_optical_readout`
-/

namespace PT.Spec
open Complex

/-- `n` inputs that are added with complex weights. With weights 1 this is the `Combiner` of the notebook, whose matrix is that of an
`Mmi` with these weights. -/
noncomputable def combiner (n : ℕ) (ω : ℕ → ℂ) : Part :=
  .mmi n 1 (Matrix.of fun i _ => (ω i).re) (Matrix.of fun i _ => (ω i).im)

/-- The modules of the readout: the collection of rings with its own sources and detectors, a detector, the combiner, and for each
weight the ring (the same object as in the collection) and a source. -/
noncomputable def readoutModules (n : ℕ) (ω : ℕ → ℂ) (all : Dev) (ap : ℕ → Dev) : List (Str × Dev) :=
  ("allpasses".toList, all) :: ("det".toList, Part.detector.dev) :: ("combiner".toList, (combiner n ω).dev) ::
    (List.range n).flatMap fun i => [("ap".toList ++ natStr i, ap i), ("s".toList ++ natStr i, Part.source.dev)]

/-- Their links. -/
def readoutLinks (n : ℕ) : List (List LinkArg) :=
  [.str ("combiner:".toList ++ natStr n), .str "0:det".toList] :: (List.range n).map fun i =>
    [.str ("s".toList ++ natStr i ++ ":0".toList), .str ("0:ap".toList ++ natStr i ++ ":1".toList), .str (natStr i ++ ":combiner".toList)]

/-- The readout. -/
def ReadoutNet (n : ℕ) (k : ℕ → ℝ) (z x : ℕ → Wg) (ω : ℕ → ℂ) (d : Dev) : Prop :=
  ∃ (ap : ℕ → Dev) (all : Dev), (∀ i, LinkedNet (weightRing (k i) (z i) (x i)) weightRingLinks (ap i)) ∧
    (∀ l ∈ weightLinks n, (linkConns l).2 = .ok ()) ∧
    mkDev none (weightModules n ap) ((weightLinks n).flatMap fun l => (linkConns l).1) = .ok all ∧
    (∀ l ∈ readoutLinks n, (linkConns l).2 = .ok ()) ∧
    mkDev none (readoutModules n ω all ap) ((readoutLinks n).flatMap fun l => (linkConns l).1) = .ok d

/-- What a ring with its output waveguide does to the light that passes. -/
noncomputable def ringThrough (k : ℝ) (z x : Wg) (wl : ℝ) : ℂ := x.amp wl * ((√(1 - k) - z.amp wl) / (1 - √(1 - k) * z.amp wl))

/-- The power that a readout with phases `φ` in its rings should detect for sources `s`. -/
noncomputable def readoutPower (n : ℕ) (k : ℕ → ℝ) (z x : ℕ → Wg) (ω : ℕ → ℂ) (wl : ℝ) (s : ℕ → ℂ) (φ : ℕ → ℝ) : ℝ :=
  ‖∑ i ∈ Finset.range n, ω i * (ringThrough (k i) { z i with phase := φ i } (x i) wl * s i)‖ ^ 2

/-- The readout detects the power `p` for sources `s`. -/
def ReadoutIs (n : ℕ) (k : ℕ → ℝ) (z x : ℕ → Wg) (ω : ℕ → ℂ) (wl : ℝ) (s : ℕ → ℂ) (p : ℝ) : Prop :=
  ∃ d, ReadoutNet n k z x ω d ∧ ∀ (B : Type) (v : ℝ) (env : SimEnv), env.freqdomain = true → env.t.length = 1 →
    ∃ r, initNet (d.plant v fun _ : Unit => wl) env = .ok (some r) ∧
      ∀ (acts : List (Actor Unit B)) (src : ℕ → ℕ → Unit → B → ℝ × ℝ), (∀ i < n, ∀ b, asComplex (src 0 i () b) = s i) →
        ∃ o, forwardReduced r env acts src = .ok [o] ∧ ∀ b, (o () b).map (fun c => ‖asComplex c‖ ^ 2) = [p]

end PT.Spec
