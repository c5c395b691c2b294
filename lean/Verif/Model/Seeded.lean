import Verif.Model.Signal

/-!
# Model of the random numbers of bit streams

A `BitStreamGenerator` keeps a generator of random numbers, which every call with a number of bits moves on. Streams without channels.
-/

namespace PT

/-- A `numpy.random.RandomState`, as used in `/repo/photontorch/nn/nn.py:245,304,315`: the numbers that `rand` gives one after the other, and
how many of them it gave already (`rand(n)` gives the next `n`). -/
structure RandomState where
  numbers : ℕ → ℝ
  given : ℕ

/-- Where random numbers come from: those of a seed, and those of the operating system, `/repo/photontorch/nn/nn.py:245,304`. Parameters of
the model. -/
structure Chance where
  ofSeed : ℤ → ℕ → ℝ
  entropy : ℕ → ℝ

/-- `np.random.RandomState(seed=seed)`, `/repo/photontorch/nn/nn.py:245,304`: numpy raises ValueError for seeds that are negative or have
more than 32 bits. -/
def randomState (ch : Chance) : Option ℤ → Except PyErr RandomState
  | none => .ok ⟨ch.entropy, 0⟩
  | some s => if 0 ≤ s ∧ s < 2 ^ 32 then .ok ⟨ch.ofSeed s, 0⟩ else .error .valueError

/-- `rng.rand(n) > 0.5`, `/repo/photontorch/nn/nn.py:315`, as numbers (line 341 converts them). -/
noncomputable def RandomState.bits (r : RandomState) (n : ℕ) : List ℝ :=
  (List.range n).map fun i => if r.numbers (r.given + i) > 1 / 2 then 1 else 0

/-- The generator after `rand(n)`, `/repo/photontorch/nn/nn.py:315`. -/
def RandomState.advance (r : RandomState) (n : ℕ) : RandomState := { r with given := r.given + n }

/-- The arguments of the constructor, `/repo/photontorch/nn/nn.py:208-217` (without type and device). -/
structure BitArgs where
  bitrate : ℚ
  samplerate : ℚ
  cutoff : Option ℚ
  order : ℚ
  seed : Option ℚ

/-- A `BitStreamGenerator`: what its constructor stores, `/repo/photontorch/nn/nn.py:235-245`. -/
structure BitGenerator where
  bitrate : ℚ
  samplerate : ℚ
  cutoff : Option ℚ
  order : ℤ
  seed : Option ℤ
  rng : RandomState

/-- `BitStreamGenerator.__init__`, `/repo/photontorch/nn/nn.py:208-245`; `int(x + 0.5)` is `toRate`. -/
def BitGenerator.make (ch : Chance) (a : BitArgs) : Except PyErr BitGenerator :=
  match randomState ch (a.seed.map toRate) with
  | .error e => .error e
  | .ok r => .ok ⟨a.bitrate, a.samplerate, a.cutoff, toRate a.order, a.seed.map toRate, r⟩

/-- The arguments of a call, `/repo/photontorch/nn/nn.py:247-257` (without type and device), and the rates of the current environment as in
`resolveRate`. -/
structure BitCall where
  bits : BitsArg ℝ
  bitrate : Option ℚ
  samplerate : Option ℚ
  cutoff : Option ℚ
  order : Option ℚ
  seed : Option ℚ
  env : Option (Option ℚ × Option ℚ)

/-- What remains to be done when the generator of random numbers is chosen, `/repo/photontorch/nn/nn.py:284-300,305-343`: arguments that are
not given are those of the constructor. -/
noncomputable def BitGenerator.stream (butter : ℤ → ℚ → List ℝ × List ℝ) (g : BitGenerator) (c : BitCall) (r : RandomState) :
    Except PyErr (List ℝ) :=
  bitStream r.bits (butter ((c.order.map toRate).getD g.order)) c.bits (resolveRate c.bitrate (c.env.map Prod.fst) g.bitrate)
    (resolveRate c.samplerate (c.env.map Prod.snd) g.samplerate) (match c.cutoff with | none => g.cutoff | some f => some f)

/-- How many random numbers are drawn: also if the call fails later, `/repo/photontorch/nn/nn.py:314-315`. -/
def BitsArg.drawn {V : Type} : BitsArg V → ℕ
  | .number n => n
  | _ => 0

/-- `BitStreamGenerator.forward`, `/repo/photontorch/nn/nn.py:247-343`: the result, and the object afterwards. A seed that is given and not that of
the object gives a new generator (304). -/
noncomputable def BitGenerator.forward (ch : Chance) (butter : ℤ → ℚ → List ℝ × List ℝ) (g : BitGenerator) (c : BitCall) :
    Except PyErr (List ℝ) × BitGenerator :=
  let seed := match c.seed with
    | none => g.seed
    | some s => some (toRate s)
  if seed = g.seed then (g.stream butter c g.rng, { g with rng := g.rng.advance c.bits.drawn })
  else match randomState ch seed with
    | .error e => (.error e, g)
    | .ok r => (g.stream butter c r, g)

/-- Several calls one after the other, exceptions caught, `/repo/photontorch/nn/nn.py:247-343`: the object afterwards. -/
noncomputable def BitGenerator.after (ch : Chance) (butter : ℤ → ℚ → List ℝ × List ℝ) : BitGenerator → List BitCall → BitGenerator
  | g, [] => g
  | g, c :: cs => BitGenerator.after ch butter (g.forward ch butter c).2 cs

end PT
