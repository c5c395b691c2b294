import Verif.Model.Signal
import Verif.Model.Rounded

/-!
# Model of bit streams and losses with rounded rates

The functions of `Verif.Model.Signal` once more, with the result of every arithmetic operation on rates, latencies and warmups
rounded by `rd`: the identity gives exact arithmetic back, `fl` is the rounding of python's `float`.
-/

namespace PT

variable (rd : ℚ → ℚ)

/-- `int(x + 0.5)`, `/repo/photontorch/nn/nn.py:323-331,518,522-523,606,615,621-623`: the sum is rounded. -/
def toRateR (x : ℚ) : ℤ := pyTrunc (rd (x + 1 / 2))

/-- The refined sample rate and the factor of the refinement, `/repo/photontorch/nn/nn.py:318-328`: products are rounded, the integer
is converted before it is multiplied with the `float` (324). -/
def refinedR (samplerate : ℚ) (cutoff : Option ℚ) : ℚ × ℤ :=
  match cutoff with
  | none => (samplerate, 1)
  | some f =>
    let temp := max (rd (rd ((toRateR rd (rd (8 * f))).fdiv (toRateR rd samplerate) : ℤ) * samplerate)) samplerate
    (temp, (toRateR rd temp).fdiv (toRateR rd samplerate))

/-- `BitStreamGenerator.forward` after the arguments have been resolved, `/repo/photontorch/nn/nn.py:305-343`, as `bitStream`; the
normalized cutoff frequency (335) is rounded. -/
noncomputable def bitStreamR {V : Type} [AddCommGroup V] [Module ℝ V] (rng : ℕ → List V) (butter : ℚ → List ℝ × List ℝ)
    (bits : BitsArg V) (bitrate samplerate : ℚ) (cutoff : Option ℚ) : Except PyErr (List V) := do
  if cutoff.isSome ∧ toRateR rd samplerate = 0 then throw .zeroDivision
  let temp := (refinedR rd samplerate cutoff).1
  let rc := (refinedR rd samplerate cutoff).2
  let g : ℤ := Int.gcd (toRateR rd temp) (toRateR rd bitrate)
  let rs := toRateR rd temp / g
  let rb := toRateR rd bitrate / g
  if rs ≤ 0 then throw .valueError
  let rows ← match bits with
    | .number n => pure (rng n)
    | .array x => pure x
    | .sequence _ => throw .attributeError
  let stream := repeatEach rs.toNat rows
  let stream ← match cutoff with
    | none => pure stream
    | some f =>
      let w := rd (f / rd (rd (1 / 2 * temp) * rd rb))
      if w ≤ 0 ∨ 1 ≤ w then throw .valueError
      else pure (scipyFilter (butter w).1 (butter w).2 stream)
  if rb * rc ≤ 0 then throw .valueError
  return stride (rb * rc).toNat stream

/-- Latency in sample points, `/repo/photontorch/nn/nn.py:522,622`: product, quotient and sum are rounded. -/
def latencyPointsR (latency bitrate samplerate : ℚ) : ℤ := toRateR rd (rd (rd (latency * samplerate) / bitrate))

/-- Warmup in sample points, `/repo/photontorch/nn/nn.py:518,523,606,623`. -/
def warmupPointsR (warmup bitrate samplerate : ℚ) : ℤ :=
  toRateR rd (rd (rd (rd (toRateR rd (toRateR rd warmup)) * samplerate) / bitrate))

section Loss

variable {ι : Type} [Fintype ι]

/-- `MSELoss.forward` after the arguments have been resolved, `/repo/photontorch/nn/nn.py:519-543`, as `mseLoss`; the powers themselves
are real numbers. -/
noncomputable def mseLossR (prediction target : List (ι → ℝ)) (latency warmup bitrate samplerate : ℚ) :
    Except PyErr (Option ℝ) :=
  match broadcastTime prediction target with
  | .error e => .error e
  | .ok (p, t) =>
    let l := latencyPointsR rd latency bitrate samplerate
    let w := warmupPointsR rd warmup bitrate samplerate
    if bitrate = 0 then .error .zeroDivision
    else if w < 0 then .error .valueError
    else if w + l < 0 then .error .valueError
    else
      let t := t.drop w.toNat
      let p := p.drop (w + l).toNat
      let m := min t.length p.length
      .ok (meanAll (List.zipWith (fun a b i => (a i - b i) ^ 2) (t.take m) (p.take m)))

/-- `BERLoss.forward` after the arguments have been resolved, `/repo/photontorch/nn/nn.py:607-646`, as `berLoss`; the powers themselves
are real numbers. -/
noncomputable def berLossR (prediction target : List (ι → ℝ)) (threshold : ℝ) (latency warmup bitrate samplerate : ℚ) :
    Except PyErr (Option ℝ) :=
  match broadcastTime prediction target with
  | .error e => .error e
  | .ok (p, t) =>
    let t := normalize t
    let rb := toRateR rd bitrate / Int.gcd (toRateR rd samplerate) (toRateR rd bitrate)
    let samplerate := rd (rd rb * samplerate)
    let s := toRateR rd (rd (samplerate / bitrate))
    let l := latencyPointsR rd latency bitrate samplerate
    let w := warmupPointsR rd warmup bitrate samplerate
    if rb ≤ 0 then .error .runtimeError
    else if w < 0 then .error .valueError
    else if w + s / 2 + l < 0 then .error .valueError
    else if s ≤ 0 then .error .valueError
    else
      let p := repeatEach rb.toNat p
      let t := repeatEach rb.toNat t
      let t := stride s.toNat (t.drop (w + s / 2).toNat)
      let p := stride s.toNat (p.drop (w + s / 2 + l).toNat)
      let m := min t.length p.length
      .ok (meanAll (List.zipWith (fun a b i => wrongBit threshold (a i) (b i)) (p.take m) (t.take m)))

end Loss

end PT
