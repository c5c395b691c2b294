import Mathlib.Analysis.SpecialFunctions.Pow.Real
import Mathlib.Algebra.BigOperators.Group.List.Basic
import Mathlib.Data.Fintype.Card
import Verif.Model.Py

/-!
# Model of bit streams and losses

`/repo/photontorch/nn/nn.py:200-343` (`BitStreamGenerator`) and `:346-646` (losses).  A stream is the list of its rows (one
per time step); a row is a function on the channels (wavelengths, readouts, batches).  Rates are rational numbers, values
are real numbers.
-/

namespace PT

/-- `int(x + 0.5)`, as used for all rates, `/repo/photontorch/nn/nn.py:323-331,522-523,621-623`. -/
def toRate (x : ℚ) : ℤ := pyTrunc (x + 1 / 2)

/-- A rate: the keyword argument if given, else the rate of the current environment if there is one and it has one, else
the one given to the constructor. `/repo/photontorch/nn/nn.py:284-292,508-516,594-604`,
`/repo/photontorch/detectors/lowpassdetector.py:169-174,186-187`. `env` is `none` outside all environments
(`current_environment` raises RuntimeError), `some none` for a rate that is `None`. -/
def resolveRate (kw : Option ℚ) (env : Option (Option ℚ)) (own : ℚ) : ℚ :=
  let r := match env with
    | none => kw
    | some e => match kw with
      | none => e
      | some x => some x
  match r with
  | none => own
  | some x => x

section Lists

variable {α : Type}

/-- `stack([x] * k, 1).reshape(-1, ...)`: every row `k` times, `/repo/photontorch/nn/nn.py:332,617-618`. -/
def repeatEach (k : ℕ) (x : List α) : List α := x.flatMap fun r => List.replicate k r

/-- `x[::k]` for `k > 0`, `/repo/photontorch/nn/nn.py:341`, and (after dropping the first entries) `:632-633`. -/
def stride (k : ℕ) : List α → List α
  | [] => []
  | r :: x => r :: stride k (x.drop (k - 1))
  termination_by x => x.length
  decreasing_by simp

/-- `torch.broadcast_tensors` along the time axis, `/repo/photontorch/nn/nn.py:363-371` (the other axes are regarded as
broadcast already). -/
def broadcastTime (x y : List α) : Except PyErr (List α × List α) :=
  if x.length = y.length then .ok (x, y)
  else match x, y with
    | [r], _ => .ok (List.replicate y.length r, y)
    | _, [r] => .ok (x, List.replicate x.length r)
    | _, _ => .error .runtimeError

end Lists

section Filter

variable {V : Type} [AddCommGroup V] [Module ℝ V]

/-- One output of `scipy.signal.lfilter` (an external function) by its documentation: given the inputs and
outputs so far, latest first, `a[0] y[n] = b[0] x[n] + ... + b[M] x[n-M] - a[1] y[n-1] - ... - a[N] y[n-N]`;
used in `/repo/photontorch/nn/nn.py:339`. -/
noncomputable def filterNext (b a : List ℝ) (xs ys : List V) : V :=
  (a.headD 0)⁻¹ • ((List.zipWith (fun c v => c • v) b xs).sum - (List.zipWith (fun c v => c • v) a.tail ys).sum)

/-- The outputs (latest first) for the inputs `x`, given past inputs and outputs (latest first); see `scipyFilter`,
`/repo/photontorch/nn/nn.py:339`. -/
noncomputable def filterFrom (b a : List ℝ) : List V → List V → List V → List V
  | _, ys, [] => ys
  | xs, ys, x :: rest => filterFrom b a (x :: xs) (filterNext b a (x :: xs) ys :: ys) rest

/-- `scipy.signal.lfilter(b, a, x, axis=0)`, as called in `/repo/photontorch/nn/nn.py:339`. -/
noncomputable def scipyFilter (b a : List ℝ) (x : List V) : List V := (filterFrom b a [] [] x).reverse

end Filter

/-- The argument `bits` of a `BitStreamGenerator`, `/repo/photontorch/nn/nn.py:261-262,305-315`: a number of bits, an array (or
tensor), or another sequence (a list or tuple). -/
inductive BitsArg (V : Type)
  | number (n : ℕ)
  | array (x : List V)
  | sequence (x : List V)

section Stream

variable {V : Type} [AddCommGroup V] [Module ℝ V]

/-- The refined sample rate and the factor by which the sampling is refined before filtering,
`/repo/photontorch/nn/nn.py:318-328` (`bitStream` raises the ZeroDivisionError of `//`, lines 323 and 327). -/
def refined (samplerate : ℚ) (cutoff : Option ℚ) : ℚ × ℤ :=
  match cutoff with
  | none => (samplerate, 1)
  | some f =>
    let temp := max ((toRate (8 * f)).fdiv (toRate samplerate) * samplerate) samplerate
    (temp, (toRate temp).fdiv (toRate samplerate))

/-- `BitStreamGenerator.forward` after the arguments have been resolved, `/repo/photontorch/nn/nn.py:305-343`. `rng n` are
`n` random bits; `butter w` are the coefficients of the external `scipy.signal.butter`, which rejects
normalized frequencies outside `(0, 1)`.  Rates that give a number of repetitions or a step that is not positive are rejected (numpy
raises ValueError, except for negative steps, which are not modelled); `0 // 0` is a warning in numpy and 0 here. -/
noncomputable def bitStream (rng : ℕ → List V) (butter : ℚ → List ℝ × List ℝ) (bits : BitsArg V) (bitrate samplerate : ℚ)
    (cutoff : Option ℚ) : Except PyErr (List V) := do
  if cutoff.isSome ∧ toRate samplerate = 0 then throw .zeroDivision
  let temp := (refined samplerate cutoff).1
  let rc := (refined samplerate cutoff).2
  let g : ℤ := Int.gcd (toRate temp) (toRate bitrate)
  let rs := toRate temp / g
  let rb := toRate bitrate / g
  if rs ≤ 0 then throw .valueError
  let rows ← match bits with
    | .number n => pure (rng n)
    | .array x => pure x
    | .sequence _ => throw .attributeError
  let stream := repeatEach rs.toNat rows
  let stream ← match cutoff with
    | none => pure stream
    | some f =>
      let w := f / (1 / 2 * temp * rb)
      if w ≤ 0 ∨ 1 ≤ w then throw .valueError
      else pure (scipyFilter (butter w).1 (butter w).2 stream)
  if rb * rc ≤ 0 then throw .valueError
  return stride (rb * rc).toNat stream

end Stream

section Loss

variable {ι : Type} [Fintype ι]

/-- The mean of all entries of a tensor; `none` is `nan` (the mean of no entries), `/repo/photontorch/nn/nn.py:541,644`. -/
noncomputable def meanAll (x : List (ι → ℝ)) : Option ℝ :=
  if x.length * Fintype.card ι = 0 then none
  else some ((x.map fun r => ∑ i, r i).sum / (x.length * Fintype.card ι : ℕ))

/-- Latency in sample points, `/repo/photontorch/nn/nn.py:522,622`. -/
def latencyPoints (latency bitrate samplerate : ℚ) : ℤ := toRate (latency * samplerate / bitrate)

/-- Warmup in sample points, `/repo/photontorch/nn/nn.py:518,523,606,623` (the number of warmup bits is rounded twice). -/
def warmupPoints (warmup bitrate samplerate : ℚ) : ℤ :=
  toRate (toRate (toRate warmup) * samplerate / bitrate)

/-- `MSELoss.forward` after the arguments have been resolved, `/repo/photontorch/nn/nn.py:519-543` (522 divides by the bit rate, a
python number). -/
noncomputable def mseLoss (prediction target : List (ι → ℝ)) (latency warmup bitrate samplerate : ℚ) :
    Except PyErr (Option ℝ) :=
  match broadcastTime prediction target with
  | .error e => .error e
  | .ok (p, t) =>
    let l := latencyPoints latency bitrate samplerate
    let w := warmupPoints warmup bitrate samplerate
    if bitrate = 0 then .error .zeroDivision
    else if w < 0 then .error .valueError
    else if w + l < 0 then .error .valueError
    else
      let t := t.drop w.toNat
      let p := p.drop (w + l).toNat
      let m := min t.length p.length
      .ok (meanAll (List.zipWith (fun a b i => (a i - b i) ^ 2) (t.take m) (p.take m)))

/-- `target.mean(0)`, `/repo/photontorch/nn/nn.py:612`. -/
noncomputable def meanRow (x : List (ι → ℝ)) : ι → ℝ := fun i => (x.map fun r => r i).sum / x.length

/-- `target.std()` over all entries, with Bessel's correction, `/repo/photontorch/nn/nn.py:612`.  For a single entry or equal entries
python divides `0` by `nan` or `0`, which gives `nan`; here `0`.  Both are `not > 0`, and are only used in this comparison. -/
noncomputable def stdAll (x : List (ι → ℝ)) : ℝ :=
  let n : ℝ := (x.length * Fintype.card ι : ℕ)
  let m := (x.map fun r => ∑ i, r i).sum / n
  Real.sqrt ((x.map fun r => ∑ i, (r i - m) ^ 2).sum / (n - 1))

/-- The normalized target, `/repo/photontorch/nn/nn.py:612`. -/
noncomputable def normalize (x : List (ι → ℝ)) : List (ι → ℝ) :=
  x.map fun r i => (r i - meanRow x i) / stdAll x

/-- `(prediction > threshold) != (target > 0)` as a number, `/repo/photontorch/nn/nn.py:641,644`. -/
noncomputable def wrongBit (threshold p t : ℝ) : ℝ :=
  open Classical in if decide (threshold < p) ≠ decide (0 < t) then 1 else 0

/-- `BERLoss.forward` after the arguments have been resolved, `/repo/photontorch/nn/nn.py:607-646`; `torch.stack` of no tensors raises
a RuntimeError (617), `0 // 0` of numpy integers is 0 (615). -/
noncomputable def berLoss (prediction target : List (ι → ℝ)) (threshold : ℝ) (latency warmup bitrate samplerate : ℚ) :
    Except PyErr (Option ℝ) :=
  match broadcastTime prediction target with
  | .error e => .error e
  | .ok (p, t) =>
    let t := normalize t
    let rb := toRate bitrate / Int.gcd (toRate samplerate) (toRate bitrate)
    let samplerate := rb * samplerate
    let s := toRate (samplerate / bitrate)
    let l := latencyPoints latency bitrate samplerate
    let w := warmupPoints warmup bitrate samplerate
    if rb ≤ 0 then .error .runtimeError
    else if w < 0 then .error .valueError
    else if w + s / 2 + l < 0 then .error .valueError
    else if s ≤ 0 then .error .valueError
    else
      let p := repeatEach rb.toNat p
      let t := repeatEach rb.toNat t
      let t := stride s.toNat (t.drop (w + s / 2).toNat)
      let p := stride s.toNat (p.drop (w + s / 2 + l).toNat)
      let m := min t.length p.length
      .ok (meanAll (List.zipWith (fun a b i => wrongBit threshold (a i) (b i)) (p.take m) (t.take m)))

end Loss

end PT
