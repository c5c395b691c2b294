import Verif.Model.Signal

/-!
# Model of the detectors

`/repo/photontorch/detectors/lowpassdetector.py` and `/repo/photontorch/detectors/photodetector.py`.  `lfilter` is the pure python
version (`torch_lfilter` is an external package).
-/

namespace PT

section Filter

variable {V : Type} [AddCommGroup V] [Module ℝ V]

/-- `(c * v).sum(0)` for a column `c` and rows `v`, with the broadcasting of torch along axis 0,
`/repo/photontorch/detectors/lowpassdetector.py:84-85,88-89`. -/
noncomputable def mulSum (c : List ℝ) (v : List V) : Except PyErr V :=
  if c.length = v.length then .ok (List.zipWith (fun a r => a • r) c v).sum
  else match c, v with
    | [a], _ => .ok (v.map fun r => a • r).sum
    | _, [r] => .ok (c.map fun a => a • r).sum
    | _, _ => .error .runtimeError

/-- Row `n` of the result, given the rows before: `y[n]` of `/repo/photontorch/detectors/lowpassdetector.py:82-89`; `a` is
reversed and lacks its first entry already. -/
noncomputable def lfilterRow (b a : List ℝ) (x ys : List V) (n : ℕ) : Except PyErr V :=
  if x.length ≤ n then .error .indexError
  else if n = 0 then
    match b.getLast?, x.head? with
    | some c, some v => .ok (c • v)
    | _, _ => .error .indexError
  else if n < b.length then do
    let u ← mulSum (b.drop (b.length - 1 - n)) (x.take (n + 1))
    let v ← mulSum (a.drop (a.length - n)) ys
    return u - v
  else do
    let u ← mulSum b ((x.take (n + 1)).drop (n + 1 - b.length))
    let v ← mulSum a (ys.drop (n + 1 - b.length))
    return u - v

/-- The rows `n, n + 1, …` (`k` rows) of the result, `/repo/photontorch/detectors/lowpassdetector.py:82-89`. -/
noncomputable def lfilterLoop (b a : List ℝ) (x : List V) : ℕ → ℕ → List V → Except PyErr (List V)
  | 0, _, ys => .ok ys
  | k + 1, n, ys => do
    let v ← lfilterRow b a x ys n
    lfilterLoop b a x k (n + 1) (ys ++ [v])

/-- `lfilter`, `/repo/photontorch/detectors/lowpassdetector.py:45-91`, for one-dimensional `b` and `a` and `x` given by its rows
(`x.reshape(num_timesteps, -1)` and back keeps the rows). -/
noncomputable def lfilter (b a : List ℝ) (x : List V) : Except PyErr (List V) :=
  match a with
  | [] => .error .indexError
  | a0 :: rest =>
    if a0 = 0 then .error .zeroDivision
    else if x = [] then .error .runtimeError
    else lfilterLoop (b.map fun c => c / a0) (rest.reverse.map fun c => c / a0) x (max b.length x.length) 0 []

end Filter

/-- Tensors of a given shape (nested sequences), as passed to `/repo/photontorch/detectors/lowpassdetector.py:137-145`. -/
def Ten : List ℕ → Type
  | [] => ℝ
  | n :: s => Fin n → Ten s

namespace Ten

/-- Tensors are added entry by entry (`+`, `/repo/photontorch/detectors/lowpassdetector.py:191`). -/
noncomputable instance addCommGroup : (s : List ℕ) → AddCommGroup (Ten s)
  | [] => inferInstanceAs (AddCommGroup ℝ)
  | n :: s => letI := addCommGroup s; inferInstanceAs (AddCommGroup (Fin n → Ten s))

/-- Tensors are multiplied with numbers entry by entry (`*`, `/repo/photontorch/detectors/lowpassdetector.py:194`). -/
noncomputable instance module : (s : List ℕ) → Module ℝ (Ten s)
  | [] => inferInstanceAs (Module ℝ ℝ)
  | n :: s => letI := module s; inferInstanceAs (Module ℝ (Fin n → Ten s))

/-- A function applied to all entries of two tensors of the same shape, as in
`/repo/photontorch/detectors/photodetector.py:140-153`. -/
def map₂ (f : ℝ → ℝ → ℝ) : (s : List ℕ) → Ten s → Ten s → Ten s
  | [], x, y => f x y
  | _ :: s, x, y => fun i => map₂ f s (x i) (y i)

/-- All entries of a tensor have a property, as used for `/repo/photontorch/detectors/photodetector.py:150`. -/
def all (P : ℝ → Prop) : (s : List ℕ) → Ten s → Prop
  | [], x => P x
  | _ :: s, x => ∀ i, all P s (x i)

/-- `x ** 2`, `/repo/photontorch/detectors/lowpassdetector.py:191`. -/
def sq (s : List ℕ) (x : Ten s) : Ten s := map₂ (fun a _ => a ^ 2) s x x

end Ten

/-- A tensor with at least one axis: its rows (first axis) and their shape;
`/repo/photontorch/detectors/lowpassdetector.py:190` looks at the length of the first axis. -/
structure Sig where
  shape : List ℕ
  rows : List (Ten shape)

/-- `signal[0] ** 2 + signal[1] ** 2` if the first axis has length two, `/repo/photontorch/detectors/lowpassdetector.py:189-191`,
`/repo/photontorch/detectors/photodetector.py:130-132`. (A pair of numbers gives a number, which has no first axis: the
error arises later in `lfilter`, and not at all if nothing is filtered.) -/
noncomputable def Sig.toPower : Sig → Except PyErr Sig
  | ⟨n :: s, [x, y]⟩ => .ok ⟨s, List.ofFn (Ten.sq (n :: s) x + Ten.sq (n :: s) y : Ten (n :: s))⟩
  | ⟨[], [_, _]⟩ => .error .indexError
  | x => .ok x

/-- `responsivity * signal`, `/repo/photontorch/detectors/lowpassdetector.py:194`. -/
noncomputable def Sig.scale (c : ℝ) (x : Sig) : Sig := ⟨x.shape, x.rows.map fun r => c • r⟩

/-- The normalized cutoff and the filter, `/repo/photontorch/detectors/lowpassdetector.py:196-214`. `butter` is the external
`scipy.signal.butter`, which rejects frequencies that are not positive. -/
noncomputable def Sig.lowpass (butter : ℚ → List ℝ × List ℝ) (x : Sig) (samplerate cutoff : ℚ) : Except PyErr Sig :=
  let w := 2 * cutoff / samplerate
  if samplerate = 0 then .error .zeroDivision
  else if w = 1 then .ok x
  else if 1 < w then .error .valueError
  else if w ≤ 0 then .error .valueError
  else (lfilter (butter w).1 (butter w).2 x.rows).map fun y => ⟨x.shape, y⟩

/-- `LowpassDetector.forward` after the arguments have been resolved, `/repo/photontorch/detectors/lowpassdetector.py:189-214`. -/
noncomputable def lowpassDetect (butter : ℚ → List ℝ × List ℝ) (x : Sig) (samplerate cutoff : ℚ) (responsivity : ℝ) :
    Except PyErr Sig :=
  match x.toPower with
  | .error e => .error e
  | .ok p => (p.scale responsivity).lowpass butter samplerate cutoff

/-- The variance of the noise of a current `p`, `/repo/photontorch/detectors/photodetector.py:140-147`; the constants are those of
`/repo/photontorch/detectors/photodetector.py:23-25`. -/
noncomputable def noiseVar (dark load : ℝ) (cutoff : ℚ) (p : ℝ) : ℝ :=
  let k : ℝ := 1.3806488e-23
  let q : ℝ := 1.602176563e-19
  4 * k * 300 / load * cutoff + 2 * q * (p + dark) * cutoff

/-- `signal + sigma_noise * randn`, `/repo/photontorch/detectors/photodetector.py:138-160`, given the standard normal numbers. The square
root of a negative variance is 0 here and `nan` in torch, see `Sig.real`. -/
noncomputable def addNoise (dark load : ℝ) (cutoff : ℚ) (x : Sig) (randn : List (Ten x.shape)) : Sig :=
  ⟨x.shape, List.zipWith (fun r ξ => Ten.map₂ (fun p n => p + Real.sqrt (noiseVar dark load cutoff p) * n) x.shape r ξ) x.rows randn⟩

/-- All variances have square roots, `/repo/photontorch/detectors/photodetector.py:150`; otherwise the noise contains `nan`. -/
def Sig.real (dark load : ℝ) (cutoff : ℚ) (x : Sig) : Prop :=
  ∀ r ∈ x.rows, Ten.all (fun p => 0 ≤ noiseVar dark load cutoff p) x.shape r

open Classical in
/-- `Photodetector.forward`, `/repo/photontorch/detectors/photodetector.py:115-166`; `randn` are the random numbers, for every shape. `none`
is a tensor with an entry `nan` (whatever the filter does with it). -/
noncomputable def photoDetect (butter : ℚ → List ℝ × List ℝ) (randn : (s : List ℕ) → ℕ → List (Ten s)) (x : Sig)
    (samplerate cutoff : ℚ) (responsivity dark load : ℝ) : Except PyErr (Option Sig) :=
  match x.toPower with
  | .error e => .error e
  | .ok p =>
    let p := p.scale responsivity
    if load = 0 then .error .zeroDivision
    else (lowpassDetect butter (addNoise dark load cutoff p (randn p.shape p.rows.length)) samplerate cutoff 1).map fun y =>
      if p.real dark load cutoff then some y else none

/-- `LowpassDetector.__init__` checks the cutoff, `/repo/photontorch/detectors/lowpassdetector.py:129-135`. -/
def lowpassNew (samplerate cutoff : ℚ) : Except PyErr Unit :=
  if samplerate = 0 then .error .zeroDivision
  else if 1 < 2 * cutoff / samplerate then .error .valueError else .ok ()

end PT
