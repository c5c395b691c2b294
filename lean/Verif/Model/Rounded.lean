import Verif.Model.Env
import Mathlib.Data.Int.Log

/-!
# Model of `photontorch.environment.Environment` with rounded arithmetic

The constructor of `Verif.Model.Env` once more, with the result of every arithmetic operation rounded by `rd`: the identity gives
exact arithmetic back, `fl` is the rounding of python's `float` and numpy's `float64`.
-/

namespace PT

/-- Rounding to the nearest integer, ties to even: the rounding of the last digit of a `float`, as in
`/repo/photontorch/environment/environment.py:116`. -/
def roundEven (q : ℚ) : ℤ :=
  if q - ⌊q⌋ < 1 / 2 then ⌊q⌋ else if 1 / 2 < q - ⌊q⌋ then ⌊q⌋ + 1 else if ⌊q⌋ % 2 = 0 then ⌊q⌋ else ⌊q⌋ + 1

/-- The exponent of the last of the 53 binary digits of a `float` near `x` (IEEE 754 binary64, at least -1074),
`/repo/photontorch/environment/environment.py:116`. -/
def place (x : ℚ) : ℤ := max (Int.log 2 |x| - 52) (-1074)

/-- The `float` nearest to `x`, ties to even: the result of `+`, `-`, `*`, `/` on `float`s and of reading a decimal literal,
e.g. `/repo/photontorch/environment/environment.py:116-121,169-190`.  Simplification: no overflow, that is no infinities
beyond 2^1024. -/
def fl (x : ℚ) : ℚ := roundEven (x / 2 ^ place x) * 2 ^ place x

variable (rd : ℚ → ℚ)

/-- `x / y` for `float`s, as `pyDiv`, rounded; `/repo/photontorch/environment/environment.py:116,274,292,331,376,378`. -/
def pyDivR (x y : ℚ) : Except PyErr ℚ := (pyDiv x y).map rd

/-- `c / arr`, as `npDivArr`, every entry rounded; `/repo/photontorch/environment/environment.py:310,332,346,390`. -/
def npDivArrR (x : ℚ) (l : List ℚ) : Except PyErr (List ℚ) := (npDivArr x l).map fun l => l.map rd

/-- `_arange`, `/repo/photontorch/environment/environment.py:114-122`: difference, quotient, products and sums are rounded. -/
def arangeR (start stop step : ℚ) : Except PyErr (List ℚ) := do
  let q ← pyDivR rd (rd (stop - start)) step
  let num := pyTrunc q
  if num = 0 then
    return [start]
  else if 0 < num then
    return (List.range num.natAbs).map fun (i : ℕ) => rd (start + rd (step * rd (i : ℚ)))
  else
    return (List.range num.natAbs).map fun (i : ℕ) => rd (start + rd (step * -rd (i : ℚ)))

/-- `np.linspace(start, stop, num, endpoint=False)` as called in `/repo/photontorch/environment/environment.py:294`: numpy computes
`step = (stop - start) / num`, multiplies it with `0, …, num - 1` and adds `start`; if `step` is rounded to zero it
divides `0, …, num - 1` by `num` first. -/
def linspaceOpenR (start stop : ℚ) (num : ℤ) : Except PyErr (List ℚ) :=
  if num < 0 then .error .valueError
  else
    let delta := rd (stop - start)
    let step := rd (delta / rd (num : ℚ))
    .ok ((List.range num.toNat).map fun (i : ℕ) =>
      rd ((if step = 0 then rd (rd (rd (i : ℚ) / rd (num : ℚ)) * delta) else rd (rd (i : ℚ) * step)) + start))

/-- The time step used for building a grid, `/repo/photontorch/environment/environment.py:291-292`. -/
def stepArgR (a : Args) : Except PyErr ℚ :=
  if !a.samplerate.isDefault then do pyDivR rd 1 (← a.samplerate.val) else a.dt.val

/-- The time array, `/repo/photontorch/environment/environment.py:276-301`. -/
def timeArrR (a : Args) : Except PyErr (Option (List ℚ)) := do
  if !a.t.isDefault || countGiven [a.dt.isDefault, a.samplerate.isDefault, a.num_t.isDefault,
      a.t0.isDefault, a.t1.isDefault] = 0 then
    arrOf a.t
  else
    let dt ← stepArgR rd a
    if !a.num_t.isDefault then
      let n ← a.num_t.val
      let t0 ← a.t0.val
      return some (← linspaceOpenR rd t0 (rd (t0 + rd (rd (n : ℚ) * dt))) n)
    else
      return some (← arangeR rd (← a.t0.val) (← a.t1.val) dt)

/-- `c / f` for the `f` argument, `/repo/photontorch/environment/environment.py:310`. -/
def divArgR (c : ℚ) : Arg ArrArg → Except PyErr (Arg ArrArg)
  | .dflt (.scalar q) => do return .given (.scalar (← pyDivR rd c q))
  | .given (.scalar q) => do return .given (.scalar (← pyDivR rd c q))
  | .dflt (.vec l) => do return .given (.vec (← npDivArrR rd c l))
  | .given (.vec l) => do return .given (.vec (← npDivArrR rd c l))
  | .dflt .high => .ok (.given .high)
  | .given .high => .ok (.given .high)
  | .none => .error .typeError

/-- `c / f` if `f` is supplied, else `wl`, `/repo/photontorch/environment/environment.py:309-310`. -/
def wlArgOfR (c : ℚ) (a : Args) : Except PyErr (Arg ArrArg) :=
  if !a.f.isDefault then divArgR rd c a.f else .ok a.wl

/-- A wavelength bound, `/repo/photontorch/environment/environment.py:352-357`. -/
def wlBoundOfR (c : ℚ) (fArg wlArg : Arg ℚ) : Except PyErr ℚ :=
  if !fArg.isDefault then do pyDivR rd c (← fArg.val) else wlArg.val

/-- The wavelength step, `/repo/photontorch/environment/environment.py:358-360`. -/
def wlStepOfR (a : Args) (wl0 wl1 : ℚ) : Except PyErr ℚ :=
  if !a.num_wl.isDefault then do pyDivR rd (rd (wl1 - wl0)) (rd ((← a.num_wl.val : ℤ) : ℚ)) else a.dwl.val

/-- The upper frequency bound, `/repo/photontorch/environment/environment.py:324-326,338-340`. -/
def freqTopR (c : ℚ) (a : Args) : Except PyErr ℚ :=
  if !a.wl0.isDefault then do pyDivR rd c (← a.wl0.val) else a.f1.val

/-- The lower frequency bound, `/repo/photontorch/environment/environment.py:327-329,341-343`, with the code's `wl0`. -/
def freqBottomR (c : ℚ) (a : Args) : Except PyErr ℚ :=
  if !a.wl1.isDefault then do pyDivR rd c (← a.wl0.val) else a.f0.val

/-- The wavelength array, `/repo/photontorch/environment/environment.py:306-366`. -/
def wlArrR (c : ℚ) (a : Args) : Except PyErr (Option (List ℚ)) := do
  if (!a.wl.isDefault || !a.f.isDefault) ||
      countGiven [a.num_wl.isDefault, a.num_f.isDefault, a.dwl.isDefault, a.df.isDefault,
        a.wl0.isDefault, a.f0.isDefault, a.wl1.isDefault, a.f1.isDefault] = 0 then
    arrOf (← wlArgOfR rd c a)
  else if !a.num_f.isDefault then
    let f1 ← freqTopR rd c a
    let f0 ← freqBottomR rd c a
    let df ← pyDivR rd (rd (f1 - f0)) (rd ((← a.num_f.val : ℤ) : ℚ))
    return some (← npDivArrR rd c (← arangeR rd f0 f1 df))
  else if !a.df.isDefault then
    let f1 ← freqTopR rd c a
    let f0 ← freqBottomR rd c a
    let d ← a.df.val
    let df := if f1 ≥ f0 then |d| else -|d|
    return some (← npDivArrR rd c (← arangeR rd f0 f1 df))
  else
    let wl0 ← wlBoundOfR rd c a.f0 a.wl0
    let wl1 ← wlBoundOfR rd c a.f1 a.wl1
    let dwl ← wlStepOfR rd a wl0 wl1
    return some (← arangeR rd wl0 wl1 dwl)

/-- `None if arr.shape[0] < 2 else arr[1] - arr[0]`, `/repo/photontorch/environment/environment.py:375,387-389,398`. -/
def firstStepR (l : List ℚ) : Option ℚ := (firstStep l).map rd

/-- `None if len < 2 else t[-1] + (t[1] - t[0])`, `/repo/photontorch/environment/environment.py:371-373`. -/
def timeEndR (l : List ℚ) : Option ℚ := (firstStepR rd l).map fun s => rd (lastD l + s)

/-- `None if len < 2 else arr[-1] + (arr[-1] - arr[-2])`, `/repo/photontorch/environment/environment.py:381-385,392-396`. -/
def gridEndR (l : List ℚ) : Option ℚ :=
  if l.length < 2 then none else some (rd (lastD l + rd (lastD l - last2D l)))

/-- `None if x is None else float(1 / x)`, `/repo/photontorch/environment/environment.py:376,378`. -/
def recipOptR : Option ℚ → Except PyErr (Option ℚ)
  | none => .ok none
  | some x => do return some (← pyDivR rd 1 x)

/-- The bitrate, `/repo/photontorch/environment/environment.py:273-274`. -/
def bitrateOfR (a : Args) : Except PyErr (Option ℚ) := do
  if !a.bitlength.isDefault then
    return some (← pyDivR rd 1 (← a.bitlength.val))
  else
    match a.bitrate with
    | .dflt v => return some v
    | .given v => return some v
    | .none => return none

/-- `Environment.__init__`, `/repo/photontorch/environment/environment.py:167-420`, with rounded arithmetic. -/
def Env.initR (a : Args) : Except PyErr Env := do
  let c ← a.c.val
  checkArgs a
  let bitrate ← bitrateOfR rd a
  let t ← timeArrR rd a
  let t := if a.freqdomain then t.map (·.take 1) else t
  let bitrate := if a.freqdomain then none else bitrate
  let wl ← wlArrR rd c a
  let (t, t0) ← headOf t
  let dt := firstStepR rd t
  let samplerate ← recipOptR rd dt
  let bitlength ← recipOptR rd bitrate
  let (wl, wl0) ← headOf wl
  let f ← npDivArrR rd c wl
  return {
    name := a.name
    t := t
    t0 := t0
    t1 := timeEndR rd t
    num_t := t.length
    dt := dt
    samplerate := samplerate
    bitrate := bitrate
    bitlength := bitlength
    wl := wl
    wl0 := wl0
    wl1 := gridEndR rd wl
    num_wl := wl.length
    dwl := firstStepR rd wl
    f := f
    f0 := f.headD 0
    f1 := gridEndR rd f
    num_f := f.length
    df := firstStepR rd f
    c := c
    freqdomain := a.freqdomain
    grad := a.grad
    extras := a.extras }

/-- All arguments left at their defaults, `/repo/photontorch/environment/environment.py:169-190`: decimal literals and the results of the
operations on them are rounded. -/
def defaultArgsR : Args where
  dt := .dflt (rd (1 / 10 ^ 14))
  samplerate := .dflt (rd (10 ^ 14))
  num_t := .dflt 100
  t0 := .dflt 0
  t1 := .dflt (rd (1 / 10 ^ 12))
  t := .dflt (.vec ((arangeR rd 0 (rd (1 / 10 ^ 12)) (rd (1 / 10 ^ 14))).toOption.getD []))
  bitrate := .none
  bitlength := .none
  wl := .dflt (.scalar (rd (155 / 10 ^ 8)))
  f := .dflt (.scalar (rd (299792458 / rd (155 / 10 ^ 8))))
  dwl := .dflt (rd (1 / 10 ^ 9))
  df := .dflt (rd (rd (299792458 / rd (1550 / 10 ^ 9)) - rd (99792458 / rd (1551 / 10 ^ 9))))
  num_wl := .dflt 1
  num_f := .dflt 1
  wl0 := .dflt (rd (15 / 10 ^ 7))
  f0 := .dflt (rd (299792458 / rd (16 / 10 ^ 7)))
  wl1 := .dflt (rd (16 / 10 ^ 7))
  f1 := .dflt (rd (299792458 / rd (15 / 10 ^ 7)))
  c := .dflt 299792458
  freqdomain := false
  grad := false
  name := ['e', 'n', 'v']
  extras := []

/-- `Environment(**kwargs)` with the supplied keywords `o`, `/repo/photontorch/environment/environment.py:167-192`. -/
def Env.makeR (o : Overrides) : Except PyErr Env := Env.initR rd ((defaultArgsR rd).update o)

/-- The `new` keyword dictionary of `copy` before the overrides, `/repo/photontorch/environment/environment.py:456-465`: what is `None` is
replaced by the default. -/
def Env.toArgsR (e : Env) : Args where
  dt := asDefault id e.dt (defaultArgsR rd).dt
  samplerate := asDefault id e.samplerate (defaultArgsR rd).samplerate
  num_t := .dflt e.num_t
  t0 := .dflt e.t0
  t1 := asDefault id e.t1 (defaultArgsR rd).t1
  t := .dflt (.vec e.t)
  bitrate := asDefault id e.bitrate (defaultArgsR rd).bitrate
  bitlength := asDefault id e.bitlength (defaultArgsR rd).bitlength
  wl := .dflt (.vec e.wl)
  f := .dflt (.vec e.f)
  dwl := asDefault id e.dwl (defaultArgsR rd).dwl
  df := asDefault id e.df (defaultArgsR rd).df
  num_wl := .dflt e.num_wl
  num_f := .dflt e.num_f
  wl0 := .dflt e.wl0
  f0 := .dflt e.f0
  wl1 := asDefault id e.wl1 (defaultArgsR rd).wl1
  f1 := asDefault id e.f1 (defaultArgsR rd).f1
  c := .dflt e.c
  freqdomain := e.freqdomain
  grad := e.grad
  name := e.name
  extras := publicExtras e.extras

/-- `Environment.copy`, `/repo/photontorch/environment/environment.py:422-467`. -/
def Env.copyR (e : Env) (o : Overrides) : Except PyErr Env := Env.initR rd ((e.toArgsR rd).update o)

end PT
