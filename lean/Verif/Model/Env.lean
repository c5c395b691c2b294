import Verif.Model.Py

/-!
# Model of `photontorch.environment.Environment`

Numbers are exact rationals.  Array arguments are 0-d, 1-d or higher-dimensional.
-/

namespace PT

/-- A constructor argument: the wrapped default value, an explicitly supplied value, or `None`.
`/repo/photontorch/environment/environment.py:35-72` (the `_DefaultArgument` wrappers),
`167-192` (the signature). -/
inductive Arg (α : Type)
  | dflt (v : α)
  | given (v : α)
  | none
  deriving DecidableEq, Repr

namespace Arg
variable {α : Type}

/-- `_is_default`, `/repo/photontorch/environment/environment.py:125-127`: wrapped defaults
and `None` count as default. -/
def isDefault : Arg α → Bool
  | .given _ => false
  | _ => true

/-- Using the argument as a number: `None` raises `TypeError`
(`/repo/photontorch/environment/environment.py:268-270,292-297,326-359`). -/
def val : Arg α → Except PyErr α
  | .dflt v => .ok v
  | .given v => .ok v
  | .none => .error .typeError

end Arg

/-- An array-like argument: a scalar, a 1-d array, or an array of dimension > 1
(whose contents do not matter: it is rejected).
`/repo/photontorch/environment/environment.py:280-289,311-321`. -/
inductive ArrArg
  | scalar (q : ℚ)
  | vec (l : List ℚ)
  | high
  deriving DecidableEq, Repr

/-- `_arange`, `/repo/photontorch/environment/environment.py:114-122`:
`num = int((stop-start)/step)`; `[start]` if `num == 0`; otherwise
`start + step*np.arange(0, num, ±1)`. -/
def arange (start stop step : ℚ) : Except PyErr (List ℚ) := do
  let q ← pyDiv (stop - start) step
  let num := pyTrunc q
  if num = 0 then
    return [start]
  else if 0 < num then
    return (List.range num.natAbs).map fun (i : ℕ) => start + step * (i : ℚ)
  else
    return (List.range num.natAbs).map fun (i : ℕ) => start + step * (-(i : ℚ))

/-- `np.linspace(start, stop, num, endpoint=False)` as called in
`/repo/photontorch/environment/environment.py:294`: negative `num` raises `ValueError`,
otherwise `num` samples `start + i*((stop-start)/num)`. -/
def linspaceOpen (start stop : ℚ) (num : ℤ) : Except PyErr (List ℚ) :=
  if num < 0 then .error .valueError
  else .ok ((List.range num.toNat).map fun (i : ℕ) => start + (i : ℚ) * ((stop - start) / (num : ℚ)))

/-- Constructor arguments, `/repo/photontorch/environment/environment.py:167-192`.
`freqdomain`, `grad`, `name` are never tested for being default, so plain values suffice.
`extras` are the `**kwargs` that remain after the aliases were popped (values simplified to
rationals). -/
structure Args where
  dt : Arg ℚ
  samplerate : Arg ℚ
  num_t : Arg ℤ
  t0 : Arg ℚ
  t1 : Arg ℚ
  t : Arg ArrArg
  bitrate : Arg ℚ
  bitlength : Arg ℚ
  wl : Arg ArrArg
  f : Arg ArrArg
  dwl : Arg ℚ
  df : Arg ℚ
  num_wl : Arg ℤ
  num_f : Arg ℤ
  wl0 : Arg ℚ
  f0 : Arg ℚ
  wl1 : Arg ℚ
  f1 : Arg ℚ
  c : Arg ℚ
  freqdomain : Bool
  grad : Bool
  name : List Char
  extras : List (List Char × ℚ)
  deriving DecidableEq

/-- The default time array `_arange(0, 1e-12, 1e-14)`,
`/repo/photontorch/environment/environment.py:174`. -/
def defaultT : List ℚ := (List.range 100).map fun (i : ℕ) => (0 : ℚ) + (1 / 10 ^ 14) * (i : ℚ)

/-- All arguments left at their defaults, `/repo/photontorch/environment/environment.py:169-190`
(including the code's own typo `99792458.0` in the default of `df`). -/
def defaultArgs : Args where
  dt := .dflt (1 / 10 ^ 14)
  samplerate := .dflt (10 ^ 14)
  num_t := .dflt 100
  t0 := .dflt 0
  t1 := .dflt (1 / 10 ^ 12)
  t := .dflt (.vec defaultT)
  bitrate := .none
  bitlength := .none
  wl := .dflt (.scalar (155 / 10 ^ 8))
  f := .dflt (.scalar (299792458 / (155 / 10 ^ 8)))
  dwl := .dflt (1 / 10 ^ 9)
  df := .dflt (299792458 / (1550 / 10 ^ 9) - 99792458 / (1551 / 10 ^ 9))
  num_wl := .dflt 1
  num_f := .dflt 1
  wl0 := .dflt (15 / 10 ^ 7)
  f0 := .dflt (299792458 / (16 / 10 ^ 7))
  wl1 := .dflt (16 / 10 ^ 7)
  f1 := .dflt (299792458 / (15 / 10 ^ 7))
  c := .dflt 299792458
  freqdomain := false
  grad := false
  name := ['e', 'n', 'v']
  extras := []

/-- `sum([not _is_default(v) for v in ...])`, e.g. `/repo/photontorch/environment/environment.py:236`. -/
def countGiven (l : List Bool) : ℕ := (l.filter fun isDef => !isDef).length

/-- The exclusion and sign checks, in order,
`/repo/photontorch/environment/environment.py:236-271`. -/
def checkArgs (a : Args) : Except PyErr Unit :=
  if countGiven [a.dt.isDefault, a.samplerate.isDefault, a.t.isDefault] > 1 then
    .error .valueError
  else if !a.t0.isDefault && !a.t.isDefault then .error .valueError
  else if countGiven [a.t1.isDefault, a.num_t.isDefault, a.t.isDefault] > 1 then
    .error .valueError
  else if !a.bitrate.isDefault && !a.bitlength.isDefault then .error .valueError
  else if !a.wl.isDefault && !a.f.isDefault then .error .valueError
  else if countGiven [a.dwl.isDefault, a.df.isDefault, a.num_wl.isDefault, a.num_f.isDefault,
      a.wl.isDefault, a.f.isDefault] > 1 then .error .valueError
  else if countGiven [a.wl0.isDefault, a.f0.isDefault, a.wl.isDefault, a.f.isDefault] > 1 then
    .error .valueError
  else if countGiven [a.wl1.isDefault, a.f1.isDefault, a.wl.isDefault, a.f.isDefault] > 1 then
    .error .valueError
  else do
    if (← a.dt.val) < 0 then .error .valueError
    else if (← a.t0.val) > (← a.t1.val) then .error .valueError
    else .ok ()

/-- Result of converting an array argument: `none` stands for the object array `[None]` that
`np.array(None)[None]` produces when the user passes `None`.
`/repo/photontorch/environment/environment.py:280-289,313-321`. -/
def arrOf : Arg ArrArg → Except PyErr (Option (List ℚ))
  | .dflt (.scalar q) => .ok (some [q])
  | .given (.scalar q) => .ok (some [q])
  | .dflt (.vec l) => .ok (some l)
  | .given (.vec l) => .ok (some l)
  | .dflt .high => .error .valueError
  | .given .high => .error .valueError
  | .none => .ok none

/-- The time step used for building a grid, `/repo/photontorch/environment/environment.py:291-292`. -/
def stepArg (a : Args) : Except PyErr ℚ :=
  if !a.samplerate.isDefault then do pyDiv 1 (← a.samplerate.val) else a.dt.val

/-- The time array, `/repo/photontorch/environment/environment.py:276-301`. -/
def timeArr (a : Args) : Except PyErr (Option (List ℚ)) := do
  if !a.t.isDefault || countGiven [a.dt.isDefault, a.samplerate.isDefault, a.num_t.isDefault,
      a.t0.isDefault, a.t1.isDefault] = 0 then
    arrOf a.t
  else
    let dt ← stepArg a
    if !a.num_t.isDefault then
      let n ← a.num_t.val
      let t0 ← a.t0.val
      return some (← linspaceOpen t0 (t0 + n * dt) n)
    else
      return some (← arange (← a.t0.val) (← a.t1.val) dt)

/-- `c / f` for the `f` argument, `/repo/photontorch/environment/environment.py:310`
(scalar: Python division; array: numpy division; higher dimensions are rejected afterwards by
the dimension check at 317-321, so their entries are irrelevant). -/
def divArg (c : ℚ) : Arg ArrArg → Except PyErr (Arg ArrArg)
  | .dflt (.scalar q) => do return .given (.scalar (← pyDiv c q))
  | .given (.scalar q) => do return .given (.scalar (← pyDiv c q))
  | .dflt (.vec l) => do return .given (.vec (← npDivArr c l))
  | .given (.vec l) => do return .given (.vec (← npDivArr c l))
  | .dflt .high => .ok (.given .high)
  | .given .high => .ok (.given .high)
  | .none => .error .typeError

/-- The array argument used: `c / f` if `f` is supplied, else `wl`,
`/repo/photontorch/environment/environment.py:309-310`. -/
def wlArgOf (c : ℚ) (a : Args) : Except PyErr (Arg ArrArg) :=
  if !a.f.isDefault then divArg c a.f else .ok a.wl

/-- A wavelength bound: `c / f0` if that frequency is supplied, else the wavelength argument,
`/repo/photontorch/environment/environment.py:352-357`. -/
def wlBoundOf (c : ℚ) (fArg wlArg : Arg ℚ) : Except PyErr ℚ :=
  if !fArg.isDefault then do pyDiv c (← fArg.val) else wlArg.val

/-- The wavelength step, `/repo/photontorch/environment/environment.py:358-360`. -/
def wlStepOf (a : Args) (wl0 wl1 : ℚ) : Except PyErr ℚ :=
  if !a.num_wl.isDefault then do pyDiv (wl1 - wl0) (← a.num_wl.val) else a.dwl.val

/-- The upper frequency bound, `/repo/photontorch/environment/environment.py:324-326,338-340`. -/
def freqTop (c : ℚ) (a : Args) : Except PyErr ℚ :=
  if !a.wl0.isDefault then do pyDiv c (← a.wl0.val) else a.f1.val

/-- The lower frequency bound, `/repo/photontorch/environment/environment.py:327-329,341-343`.
The code divides by `wl0` although the test is on `wl1`; modelled as written. -/
def freqBottom (c : ℚ) (a : Args) : Except PyErr ℚ :=
  if !a.wl1.isDefault then do pyDiv c (← a.wl0.val) else a.f0.val

/-- The wavelength array, `/repo/photontorch/environment/environment.py:306-366`. -/
def wlArr (c : ℚ) (a : Args) : Except PyErr (Option (List ℚ)) := do
  if (!a.wl.isDefault || !a.f.isDefault) ||
      countGiven [a.num_wl.isDefault, a.num_f.isDefault, a.dwl.isDefault, a.df.isDefault,
        a.wl0.isDefault, a.f0.isDefault, a.wl1.isDefault, a.f1.isDefault] = 0 then
    arrOf (← wlArgOf c a)
  else if !a.num_f.isDefault then
    let f1 ← freqTop c a
    let f0 ← freqBottom c a
    let df ← pyDiv (f1 - f0) (← a.num_f.val)
    return some (← npDivArr c (← arange f0 f1 df))
  else if !a.df.isDefault then
    let f1 ← freqTop c a
    let f0 ← freqBottom c a
    let d ← a.df.val
    let df := if f1 ≥ f0 then |d| else -|d|
    return some (← npDivArr c (← arange f0 f1 df))
  else
    let wl0 ← wlBoundOf c a.f0 a.wl0
    let wl1 ← wlBoundOf c a.f1 a.wl1
    let dwl ← wlStepOf a wl0 wl1
    return some (← arange wl0 wl1 dwl)

/-- The public attributes of an environment, `/repo/photontorch/environment/environment.py:368-402`
(the synonyms `time`, `t_start`, ... hold the same values and are omitted). -/
structure Env where
  name : List Char
  t : List ℚ
  t0 : ℚ
  t1 : Option ℚ
  num_t : ℕ
  dt : Option ℚ
  samplerate : Option ℚ
  bitrate : Option ℚ
  bitlength : Option ℚ
  wl : List ℚ
  wl0 : ℚ
  wl1 : Option ℚ
  num_wl : ℕ
  dwl : Option ℚ
  f : List ℚ
  f0 : ℚ
  f1 : Option ℚ
  num_f : ℕ
  df : Option ℚ
  c : ℚ
  freqdomain : Bool
  grad : Bool
  extras : List (List Char × ℚ)
  deriving DecidableEq

/-- `None if arr.shape[0] < 2 else arr[1] - arr[0]`,
`/repo/photontorch/environment/environment.py:375,387-389,398`. -/
def firstStep : List ℚ → Option ℚ
  | x :: y :: _ => some (y - x)
  | _ => none

/-- `arr[-1]` of a non-empty array, `/repo/photontorch/environment/environment.py:372,384,395`. -/
def lastD (l : List ℚ) : ℚ := l.getLastD 0

/-- `arr[-2]` of an array with at least two entries,
`/repo/photontorch/environment/environment.py:384,395`. -/
def last2D (l : List ℚ) : ℚ := l.dropLast.getLastD 0

/-- `t1 = None if len < 2 else t[-1] + (t[1]-t[0])`,
`/repo/photontorch/environment/environment.py:371-373`. -/
def timeEnd (l : List ℚ) : Option ℚ := (firstStep l).map fun s => lastD l + s

/-- `None if len < 2 else arr[-1] + (arr[-1] - arr[-2])`,
`/repo/photontorch/environment/environment.py:381-385,392-396`. -/
def gridEnd (l : List ℚ) : Option ℚ :=
  if l.length < 2 then none else some (lastD l + (lastD l - last2D l))

/-- `arr[0]`: `IndexError` on an empty array, `TypeError` from `float(None)` on the object
array `[None]`; `/repo/photontorch/environment/environment.py:370,380`. -/
def headOf : Option (List ℚ) → Except PyErr (List ℚ × ℚ)
  | none => .error .typeError
  | some [] => .error .indexError
  | some (x :: l) => .ok (x :: l, x)

/-- `None if x is None else float(1 / x)`,
`/repo/photontorch/environment/environment.py:376,378`. -/
def recipOpt : Option ℚ → Except PyErr (Option ℚ)
  | none => .ok none
  | some x => do return some (← pyDiv 1 x)

/-- The bitrate after line 274: `float(1/bitlength)` if a bitlength was supplied, else the
`bitrate` argument. `/repo/photontorch/environment/environment.py:273-274`. -/
def bitrateOf (a : Args) : Except PyErr (Option ℚ) := do
  if !a.bitlength.isDefault then
    return some (← pyDiv 1 (← a.bitlength.val))
  else
    match a.bitrate with
    | .dflt v => return some v
    | .given v => return some v
    | .none => return none

/-- `Environment.__init__`, `/repo/photontorch/environment/environment.py:167-420`
(after alias resolution, see `resolveAliases`). -/
def Env.init (a : Args) : Except PyErr Env := do
  let c ← a.c.val
  checkArgs a
  let bitrate ← bitrateOf a
  let t ← timeArr a
  let t := if a.freqdomain then t.map (·.take 1) else t
  let bitrate := if a.freqdomain then none else bitrate
  let wl ← wlArr c a
  let (t, t0) ← headOf t
  let dt := firstStep t
  let samplerate ← recipOpt dt
  let bitlength ← recipOpt bitrate
  let (wl, wl0) ← headOf wl
  let f ← npDivArr c wl
  return {
    name := a.name
    t := t
    t0 := t0
    t1 := timeEnd t
    num_t := t.length
    dt := dt
    samplerate := samplerate
    bitrate := bitrate
    bitlength := bitlength
    wl := wl
    wl0 := wl0
    wl1 := gridEnd wl
    num_wl := wl.length
    dwl := firstStep wl
    f := f
    f0 := f.headD 0
    f1 := gridEnd f
    num_f := f.length
    df := firstStep f
    c := c
    freqdomain := a.freqdomain
    grad := a.grad
    extras := a.extras }

/-- `_convert_default(v) if v is not None else default_kwargs.get(k)` for one attribute,
`/repo/photontorch/environment/environment.py:130-143,461-465`. -/
def asDefault {α β : Type} (conv : α → β) (v : Option α) (d : Arg β) : Arg β :=
  match v with
  | some v => .dflt (conv v)
  | none => d

/-- The extra attributes that are copied and compared: `not k.startswith("_")`,
`/repo/photontorch/environment/environment.py:462-464,486-495`. -/
def publicExtras (l : List (List Char × ℚ)) : List (List Char × ℚ) := l.filter fun kv => kv.1.head? != some '_'

/-- `dict.update` of the extra keywords: values of known names are replaced, new names are appended,
`/repo/photontorch/environment/environment.py:466`. -/
def mergeExtras (old new : List (List Char × ℚ)) : List (List Char × ℚ) :=
  old.map (fun kv => (kv.1, (new.lookup kv.1).getD kv.2)) ++ new.filter fun kv => (old.lookup kv.1).isNone

/-- The `new` keyword dictionary of `copy` before the overrides,
`/repo/photontorch/environment/environment.py:456-465`. -/
def Env.toArgs (e : Env) : Args where
  dt := asDefault id e.dt defaultArgs.dt
  samplerate := asDefault id e.samplerate defaultArgs.samplerate
  num_t := .dflt e.num_t
  t0 := .dflt e.t0
  t1 := asDefault id e.t1 defaultArgs.t1
  t := .dflt (.vec e.t)
  bitrate := asDefault id e.bitrate defaultArgs.bitrate
  bitlength := asDefault id e.bitlength defaultArgs.bitlength
  wl := .dflt (.vec e.wl)
  f := .dflt (.vec e.f)
  dwl := asDefault id e.dwl defaultArgs.dwl
  df := asDefault id e.df defaultArgs.df
  num_wl := .dflt e.num_wl
  num_f := .dflt e.num_f
  wl0 := .dflt e.wl0
  f0 := .dflt e.f0
  wl1 := asDefault id e.wl1 defaultArgs.wl1
  f1 := asDefault id e.f1 defaultArgs.f1
  c := .dflt e.c
  freqdomain := e.freqdomain
  grad := e.grad
  name := e.name
  extras := publicExtras e.extras

/-- Keyword overrides given to `copy`: `none` = not supplied.
`/repo/photontorch/environment/environment.py:422,466` (`new.update(kwargs)`). Extra
keywords are merged like `dict.update`. -/
structure Overrides where
  dt : Option (Arg ℚ) := none
  samplerate : Option (Arg ℚ) := none
  num_t : Option (Arg ℤ) := none
  t0 : Option (Arg ℚ) := none
  t1 : Option (Arg ℚ) := none
  t : Option (Arg ArrArg) := none
  bitrate : Option (Arg ℚ) := none
  bitlength : Option (Arg ℚ) := none
  wl : Option (Arg ArrArg) := none
  f : Option (Arg ArrArg) := none
  dwl : Option (Arg ℚ) := none
  df : Option (Arg ℚ) := none
  num_wl : Option (Arg ℤ) := none
  num_f : Option (Arg ℤ) := none
  wl0 : Option (Arg ℚ) := none
  f0 : Option (Arg ℚ) := none
  wl1 : Option (Arg ℚ) := none
  f1 : Option (Arg ℚ) := none
  c : Option (Arg ℚ) := none
  freqdomain : Option Bool := none
  grad : Option Bool := none
  name : Option (List Char) := none
  extras : List (List Char × ℚ) := []

/-- `new.update(kwargs)`, `/repo/photontorch/environment/environment.py:466`. -/
def Args.update (a : Args) (o : Overrides) : Args where
  dt := o.dt.getD a.dt
  samplerate := o.samplerate.getD a.samplerate
  num_t := o.num_t.getD a.num_t
  t0 := o.t0.getD a.t0
  t1 := o.t1.getD a.t1
  t := o.t.getD a.t
  bitrate := o.bitrate.getD a.bitrate
  bitlength := o.bitlength.getD a.bitlength
  wl := o.wl.getD a.wl
  f := o.f.getD a.f
  dwl := o.dwl.getD a.dwl
  df := o.df.getD a.df
  num_wl := o.num_wl.getD a.num_wl
  num_f := o.num_f.getD a.num_f
  wl0 := o.wl0.getD a.wl0
  f0 := o.f0.getD a.f0
  wl1 := o.wl1.getD a.wl1
  f1 := o.f1.getD a.f1
  c := o.c.getD a.c
  freqdomain := o.freqdomain.getD a.freqdomain
  grad := o.grad.getD a.grad
  name := o.name.getD a.name
  extras := mergeExtras a.extras o.extras

/-- `Environment.copy`, `/repo/photontorch/environment/environment.py:422-467`. -/
def Env.copy (e : Env) (o : Overrides) : Except PyErr Env := Env.init (e.toArgs.update o)

/-- `Environment(**kwargs)` with the supplied keywords `o` and everything else default,
`/repo/photontorch/environment/environment.py:167-192`. -/
def Env.make (o : Overrides) : Except PyErr Env := Env.init (defaultArgs.update o)

/-- `Environment.__eq__` on two environments: all public attributes except `f`, `t`, `wl` and the
synonyms are compared, `/repo/photontorch/environment/environment.py:483-496`; private extra attributes are not.
Simplified: extra attributes are compared as ordered lists (dict comparison ignores order). -/
def Env.pyEq (e₁ e₂ : Env) : Bool :=
  decide (e₁.name = e₂.name ∧ e₁.t0 = e₂.t0 ∧ e₁.t1 = e₂.t1 ∧ e₁.num_t = e₂.num_t ∧
    e₁.dt = e₂.dt ∧ e₁.samplerate = e₂.samplerate ∧ e₁.bitrate = e₂.bitrate ∧
    e₁.bitlength = e₂.bitlength ∧ e₁.wl0 = e₂.wl0 ∧ e₁.wl1 = e₂.wl1 ∧
    e₁.num_wl = e₂.num_wl ∧ e₁.dwl = e₂.dwl ∧ e₁.f0 = e₂.f0 ∧ e₁.f1 = e₂.f1 ∧
    e₁.num_f = e₂.num_f ∧ e₁.df = e₂.df ∧ e₁.c = e₂.c ∧ e₁.freqdomain = e₂.freqdomain ∧
    e₁.grad = e₂.grad ∧ publicExtras e₁.extras = publicExtras e₂.extras)

/-- Legacy keyword arguments popped from `**kwargs`,
`/repo/photontorch/environment/environment.py:222-234`. -/
structure Aliases where
  wavelength : Option (Arg ArrArg) := none
  t_start : Option (Arg ℚ) := none
  t_end : Option (Arg ℚ) := none
  num_timesteps : Option (Arg ℤ) := none
  time : Option (Arg ArrArg) := none
  timestep : Option (Arg ℚ) := none
  num_wavelengths : Option (Arg ℤ) := none
  wavelength_step : Option (Arg ℚ) := none
  wavelength_start : Option (Arg ℚ) := none
  wavelength_end : Option (Arg ℚ) := none
  frequency_domain : Option Bool := none
  enable_grad : Option Bool := none

/-- `wl = kwargs.pop("wavelength", wl)` etc., `/repo/photontorch/environment/environment.py:222-234`. -/
def resolveAliases (a : Args) (k : Aliases) : Args :=
  { a with
    wl := k.wavelength.getD a.wl
    t0 := k.t_start.getD a.t0
    t1 := k.t_end.getD a.t1
    num_t := k.num_timesteps.getD a.num_t
    t := k.time.getD a.t
    dt := k.timestep.getD a.dt
    num_wl := k.num_wavelengths.getD a.num_wl
    dwl := k.wavelength_step.getD a.dwl
    wl0 := k.wavelength_start.getD a.wl0
    wl1 := k.wavelength_end.getD a.wl1
    freqdomain := k.frequency_domain.getD a.freqdomain
    grad := k.enable_grad.getD a.grad }

/-- `Environment(**kwargs)` with keywords `o` and legacy keywords `k`,
`/repo/photontorch/environment/environment.py:167-234`. -/
def Env.makeWith (o : Overrides) (k : Aliases) : Except PyErr Env := Env.init (resolveAliases (defaultArgs.update o) k)

/-- `env.copy(**kwargs)` with keywords `o` and legacy keywords `k`: the legacy names are not in the dictionary of the
attributes but in the keywords, `/repo/photontorch/environment/environment.py:222-234,456-467`. -/
def Env.copyWith (e : Env) (o : Overrides) (k : Aliases) : Except PyErr Env := Env.init (resolveAliases (e.toArgs.update o) k)

end PT
