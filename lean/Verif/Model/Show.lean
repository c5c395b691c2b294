import Verif.Model.Rounded
import Verif.Model.Str

/-!
# The printed forms of an environment

`repr`, `str` and the html table of `photontorch.environment.Environment`, character by character.
-/

namespace PT

/-- The three digits of a number below thousand, as in `"%.3e"`, `/repo/photontorch/environment/environment.py:84,505`. -/
def threeDigits (n : ℕ) : Str := [digitChar (n / 100 % 10), digitChar (n / 10 % 10), digitChar (n % 10)]

/-- The exponent of `"%.3e"`: a sign and at least two digits, `/repo/photontorch/environment/environment.py:84,505`. -/
def exponentStr (e : ℤ) : Str :=
  (if e < 0 then '-' else '+') :: (if e.natAbs < 10 then '0' :: natStr e.natAbs else natStr e.natAbs)

/-- The four digits of a positive number and its decimal exponent, rounded to the nearest, ties to even (the number is the exact value
of the `float`), `/repo/photontorch/environment/environment.py:84,505`. -/
def fourDigits (x : ℚ) : ℕ × ℤ :=
  let e := Int.log 10 x
  let m := (roundEven (x / 10 ^ (e - 3))).toNat
  if m = 10000 then (1000, e + 1) else (m, e)

/-- `"%.3e" % x`, `/repo/photontorch/environment/environment.py:84-86,91-97,505,527,549`.  Simplification: no `nan`, no infinities and
no negative zero. -/
def sciStr (x : ℚ) : Str :=
  if x = 0 then "0.000e+00".toList
  else
    let (m, e) := fourDigits |x|
    (if x < 0 then ['-'] else []) ++ natStr (m / 1000) ++ '.' :: threeDigits m ++ 'e' :: exponentStr e

/-- `", ".join(l)`, the inside of the `str` of a list, `/repo/photontorch/environment/environment.py:86`. -/
def joinComma (l : List Str) : Str := ", ".toList.intercalate l

/-- `_Array.__repr__` for the one-dimensional arrays of an environment, `/repo/photontorch/environment/environment.py:78-86`. -/
def arrRepr (l : List ℚ) : Str :=
  if l.length > 4 then
    "array([".toList ++ sciStr (l.getD 0 0) ++ ", ".toList ++ sciStr (l.getD 1 0) ++ ", ..., ".toList ++ sciStr (lastD l) ++ "])".toList
  else "array([".toList ++ joinComma (l.map sciStr) ++ "])".toList

/-- `_Array.__str__` for the one-dimensional arrays of an environment, which are not empty,
`/repo/photontorch/environment/environment.py:88-97`. -/
def arrStr (l : List ℚ) : Str :=
  if l.length > 4 then
    "[".toList ++ sciStr (l.getD 0 0) ++ ", ".toList ++ sciStr (l.getD 1 0) ++ ", ..., ".toList ++ sciStr (lastD l) ++ "]".toList
  else if l.length > 1 then "[".toList ++ [','].intercalate (l.map sciStr) ++ "]".toList
  else sciStr (l.getD 0 0)

/-- A digit of a hexadecimal number, as in the `repr` of a control character, `/repo/photontorch/environment/environment.py:507,529`. -/
def hexChar (n : ℕ) : Char := if n < 10 then Char.ofNat (48 + n) else Char.ofNat (87 + n)

/-- One character in the `repr` of a string with quotes `q`, `/repo/photontorch/environment/environment.py:507,529`.  Simplification:
beyond ASCII every character counts as printable. -/
def reprChar (q c : Char) : Str :=
  if c = q || c = '\\' then ['\\', c]
  else if c = '\n' then ['\\', 'n']
  else if c = '\r' then ['\\', 'r']
  else if c = '\t' then ['\\', 't']
  else if c.toNat < 32 || c.toNat = 127 then ['\\', 'x', hexChar (c.toNat / 16), hexChar (c.toNat % 16)]
  else [c]

/-- The quotes python chooses for the `repr` of a string, `/repo/photontorch/environment/environment.py:507,529`. -/
def reprQuote (s : Str) : Char := if '\'' ∈ s ∧ '"' ∉ s then '"' else '\''

/-- `repr(s)` of a string, `/repo/photontorch/environment/environment.py:507,529`. -/
def strRepr (s : Str) : Str := reprQuote s :: s.flatMap (reprChar (reprQuote s)) ++ [reprQuote s]

/-- The values of the attributes of an environment, `/repo/photontorch/environment/environment.py:368-403`. -/
inductive AttrVal
  | text (s : Str)
  | num (x : ℚ)
  | count (n : ℕ)
  | flag (b : Bool)
  | nothing
  | array (l : List ℚ)
  deriving DecidableEq

/-- A number or `None`, `/repo/photontorch/environment/environment.py:371-398`. -/
def AttrVal.opt : Option ℚ → AttrVal
  | some x => .num x
  | none => .nothing

/-- The `__dict__` of an environment, in the order in which its attributes are assigned, up to the extra keywords; the remaining
attributes are private, `/repo/photontorch/environment/environment.py:368-420`. -/
def Env.attrs (e : Env) : List (Str × AttrVal) :=
  [("name".toList, .text e.name), ("t".toList, .array e.t), ("time".toList, .array e.t), ("t0".toList, .num e.t0),
   ("t_start".toList, .num e.t0), ("t1".toList, .opt e.t1), ("t_end".toList, .opt e.t1), ("num_t".toList, .count e.num_t),
   ("num_timesteps".toList, .count e.num_t), ("dt".toList, .opt e.dt), ("timestep".toList, .opt e.dt),
   ("samplerate".toList, .opt e.samplerate), ("bitrate".toList, .opt e.bitrate), ("bitlength".toList, .opt e.bitlength),
   ("wl".toList, .array e.wl), ("wavelength".toList, .array e.wl), ("wl0".toList, .num e.wl0), ("wavelength_start".toList, .num e.wl0),
   ("wl1".toList, .opt e.wl1), ("wavelength_end".toList, .opt e.wl1), ("num_wl".toList, .count e.num_wl),
   ("num_wavelengths".toList, .count e.num_wl), ("dwl".toList, .opt e.dwl), ("wavelength_step".toList, .opt e.dwl),
   ("f".toList, .array e.f), ("f0".toList, .num e.f0), ("f1".toList, .opt e.f1), ("num_f".toList, .count e.num_f),
   ("df".toList, .opt e.df), ("c".toList, .num e.c), ("freqdomain".toList, .flag e.freqdomain),
   ("frequency_domain".toList, .flag e.freqdomain), ("grad".toList, .flag e.grad), ("enable_grad".toList, .flag e.grad)] ++
  e.extras.map fun kv => (kv.1, .num kv.2)

/-- `self._synonyms`, `/repo/photontorch/environment/environment.py:405-419`. -/
def synonyms : List Str :=
  ["wavelength".toList, "t_start".toList, "t_end".toList, "num_timesteps".toList, "time".toList, "timestep".toList,
   "wavelength".toList, "num_wavelengths".toList, "wavelength_step".toList, "wavelength_start".toList, "wavelength_end".toList,
   "frequency_domain".toList, "enable_grad".toList]

/-- The attributes that are printed, `/repo/photontorch/environment/environment.py:502-503,524-525,546-547`. -/
def Env.shown (e : Env) : List (Str × AttrVal) :=
  e.attrs.filter fun kv => kv.1.head? != some '_' && !synonyms.contains kv.1

/-- `repr(v)`, and `"%.3e" % v` for a `float`, `/repo/photontorch/environment/environment.py:504-507,526-529`. -/
def AttrVal.repr : AttrVal → Str
  | .text s => strRepr s
  | .num x => sciStr x
  | .count n => natStr n
  | .flag b => if b then "True".toList else "False".toList
  | .nothing => "None".toList
  | .array l => arrRepr l

/-- `str(v)`, and `"%.3e" % v` for a `float`, `/repo/photontorch/environment/environment.py:548-551`. -/
def AttrVal.str : AttrVal → Str
  | .text s => s
  | .array l => arrStr l
  | v => v.repr

/-- `Environment.__repr__`, `/repo/photontorch/environment/environment.py:498-509`: the last two characters are cut off. -/
def Env.repr (e : Env) : Str :=
  let s := "Environment(".toList ++ e.shown.flatMap fun kv => kv.1 ++ '=' :: kv.2.repr ++ ", ".toList
  s.take (s.length - 2) ++ [')']

/-- `colwidth`, `/repo/photontorch/environment/environment.py:512-519`. -/
def Env.colwidth (e : Env) : ℕ := (e.shown.map fun kv => kv.1.length).foldl max 0 + 1

/-- `Environment.__str__`, `/repo/photontorch/environment/environment.py:510-527`. -/
def Env.str (e : Env) : Str :=
  "Simulation Environment:\n-----------------------\n".toList ++ e.shown.flatMap fun kv =>
    kv.1 ++ List.replicate (e.colwidth - kv.1.length) ' ' ++ ": ".toList ++ kv.2.repr ++ ['\n']

/-- `descriptions`, `/repo/photontorch/environment/environment.py:194-220,533-543`: what the docstring of the constructor says, without
what is in parentheses. -/
def descriptions : List (Str × Str) :=
  [("t".toList, "[s] full 1D time array.".toList),
   ("t0".toList, "[s] starting time of the simulation.".toList),
   ("t1".toList, "[s] ending time of the simulation.".toList),
   ("num_t".toList, "number of timesteps in the simulation.".toList),
   ("dt".toList, "[s] timestep of the simulation".toList),
   ("samplerate".toList, "[1/s] samplerate of the simulation.".toList),
   ("bitrate".toList, "[1/s] bitrate of the signal.".toList),
   ("bitlength".toList, "[s] bitlength of the signal.".toList),
   ("wl".toList, "[m] full 1D wavelength array.".toList),
   ("wl0".toList, "[m] start of wavelength range.".toList),
   ("wl1".toList, "[m] end of wavelength range.".toList),
   ("num_wl".toList, "number of independent wavelengths in the simulation".toList),
   ("dwl".toList, "[m] wavelength step sizebetween wl0 and wl1.".toList),
   ("f".toList, "[1/s] full 1D frequency array.".toList),
   ("f0".toList, "[1/s] start of frequency range.".toList),
   ("f1".toList, "[1/s] end of frequency range.".toList),
   ("num_f".toList, "number of independent frequencies in the simulation".toList),
   ("df".toList, "[1/s] frequency step between f0 and f1.".toList),
   ("c".toList, "[m/s] speed of light used during simulations.".toList),
   ("freqdomain".toList, "only do frequency domain calculations.".toList),
   ("grad".toList, "track gradients during the simulation".toList),
   ("name".toList, "name of the environment".toList),
   ("**kwargs".toList, "any number of extra keyword arguments will be stored as attributes to the environment.".toList)]

/-- `Environment._repr_html_`, `/repo/photontorch/environment/environment.py:529-553`. -/
def Env.html (e : Env) : Str :=
  ("<div>\n<table>\n<thead>\n<tr>\n<th>key</th>\n<th>value</th>\n<th>description</th>\n</tr>\n</thead>\n<tbody>\n".toList ++
    e.shown.flatMap fun kv =>
      "<tr><th>".toList ++ kv.1 ++ "</th><td>".toList ++ kv.2.str ++ "</td><td>".toList ++ (dictGet kv.1 descriptions).getD [] ++
        "</td></tr>\n".toList) ++
  "</tbody>\n</table>\n</div>".toList

/-- `Component.__repr__` and `__str__` of a component of class `cls` with name `name`,
`/repo/photontorch/components/component.py:223-232`. -/
def componentRepr (cls : Str) (name : Option Str) : Str :=
  match name with
  | none => cls
  | some n => cls ++ "(name=\"".toList ++ n ++ "\")".toList

end PT
