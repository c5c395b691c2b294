import Verif.Model.Env

/-! # How an environment is printed, for the statements about its printed forms -/

namespace PT.Spec

/-- The number written with decimal digits. -/
def decimalValue (s : List Char) : ℕ := s.foldl (fun n c => 10 * n + (c.toNat - 48)) 0

/-- Reads `d.ddde±dd`. -/
def readPositive : List Char → Option ℚ
  | a :: '.' :: b :: c :: d :: 'e' :: sign :: es =>
    if (a :: b :: c :: d :: es).all Char.isDigit ∧ 2 ≤ es.length ∧ sign = '+' then
      some ((decimalValue [a, b, c, d] : ℚ) / 1000 * 10 ^ decimalValue es)
    else if (a :: b :: c :: d :: es).all Char.isDigit ∧ 2 ≤ es.length ∧ sign = '-' then
      some ((decimalValue [a, b, c, d] : ℚ) / 1000 / 10 ^ decimalValue es)
    else none
  | _ => none

/-- Reads `d.ddde±dd` or `-d.ddde±dd`. -/
def readSci : List Char → Option ℚ
  | '-' :: s => (readPositive s).map fun y => -y
  | s => readPositive s

/-- At most four significant digits. -/
def Short (x : ℚ) : Prop := ∃ m e : ℤ, |m| < 10 ^ 4 ∧ x = m * 10 ^ e

/-- A text that says which number `x` is, with an error of at most 0.05%, and none if four digits are enough. -/
def NumberText (x : ℚ) (s : List Char) : Prop :=
  ∃ y, readSci s = some y ∧ |y - x| ≤ |x| / 2000 ∧ (Short x → y = x)

/-- A number or `None`. -/
def OptText : Option ℚ → List Char → Prop
  | some x, s => NumberText x s
  | none, s => s = "None".toList

/-- A text for an array: all of its entries if it has at most four, otherwise the first two and the last. -/
def ArrayText (l : List ℚ) (s : List Char) : Prop :=
  (l.length ≤ 4 → ∃ ts, List.Forall₂ NumberText l ts ∧ s = "array([".toList ++ ", ".toList.intercalate ts ++ "])".toList) ∧
  ∀ a b m z, l = a :: b :: (m ++ [z]) → 4 < l.length → ∃ ta tb tz, NumberText a ta ∧ NumberText b tb ∧ NumberText z tz ∧
    s = "array([".toList ++ ta ++ ", ".toList ++ tb ++ ", ..., ".toList ++ tz ++ "])".toList

/-- The value of a hexadecimal digit. -/
def hexValue (c : Char) : ℕ := if c.isDigit then c.toNat - 48 else c.toNat - 87

/-- Reads a python string up to the quote `q`, which must be the last character. -/
def readUntil (q : Char) : List Char → Option (List Char)
  | [] => none
  | [c] => if c = q then some [] else none
  | '\\' :: 'n' :: s => (readUntil q s).map fun r => '\n' :: r
  | '\\' :: 'r' :: s => (readUntil q s).map fun r => '\r' :: r
  | '\\' :: 't' :: s => (readUntil q s).map fun r => '\t' :: r
  | '\\' :: 'x' :: a :: b :: s => (readUntil q s).map fun r => Char.ofNat (16 * hexValue a + hexValue b) :: r
  | '\\' :: c :: s => (readUntil q s).map fun r => c :: r
  | c :: s => if c = q then none else (readUntil q s).map fun r => c :: r

/-- A python string literal for `s` on one line, in double quotes if `s` contains single ones and no double ones, else in single quotes. -/
def QuotedText (s text : List Char) : Prop :=
  ∃ q rest, (q = '"' ∧ '\'' ∈ s ∧ '"' ∉ s ∨ q = '\'' ∧ ('\'' ∉ s ∨ '"' ∈ s)) ∧ text = q :: rest ∧ readUntil q rest = some s ∧ '\n' ∉ text

/-- The decimal digits of a count. -/
def CountText (n : ℕ) (s : List Char) : Prop := s ≠ [] ∧ s.all Char.isDigit ∧ decimalValue s = n

/-- A truth value. -/
def FlagText (b : Bool) (s : List Char) : Prop := s = if b then "True".toList else "False".toList

/-- The names kept for backward compatibility. -/
def legacyNames : List (List Char) :=
  ["time".toList, "t_start".toList, "t_end".toList, "num_timesteps".toList, "timestep".toList, "wavelength".toList,
   "wavelength_start".toList, "wavelength_end".toList, "num_wavelengths".toList, "wavelength_step".toList,
   "frequency_domain".toList, "enable_grad".toList]

/-- The extra attributes that are shown. -/
def openExtras (e : Env) : List (List Char × ℚ) :=
  e.extras.filter fun kv => decide (kv.1.head? ≠ some '_' ∧ kv.1 ∉ legacyNames)

/-- What is to be shown of an environment: the names of its attributes, and what the text beside each must say. -/
def rows (e : Env) : List (List Char × (List Char → Prop)) :=
  [("name".toList, QuotedText e.name), ("t".toList, ArrayText e.t), ("t0".toList, NumberText e.t0), ("t1".toList, OptText e.t1),
   ("num_t".toList, CountText e.num_t), ("dt".toList, OptText e.dt), ("samplerate".toList, OptText e.samplerate),
   ("bitrate".toList, OptText e.bitrate), ("bitlength".toList, OptText e.bitlength), ("wl".toList, ArrayText e.wl),
   ("wl0".toList, NumberText e.wl0), ("wl1".toList, OptText e.wl1), ("num_wl".toList, CountText e.num_wl),
   ("dwl".toList, OptText e.dwl), ("f".toList, ArrayText e.f), ("f0".toList, NumberText e.f0), ("f1".toList, OptText e.f1),
   ("num_f".toList, CountText e.num_f), ("df".toList, OptText e.df), ("c".toList, NumberText e.c),
   ("freqdomain".toList, FlagText e.freqdomain), ("grad".toList, FlagText e.grad)] ++
  (openExtras e).map fun kv => (kv.1, NumberText kv.2)

/-- An array in a table: a single entry without brackets, all entries if there are at most four, otherwise the first two and the last. -/
def ArrayCell (l : List ℚ) (s : List Char) : Prop :=
  (∀ a, l = [a] → NumberText a s) ∧
  (2 ≤ l.length → l.length ≤ 4 → ∃ ts, List.Forall₂ NumberText l ts ∧ s = '[' :: [','].intercalate ts ++ [']']) ∧
  ∀ a b m z, l = a :: b :: (m ++ [z]) → 4 < l.length → ∃ ta tb tz, NumberText a ta ∧ NumberText b tb ∧ NumberText z tz ∧
    s = '[' :: ta ++ ", ".toList ++ tb ++ ", ..., ".toList ++ tz ++ [']']

/-- The names of the attributes that every environment has. -/
def commonNames : List (List Char) :=
  ["name".toList, "t".toList, "t0".toList, "t1".toList, "num_t".toList, "dt".toList, "samplerate".toList, "bitrate".toList,
   "bitlength".toList, "wl".toList, "wl0".toList, "wl1".toList, "num_wl".toList, "dwl".toList, "f".toList, "f0".toList, "f1".toList,
   "num_f".toList, "df".toList, "c".toList, "freqdomain".toList, "grad".toList]

/-- The cells of the html table: as in `rows`, but the name is not quoted and arrays are shown as lists. -/
def cells (e : Env) : List (List Char × (List Char → Prop)) :=
  [("name".toList, fun s => s = e.name), ("t".toList, ArrayCell e.t), ("t0".toList, NumberText e.t0), ("t1".toList, OptText e.t1),
   ("num_t".toList, CountText e.num_t), ("dt".toList, OptText e.dt), ("samplerate".toList, OptText e.samplerate),
   ("bitrate".toList, OptText e.bitrate), ("bitlength".toList, OptText e.bitlength), ("wl".toList, ArrayCell e.wl),
   ("wl0".toList, NumberText e.wl0), ("wl1".toList, OptText e.wl1), ("num_wl".toList, CountText e.num_wl),
   ("dwl".toList, OptText e.dwl), ("f".toList, ArrayCell e.f), ("f0".toList, NumberText e.f0), ("f1".toList, OptText e.f1),
   ("num_f".toList, CountText e.num_f), ("df".toList, OptText e.df), ("c".toList, NumberText e.c),
   ("freqdomain".toList, FlagText e.freqdomain), ("grad".toList, FlagText e.grad)] ++
  (openExtras e).map fun kv => (kv.1, NumberText kv.2)

/-- The lines of a text. -/
def lines (s : List Char) : List (List Char) := s.splitOn '\n'

/-- How often `p` occurs in a text. -/
def occurrences (p : List Char) : List Char → ℕ
  | [] => if p = [] then 1 else 0
  | c :: s => (if p.isPrefixOf (c :: s) then 1 else 0) + occurrences p s

/-- Numbers with four digits, arrays with four entries. -/
def Brief (e : Env) : Prop :=
  (∀ x ∈ [e.t0, e.wl0, e.f0, e.c] ++ e.t ++ e.wl ++ e.f, Short x) ∧
  (∀ o ∈ [e.t1, e.dt, e.samplerate, e.bitrate, e.bitlength, e.wl1, e.dwl, e.f1, e.df], ∀ x ∈ o, Short x) ∧
  (∀ kv ∈ openExtras e, Short kv.2) ∧ e.t.length ≤ 4 ∧ e.wl.length ≤ 4 ∧ e.f.length ≤ 4

end PT.Spec
