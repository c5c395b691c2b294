import Verif.Model.Py

/-!
# Strings as the network code uses them

Connections are strings in the code, so printing and parsing are modelled. Strings are lists of
characters.
-/

namespace PT

/-- A string,
`/repo/photontorch/networks/network.py:255-306`. -/
abbrev Str := List Char

/-- Whitespace, for `str.strip()` and `int()`; simplified to the six ASCII characters
(`/repo/photontorch/networks/network.py:297`). -/
def isSpace (c : Char) : Bool :=
  c = ' ' || c = '\t' || c = '\n' || c = '\r' || c = '\x0b' || c = '\x0c'

/-- `str.strip()`, `/repo/photontorch/networks/network.py:297`. -/
def strip (s : Str) : Str := ((s.dropWhile isSpace).reverse.dropWhile isSpace).reverse

/-- `str.split(":")`, `/repo/photontorch/networks/network.py:214,266,297,918,967`. -/
def splitColon (s : Str) : List Str := s.splitOn ':'

/-- `":".join(...)`, `/repo/photontorch/networks/network.py:297`. -/
def joinColon (l : List Str) : Str := [':'].intercalate l

/-- Value of a decimal digit (ASCII only),
`/repo/photontorch/networks/network.py:255-306`. -/
def digitVal (c : Char) : Option ℕ :=
  if 48 ≤ c.toNat ∧ c.toNat ≤ 57 then some (c.toNat - 48) else none

/-- The digits of `int()`: nonempty, single underscores allowed between digits,
`/repo/photontorch/networks/network.py:255-306`. -/
def parseDigits (acc : ℕ) (prev : Bool) : Str → Option ℕ
  | [] => if prev then some acc else none
  | c :: cs =>
    match digitVal c with
    | some d => parseDigits (acc * 10 + d) true cs
    | none => if c = '_' && prev then parseDigits acc false cs else none

/-- `int(s)` on a string; `none` is `ValueError`. ASCII digits only.
`/repo/photontorch/networks/network.py:202,208,261,922,971`. -/
def pyInt (s : Str) : Option ℤ :=
  match strip s with
  | '-' :: t => (parseDigits 0 false t).map fun (n : ℕ) => -(n : ℤ)
  | '+' :: t => (parseDigits 0 false t).map fun (n : ℕ) => (n : ℤ)
  | t => (parseDigits 0 false t).map fun (n : ℕ) => (n : ℤ)

/-- The digit character of a number below ten,
`/repo/photontorch/networks/network.py:230-252`. -/
def digitChar (d : ℕ) : Char := Char.ofNat (48 + d)

/-- `str(n)` for a natural number,
`/repo/photontorch/networks/network.py:230-252`. -/
def natStr (n : ℕ) : Str :=
  if n < 10 then [digitChar n] else natStr (n / 10) ++ [digitChar (n % 10)]

/-- `"%s" % z`, `"%i" % z`, `str(z)` for a Python int,
`/repo/photontorch/networks/network.py:224,236,248,328,341`. -/
def intStr (z : ℤ) : Str := if z < 0 then '-' :: natStr z.natAbs else natStr z.natAbs

/-- Python sequence indexing `l[i]` with negative wrap-around; `none` is `IndexError`.
`/repo/photontorch/networks/network.py:931,932,972`. -/
def pyIndex {α : Type} (l : List α) (i : ℤ) : Option α :=
  if 0 ≤ i then l[i.toNat]?
  else if 0 ≤ i + l.length then l[(i + l.length).toNat]?
  else none

/-- Sequential evaluation of a fallible function over a list (a Python `for` loop or comprehension
that stops at the first exception),
`/repo/photontorch/networks/network.py:889-993`. -/
def mapE {α β : Type} (f : α → Except PyErr β) : List α → Except PyErr (List β)
  | [] => .ok []
  | a :: l =>
    match f a with
    | .error e => .error e
    | .ok b =>
      match mapE f l with
      | .error e => .error e
      | .ok bs => .ok (b :: bs)

/-- Keys of an `OrderedDict` built from a list of keys: first occurrences, in order.
`/repo/photontorch/networks/network.py:270-277`. -/
def dedupFirst {α : Type} [DecidableEq α] : List α → List α
  | [] => []
  | a :: l => a :: (dedupFirst l).filter (· ≠ a)

/-- `d[k] = v` on an ordered dictionary: overwrite in place or append,
`/repo/photontorch/networks/network.py:144-176`. -/
def dictSet {κ β : Type} [DecidableEq κ] (k : κ) (v : β) : List (κ × β) → List (κ × β)
  | [] => [(k, v)]
  | (k', v') :: l => if k' = k then (k, v) :: l else (k', v') :: dictSet k v l

/-- `d.get(k)`,
`/repo/photontorch/networks/network.py:889-993`. -/
def dictGet {κ β : Type} [DecidableEq κ] (k : κ) : List (κ × β) → Option β
  | [] => none
  | (k', v') :: l => if k' = k then some v' else dictGet k l

end PT
