import Mathlib.Data.Rat.Floor

/-!
# Python primitives shared by the models

These re-implement the few Python/numpy primitives whose behaviour the modelled code
relies on.  They are part of the trusted base (see DESIGN.md).
-/

namespace PT

/-- Exception classes raised by the modelled code (Python built-in exceptions; messages are
not modelled).  `unmodelled` marks results that leave the model's number domain
(`inf`/`nan` from numpy division by zero, e.g. `c / self.wl` at
`/repo/photontorch/environment/environment.py:390`). -/
inductive PyErr
  | valueError | indexError | keyError | typeError | runtimeError | attributeError
  | zeroDivision | nameError | unmodelled
  deriving DecidableEq, Repr

/-- Python's `int(x)` on a number: truncation towards zero, as used in
`/repo/photontorch/environment/environment.py:116`, `/repo/photontorch/nn/nn.py:629`. -/
def pyTrunc (q : ℚ) : ℤ := if 0 ≤ q then ⌊q⌋ else ⌈q⌉

/-- Division of two Python floats (`/`): `ZeroDivisionError` on a zero denominator, as
met at `/repo/photontorch/environment/environment.py:116,274,292,331,376,378`. -/
def pyDiv (x y : ℚ) : Except PyErr ℚ :=
  if y = 0 then .error .zeroDivision else .ok (x / y)

/-- Division of a scalar by a numpy array (`c / arr`): elementwise; a zero entry would give
`inf` (or `nan`) with a warning, which is outside the model.
`/repo/photontorch/environment/environment.py:310,332,346,390`. -/
def npDivArr (x : ℚ) (l : List ℚ) : Except PyErr (List ℚ) :=
  if 0 ∈ l then .error .unmodelled else .ok (l.map (x / ·))

end PT
