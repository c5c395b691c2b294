import Mathlib.Analysis.SpecialFunctions.Log.Base
import Verif.Model.Py
import Verif.Model.Str
import Verif.Model.Sim

/-!
# Model of `plot`

`/repo/photontorch/networks/visualize.py:22-176`: which curves are drawn, which label each of them gets, and the scale of the axis.
Colours, legend placement and the conversion to `float32` are not modelled.
-/

namespace PT

/-- An array: its shape and the entry at each index, as passed to `plot`, `/repo/photontorch/networks/visualize.py:22`. -/
structure Arr (α : Type) where
  shape : List ℕ
  get : List ℕ → α

namespace Arr
variable {α : Type}

/-- The index before `np.squeeze` of an index after it, `/repo/photontorch/networks/visualize.py:68`. -/
def unsqueeze : List ℕ → List ℕ → List ℕ
  | [], _ => []
  | n :: s, i => if n = 1 then 0 :: unsqueeze s i else i.headD 0 :: unsqueeze s i.tail

/-- `np.squeeze`: axes of length one are dropped, `/repo/photontorch/networks/visualize.py:68`. -/
def squeeze (y : Arr α) : Arr α := ⟨y.shape.filter fun n => n ≠ 1, fun i => y.get (unsqueeze y.shape i)⟩

/-- `y.transpose(p)`: axis `k` of the result is axis `p[k]` of `y`, `/repo/photontorch/networks/visualize.py:120,148,153,160`. -/
def transpose (y : Arr α) (p : List ℕ) : Arr α :=
  ⟨p.map fun a => y.shape.getD a 0, fun i => y.get ((List.range p.length).map fun a => i.getD (p.idxOf a) 0)⟩

/-- The index of the `k`-th entry in row-major order, for `reshape` in
`/repo/photontorch/networks/visualize.py:124,157,167`. -/
def unravel : List ℕ → ℕ → List ℕ
  | [], _ => []
  | _ :: s, k => k / s.prod :: unravel s (k % s.prod)

/-- `y.reshape(n, -1)`, `/repo/photontorch/networks/visualize.py:124,157,167`. -/
def reshape (y : Arr α) (n : ℕ) : Except PyErr (Arr α) :=
  if n = 0 ∨ y.shape.prod % n ≠ 0 then .error .valueError
  else .ok ⟨[n, y.shape.prod / n],
    fun i => y.get (unravel y.shape (i.getD 0 0 * (y.shape.prod / n) + i.getD 1 0))⟩

end Arr

/-- A part of a label: `"%i" % i` or `"batch %i" % i`, `"%inm" % wl`, or the name of a detector,
`/repo/photontorch/networks/visualize.py:101-104,115-117,121-123,132-137,141-156,161-166`; a label is a list of these, separated
by `" | "` in the code. -/
inductive LabelPart
  | batch (i : ℕ)
  | nm (n : ℤ)
  | det (name : Str)
  deriving DecidableEq

/-- A component of the network as `plot` sees it: its name in `network.components`, whether it is a `Detector`, and how many
detecting ports it has, `/repo/photontorch/networks/visualize.py:101-103`,
`/repo/photontorch/components/component.py:83`. -/
structure PlotComp where
  name : Str
  isDet : Bool
  numDet : ℕ

/-- `detectors`, `/repo/photontorch/networks/visualize.py:101-103`. -/
def detLabels (cs : List PlotComp) : List LabelPart := (cs.filter fun c => c.isDet).map fun c => .det c.name

/-- `network.num_detectors`, `/repo/photontorch/components/component.py:83`, where the detecting ports of a network are those of its components
in turn, `/repo/photontorch/networks/network.py:868-887`. -/
def numDetectors (cs : List PlotComp) : ℕ := (cs.map fun c => c.numDet).sum

/-- `wavelengths`: `"%inm" % wl for wl in 1e9 * network.env.wl`, `/repo/photontorch/networks/visualize.py:104`. -/
def wlLabels (wl : List ℚ) : List LabelPart := wl.map fun x => .nm (pyTrunc (10 ^ 9 * x))

/-- A drawn curve: its label, if it has one, and its values. `/repo/photontorch/networks/visualize.py:48-60`. -/
structure Curve (α : Type) where
  label : Option (List LabelPart)
  y : List α

/-- What is drawn: whether the axis is the time, the curves, the power of ten of the unit and the scaled axis,
`/repo/photontorch/networks/visualize.py:48-60,70-98`. -/
structure Figure (α : Type) where
  timeAxis : Bool
  curves : List (Curve α)
  exponent : ℤ
  x : List ℝ

/-- `(int(np.log10(max(x)) + 0.5) // 3) * 3 - 3`, `/repo/photontorch/networks/visualize.py:82`. -/
noncomputable def axisExponent (m : ℝ) : ℤ := realTrunc (Real.logb 10 m + 1 / 2) / 3 * 3 - 3

/-- The unit of the axis, `/repo/photontorch/networks/visualize.py:81-95`: the dictionary of prefixes has the multiples of three
from -15 to 12.  A maximum that is not positive gives `-inf` or `nan`, of which `int` raises OverflowError or ValueError. -/
noncomputable def axisUnit (x : List ℚ) : Except PyErr ℤ :=
  match x.max? with
  | none => .error .valueError
  | some m =>
    if m ≤ 0 then .error .unmodelled
    else if -15 ≤ axisExponent m ∧ axisExponent m ≤ 12 then .ok (axisExponent m) else .error .keyError

section Plot
variable {α : Type}

/-- `plotfunc` for one axis, without labels, `/repo/photontorch/networks/visualize.py:48-60,107-108`. -/
def curve1 (y : Arr α) : List (Curve α) := [⟨none, (List.range (y.shape.headD 0)).map fun i => y.get [i]⟩]

/-- `plotfunc` for two axes: a curve for each column, labelled as far as there are labels,
`/repo/photontorch/networks/visualize.py:48-60`. -/
def curves2 (y : Arr α) (labels : List (List LabelPart)) : List (Curve α) :=
  (List.range (y.shape.getD 1 0)).map fun j =>
    ⟨labels[j]?, (List.range (y.shape.headD 0)).map fun i => y.get [i, j]⟩

/-- `plotfunc(x, y.reshape(n, -1), labels)`, `/repo/photontorch/networks/visualize.py:124,157,167`. -/
def curvesFlat (y : Arr α) (n : ℕ) (labels : List (List LabelPart)) : Except PyErr (List (Curve α)) :=
  (y.reshape n).map fun z => curves2 z labels

/-- `["batch %i" % i for i in range(n)]`, `/repo/photontorch/networks/visualize.py:117,137`. -/
def batchLabels (n : ℕ) : List (List LabelPart) := (List.range n).map fun i => [.batch i]

/-- `["%i | %s" % (i, x) for i in range(n) for x in l]`, `/repo/photontorch/networks/visualize.py:121-123,149-156`. -/
def batchTimes (n : ℕ) (l : List LabelPart) : List (List LabelPart) :=
  (List.range n).flatMap fun i => l.map fun x => [.batch i, x]

/-- `["%s | %s" % (wl, det) for wl in wavelengths for det in detectors]`,
`/repo/photontorch/networks/visualize.py:141-143`. -/
def wlTimesDet (wls dets : List LabelPart) : List (List LabelPart) := wls.flatMap fun w => dets.map fun d => [w, d]

/-- `"%i | %s | %s" % (b, wl, det)` for all three, `/repo/photontorch/networks/visualize.py:161-166`. -/
def allLabels (n : ℕ) (wls dets : List LabelPart) : List (List LabelPart) :=
  (List.range n).flatMap fun i => wls.flatMap fun w => dets.map fun d => [.batch i, w, d]

/-- The curves in wavelength mode, `/repo/photontorch/networks/visualize.py:107-129`. -/
def curvesWl (cs : List PlotComp) (wl : List ℚ) (y : Arr α) : Except PyErr (List (Curve α)) :=
  match y.shape with
  | [_] => .ok (curve1 y)
  | [_, n] => .ok (curves2 y (if n = numDetectors cs then (detLabels cs).map fun d => [d] else batchLabels n))
  | [_, _, b] => curvesFlat (y.transpose [0, 2, 1]) wl.length (batchTimes b (detLabels cs))
  | _ => .error .runtimeError

/-- The curves in time mode, `/repo/photontorch/networks/visualize.py:107-108,131-171`. If the shape fits none of the three cases
at 140-156, `labels` is unbound. -/
def curvesTime (cs : List PlotComp) (nt : ℕ) (wl : List ℚ) (y : Arr α) : Except PyErr (List (Curve α)) :=
  match y.shape with
  | [_] => .ok (curve1 y)
  | [_, n] => .ok (curves2 y (if n = wl.length then (wlLabels wl).map fun w => [w]
      else if n = numDetectors cs then (detLabels cs).map fun d => [d] else batchLabels n))
  | [_, n, m] =>
    if n = wl.length ∧ m = numDetectors cs then curvesFlat y nt (wlTimesDet (wlLabels wl) (detLabels cs))
    else if n = wl.length ∧ m ≠ numDetectors cs then
      curvesFlat (y.transpose [0, 2, 1]) nt (batchTimes m (wlLabels wl))
    else if n = numDetectors cs then curvesFlat (y.transpose [0, 2, 1]) nt (batchTimes m (detLabels cs))
    else .error .nameError
  | [_, _, _, b] => curvesFlat (y.transpose [0, 3, 1, 2]) nt (allLabels b (wlLabels wl) (detLabels cs))
  | _ => .error .runtimeError

/-- `plot(network, detected)`, `/repo/photontorch/networks/visualize.py:22-176`, for a network with the components `cs` in an environment
with times `t` and wavelengths `wl`. -/
noncomputable def plot (cs : List PlotComp) (t wl : List ℚ) (detected : Arr α) : Except PyErr (Figure α) :=
  if detected.shape.length = 4 ∧ detected.shape.getD 0 0 = 1 ∧ detected.shape.getD 1 0 = 1 then .error .valueError
  else
    let y := detected.squeeze
    match y.shape with
    | [] => .error .indexError
    | n :: _ =>
      if t.length = n then
        (axisUnit t).bind fun f => (curvesTime cs t.length wl y).map fun c => ⟨true, c, f, t.map fun v => (v : ℝ) * 10 ^ (-f)⟩
      else if wl.length = n then
        (axisUnit wl).bind fun f => (curvesWl cs wl y).map fun c => ⟨false, c, f, wl.map fun v => (v : ℝ) * 10 ^ (-f)⟩
      else .error .valueError

end Plot

end PT
