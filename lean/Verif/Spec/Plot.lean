import Verif.Model.Plot

/-! Specification vocabulary for plots. -/

namespace PT.Spec

variable {α : Type}

/-- The component a detector channel belongs to: the channels of the components one after the other. -/
def owners (cs : List PlotComp) : List Str := cs.flatMap fun c => List.replicate c.numDet c.name

/-- A part of a label is right about the data at wavelength `w`, detector `d` and batch `b`: it gives the batch number, the wavelength
in nanometers without decimals, or the name of the detector. -/
def Right (cs : List PlotComp) (wl : List ℚ) (w d b : ℕ) : LabelPart → Prop
  | .batch i => i = b
  | .nm n => ∃ x, wl[w]? = some x ∧ (n : ℚ) ≤ 10 ^ 9 * x ∧ 10 ^ 9 * x < n + 1
  | .det s => (owners cs)[d]? = some s

/-- A label names the data at `w`, `d`, `b`: it is right, and it mentions everything of which there are several, except for what is known
from the axis or the choice of the data (`known` for the wavelength). -/
def Names (cs : List PlotComp) (wl : List ℚ) (known : Bool) (B : ℕ) (w d b : ℕ) (l : List LabelPart) : Prop :=
  (∀ p ∈ l, Right cs wl w d b p) ∧
    (known = false → wl.length ≠ 1 → ∃ n, LabelPart.nm n ∈ l) ∧ ((owners cs).length ≠ 1 → ∃ s, LabelPart.det s ∈ l) ∧
    (B ≠ 1 → ∃ i, LabelPart.batch i ∈ l)

/-- The array a simulation returns: times, wavelengths, detectors, batches. -/
def result (T W D B : ℕ) (v : ℕ → ℕ → ℕ → ℕ → α) : Arr α :=
  ⟨[T, W, D, B], fun i => v (i.getD 0 0) (i.getD 1 0) (i.getD 2 0) (i.getD 3 0)⟩

/-- All detecting ports are those of `Detector` components of the network itself (and not of networks within). -/
def Flat (cs : List PlotComp) : Prop := ∀ c ∈ cs, c.numDet = if c.isDet then 1 else 0

/-- All curves are labelled by what they show, and everything is shown: `values w d b` are the values at wavelength, detector and
batch. -/
def LabelsFit (names : ℕ → ℕ → ℕ → List LabelPart → Prop) (W D B : ℕ) (values : ℕ → ℕ → ℕ → List α)
    (curves : List (Curve α)) : Prop :=
  (∀ c ∈ curves, ∃ w < W, ∃ d < D, ∃ b < B, c.y = values w d b ∧ names w d b (c.label.getD [])) ∧
    ∀ w < W, ∀ d < D, ∀ b < B, ∃ c ∈ curves, c.y = values w d b ∧ names w d b (c.label.getD [])

end PT.Spec
