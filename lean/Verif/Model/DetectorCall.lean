import Verif.Model.Detector

/-!
# Model of the arguments of the detectors

The bit rate is stored but used nowhere.
-/

namespace PT

/-- What a `LowpassDetector` stores, `/repo/photontorch/detectors/lowpassdetector.py:122-127`. -/
structure DetParams where
  samplerate : ℚ
  cutoff : ℚ
  order : ℤ
  responsivity : ℝ

/-- The keyword arguments of a call, `/repo/photontorch/detectors/lowpassdetector.py:137-145`. -/
structure DetArgs where
  samplerate : Option ℚ := none
  cutoff : Option ℚ := none
  order : Option ℚ := none
  responsivity : Option ℝ := none

/-- `LowpassDetector.__init__`, `/repo/photontorch/detectors/lowpassdetector.py:106-135`. -/
def detNew (samplerate cutoff order : ℚ) (responsivity : ℝ) : Except PyErr DetParams :=
  (lowpassNew samplerate cutoff).map fun _ => ⟨samplerate, cutoff, toRate order, responsivity⟩

/-- The defaults of the constructor, `/repo/photontorch/detectors/lowpassdetector.py:106-113`. -/
def detDefault : DetParams := ⟨160e9, 20e9, 4, 1⟩

/-- `LowpassDetector.forward`, `/repo/photontorch/detectors/lowpassdetector.py:137-214`; `env` is the sample rate of the current
environment as in `resolveRate`, `butter` is `scipy.signal.butter` by order and normalized cutoff. -/
noncomputable def detForward (butter : ℤ → ℚ → List ℝ × List ℝ) (p : DetParams) (env : Option (Option ℚ)) (a : DetArgs) (x : Sig) :
    Except PyErr Sig :=
  let cutoff := match a.cutoff with | none => p.cutoff | some c => c
  let order := match a.order with | none => p.order | some n => toRate n
  let responsivity := match a.responsivity with | none => p.responsivity | some r => r
  lowpassDetect (butter order) x (resolveRate a.samplerate env p.samplerate) cutoff responsivity

/-- What a `Photodetector` stores in addition, `/repo/photontorch/detectors/photodetector.py:65-79`. The seed is represented by the
random numbers it produces. -/
structure PhotoParams extends DetParams where
  dark : ℝ
  load : ℝ
  randn : (s : List ℕ) → ℕ → List (Ten s)

/-- The keyword arguments of a call of a `Photodetector`, `/repo/photontorch/detectors/photodetector.py:81-92`. -/
structure PhotoArgs extends DetArgs where
  dark : Option ℝ := none
  load : Option ℝ := none

/-- `Photodetector.__init__`, `/repo/photontorch/detectors/photodetector.py:43-79`. -/
def photoNew (samplerate cutoff order : ℚ) (responsivity dark load : ℝ) (randn : (s : List ℕ) → ℕ → List (Ten s)) :
    Except PyErr PhotoParams :=
  (detNew samplerate cutoff order responsivity).map fun p => ⟨p, dark, load, randn⟩

/-- The defaults of the constructor of `Photodetector`, `/repo/photontorch/detectors/photodetector.py:43-53`. -/
noncomputable def photoDefault (randn : (s : List ℕ) → ℕ → List (Ten s)) : Except PyErr PhotoParams :=
  photoNew 160e9 20e9 4 1 1e-10 166 randn

open Classical in
/-- `Photodetector.forward`, `/repo/photontorch/detectors/photodetector.py:81-166`: the cutoff is passed on resolved, the order and the
sample rate are resolved by `LowpassDetector.forward`. `none` is a tensor with an entry `nan`. -/
noncomputable def photoForward (butter : ℤ → ℚ → List ℝ × List ℝ) (p : PhotoParams) (env : Option (Option ℚ)) (a : PhotoArgs) (x : Sig) :
    Except PyErr (Option Sig) :=
  let cutoff := match a.cutoff with | none => p.cutoff | some c => c
  let responsivity := match a.responsivity with | none => p.responsivity | some r => r
  let dark := match a.dark with | none => p.dark | some r => r
  let load := match a.load with | none => p.load | some r => r
  match x.toPower with
  | .error e => .error e
  | .ok y =>
    let y := y.scale responsivity
    if load = 0 then .error .zeroDivision
    else (detForward butter p.toDetParams env ⟨a.samplerate, some cutoff, a.order, some 1⟩
      (addNoise dark load cutoff y (p.randn y.shape y.rows.length))).map fun z => if y.real dark load cutoff then some z else none

end PT
