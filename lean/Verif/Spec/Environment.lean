import Verif.Model.Env

/-! Specifications for the environment, stated on constructor arguments and public attributes
only. -/

namespace PT.Spec

/-- Names of the constructor arguments that define the grids. -/
inductive ArgName
  | dt | samplerate | num_t | t0 | t1 | t | bitrate | bitlength
  | wl | f | dwl | df | num_wl | num_f | wl0 | f0 | wl1 | f1
  deriving DecidableEq

/-- The user explicitly passed a (non-`None`) value for the argument. -/
def Supplied (a : Args) : ArgName → Prop
  | .dt => ∃ v, a.dt = .given v
  | .samplerate => ∃ v, a.samplerate = .given v
  | .num_t => ∃ v, a.num_t = .given v
  | .t0 => ∃ v, a.t0 = .given v
  | .t1 => ∃ v, a.t1 = .given v
  | .t => ∃ v, a.t = .given v
  | .bitrate => ∃ v, a.bitrate = .given v
  | .bitlength => ∃ v, a.bitlength = .given v
  | .wl => ∃ v, a.wl = .given v
  | .f => ∃ v, a.f = .given v
  | .dwl => ∃ v, a.dwl = .given v
  | .df => ∃ v, a.df = .given v
  | .num_wl => ∃ v, a.num_wl = .given v
  | .num_f => ∃ v, a.num_f = .given v
  | .wl0 => ∃ v, a.wl0 = .given v
  | .f0 => ∃ v, a.f0 = .given v
  | .wl1 => ∃ v, a.wl1 = .given v
  | .f1 => ∃ v, a.f1 = .given v

/-- Pairs of arguments that may not be supplied together. -/
def exclusivePairs : List (ArgName × ArgName) :=
  [(.dt, .samplerate), (.dt, .t), (.samplerate, .t), (.t0, .t), (.t1, .num_t), (.t1, .t),
   (.num_t, .t), (.bitrate, .bitlength), (.wl, .f),
   (.dwl, .df), (.dwl, .num_wl), (.dwl, .num_f), (.dwl, .wl), (.dwl, .f),
   (.df, .num_wl), (.df, .num_f), (.df, .wl), (.df, .f),
   (.num_wl, .num_f), (.num_wl, .wl), (.num_wl, .f), (.num_f, .wl), (.num_f, .f),
   (.wl0, .f0), (.wl0, .wl), (.wl0, .f), (.f0, .wl), (.f0, .f),
   (.wl1, .f1), (.wl1, .wl), (.wl1, .f), (.f1, .wl), (.f1, .f)]

/-- Two mutually exclusive arguments were both supplied. -/
def Conflict (a : Args) : Prop := ∃ p ∈ exclusivePairs, Supplied a p.1 ∧ Supplied a p.2

/-- A numeric argument has value `v`, by default or explicitly. -/
def HasValue {α : Type} (x : Arg α) (v : α) : Prop := x = .dflt v ∨ x = .given v

/-- The time step is negative, or the interval is reversed. -/
def BadTimes (a : Args) : Prop :=
  (∃ d, HasValue a.dt d ∧ d < 0) ∨ (∃ x y, HasValue a.t0 x ∧ HasValue a.t1 y ∧ y < x)

/-- `l` is the grid `start, start+step, …` with `n` points. -/
def IsGrid (l : List ℚ) (start step : ℚ) (n : ℕ) : Prop :=
  l.length = n ∧ ∀ i, i < n → l[i]? = some (start + i * step)

/-- A uniform grid of some step. -/
def Uniform (l : List ℚ) : Prop := ∃ start step, IsGrid l start step l.length

/-- The time step requested by the arguments: `1/samplerate` if a sample rate is supplied,
otherwise `dt`. -/
def StepOf (a : Args) (d : ℚ) : Prop :=
  (∃ r, a.samplerate = .given r ∧ d * r = 1) ∨
  ((¬ ∃ r, a.samplerate = .given r) ∧ HasValue a.dt d)

end PT.Spec
