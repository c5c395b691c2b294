import Verif.Model.Source

/-!
# What a source tensor means

The element of a tensor with named dimensions for a given part (0 real, 1 imaginary), time, wavelength, source and
batch; dimensions that are missing or of size one are broadcast.
-/

namespace PT.Spec

/-- Where a tensor is to be read. -/
structure Coord where
  c : ℕ
  t : ℕ
  w : ℕ
  s : ℕ
  b : ℕ

/-- The coordinate along a named dimension. -/
def Coord.along (i : Coord) : Option Char → ℕ
  | some 'c' => i.c
  | some 't' => i.t
  | some 'w' => i.w
  | some 's' => i.s
  | _ => i.b

/-- The size of a named dimension, 1 if it is missing. -/
def dim (x : NTensor) (n : Char) : ℕ :=
  match (x.names.zip x.shape).find? (fun d => d.1 == some n) with
  | some d => d.2
  | none => 1

/-- The element with the given coordinates, whatever the order of the dimensions. -/
def readAt (x : NTensor) (i : Coord) : ℝ :=
  x.elem ((x.names.zip x.shape).map fun d => if d.2 = 1 then 0 else i.along d.1)

/-- The value driving source `i.s`: the imaginary part is zero if the source is real. -/
def drive (x : NTensor) (i : Coord) : ℝ :=
  if dim x 'c' = 1 ∧ i.c ≠ 0 then 0 else readAt x i

/-- All dimensions are named, with names from `c`, `t`, `w`, `s`, `b`. -/
def Named (x : NTensor) : Prop := ∀ n ∈ x.names, ∃ c ∈ ['c', 't', 'w', 's', 'b'], n = some c

end PT.Spec
