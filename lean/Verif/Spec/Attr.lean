import Verif.Model.Attr

/-! Specification vocabulary for attributes. -/

namespace PT.Spec

/-- The value a user expects to see in an attribute after assigning `v`. -/
noncomputable def seen : AVal → EReal
  | .number x => x
  | .tensor x => x
  | .param x => x
  | .buffer x => x
  | .bounded w lo hi => (boundedValue w lo hi : ℝ)

/-- The value of the last assignment to `a` that raised nothing. -/
def lastSet (a : Str) : List (Str × AVal) → List (Option PyErr) → Option AVal
  | (b, v) :: h, o :: os =>
    match lastSet a h os with
    | some w => some w
    | none => if b = a ∧ o = none then some v else none
  | _, _ => none

/-- `v` is a bounded parameter. -/
def isBounded : AVal → Prop
  | .bounded _ _ _ => True
  | _ => False

end PT.Spec
