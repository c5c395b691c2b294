import Verif.Model.Nested

/-!
# Specification: networks in networks with active components, opened
-/

namespace PT.Spec

variable {W B : Type}

/-- `Opened cs ls`: opening the networks among the components `cs`, and the networks in them, leaves the components `ls`. Networks with
active components have no sources, and only the last component that is active may have passive ports as well. -/
inductive Opened : List (Actor W B) → List (Actor W B) → Prop
  | nil : Opened [] []
  | keep (c : Actor W B) (cs ls : List (Actor W B)) : Opened cs ls → Opened (c :: cs) (c :: ls)
  | passive (k : ℕ) (sub leaves cs ls : List (Actor W B)) : Opened sub leaves → (∀ c ∈ leaves, c.active = false) →
      Opened cs ls → Opened (netActor k sub :: cs) (leaves ++ ls)
  | active (sub leaves cs ls : List (Actor W B)) : Opened sub leaves → (∀ c ∈ leaves, c.active = true) →
      Opened cs ls → Opened (netActor 0 sub :: cs) (leaves ++ ls)
  | last (sub leaves cs ls : List (Actor W B)) : Opened sub leaves → Opened cs ls → (∀ c ∈ ls, c.active = false) →
      Opened (netActor 0 sub :: cs) (leaves ++ ls)

end PT.Spec
