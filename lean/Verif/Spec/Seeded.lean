import Verif.Model.Seeded

/-!
# Specification for C148: random bits
-/

namespace PT.Spec

/-- The bit that a random number between 0 and 1 stands for. -/
noncomputable def coin (x : ℝ) : ℝ := if x > 1 / 2 then 1 else 0

/-- The random numbers of a generator of bits that was given a seed, or none. -/
def Chance.source (ch : Chance) : Option ℕ → ℕ → ℝ
  | none => ch.entropy
  | some s => ch.ofSeed s

/-- A call without a seed, or with the seed that the generator was given. -/
def OwnSeed (own : Option ℕ) (c : BitCall) : Prop := c.seed = none ∨ ∃ s, own = some s ∧ c.seed = some (s : ℚ)

/-- How many random bits were asked for with the generator's own seed. -/
noncomputable def bitsAsked (own : Option ℕ) : List BitCall → ℕ
  | [] => 0
  | c :: cs => (open Classical in if OwnSeed own c then (match c.bits with | .number n => n | _ => 0) else 0) + bitsAsked own cs

end PT.Spec
