import Mathlib.Analysis.SpecialFunctions.Log.Basic
import Mathlib.Data.EReal.Basic
import Verif.Model.Py

/-!
# Model of bounded parameters

`/repo/photontorch/nn/nn.py:59-125,139-162`.  Tensors are modelled entry by entry, except for the checks
of the constructor, which regard all entries. Weights are extended real numbers, since `log` gives infinite weights at the
bounds.
-/

namespace PT

/-- `torch.log`, for arguments `≥ 0` (the only ones that occur for data within bounds); `log 0 = -∞`, `log ∞ = ∞`;
used in `/repo/photontorch/nn/nn.py:111`. -/
noncomputable def tlog : EReal → EReal
  | ⊥ => ⊥
  | ⊤ => ⊤
  | (x : ℝ) => if x = 0 then ⊥ else (Real.log x : EReal)

/-- `1 / x` for a float (`1 / 0` is `∞` for a tensor), `/repo/photontorch/nn/nn.py:111`. -/
noncomputable def trecip (x : ℝ) : EReal := if x = 0 then ⊤ else ((1 / x : ℝ) : EReal)

/-- `torch.sigmoid`, with its limits at infinity, used in `/repo/photontorch/nn/nn.py:103`. -/
noncomputable def tsigmoid : EReal → ℝ
  | ⊥ => 0
  | ⊤ => 1
  | (x : ℝ) => 1 / (1 + Real.exp (-x))

/-- `BoundedParameter._inverse_sigmoid`, `/repo/photontorch/nn/nn.py:107-112`. -/
noncomputable def inverseSigmoid (data a b : ℝ) : EReal := -(tlog (trecip ((data - a) / (b - a)) - 1))

/-- `BoundedParameter._sigmoid`: the value read through the property of the module,
`/repo/photontorch/nn/nn.py:100-105,149-154`. -/
noncomputable def boundedValue (w : EReal) (a b : ℝ) : ℝ := (b - a) * tsigmoid w + a

/-- A bounded parameter: the weights of all entries and the bounds, `/repo/photontorch/nn/nn.py:94-98`. -/
structure Bounded where
  weights : List EReal
  lo : ℝ
  hi : ℝ

/-- `BoundedParameter.__new__`, `/repo/photontorch/nn/nn.py:72-98`, for a tensor `data` and a pair of bounds. -/
noncomputable def boundedNew (data : List ℝ) (a b : ℝ) : Except PyErr Bounded :=
  open Classical in
  if b ≤ a then .error .valueError
  else if (∃ x ∈ data, x < a) ∨ ∃ x ∈ data, b < x then .error .valueError
  else .ok ⟨data.map fun x => inverseSigmoid x a b, a, b⟩

/-- The values of the parameter, `/repo/photontorch/nn/nn.py:149-154`. -/
noncomputable def Bounded.values (p : Bounded) : List ℝ := p.weights.map fun w => boundedValue w p.lo p.hi

/-- A step of an optimizer, which adds finite numbers to the weights (the registered parameter,
`/repo/photontorch/nn/nn.py:144-147`). -/
noncomputable def Bounded.update (p : Bounded) (δ : List ℝ) : Bounded :=
  { p with weights := p.weights.zipIdx.map fun x => x.1 + ((δ.getD x.2 0 : ℝ) : EReal) }

end PT
