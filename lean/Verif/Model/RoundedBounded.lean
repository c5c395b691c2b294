import Verif.Model.RoundedDelay

/-!
# Model of bounded parameters, couplers and mirrors, with rounded arithmetic

`rd` rounds operations of python's `float`s (double precision), `rt` those of tensors of torch's default type, IEEE 754 binary32; numbers
are converted to that type when they meet a tensor of that type.
-/

namespace PT

/-- The functions of torch that `/repo/photontorch/nn/nn.py:103,111`, `/repo/photontorch/components/directionalcouplers.py:62-63` and
`/repo/photontorch/components/mirrors.py:51-52` call for a tensor of the default type: `torch.log` of a positive number, `torch.sigmoid` of a
finite one, and the power `** 0.5`. Parameters of the model: what they are assumed to compute is said in the specification. -/
structure Libt where
  log : ℚ → ℚ
  sigmoid : ℚ → ℚ
  sqrt : ℚ → ℚ

/-- The weight that is registered for a bounded parameter, `/repo/photontorch/nn/nn.py:95-98`: a number, plus or minus infinity, or
`nan`. -/
inductive WeightR
  | num (w : ℚ)
  | inf
  | neginf
  | nan
deriving DecidableEq

variable (rd rt : ℚ → ℚ) (m : Libt)

/-- The checks of `BoundedParameter.__new__`, `/repo/photontorch/nn/nn.py:86-94`, for data that is a tensor of one element; the comparisons
with the data convert the bounds to its type. -/
def boundedAcceptsR (a b x : ℚ) : Prop := ¬ b ≤ a ∧ ¬ x < rt a ∧ ¬ rt b < x

/-- `scaled_data = (data - a) / (b - a)`, `/repo/photontorch/nn/nn.py:110`, for `b - a` that does not become zero when converted. -/
def scaledR (a b x : ℚ) : ℚ := rt (rt (x - rt a) / rt (rd (b - a)))

/-- `weights = -torch.log(1 / scaled_data - 1)`, `/repo/photontorch/nn/nn.py:111`: division by zero and overflow give infinity, whose
logarithm is infinite, the logarithm of zero is minus infinity and that of a negative number is `nan`. -/
def weightOfScaledR (s : ℚ) : WeightR :=
  if s = 0 ∨ 2 ^ 128 ≤ rt (1 / s) then .neginf
  else
    let d := rt (rt (1 / s) - 1)
    if d < 0 then .nan else if d = 0 then .inf else .num (-m.log d)

/-- `BoundedParameter._inverse_sigmoid`, `/repo/photontorch/nn/nn.py:107-112`. If `b - a` becomes zero the scaled data is `nan` or infinite, and
the weight is `nan`. -/
def inverseSigmoidR (a b x : ℚ) : WeightR :=
  if rt (rd (b - a)) = 0 then .nan else weightOfScaledR rt m (scaledR rd rt a b x)

/-- `torch.sigmoid(weights)`, `/repo/photontorch/nn/nn.py:103`, `none` for `nan`. -/
def sigmoidR : WeightR → Option ℚ
  | .num w => some (m.sigmoid w)
  | .inf => some 1
  | .neginf => some 0
  | .nan => none

/-- `BoundedParameter._sigmoid`, `/repo/photontorch/nn/nn.py:100-105`, which is what the attribute of a module gives (lines 150-154); `none`
for `nan`. -/
def boundedValueR (a b : ℚ) (w : WeightR) : Option ℚ :=
  (sigmoidR m w).map fun y => rt (rt (rt (rd (b - a)) * y) + rt a)

/-- The two entries of the scattering matrix of a `DirectionalCoupler` with the coupling `x`: `t = (1 - self.coupling) ** 0.5` and
`k = self.coupling ** 0.5`, `/repo/photontorch/components/directionalcouplers.py:61-71`; for a `Mirror` with the reflectivity `x` the same are
`t` and `r`, `/repo/photontorch/components/mirrors.py:50-60`. -/
def splitR (x : ℚ) : ℚ × ℚ := (m.sqrt (rt (1 - x)), m.sqrt x)

end PT
