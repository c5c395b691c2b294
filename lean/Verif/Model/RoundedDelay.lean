import Verif.Model.Rounded

/-!
# Model of the delays in time steps, with rounded arithmetic

Delays are computed with python's `float` and stored in tensors of torch's default type, IEEE 754 binary32; quotient and sum are those
of tensors. `rd` rounds the operations of python, `rt` those of tensors; the identity gives exact arithmetic back.
-/

namespace PT

/-- The exponent of the last of the 24 binary digits of an entry near `x` of a tensor of type `torch.float32` (at least -149), the type
of `torch.zeros` in `/repo/photontorch/networks/network.py:417`. -/
def place32 (x : ℚ) : ℤ := max (Int.log 2 |x| - 23) (-149)

/-- The number of type `torch.float32` nearest to `x`, ties to even: entries of `/repo/photontorch/networks/network.py:417,427,572`.
Simplification: no overflow, that is no infinities beyond 2^128. -/
def fl32 (x : ℚ) : ℚ := roundEven (x / 2 ^ place32 x) * 2 ^ place32 x

variable (rd rt : ℚ → ℚ)

/-- `delays[:] = self.ng * self.length / self.env.c`, `/repo/photontorch/components/waveguides.py:73`,
`/repo/photontorch/components/mzis.py:83`, `/repo/photontorch/components/directionalcouplers.py:152`: a product and a quotient of `float`s
(`c` is not zero), rounded once more when stored in the tensor. -/
def delayR (ng length c : ℚ) : ℚ := rt (rd (rd (ng * length) / c))

/-- One entry of `(delays_in_seconds / env.dt + 0.5).long()`, `/repo/photontorch/networks/network.py:427`: in operations of a tensor with
a `float`, torch (on the cpu) first converts the `float` to the type of the tensor.  `dt` is not zero. -/
def stepsR (d dt : ℚ) : ℤ := pyTrunc (rt (rt (d / rt dt) + 1 / 2))

/-- The length of the buffer in the time domain, `int(self._delays.max() / self.env.dt + 0.5) + 1`,
`/repo/photontorch/networks/network.py:571-577`; `d :: ds` are the delays of the ports with memory. -/
def bufferLengthR (d : ℚ) (ds : List ℚ) (dt : ℚ) : ℤ := pyTrunc (rt (rt (ds.foldl max d / rt dt) + 1 / 2)) + 1

end PT
