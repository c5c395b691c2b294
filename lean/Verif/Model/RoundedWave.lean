import Verif.Model.RoundedDelay

/-!
# Model of the scattering matrix of a waveguide, with rounded arithmetic

The phase of propagation is computed in double precision and reduced to one turn; cosine, sine and loss are stored in torch's default
type, IEEE 754 binary32. `rd` rounds operations in double precision, `rt` those of tensors of the default type.
-/

namespace PT

/-- The functions of torch and python that `/repo/photontorch/components/waveguides.py:81-82,85` calls: `torch.cos`, `torch.sin` of a
double, and `10 ** x` of a `float`. Parameters of the model: what they are assumed to compute is said in the specification. -/
structure Libm where
  cos : ℚ → ℚ
  sin : ℚ → ℚ
  pow10 : ℚ → ℚ

/-- `np.pi`, used in `/repo/photontorch/components/waveguides.py:69,80`: the `float` 3.141592653589793. -/
def npPi : ℚ := 884279719003555 / 281474976710656

variable (rd rt : ℚ → ℚ) (m : Libm)

/-- `a % b` for `float`s and for tensors, `b` positive, `/repo/photontorch/components/waveguides.py:69,80`: C's `fmod`, which is exact, and
`b` added if that is negative (so do python and `torch.remainder`). -/
def modR (a b : ℚ) : ℚ :=
  let f := a - pyTrunc (a / b) * b
  if f < 0 then rd (f + b) else f

/-- The stored phase, `phase % (2 * np.pi)`, `/repo/photontorch/components/waveguides.py:67-70`. -/
def phaseStoredR (phase : ℚ) : ℚ := modR rd phase (2 * npPi)

/-- `neff = self.neff - (wls - self.wl0) * (self.ng - self.neff) / self.wl0`, `/repo/photontorch/components/waveguides.py:79`; `wl0` is not
zero. -/
def neffR (neff wl0 ng wl : ℚ) : ℚ := rd (neff - rd (rd (rd (wl - wl0) * rd (ng - neff)) / wl0))

/-- `phase = (2 * np.pi * neff * self.length / wls) % (2 * np.pi) + self.phase`, `/repo/photontorch/components/waveguides.py:80`; doubling
`np.pi` is exact, `wl` is not zero. -/
def phaseR (length neff wl0 ng stored wl : ℚ) : ℚ :=
  rd (modR rd (rd (rd (rd (2 * npPi * neffR rd neff wl0 ng wl) * length) / wl)) (2 * npPi) + stored)

/-- `loss = 10 ** (-self.loss * self.length / 20)`, `/repo/photontorch/components/waveguides.py:85`, converted to the type of the tensor when
multiplied with it in lines 86-87. -/
def leftR (length loss : ℚ) : ℚ := rt (m.pow10 (rd (rd (-loss * length) / 20)))

/-- The real and imaginary parts of the entries `[0, 1]` and `[1, 0]`, `Waveguide.set_S`,
`/repo/photontorch/components/waveguides.py:75-91`; `stored` is `self.phase`. -/
def waveguideR (length loss neff wl0 ng stored wl : ℚ) : ℚ × ℚ :=
  let ph := phaseR rd length neff wl0 ng stored wl
  (rt (leftR rd rt m length loss * rt (m.cos ph)), rt (leftR rd rt m length loss * rt (m.sin ph)))

end PT
