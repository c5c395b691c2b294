import Mathlib.Analysis.SpecialFunctions.Pow.Real
import Mathlib.Analysis.SpecialFunctions.Trigonometric.Basic
import Mathlib.LinearAlgebra.Matrix.Notation
import Verif.Spec.Sim

/-!
# Model of the components: `set_S` and `set_delays`

`/repo/photontorch/components/*.py`.  Floating point numbers are real numbers; tensors over the wavelengths are
modelled at one wavelength `wl`.  `x ** 0.5` is the real square root; for negative `x` torch gives
`nan`, here the square root is `0` — all theorems assume the documented ranges.
-/

namespace PT

/-- The slice of the scattering matrix passed to `set_S`, at one wavelength: real part `S[0]` and
imaginary part `S[1]`, `/repo/photontorch/components/component.py:58-105`,
`/repo/photontorch/networks/network.py:415-419,854-859`. -/
structure SMat (n : ℕ) where
  re : Matrix (Fin n) (Fin n) ℝ
  im : Matrix (Fin n) (Fin n) ℝ

namespace SMat
variable {n : ℕ}

/-- `torch.zeros`, `/repo/photontorch/networks/network.py:415-417`. -/
def zero : SMat n := ⟨0, 0⟩

/-- `S[0, :, i, j] = v`, e.g. `/repo/photontorch/components/connection.py:42`. -/
def setRe (S : SMat n) (i j : Fin n) (v : ℝ) : SMat n :=
  { S with re := Matrix.of fun a b => if a = i ∧ b = j then v else S.re a b }

/-- `S[1, :, i, j] = v`, e.g. `/repo/photontorch/components/mirrors.py:59`. -/
def setIm (S : SMat n) (i j : Fin n) (v : ℝ) : SMat n :=
  { S with im := Matrix.of fun a b => if a = i ∧ b = j then v else S.im a b }

/-- `S[0, :, i, j] = S[0, :, j, i] = v`, e.g. `/repo/photontorch/components/waveguides.py:90`. -/
def setRe2 (S : SMat n) (i j : Fin n) (v : ℝ) : SMat n := (S.setRe i j v).setRe j i v

/-- `S[1, :, i, j] = S[1, :, j, i] = v`, e.g. `/repo/photontorch/components/waveguides.py:91`. -/
def setIm2 (S : SMat n) (i j : Fin n) (v : ℝ) : SMat n := (S.setIm i j v).setIm j i v

end SMat

/-- Python's `x % (2 * np.pi)`: the remainder in `[0, 2π)`, `/repo/photontorch/components/waveguides.py:69,80`. -/
noncomputable def modTwoPi (x : ℝ) : ℝ := x - 2 * Real.pi * ⌊x / (2 * Real.pi)⌋

/-- The effective index at a wavelength, `/repo/photontorch/components/waveguides.py:79`. -/
noncomputable def neffAt (neff wl0 ng wl : ℝ) : ℝ := neff - (wl - wl0) * (ng - neff) / wl0

/-- The phase of propagation, `/repo/photontorch/components/waveguides.py:80` (without `self.phase`) and
`/repo/photontorch/components/mzis.py:90`. -/
noncomputable def propagation (length neff wl0 ng wl : ℝ) : ℝ :=
  modTwoPi (2 * Real.pi * neffAt neff wl0 ng wl * length / wl)

/-- The amplitude factor of a loss in dB/m, `/repo/photontorch/components/waveguides.py:85`. -/
noncomputable def lossFactor (loss length : ℝ) : ℝ := (10 : ℝ) ^ (-loss * length / 20)

/-- `Connection.set_S`, `/repo/photontorch/components/connection.py:41-43`. -/
noncomputable def connectionS : SMat 2 := (SMat.zero.setRe 0 1 1).setRe 1 0 1

/-- `Mirror.set_S`, `/repo/photontorch/components/mirrors.py:50-60`. -/
noncomputable def mirrorS (R : ℝ) : SMat 2 :=
  let r := √R
  let t := √(1 - R)
  (((SMat.zero.setRe 0 0 r).setRe 1 1 r).setIm 0 1 t).setIm 1 0 t

/-- `Waveguide.set_S`, `/repo/photontorch/components/waveguides.py:75-91`; the constructor reduces the phase,
68-70. -/
noncomputable def waveguideS (length loss neff wl0 ng phase wl : ℝ) : SMat 2 :=
  let ph := propagation length neff wl0 ng wl + modTwoPi phase
  let l := lossFactor loss length
  (SMat.zero.setRe2 0 1 (l * Real.cos ph)).setIm2 0 1 (l * Real.sin ph)

/-- `DirectionalCoupler.set_S`, `/repo/photontorch/components/directionalcouplers.py:61-71`. -/
noncomputable def couplerS (coupling : ℝ) : SMat 4 :=
  let t := √(1 - coupling)
  let k := √coupling
  (((SMat.zero.setRe2 0 1 t).setRe2 2 3 t).setIm2 0 2 k).setIm2 1 3 k

/-- `DirectionalCouplerWithLength.set_S`, `/repo/photontorch/components/directionalcouplers.py:154-173`; the
constructor reduces the phase, 136-138.  `neff`, `wl0` and the wavelength are not used. -/
noncomputable def longCouplerS (length coupling loss phase : ℝ) : SMat 4 :=
  let kappa := √coupling
  let tau := √(1 - coupling)
  let c := Real.cos (modTwoPi phase)
  let s := Real.sin (modTwoPi phase)
  let l := lossFactor loss length
  ((((((((SMat.zero.setRe2 0 1 (tau * l * c)).setIm2 0 1 (tau * l * s)).setRe2 0 2 (-kappa * l * s)).setIm2 0 2
    (kappa * l * c)).setRe2 1 3 (-kappa * l * s)).setIm2 1 3 (kappa * l * c)).setRe2 2 3
    (tau * l * c)).setIm2 2 3 (tau * l * s))

/-- `RealisticDirectionalCoupler.set_S`, `/repo/photontorch/components/directionalcouplers.py:236-253`. -/
noncomputable def realisticCouplerS (length k0 n0 de1k0 de1n0 de2k0 de2n0 wl0 wl : ℝ) : SMat 4 :=
  let dwl := wl - wl0
  let dn := n0 + de1n0 * dwl + 0.5 * de2n0 * dwl ^ 2
  let kappa0 := k0 + de1k0 * dwl + 0.5 * de2k0 * dwl ^ 2
  let kappa1 := Real.pi * dn / wl
  let tau := Real.cos (kappa0 + kappa1 * length)
  let kappa := -Real.sin (kappa0 + kappa1 * length)
  (((SMat.zero.setRe2 0 1 tau).setRe2 2 3 tau).setIm2 0 2 kappa).setIm2 1 3 kappa

/-- `Mzi.set_S`, `/repo/photontorch/components/mzis.py:85-113`: what remains in `S`.  The attenuated matrix
returned at 112-113 is a new tensor which the caller (`/repo/photontorch/networks/network.py:854-859`) drops. -/
noncomputable def mziS (phi theta length neff wl0 ng wl : ℝ) : SMat 4 :=
  let phi0 := propagation length neff wl0 ng wl
  let phi1 := phi0 + phi
  let c := Real.cos theta
  let s := Real.sin theta
  ((((((((SMat.zero.setRe2 0 1 (Real.cos phi1 * c)).setIm2 0 1 (Real.sin phi1 * c)).setRe2 0 2
    (Real.cos phi1 * s)).setIm2 0 2 (Real.sin phi1 * s)).setRe2 1 3 (-Real.cos phi0 * s)).setIm2 1 3
    (-Real.sin phi0 * s)).setRe2 2 3 (Real.cos phi0 * c)).setIm2 2 3 (Real.sin phi0 * c))

/-- `GratingCoupler.set_S`, `/repo/photontorch/components/gratingcouplers.py:60-72`; a tensor divided by zero is infinite, and `exp(-inf)`
is zero (for `0 / 0` see `Part.number`). -/
noncomputable def gratingS (R Rin Tmax bandwidth wl0 wl : ℝ) : SMat 2 :=
  let sigma := 1 / (2 * √(2 * Real.log 2)) * bandwidth
  let e := open Classical in if 2 * sigma ^ 2 = 0 then 0 else Real.exp (-((wl0 - wl) ^ 2) / (2 * sigma ^ 2))
  let l := √(Tmax * e)
  ((SMat.zero.setRe2 0 1 l).setIm 0 0 Rin).setIm 1 1 R

/-- `LinearSoa.set_S`, `/repo/photontorch/components/soas.py:57-59`. -/
noncomputable def linearSoaS (amplification : ℝ) : SMat 2 := SMat.zero.setRe 0 1 amplification

/-- `Mmi.set_S`, `/repo/photontorch/components/mmis.py:85-89`: `S[:, :, :m, m:] = weights` and
`S[:, :, m:, :m] = weights.T`, where `re`, `im` are `weights[0]`, `weights[1]`. -/
noncomputable def mmiS {m n : ℕ} (re im : Matrix (Fin m) (Fin n) ℝ) : SMat (m + n) :=
  let fill (w : Matrix (Fin m) (Fin n) ℝ) : Matrix (Fin (m + n)) (Fin (m + n)) ℝ := Matrix.of fun a b =>
    if ha : a.val < m then
      if hb : b.val < m then 0 else w ⟨a, ha⟩ ⟨b - m, by omega⟩
    else
      if hb : b.val < m then w ⟨b, hb⟩ ⟨a - m, by omega⟩ else 0
  ⟨fill re, fill im⟩

/-- `set_delays` of waveguides, couplers with length and Mzis, for all ports,
`/repo/photontorch/components/waveguides.py:72-73`, `/repo/photontorch/components/directionalcouplers.py:151-152`,
`/repo/photontorch/components/mzis.py:82-83`; `c` is the speed of light of the environment. -/
noncomputable def lengthDelay (ng length c : ℝ) : ℝ := ng * length / c

/-- The components: the constructor arguments that `set_S` and `set_delays` depend on,
`/repo/photontorch/components/*.py:__init__`. -/
inductive Part where
  | term | source | detector
  | connection
  | mirror (R : ℝ)
  | waveguide (length loss neff wl0 ng phase : ℝ)
  | coupler (coupling : ℝ)
  | longCoupler (length coupling loss neff wl0 ng phase : ℝ)
  | realisticCoupler (length k0 n0 de1k0 de1n0 de2k0 de2n0 wl0 : ℝ)
  | mzi (phi theta neff ng wl0 length loss : ℝ)
  | grating (R Rin Tmax bandwidth wl0 : ℝ)
  | linearSoa (amplification : ℝ)
  | mmi (m n : ℕ) (re im : Matrix (Fin m) (Fin n) ℝ)

namespace Part

/-- `num_ports`, `/repo/photontorch/components/terms.py:39`, `connection.py:39`, `mirrors.py:33`,
`directionalcouplers.py:39,95,192`, `mzis.py:42`, `gratingcouplers.py:39`, `soas.py:41`, `mmis.py:77`. -/
abbrev n : Part → ℕ
  | term => 1 | source => 1 | detector => 1
  | connection => 2 | mirror _ => 2 | waveguide .. => 2
  | coupler _ => 4 | longCoupler .. => 4 | realisticCoupler .. => 4 | mzi .. => 4
  | grating .. => 2 | linearSoa _ => 2
  | mmi m n _ _ => m + n

/-- `set_S` at a wavelength (`Component.set_S` leaves zeros, `/repo/photontorch/components/component.py:109-119`), with real numbers; where torch gives
`nan` for a root or a quotient, `Part.number` has no value and this function is not what the code computes. -/
noncomputable def S (wl : ℝ) : (p : Part) → SMat p.n
  | term => SMat.zero | source => SMat.zero | detector => SMat.zero
  | connection => connectionS
  | mirror R => mirrorS R
  | waveguide length loss neff wl0 ng phase => waveguideS length loss neff wl0 ng phase wl
  | coupler k => couplerS k
  | longCoupler length k loss _ _ _ phase => longCouplerS length k loss phase
  | realisticCoupler length k0 n0 d1k d1n d2k d2n wl0 => realisticCouplerS length k0 n0 d1k d1n d2k d2n wl0 wl
  | mzi phi theta neff ng wl0 length _ => mziS phi theta length neff wl0 ng wl
  | grating R Rin Tmax bw wl0 => gratingS R Rin Tmax bw wl0 wl
  | linearSoa a => linearSoaS a
  | mmi _ _ re im => mmiS re im

/-- `set_delays` (the same for all ports; zero by default, `/repo/photontorch/components/component.py:137-150`;
see `lengthDelay`). -/
noncomputable def delay (c : ℝ) : Part → ℝ
  | waveguide length _ _ _ ng _ => lengthDelay ng length c
  | longCoupler length _ _ _ _ ng _ => lengthDelay ng length c
  | mzi _ _ _ ng _ length _ => lengthDelay ng length c
  | _ => 0

end Part

end PT
