import Verif.Model.RoundedWave

/-!
# Model of the scattering matrix of an Mzi, with rounded arithmetic

Phases are computed in double precision; their cosines and sines are converted to torch's default type, IEEE 754 binary32, in which they are
multiplied. `rd` rounds operations in double precision, `rt` those of the default type.
-/

namespace PT

variable (rd rt : ℚ → ℚ) (m : Libm)

/-- `phi0 = (2 * np.pi * neff * self.length / wls) % (2 * np.pi)`, with `neff` of the wavelength,
`/repo/photontorch/components/mzis.py:88-90`. -/
def phi0R (length neff wl0 ng wl : ℚ) : ℚ := modR rd (rd (rd (rd (2 * npPi * neffR rd neff wl0 ng wl) * length) / wl)) (2 * npPi)

/-- `S[r, :, a, b] = S[r, :, b, a] = x`, `/repo/photontorch/components/mzis.py:101-108`. -/
def put2 (S : Fin 4 → Fin 4 → ℚ) (a b : Fin 4) (x : ℚ) : Fin 4 → Fin 4 → ℚ := fun i j =>
  if (i = a ∧ j = b) ∨ (i = b ∧ j = a) then x else S i j

/-- `Mzi.set_S`, `/repo/photontorch/components/mzis.py:85-113`: the real and imaginary parts that remain in `S`, which was zero before. The
attenuated matrix of line 113 is dropped by the caller (`/repo/photontorch/networks/network.py:854-859`), see `mziS`. -/
def mziR (phi theta length neff wl0 ng wl : ℚ) : Fin 4 → Fin 4 → ℚ × ℚ :=
  let phi0 := phi0R rd length neff wl0 ng wl
  let phi1 := rd (phi0 + phi)
  let c0 := rt (m.cos phi0)
  let s0 := rt (m.sin phi0)
  let c1 := rt (m.cos phi1)
  let s1 := rt (m.sin phi1)
  let ct := rt (m.cos theta)
  let st := rt (m.sin theta)
  let re := put2 (put2 (put2 (put2 (fun _ _ => 0) 0 1 (rt (c1 * ct))) 0 2 (rt (c1 * st))) 1 3 (rt (-c0 * st))) 2 3 (rt (c0 * ct))
  let im := put2 (put2 (put2 (put2 (fun _ _ => 0) 0 1 (rt (s1 * ct))) 0 2 (rt (s1 * st))) 1 3 (rt (-s0 * st))) 2 3 (rt (s0 * ct))
  fun i j => (re i j, im i j)

end PT
