import Verif.Model.RoundedMzi
import Verif.Model.RoundedBounded

/-!
# Model of the scattering matrices of couplers and mirrors, with rounded arithmetic

The coupling and the reflectivity are tensors of torch's default type, IEEE 754 binary32; `rt` rounds operations of that type.
-/

namespace PT

variable (rt : ℚ → ℚ) (m : Libt)

/-- `DirectionalCoupler.set_S`, `/repo/photontorch/components/directionalcouplers.py:61-71`, for a coupling `x` as read from the attribute: the
real and imaginary parts in `S`, which was zero before. -/
def couplerR (x : ℚ) : Fin 4 → Fin 4 → ℚ × ℚ :=
  let t := (splitR rt m x).1
  let k := (splitR rt m x).2
  let re := put2 (put2 (fun _ _ => 0) 0 1 t) 2 3 t
  let im := put2 (put2 (fun _ _ => 0) 0 2 k) 1 3 k
  fun i j => (re i j, im i j)

/-- `Mirror.set_S`, `/repo/photontorch/components/mirrors.py:50-60`, for a reflectivity `x` as read from the attribute. -/
def mirrorR (x : ℚ) : Fin 2 → Fin 2 → ℚ × ℚ :=
  let t := (splitR rt m x).1
  let r := (splitR rt m x).2
  fun i j => if i = j then (r, 0) else (0, t)

end PT
