import Verif.Model.Detector

/-!
# Entries of tensors and the noise of a photodiode

Only the type of tensors is used of the model.
-/

namespace PT.Spec

/-- The positions of the entries of a tensor of a given shape. -/
def Pos : List ℕ → Type
  | [] => Unit
  | n :: s => Fin n × Pos s

/-- The entry of a tensor at a position. -/
noncomputable def entry : (s : List ℕ) → Pos s → Ten s →ₗ[ℝ] ℝ
  | [], _ => LinearMap.id
  | _ :: s, q => (entry s q.2).comp (LinearMap.proj q.1)

/-- The variance of the noise of a diode with the given dark current and load resistance, at 300 K, in a bandwidth, for a photocurrent:
thermal noise `4 k T B / load` and shot noise `2 q (current + dark) B`. -/
noncomputable def diodeNoise (dark load bandwidth current : ℝ) : ℝ :=
  4 * 1.3806488e-23 * 300 * bandwidth / load + 2 * 1.602176563e-19 * (current + dark) * bandwidth

end PT.Spec
