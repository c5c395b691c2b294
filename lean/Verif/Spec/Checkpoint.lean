import Verif.Spec.Train
import Verif.Model.Checkpoint

/-! Specification vocabulary for C130. -/

namespace PT.Spec
open PT

/-- Constructor calls that differ only in arguments that can be trained, and whether they are trained; but couplings are trainable in both or
in neither. -/
inductive Kin : Call → Call → Prop
  | term : Kin .term .term
  | source : Kin .source .source
  | detector : Kin .detector .detector
  | connection : Kin .connection .connection
  | mirror (R R' : ℝ) (t t' : Bool) : Kin (.mirror R t) (.mirror R' t')
  | waveguide (length loss neff wl0 ng φ φ' : ℝ) (t t' : Bool) :
      Kin (.waveguide length loss neff wl0 ng φ t) (.waveguide length loss neff wl0 ng φ' t')
  | coupler (k k' : ℝ) (t : Bool) : Kin (.coupler k t) (.coupler k' t)
  | longCoupler (length k k' loss neff wl0 ng φ φ' : ℝ) (t t' u : Bool) :
      Kin (.longCoupler length k loss neff wl0 ng φ t u) (.longCoupler length k' loss neff wl0 ng φ' t' u)
  | realisticCoupler (length k0 n0 d1k d1n d2k d2n wl0 : ℝ) :
      Kin (.realisticCoupler length k0 n0 d1k d1n d2k d2n wl0) (.realisticCoupler length k0 n0 d1k d1n d2k d2n wl0)
  | mzi (φ φ' θ θ' neff ng wl0 length loss : ℝ) (t t' : Bool) :
      Kin (.mzi φ θ neff ng wl0 length loss t) (.mzi φ' θ' neff ng wl0 length loss t')
  | grating (R Rin Tmax bw wl0 : ℝ) : Kin (.grating R Rin Tmax bw wl0) (.grating R Rin Tmax bw wl0)
  | linearSoa (a a' : ℝ) (t t' : Bool) : Kin (.linearSoa a t) (.linearSoa a' t')
  | mmi (m n : ℕ) (w w' : Matrix (Fin m) (Fin n) ℂ) (t t' : Bool) : Kin (.mmi m n w t) (.mmi m n w' t')

/-- Constructor calls that have the same values for what can be trained, and differ in the other numbers. -/
inductive SameTrained : Call → Call → Prop
  | waveguide (length length' loss loss' neff neff' wl0 wl0' ng ng' φ : ℝ) (t : Bool) :
      SameTrained (.waveguide length loss neff wl0 ng φ t) (.waveguide length' loss' neff' wl0' ng' φ t)
  | longCoupler (length length' k loss loss' neff neff' wl0 wl0' ng ng' φ : ℝ) (t u : Bool) :
      SameTrained (.longCoupler length k loss neff wl0 ng φ t u) (.longCoupler length' k loss' neff' wl0' ng' φ t u)
  | realisticCoupler (length k0 n0 d1k d1n d2k d2n wl0 length' k0' n0' d1k' d1n' d2k' d2n' wl0' : ℝ) :
      SameTrained (.realisticCoupler length k0 n0 d1k d1n d2k d2n wl0) (.realisticCoupler length' k0' n0' d1k' d1n' d2k' d2n' wl0')
  | mzi (φ θ neff ng wl0 length loss neff' ng' wl0' length' loss' : ℝ) (t : Bool) :
      SameTrained (.mzi φ θ neff ng wl0 length loss t) (.mzi φ θ neff' ng' wl0' length' loss' t)
  | grating (R Rin Tmax bw wl0 R' Rin' Tmax' bw' wl0' : ℝ) : SameTrained (.grating R Rin Tmax bw wl0) (.grating R' Rin' Tmax' bw' wl0')

end PT.Spec
