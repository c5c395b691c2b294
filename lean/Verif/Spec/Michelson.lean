import Verif.Props.Filters

/-! The Michelson interferometer cavity of the notebook `03_circuit_optimization_by_backpropagation`. -/

namespace PT.Spec
open Complex

/-- The parameters: the mirrors at the ends of the four arms, the waveguides of the arms, and the coupler in the middle. -/
structure Michelson where
  Rw : ℝ
  Rn : ℝ
  Re : ℝ
  Rs : ℝ
  west : Wg
  north : Wg
  east : Wg
  south : Wg
  k : ℝ

/-- The components, in the order in which the notebook sets them. -/
noncomputable def Michelson.modules (c : Michelson) : List (Str × Part) :=
  [("west".toList, .source), ("north".toList, .detector), ("east".toList, .detector), ("south".toList, .detector),
    ("m_west".toList, .mirror c.Rw), ("m_north".toList, .mirror c.Rn), ("m_east".toList, .mirror c.Re), ("m_south".toList, .mirror c.Rs),
    ("wg_west".toList, c.west.part), ("wg_north".toList, c.north.part), ("wg_east".toList, c.east.part),
    ("wg_south".toList, c.south.part), ("dc".toList, .coupler c.k)]

/-- The links. -/
def michelsonLinks : List (List LinkArg) :=
  [[.str "west:0".toList, .str "0:m_west:1".toList, .str "0:wg_west:1".toList, .str "0:dc:2".toList, .str "0:wg_east:1".toList,
      .str "0:m_east:1".toList, .str "0:east".toList],
    [.str "north:0".toList, .str "0:m_north:1".toList, .str "0:wg_north:1".toList, .str "1:dc:3".toList, .str "0:wg_south:1".toList,
      .str "0:m_south:1".toList, .str "0:south".toList]]

/-- What comes back from an arm: the light passes the waveguide twice and is reflected once. -/
noncomputable def back (g : Wg) (R wl : ℝ) : ℂ := g.amp wl ^ 2 * √R

/-- What leaves an arm through its mirror. -/
noncomputable def through (g : Wg) (R wl : ℝ) : ℂ := I * √(1 - R) * g.amp wl

/-- The resonance denominator. The four round trips between two arms, and the one through all arms. -/
noncomputable def Michelson.resonance (c : Michelson) (wl : ℝ) : ℂ :=
  1 - (1 - c.k) * (back c.west c.Rw wl * back c.north c.Rn wl + back c.east c.Re wl * back c.south c.Rs wl) +
    c.k * (back c.north c.Rn wl * back c.south c.Rs wl + back c.east c.Re wl * back c.west c.Rw wl) +
    back c.west c.Rw wl * back c.north c.Rn wl * back c.east c.Re wl * back c.south c.Rs wl

/-- The amplitudes at the detectors east, north and south, for light of amplitude one from the source in the west. -/
noncomputable def Michelson.outputs (c : Michelson) (wl : ℝ) : List ℂ :=
  [through c.east c.Re wl * (I * √c.k * (1 + back c.north c.Rn wl * back c.south c.Rs wl)) * through c.west c.Rw wl / c.resonance wl,
    through c.north c.Rn wl * (√(1 - c.k) * (1 - back c.east c.Re wl * back c.south c.Rs wl)) * through c.west c.Rw wl / c.resonance wl,
    through c.south c.Rs wl * (I * √c.k * √(1 - c.k) * (back c.north c.Rn wl + back c.east c.Re wl)) * through c.west c.Rw wl /
      c.resonance wl]

end PT.Spec
