import Verif.Props.Filters

/-!
# Specification: coupled resonators, as in the notebook `04_crow_optimization`
-/

namespace PT.Spec
open Complex

/-- A source, three detectors, `n + 1` couplers and the waveguides of `n` rings. -/
noncomputable def crowModules (n : ℕ) (k : ℕ → ℝ) (top btm : ℕ → Wg) : List (Str × Part) :=
  [("source".toList, .source), ("through".toList, .detector), ("drop".toList, .detector), ("add".toList, .detector)] ++
    (List.range (n + 1)).map (fun i => ("dc".toList ++ natStr i, .coupler (k i))) ++
    (List.range n).flatMap fun i => [("top_wg".toList ++ natStr i, (top i).part), ("btm_wg".toList ++ natStr i, (btm i).part)]

/-- Its links: a row from the source and a row from the detector called `through`. -/
def crowLinks (n : ℕ) : List (List LinkArg) :=
  [.str "source:0".toList ::
      ((List.range n).flatMap fun i =>
        [.str ("0:dc".toList ++ natStr i ++ ":3".toList), .str ("0:top_wg".toList ++ natStr i ++ ":1".toList)]) ++
      [.str ("0:dc".toList ++ natStr n ++ ":3".toList), .str (if n % 2 = 1 then "0:drop".toList else "0:add".toList)],
    .str "through:0".toList ::
      ((List.range n).flatMap fun i =>
        [.str ("1:dc".toList ++ natStr i ++ ":2".toList), .str ("0:btm_wg".toList ++ natStr i ++ ":1".toList)]) ++
      [.str ("1:dc".toList ++ natStr n ++ ":2".toList), .str (if n % 2 = 1 then "0:add".toList else "0:drop".toList)]]

/-- Denominator and numerator of what couplers `i, …, i + m` with `m` rings between them send back, for transmissions `τ` of the
couplers and round trips `z` of the rings. -/
noncomputable def crowRatio (τ z : ℕ → ℂ) : ℕ → ℕ → ℂ × ℂ
  | i, 0 => (1, τ i)
  | i, m + 1 => ((crowRatio τ z (i + 1) m).1 - τ i * z i * (crowRatio τ z (i + 1) m).2,
      τ i * (crowRatio τ z (i + 1) m).1 - z i * (crowRatio τ z (i + 1) m).2)

/-- The same for the given components. -/
noncomputable def crowAt (n : ℕ) (k : ℕ → ℝ) (top btm : ℕ → Wg) (wl : ℝ) : ℂ × ℂ :=
  crowRatio (fun i => √(1 - k i)) (fun i => (top i).amp wl * (btm i).amp wl) 0 n

/-- What passes all rings: through every coupler, and half way around every ring, below and above in turn. -/
noncomputable def crowPass (n : ℕ) (k : ℕ → ℝ) (top btm : ℕ → Wg) (wl : ℝ) : ℂ :=
  (∏ i ∈ Finset.range (n + 1), I * √(k i)) * ∏ i ∈ Finset.range n, if i % 2 = 0 then (btm i).amp wl else (top i).amp wl

end PT.Spec
