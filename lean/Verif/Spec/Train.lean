import Verif.Model.Train
import Verif.Spec.Components
import Verif.Spec.Device

/-! Specification vocabulary for C117. -/

namespace PT.Spec
open PT

/-- The component that the arguments of a call describe. -/
noncomputable def asked : Call → Part
  | .term => .term | .source => .source | .detector => .detector | .connection => .connection
  | .mirror R _ => .mirror R
  | .waveguide length loss neff wl0 ng phase _ => .waveguide length loss neff wl0 ng phase
  | .coupler k _ => .coupler k
  | .longCoupler length k loss neff wl0 ng phase _ _ => .longCoupler length k loss neff wl0 ng phase
  | .realisticCoupler length k0 n0 d1k d1n d2k d2n wl0 => .realisticCoupler length k0 n0 d1k d1n d2k d2n wl0
  | .mzi phi theta neff ng wl0 length loss _ => .mzi phi theta neff ng wl0 length loss
  | .grating R Rin Tmax bw wl0 => .grating R Rin Tmax bw wl0
  | .linearSoa a _ => .linearSoa a
  | .mmi m n w _ => .mmi m n (w.map Complex.re) (w.map Complex.im)

/-- Nothing in the component is trainable. -/
def Frozen : Call → Prop
  | .mirror _ t | .waveguide _ _ _ _ _ _ t | .coupler _ t | .mzi _ _ _ _ _ _ _ t | .linearSoa _ t | .mmi _ _ _ t => t = false
  | .longCoupler _ _ _ _ _ _ _ tp tc => tp = false ∧ tc = false
  | _ => True

/-- The component `p'` differs from `p` at most in its trainable arguments, that is in phases, couplings, reflectivities, amplifications
and weights. -/
inductive SameButTrained : Part → Part → Prop
  | refl (p : Part) : SameButTrained p p
  | mirror (R R' : ℝ) : SameButTrained (.mirror R) (.mirror R')
  | waveguide (length loss neff wl0 ng φ φ' : ℝ) : SameButTrained (.waveguide length loss neff wl0 ng φ) (.waveguide length loss neff wl0 ng φ')
  | coupler (k k' : ℝ) : SameButTrained (.coupler k) (.coupler k')
  | longCoupler (length k k' loss neff wl0 ng φ φ' : ℝ) :
      SameButTrained (.longCoupler length k loss neff wl0 ng φ) (.longCoupler length k' loss neff wl0 ng φ')
  | mzi (φ φ' θ θ' neff ng wl0 length loss : ℝ) : SameButTrained (.mzi φ θ neff ng wl0 length loss) (.mzi φ' θ' neff ng wl0 length loss)
  | linearSoa (a a' : ℝ) : SameButTrained (.linearSoa a) (.linearSoa a')
  | mmi (m n : ℕ) (re im re' im' : Matrix (Fin m) (Fin n) ℝ) : SameButTrained (.mmi m n re im) (.mmi m n re' im')

/-- `d'` is the circuit `d` after some training: it is built in the same way, from components made by the same constructor calls (all of
which satisfy `P`), each of which was trained for some number of steps. -/
inductive Trained (P : Call → Prop) : Dev → Dev → Prop
  | part (c : Call) (o : Obj) (d d' : Dev) (δs : List ((Str → ℝ) × (ℕ → ℕ → ℕ → ℝ))) : P c → 0 < (asked c).n → c.new = .ok o → o.dev = .ok d →
      (δs.foldl Obj.train o).dev = .ok d' → Trained P d d'
  | named (d d' : Dev) (x : Option Str) : Trained P d d' →
      Trained P { d with comp := { d.comp with name := x } } { d' with comp := { d'.comp with name := x } }
  | net (name : Option Str) (ms : List (Str × Dev × Dev)) (cs : List Conn) (d d' : Dev) :
      (∀ m ∈ ms, Trained P m.2.1 m.2.2) → GoodConns cs → UsedOnce cs → Contiguous cs →
      mkDev name (ms.map fun m => (m.1, m.2.1)) (cs.map Conn.text) = .ok d →
      mkDev name (ms.map fun m => (m.1, m.2.2)) (cs.map Conn.text) = .ok d' → Trained P d d'

/-- Components whose trainable arguments cannot leave their range. -/
def Bounds : Call → Prop
  | .linearSoa _ _ => False
  | .mmi _ _ _ _ => False
  | _ => True

/-- Couplings and reflectivities are between zero and one. -/
def Ratios : Part → Prop
  | .mirror R => 0 ≤ R ∧ R ≤ 1
  | .coupler k => 0 ≤ k ∧ k ≤ 1
  | .longCoupler _ k _ _ _ _ _ => 0 ≤ k ∧ k ≤ 1
  | _ => True

/-- The arguments are acceptable: reflectivities and trainable couplings are between zero and one. -/
def Acceptable : Call → Prop
  | .mirror R _ => 0 ≤ R ∧ R ≤ 1
  | .coupler k t => t = true → 0 ≤ k ∧ k ≤ 1
  | .longCoupler _ k _ _ _ _ _ _ t => t = true → 0 ≤ k ∧ k ≤ 1
  | _ => True

/-- What a history of training adds to the parameter registered as `a`. -/
noncomputable def added (δs : List ((Str → ℝ) × (ℕ → ℕ → ℕ → ℝ))) (a : Str) : ℝ := (δs.map fun δ => δ.1 a).sum

/-- The odds `k / (1 - k)` of a ratio strictly between zero and one are multiplied by `exp s`. -/
def OddsMove (k s k' : ℝ) : Prop := 0 < k → k < 1 → 0 < k' ∧ k' < 1 ∧ k' / (1 - k') = k / (1 - k) * Real.exp s

/-- Trainable arguments follow the optimizer: phases, amplifications and weights are shifted, couplings and reflectivities change by their odds. -/
def Moves (δs : List ((Str → ℝ) × (ℕ → ℕ → ℕ → ℝ))) : Call → Part → Prop
  | .waveguide _ _ _ _ _ φ true, .waveguide _ _ _ _ _ φ' => φ' = φ + added δs ['p', 'h', 'a', 's', 'e']
  | .mzi φ θ _ _ _ _ _ true, .mzi φ' θ' _ _ _ _ _ => φ' = φ + added δs ['p', 'h', 'i'] ∧ θ' = θ + added δs ['t', 'h', 'e', 't', 'a']
  | .linearSoa a true, .linearSoa a' => a' = a + added δs ['a', 'm', 'p', 'l', 'i', 'f', 'i', 'c', 'a', 't', 'i', 'o', 'n']
  | .mirror R true, .mirror R' => OddsMove R (added δs ['_', 'R']) R'
  | .coupler k true, .coupler k' => OddsMove k (added δs ['_', 'c', 'o', 'u', 'p', 'l', 'i', 'n', 'g']) k'
  | .longCoupler _ k _ _ _ _ φ tp tc, .longCoupler _ k' _ _ _ _ φ' => (tp = true → φ' = φ + added δs ['p', 'h', 'a', 's', 'e']) ∧
      (tc = true → OddsMove k (added δs ['_', 'c', 'o', 'u', 'p', 'l', 'i', 'n', 'g']) k')
  | .mmi m n w true, .mmi m' n' re im => ∀ i j (hi : i < m) (hj : j < n) (hi' : i < m') (hj' : j < n'),
      re ⟨i, hi'⟩ ⟨j, hj'⟩ = (w ⟨i, hi⟩ ⟨j, hj⟩).re + (δs.map fun δ => δ.2 0 i j).sum ∧
      im ⟨i, hi'⟩ ⟨j, hj'⟩ = (w ⟨i, hi⟩ ⟨j, hj⟩).im + (δs.map fun δ => δ.2 1 i j).sum
  | _, _ => True

end PT.Spec
