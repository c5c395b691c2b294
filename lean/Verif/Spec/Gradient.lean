import Verif.Model.Bounded
import Verif.Spec.Device
import Mathlib.Analysis.Calculus.FDeriv.Basic

/-! Vocabulary for C90: circuits whose trainable parameters are free. -/

namespace PT.Spec

variable {E : Type} [NormedAddCommGroup E] [NormedSpace ℝ E]

/-- A component some of whose documented trainable parameters depend on `θ`, differentiably at `θ₀`: phases,
weights of couplings and reflectivities (the coupling is `boundedValue w 0 1`, as the optimizer changes the weight `w`),
amplifications and the weights of an Mmi. All other arguments are fixed. -/
inductive Trainable (θ₀ : E) : (E → Part) → Prop
  | fixed (p : Part) : Trainable θ₀ fun _ => p
  | mirror (w : E → ℝ) : DifferentiableAt ℝ w θ₀ → Trainable θ₀ fun θ => .mirror (boundedValue (w θ : ℝ) 0 1)
  | waveguide (length loss neff wl0 ng : ℝ) (phase : E → ℝ) : DifferentiableAt ℝ phase θ₀ →
      Trainable θ₀ fun θ => .waveguide length loss neff wl0 ng (phase θ)
  | coupler (w : E → ℝ) : DifferentiableAt ℝ w θ₀ → Trainable θ₀ fun θ => .coupler (boundedValue (w θ : ℝ) 0 1)
  | longCoupler (length : ℝ) (w : E → ℝ) (loss neff wl0 ng : ℝ) (phase : E → ℝ) : DifferentiableAt ℝ w θ₀ →
      DifferentiableAt ℝ phase θ₀ →
      Trainable θ₀ fun θ => .longCoupler length (boundedValue (w θ : ℝ) 0 1) loss neff wl0 ng (phase θ)
  | mzi (phi theta : E → ℝ) (neff ng wl0 length loss : ℝ) : DifferentiableAt ℝ phi θ₀ → DifferentiableAt ℝ theta θ₀ →
      Trainable θ₀ fun θ => .mzi (phi θ) (theta θ) neff ng wl0 length loss
  | linearSoa (a : E → ℝ) : DifferentiableAt ℝ a θ₀ → Trainable θ₀ fun θ => .linearSoa (a θ)
  | mmi (m n : ℕ) (re im : E → Matrix (Fin m) (Fin n) ℝ) : (∀ i j, DifferentiableAt ℝ (fun θ => re θ i j) θ₀) →
      (∀ i j, DifferentiableAt ℝ (fun θ => im θ i j) θ₀) → Trainable θ₀ fun θ => .mmi m n (re θ) (im θ)

/-- A circuit built, for every value of the parameters, from such components in the same way, to any nesting depth
(wired the documented way, as in `MadeOf`). -/
inductive Tuned (θ₀ : E) : (E → Dev) → Prop
  | part (p : E → Part) : Trainable θ₀ p → (∀ θ, 0 < (p θ).n) → Tuned θ₀ fun θ => (p θ).dev
  | named (D : E → Dev) (x : Option Str) : Tuned θ₀ D →
      Tuned θ₀ fun θ => { D θ with comp := { (D θ).comp with name := x } }
  | net (name : Option Str) (modules : List (Str × (E → Dev))) (cs : List Conn) (D : E → Dev) :
      (∀ m ∈ modules, Tuned θ₀ m.2) → GoodConns cs → UsedOnce cs → Contiguous cs →
      (∀ θ, mkDev name (modules.map fun m => (m.1, m.2 θ)) (cs.map Conn.text) = .ok (D θ)) → Tuned θ₀ D

/-- `initialize` succeeds and `forward` returns `out` (complex fields, no active components). -/
def Simulated {W B : Type} (d : Dev) (v : ℝ) (wl : W → ℝ) (env : SimEnv) (src : ℕ → ℕ → W → B → ℝ × ℝ)
    (out : List (W → B → List (ℝ × ℝ))) : Prop :=
  ∃ r, initNet (d.plant v wl) env = .ok (some r) ∧ forwardReduced r env [] src = .ok out

/-- What detector `k` receives in step `t`, in a result of `forward`. -/
def fieldAt {W B : Type} (out : List (W → B → List (ℝ × ℝ))) (t : ℕ) (w : W) (b : B) (k : ℕ) : ℂ :=
  asComplex (((out.getD t fun _ _ => []) w b).getD k (0, 0))

/-- How the scattering matrix of the circuit changes at the wavelength `wl` if the parameters move in direction `h`. -/
noncomputable def dScatter (D : E → Dev) (θ₀ h : E) (wl : ℝ) : Matrix (Fin (D θ₀).comp.n) (Fin (D θ₀).comp.n) ℂ :=
  Matrix.of fun i j => ⟨fderiv ℝ (fun θ => (D θ).rS wl i j) θ₀ h, fderiv ℝ (fun θ => (D θ).iS wl i j) θ₀ h⟩

end PT.Spec
