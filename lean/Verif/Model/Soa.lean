import Mathlib.Analysis.SpecialFunctions.Log.Basic
import Verif.Model.Sim

/-!
# Model of the optical amplifiers with memory

`/repo/photontorch/components/soas.py:62-284`.
-/

namespace PT

variable {W B : Type}

/-- `BaseSoa.action`, `/repo/photontorch/components/soas.py:76-98`, with the rate equation `dhdt` and the time step
`self.env.dt`; tensors are added and multiplied element by element.  `x_in` has the three ports of the component. -/
noncomputable def soaAction (dt : ℝ) (dhdt : ℝ → NodeVal W B → NodeVal W B → NodeVal W B) (t : ℝ)
    (xin xout : List (NodeVal W B)) : List (NodeVal W B) :=
  match xin with
  | [a, h, _] =>
    writeAt xout 0 [a,
      (fun w b => h.1 w b + dt * (dhdt t h a).1 w b, fun w b => h.2 w b + dt * (dhdt t h a).2 w b),
      (fun w b => a.1 w b * Real.exp (0.5 * h.1 w b), fun w b => a.2 w b * Real.exp (0.5 * h.2 w b))]
  | _ => xout

/-- `BaseSoa`: three ports, all active, `/repo/photontorch/components/soas.py:75,117-118`. -/
noncomputable def soaActor (dt : ℝ) (dhdt : ℝ → NodeVal W B → NodeVal W B → NodeVal W B) : Actor W B :=
  ⟨3, true, soaAction dt dhdt⟩

/-- `Soa.dhdt`, `/repo/photontorch/components/soas.py:164-167`; the number is added to both the real and the imaginary
part of the state. -/
noncomputable def soaRate (amplification startup : ℝ) (t : ℝ) (_h _a : NodeVal W B) : NodeVal W B :=
  let r := if t < startup then (1 / startup) * Real.log amplification else 0
  (fun _ _ => r, fun _ _ => r)

/-- What `Soa.__init__` stores, `/repo/photontorch/components/soas.py:157-162`; `trainable` tells whether the amplification is a
`Parameter` or a `Buffer`. -/
structure SoaParams where
  amplification : ℝ
  startup : ℝ
  trainable : Bool

/-- `Soa.__init__` rejects amplifications below one, `/repo/photontorch/components/soas.py:142-162`. -/
noncomputable def soaNew (amplification startup : ℝ) (trainable : Bool) : Except PyErr SoaParams :=
  open Classical in
  if amplification < 1 then .error .valueError else .ok ⟨amplification, startup, trainable⟩

/-- A step of an optimizer: parameters are changed without any bounds, buffers are not,
`/repo/photontorch/components/soas.py:159-162`. -/
noncomputable def SoaParams.update (δ : ℝ) (q : SoaParams) : SoaParams :=
  if q.trainable then { q with amplification := q.amplification + δ } else q

/-- `Soa.dhdt` with the stored values, `/repo/photontorch/components/soas.py:164-167`. -/
noncomputable abbrev SoaParams.rate (q : SoaParams) : ℝ → NodeVal W B → NodeVal W B → NodeVal W B :=
  soaRate q.amplification q.startup

/-- The parameters of an `AgrawalSoa`, `/repo/photontorch/components/soas.py:187-234` (without the linewidth enhancement and the effective
index, which are not used). -/
structure Agrawal where
  L : ℝ
  W : ℝ
  H : ℝ
  N0 : ℝ
  a : ℝ
  I : ℝ
  tc : ℝ
  gamma : ℝ
  ng : ℝ
  wl : ℝ

namespace Agrawal

/-- `self.V`, `/repo/photontorch/components/soas.py:249`. -/
noncomputable def volume (q : Agrawal) : ℝ := q.L * q.H * q.W

/-- `self.Ith`, `/repo/photontorch/components/soas.py:250`. -/
noncomputable def threshold (q : Agrawal) : ℝ := 1.6e-19 * q.volume * q.N0 / q.tc

/-- `self.g0`, `/repo/photontorch/components/soas.py:251-253`. -/
noncomputable def g0 (q : Agrawal) : ℝ := q.gamma * q.a * q.N0 * (q.I / q.threshold - 1)

/-- `self.Psat`, `/repo/photontorch/components/soas.py:254-256`. -/
noncomputable def psat (q : Agrawal) (c : ℝ) : ℝ := (6.626e-34 * c / q.wl) * q.W * q.H / (q.gamma * q.tc * q.a)

/-- `AgrawalSoa.set_delays`: the delay of port 0, `/repo/photontorch/components/soas.py:257,265-266`. -/
noncomputable def delay (q : Agrawal) (c : ℝ) : ℝ := q.L * q.ng / c

/-- `AgrawalSoa.dhdt`, `/repo/photontorch/components/soas.py:268-284`. -/
noncomputable def rate (q : Agrawal) (c : ℝ) (_t : ℝ) (h a : NodeVal W B) : NodeVal W B :=
  (fun w b => (1 / q.tc) * ((q.g0 * q.L - h.1 w b) -
      ((a.1 w b ^ 2 + a.2 w b ^ 2) / q.psat c) * (Real.exp (h.1 w b) - 1)),
   fun _ _ => 0)

end Agrawal

end PT
