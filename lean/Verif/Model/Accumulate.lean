import Mathlib.Data.Real.Basic
import Mathlib.Logic.Function.Basic

/-!
# Model of what calls of networks do to gradients

`/repo/photontorch/networks/network.py:405,744-747`: `forward` initializes the network if it is called in another environment than before or
with gradients enabled, and `initialize` begins with `self.zero_grad()`.
-/

namespace PT

variable {E : Type}

/-- What a program of training sees of its networks, `/repo/photontorch/networks/network.py:363-559`: the parameter objects (numbers) that
`nw.parameters()` of network `k` gives, with those of its components, sub-networks and `base`, and whether `initialize` in an environment,
with the given values of the parameters, runs to its end, where it stores the environment (556-558), or is broken off (444-446) or raises. The
parts of a network that are networks themselves are not closed, so their own `initialize` never stores an environment; it resets gradients
that are reset anyhow. -/
structure Workshop (E : Type) where
  params : ℕ → List ℕ
  ends : ℕ → E → (ℕ → ℝ) → Bool

/-- The values and gradients of the parameter objects, and the environment every network was last initialized in (`_env`,
`/repo/photontorch/components/component.py:52,206-211`). A gradient that is `None` counts as zero. -/
structure Workbench (E : Type) where
  value : ℕ → ℝ
  grad : ℕ → ℝ
  env : ℕ → Option E

/-- `zero_grad` of the given parameter objects, as called in `/repo/photontorch/networks/network.py:405`. -/
def zeroGrad (ps : List ℕ) (g : ℕ → ℝ) : ℕ → ℝ := fun i => if i ∈ ps then 0 else g i

/-- A call of network `k` in the environment `e`, with gradients enabled or not, as far as it concerns gradients,
`/repo/photontorch/networks/network.py:744-747` (the condition) and 405, 556-558 (`initialize`). An exception is caught by the user. -/
noncomputable def Workshop.call (S : Workshop E) (b : Workbench E) (k : ℕ) (e : E) (tracking : Bool) : Workbench E :=
  open Classical in
  if b.env k ≠ some e ∨ tracking = true then
    { b with grad := zeroGrad (S.params k) b.grad, env := if S.ends k e b.value then Function.update b.env k (some e) else b.env }
  else b

/-- What a program of training does: call a network, `loss.backward()` for a loss with the given gradient at the values of the parameters,
`optimizer.zero_grad()` and `optimizer.step()` of an optimizer of the given parameters (gradient descent with a learning rate), as in
`/repo/examples/04_crow_optimization.ipynb` around `/repo/photontorch/networks/network.py:722-789`. -/
inductive TrainOp (E : Type)
  | call (k : ℕ) (e : E) (tracking : Bool)
  | backward (slope : (ℕ → ℝ) → ℕ → ℝ)
  | zero (ps : List ℕ)
  | step (rate : ℝ) (ps : List ℕ)

/-- One operation; those of torch do what its documentation says, calls do what `/repo/photontorch/networks/network.py:744-747` does. -/
noncomputable def Workshop.run (S : Workshop E) (b : Workbench E) : TrainOp E → Workbench E
  | .call k e tracking => S.call b k e tracking
  | .backward slope => { b with grad := fun i => b.grad i + slope b.value i }
  | .zero ps => { b with grad := zeroGrad ps b.grad }
  | .step rate ps => { b with value := fun i => if i ∈ ps then b.value i - rate * b.grad i else b.value i }

/-- A program, `/repo/photontorch/networks/network.py:722-789` for each call. -/
noncomputable def Workshop.runAll (S : Workshop E) (b : Workbench E) (ops : List (TrainOp E)) : Workbench E := ops.foldl S.run b

end PT
