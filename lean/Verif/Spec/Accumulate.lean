import Verif.Model.Accumulate

/-!
# Specification for C146: gradients accumulate
-/

namespace PT.Spec

variable {E : Type}

/-- Training as torch documents it: values and gradients of the parameters, which only `backward`, `zero_grad` and `step` change. -/
structure Learner where
  value : ℕ → ℝ
  grad : ℕ → ℝ

/-- What an operation does to values and gradients if calls of modules only compute. -/
inductive Learns : Learner → TrainOp E → Learner → Prop
  | call (l k e t) : Learns l (.call k e t) l
  | backward (l : Learner) (f l') : l'.value = l.value → (∀ i, l'.grad i = l.grad i + f l.value i) → Learns l (.backward f) l'
  | zero (l : Learner) (ps l') : l'.value = l.value → (∀ i ∈ ps, l'.grad i = 0) → (∀ i ∉ ps, l'.grad i = l.grad i) → Learns l (.zero ps) l'
  | step (l : Learner) (r ps l') : l'.grad = l.grad → (∀ i ∈ ps, l'.value i = l.value i - r * l.grad i) → (∀ i ∉ ps, l'.value i = l.value i) →
      Learns l (.step r ps) l'

/-- The same for programs. -/
inductive LearnsAll : Learner → List (TrainOp E) → Learner → Prop
  | nil (l) : LearnsAll l [] l
  | cons {l l' l'' op ops} : Learns l op l' → LearnsAll l' ops l'' → LearnsAll l (op :: ops) l''

/-- What a workbench shows of training. -/
def learner (b : Workbench E) : Learner := ⟨b.value, b.grad⟩

/-- No gradient is lost: a network is called only while the gradients of its parameters are zero, or in the environment of its last call,
without gradients. `dirty` are the parameters whose gradients may be other than zero, `last` are the environments of the last calls that are known to
have succeeded. -/
inductive Tidy (S : Workshop E) : (ℕ → Prop) → (ℕ → Option E) → List (TrainOp E) → Prop
  | nil (dirty last) : Tidy S dirty last []
  | call {dirty last k e t ops} : (∀ i ∈ S.params k, ¬ dirty i) → (∀ v, S.ends k e v = true) →
      Tidy S dirty (Function.update last k (some e)) ops → Tidy S dirty last (.call k e t :: ops)
  | attempt {dirty last k e t ops} : (∀ i ∈ S.params k, ¬ dirty i) → Tidy S dirty (Function.update last k none) ops →
      Tidy S dirty last (.call k e t :: ops)
  | look {dirty last k e ops} : last k = some e → Tidy S dirty last ops → Tidy S dirty last (.call k e false :: ops)
  | backward {dirty last f ops} : Tidy S (fun i => dirty i ∨ ∃ v, f v i ≠ 0) last ops → Tidy S dirty last (.backward f :: ops)
  | zero {dirty last ps ops} : Tidy S (fun i => dirty i ∧ i ∉ ps) last ops → Tidy S dirty last (.zero ps :: ops)
  | step {dirty last r ps ops} : Tidy S dirty last ops → Tidy S dirty last (.step r ps :: ops)

/-- One epoch of a training loop: the calls of networks, and the gradient of the loss computed from their results. -/
structure Epoch (E : Type) where
  calls : List (ℕ × E × Bool)
  slope : (ℕ → ℝ) → ℕ → ℝ

/-- The program of an epoch: `optimizer.zero_grad()`, calls, `loss.backward()`, `optimizer.step()`. -/
def epochOps (rate : ℝ) (ps : List ℕ) (x : Epoch E) : List (TrainOp E) :=
  .zero ps :: x.calls.map (fun c => .call c.1 c.2.1 c.2.2) ++ [.backward x.slope, .step rate ps]

/-- A step of gradient descent. -/
noncomputable def descend (rate : ℝ) (ps : List ℕ) (v : ℕ → ℝ) (x : Epoch E) : ℕ → ℝ := fun i => if i ∈ ps then v i - rate * x.slope v i else v i

end PT.Spec
