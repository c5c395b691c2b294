import Verif.Model.Bounded
import Verif.Model.Components

/-!
# Model of the constructors of components

The validation and registration of parameters in the constructors. Conversions to floating point (`float`, `torch.tensor`) keep
the number.
-/

namespace PT

/-- A tensor of weights of an `Mmi`: `k` matrices, `/repo/photontorch/components/mmis.py:75`. -/
structure MmiWeights where
  k : ℕ
  m : ℕ
  n : ℕ
  w : Fin k → Matrix (Fin m) (Fin n) ℝ

/-- What may be given as `weights`, `/repo/photontorch/components/mmis.py:45-64`: nothing, an object without `shape` (such as a list),
numpy arrays (real or complex) and tensors, by number of dimensions. -/
inductive MmiArg where
  | none
  | noShape
  | array2 (m n : ℕ) (w : Matrix (Fin m) (Fin n) ℂ)
  | array3 (k m n : ℕ) (w : Fin k → Matrix (Fin m) (Fin n) ℂ)
  | tensor2 (m n : ℕ) (w : Matrix (Fin m) (Fin n) ℝ)
  | tensor3 (w : MmiWeights)
  | otherDim (tensor : Bool)

/-- A tensor from a pair of matrices: `np.stack` (`/repo/photontorch/components/mmis.py:66-70`), `torch.stack`
(`/repo/photontorch/components/mmis.py:72-73`). -/
def mmiPair {m n : ℕ} (re im : Matrix (Fin m) (Fin n) ℝ) : MmiWeights := ⟨2, m, n, ![re, im]⟩

/-- `Mmi.__init__`, `/repo/photontorch/components/mmis.py:45-83`: the registered weights. Stacking the real and imaginary parts
of a three-dimensional array gives four dimensions, which cannot be unpacked into three. -/
noncomputable def mmiNew : MmiArg → Except PyErr MmiWeights
  | .none => .ok (mmiPair (Matrix.of fun (_ : Fin 1) (_ : Fin 2) => √(0.5 * 1)) 0)
  | .noShape => .error .attributeError
  | .array2 _ _ w => .ok (mmiPair (w.map Complex.re) (w.map Complex.im))
  | .array3 _ _ _ _ => .error .valueError
  | .tensor2 _ _ w => .ok (mmiPair w 0)
  | .tensor3 w => .ok w
  | .otherDim _ => .error .valueError

/-- `Mmi.set_S` for the registered weights, `/repo/photontorch/components/mmis.py:85-89`: one matrix is broadcast to real and
imaginary part, two are the real and the imaginary part, other numbers cannot be broadcast. -/
noncomputable def mmiSetS (w : MmiWeights) : Except PyErr (SMat (w.m + w.n)) :=
  if h : w.k = 2 then .ok (mmiS (w.w ⟨0, by omega⟩) (w.w ⟨1, by omega⟩))
  else if h : w.k = 1 then .ok (mmiS (w.w ⟨0, by omega⟩) (w.w ⟨0, by omega⟩))
  else .error .runtimeError

/-- A registered power ratio: a `BoundedParameter` or a `Buffer`, `/repo/photontorch/components/directionalcouplers.py:50-59`,
`/repo/photontorch/components/mirrors.py:44-48`. -/
inductive Ratio where
  | bounded (p : Bounded)
  | fixed (x : ℝ)

/-- `DirectionalCoupler.__init__`, `/repo/photontorch/components/directionalcouplers.py:41-59`, and the coupling of
`DirectionalCouplerWithLength.__init__`, `/repo/photontorch/components/directionalcouplers.py:140-149`. -/
noncomputable def couplerNew (coupling : ℝ) (trainable : Bool) : Except PyErr Ratio :=
  if trainable then (boundedNew [coupling] 0 1).map .bounded else .ok (.fixed coupling)

/-- `Mirror.__init__`, `/repo/photontorch/components/mirrors.py:35-48`: bounded whether or not it is trainable. -/
noncomputable def mirrorNew (R : ℝ) (_trainable : Bool) : Except PyErr Ratio :=
  (boundedNew [R] 0 1).map .bounded

/-- A step of an optimizer (`/repo/photontorch/nn/nn.py:143-145`); buffers are not parameters. -/
noncomputable def Ratio.update (δ : ℝ) : Ratio → Ratio
  | .bounded p => .bounded (p.update [δ])
  | .fixed x => .fixed x

/-- The number `self.coupling` or `self.R` in `set_S`, `/repo/photontorch/components/directionalcouplers.py:62-63`,
`/repo/photontorch/components/mirrors.py:51-52`. -/
noncomputable def Ratio.value : Ratio → ℝ
  | .bounded p => p.values.headD 0
  | .fixed x => x

end PT
