import Verif.Model.Source

/-!
# Model of the conversion of sources to tensors

`/repo/photontorch/networks/network.py:612-623`.
-/

namespace PT

/-- What can be passed as a source: a tensor; a number, a list or a numpy array of real numbers; a numpy array of complex numbers; numbers
or lists of complex numbers.  `/repo/photontorch/networks/network.py:586-623`.  Simplification: rectangular arrays only. -/
inductive SourceArg
  | tensor (x : NTensor)
  | real (shape : List ℕ) (elem : List ℕ → ℝ)
  | numpyComplex (shape : List ℕ) (re im : List ℕ → ℝ)
  | pythonComplex (shape : List ℕ) (re im : List ℕ → ℝ)

/-- `np.stack([np.real(source), np.imag(source)], axis=0)`, `/repo/photontorch/networks/network.py:613-615`. -/
def stackComplex (re im : List ℕ → ℝ) : List ℕ → ℝ
  | [] => 0
  | c :: idx => if c = 0 then re idx else im idx

/-- Conversion to a tensor, which has no named dimensions, `/repo/photontorch/networks/network.py:612-623`: `torch.tensor` raises
`TypeError` for python's complex numbers with a real `dtype`. -/
def SourceArg.toTensor : SourceArg → Except PyErr NTensor
  | .tensor x => .ok x
  | .real shape elem => .ok ⟨shape, shape.map fun _ => none, elem⟩
  | .numpyComplex shape re im => .ok ⟨2 :: shape, none :: shape.map (fun _ => none), stackComplex re im⟩
  | .pythonComplex _ _ _ => .error .valueError

/-- `Network._handle_source`, `/repo/photontorch/networks/network.py:586-720`. -/
def handleArg (numT numWl numSrc numMc : ℕ) (a : SourceArg) : Except PyErr Tensor5 := do
  handleSource numT numWl numSrc numMc (← a.toTensor)

end PT
