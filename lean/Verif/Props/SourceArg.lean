import Verif.Model.SourceArg
import Verif.Props.Source

/-!
# C111: sources given as arrays
-/

namespace PT
open Spec

theorem handleArg_complex (numT numWl numSrc numMc : ℕ) (shape : List ℕ) (re im : List ℕ → ℝ) :
    handleArg numT numWl numSrc numMc (.numpyComplex shape re im) =
      handleSource numT numWl numSrc numMc ⟨2 :: shape, none :: shape.map (fun _ => none), stackComplex re im⟩ := rfl

theorem handle_of (numT numWl numSrc numMc : ℕ) {x x' : NTensor} (h : nameDims x = .ok x') (hc : checkNames x' = .ok ()) :
    handleSource numT numWl numSrc numMc x = (fitTime numT (addImag (alignTo (addMissing x' sourceNames)))).bind fun y =>
      (checkSizes numWl numSrc y).bind fun _ => (broadcastTo numT numWl numSrc y).bind fun y => padNodes numMc y := by
  unfold handleSource
  rw [h]
  show (checkNames x').bind _ = _
  rw [hc]
  rfl

/-- The statement of C111 (first part): real numbers may as well be given as complex numbers without imaginary part. -/
def C111 : Prop :=
  ∀ (numT numWl numSrc numMc : ℕ) (shape : List ℕ) (re : List ℕ → ℝ) (y : Tensor5),
    handleArg numT numWl numSrc numMc (.real shape re) = .ok y →
    handleArg numT numWl numSrc numMc (.numpyComplex shape re fun _ => 0) = .ok y

/-- C111 is false: a real number is accepted as a source, a complex number (as numpy array without dimensions) is not: it is turned
into an array with one dimension without name. -/
theorem C111_violation : ¬C111 := by
  intro h
  obtain ⟨y, hy, -⟩ := C38_scalar 10 1 1 2 (by omega) 1
  have := h 10 1 1 2 [] (fun _ => 1) y hy
  rw [handleArg_complex, C38_bad_dimension 10 1 1 2 _ (.inl ⟨by simp, rfl, by simp, by simp⟩)] at this
  cases this

/-- C111: neither is a complex number, or a list with complex numbers, of python. -/
theorem C111_python (numT numWl numSrc numMc : ℕ) (shape : List ℕ) (re im : List ℕ → ℝ) :
    handleArg numT numWl numSrc numMc (.pythonComplex shape re im) = .error .valueError := rfl

/-- C111: a complex numpy array `(t, w, s, b)` drives source `k` with its elements: real and imaginary part.  Dimensions of size one are
broadcast. -/
theorem C111_complex (numT numWl numSrc numMc nt nw ns nb : ℕ) (re im : List ℕ → ℝ) (ht : nt = 1 ∨ nt = numT) (hw : nw = 1 ∨ nw = numWl)
    (hs : ns = 1 ∨ ns = numSrc) (hm : numSrc ≤ numMc) :
    ∃ y, handleArg numT numWl numSrc numMc (.numpyComplex [nt, nw, ns, nb] re im) = .ok y ∧
      y.c = 2 ∧ y.t = numT ∧ y.w = numWl ∧ y.s = numMc ∧ y.b = nb ∧
      ∀ t w k b, t < numT → w < numWl → k < numSrc → b < nb →
        (y.elem 0 t w k b, y.elem 1 t w k b) =
          (re [min t (nt - 1), min w (nw - 1), min k (ns - 1), b], im [min t (nt - 1), min w (nw - 1), min k (ns - 1), b]) := by
  have hv : NTensor.Valid ⟨[2, nt, nw, ns, nb], [some 'c', some 't', some 'w', some 's', some 'b'], stackComplex re im⟩ :=
    ⟨rfl, (by decide : ['c', 't', 'w', 's', 'b'].Nodup)⟩
  have hn : Named ⟨[2, nt, nw, ns, nb], [some 'c', some 't', some 'w', some 's', some 'b'], stackComplex re im⟩ := by
    intro n hn
    simp only [List.mem_cons, List.not_mem_nil, or_false] at hn
    rcases hn with rfl | rfl | rfl | rfl | rfl <;> exact ⟨_, by decide, rfl⟩
  obtain ⟨y, hy, h1, h2, h3, h4, h5, h6⟩ := C38_named numT numWl numSrc numMc _ hv hn (.inr rfl) ht hw hs hm
  refine ⟨y, ?_, h1, h2, h3, h4, h5, fun t w k b hT hW hK hB => ?_⟩
  · exact (C38_unnamed_five numT numWl numSrc numMc 2 nt nw ns nb (by omega) (stackComplex re im)).trans hy
  · have pick : ∀ {n N i : ℕ}, n = 1 ∨ n = N → i < N → (if n = 1 then 0 else i) = min i (n - 1) := by
      intro n N i hn hi
      split_ifs with h
      · subst h; simp
      · rw [Nat.min_eq_left (by omega)]
    rw [h6, h6, if_pos hK, if_pos hK]
    have hb : (if nb = 1 then 0 else b) = b := by split_ifs with h <;> omega
    simp only [drive, readAt, dim, List.zip_cons_cons, List.zip_nil_right, List.find?_cons, List.map_cons, List.map_nil, Coord.along]
    simp only [show (some 'c' == some 'c') = true by decide, pick ht hT, pick hw hW, pick hs hK, hb]
    simp [stackComplex, hb]

/-- A source of one time step, two wavelengths and one source that is `1 + 2i` at the first and `3i` at the second wavelength. -/
example : ∃ y, handleArg 100 2 1 4 (.numpyComplex [1, 2, 1, 1] (fun idx => if idx = [0, 0, 0, 0] then 1 else 0)
    fun idx => if idx = [0, 0, 0, 0] then 2 else 3) = .ok y ∧
    (y.elem 0 57 0 0 0, y.elem 1 57 0 0 0) = (1, 2) ∧ (y.elem 0 57 1 0 0, y.elem 1 57 1 0 0) = (0, 3) := by
  obtain ⟨y, hy, -, -, -, -, -, h⟩ := C111_complex 100 2 1 4 1 2 1 1 (fun idx => if idx = [0, 0, 0, 0] then 1 else 0)
    (fun idx => if idx = [0, 0, 0, 0] then 2 else 3) (.inl rfl) (.inr rfl) (.inr rfl) (by omega)
  refine ⟨y, hy, ?_, ?_⟩
  · rw [h 57 0 0 0 (by omega) (by omega) (by omega) (by omega)]; simp
  · rw [h 57 1 0 0 (by omega) (by omega) (by omega) (by omega)]; simp

/-- C111 for arrays with four dimensions: real and complex arrays are treated alike, whether they are accepted or not.  Missing: arrays
without dimensions, for which C111 is false, and arrays with five dimensions, which are pairs of real and imaginary parts already. -/
theorem C111_partial (numT numWl numSrc numMc nt nw ns nb : ℕ) (re : List ℕ → ℝ) :
    handleArg numT numWl numSrc numMc (.numpyComplex [nt, nw, ns, nb] re fun _ => 0) =
      handleArg numT numWl numSrc numMc (.real [nt, nw, ns, nb] re) := by
  have key : addImag (alignTo (addMissing (⟨[2, nt, nw, ns, nb], sourceNames.map some, stackComplex re fun _ => 0⟩ : NTensor) sourceNames)) =
      addImag (alignTo (addMissing (⟨[1, nt, nw, ns, nb], sourceNames.map some, fun idx => re idx.tail⟩ : NTensor) sourceNames)) := by
    simp [addImag, alignTo, addMissing, sourceNames, NTensor.size, stackComplex]
  have h1 : nameDims ⟨[2, nt, nw, ns, nb], [none, none, none, none, none], stackComplex re fun _ => 0⟩ =
      .ok ⟨[2, nt, nw, ns, nb], sourceNames.map some, stackComplex re fun _ => 0⟩ := by simp [nameDims]
  have h2 : nameDims ⟨[nt, nw, ns, nb], [none, none, none, none], re⟩ =
      .ok ⟨[1, nt, nw, ns, nb], sourceNames.map some, fun idx => re idx.tail⟩ := by simp [nameDims, NTensor.unsqueezeFront]
  have hc : ∀ (s : List ℕ) (f : List ℕ → ℝ), checkNames ⟨s, sourceNames.map some, f⟩ = .ok () := fun s f => rfl
  show handleSource numT numWl numSrc numMc ⟨[2, nt, nw, ns, nb], [none, none, none, none, none], stackComplex re fun _ => 0⟩ =
    handleSource numT numWl numSrc numMc ⟨[nt, nw, ns, nb], [none, none, none, none], re⟩
  rw [handle_of _ _ _ _ h1 (hc _ _), handle_of _ _ _ _ h2 (hc _ _), key]

example : handleArg 10 1 1 4 (.numpyComplex [10, 1, 1, 1] (fun idx => idx.sum) fun _ => 0) =
    handleArg 10 1 1 4 (.real [10, 1, 1, 1] fun idx => idx.sum) := C111_partial ..

end PT
