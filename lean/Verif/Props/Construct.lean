import Verif.Model.Construct
import Verif.Props.Bounded
import Verif.Props.Parts

/-!
# C79, C80: constructors of components
-/

namespace PT
open Spec

namespace Spec

/-- The matrix meant by the `weights` argument of an `Mmi`, for the documented forms: a matrix, or (first index real|imag) the
pair of its real and its imaginary part. -/
noncomputable def meant : MmiArg → Option (Σ m n : ℕ, Matrix (Fin m) (Fin n) ℂ)
  | .none => some ⟨1, 2, fun _ _ => ((1 / √2 : ℝ) : ℂ)⟩
  | .array2 m n w => some ⟨m, n, w⟩
  | .array3 2 m n w => some ⟨m, n, w 0 + Complex.I • w 1⟩
  | .tensor2 m n w => some ⟨m, n, w.map Complex.ofReal⟩
  | .tensor3 ⟨2, m, n, w⟩ => some ⟨m, n, (w 0).map Complex.ofReal + Complex.I • (w 1).map Complex.ofReal⟩
  | _ => none

/-- An `Mmi` made with the given argument transmits by the given matrix, in both directions. -/
def MmiMakes (a : MmiArg) (m n : ℕ) (M : Matrix (Fin m) (Fin n) ℂ) : Prop :=
  ∃ re im : Matrix (Fin m) (Fin n) ℝ, mmiNew a = .ok (mmiPair re im) ∧
    mmiSetS (mmiPair re im) = .ok ((Part.mmi m n re im).S 0) ∧
    ∀ wl i j, scattering (.mmi m n re im) wl (Fin.natAdd m j) (Fin.castAdd n i) = M i j ∧
      scattering (.mmi m n re im) wl (Fin.castAdd n i) (Fin.natAdd m j) = M i j

end Spec

/-- The statement of C79: all documented forms of weights are accepted, and the Mmi transmits by the matrix meant. -/
def C79 : Prop := ∀ (a : MmiArg) (m n : ℕ) (M : Matrix (Fin m) (Fin n) ℂ), meant a = some ⟨m, n, M⟩ → MmiMakes a m n M

theorem mmi_makes {a : MmiArg} {m n : ℕ} {M : Matrix (Fin m) (Fin n) ℂ} (re im : Matrix (Fin m) (Fin n) ℝ)
    (h : mmiNew a = .ok (mmiPair re im)) (hM : ∀ i j, (⟨re i j, im i j⟩ : ℂ) = M i j) : MmiMakes a m n M := by
  refine ⟨re, im, h, ?_, fun wl i j => ?_⟩
  · simp only [mmiSetS, mmiPair]
    rfl
  · obtain ⟨h1, h2, -, -⟩ := C48_entries m n re im wl
    exact ⟨(h1 i j).trans (hM i j), (h2 i j).trans (hM i j)⟩

/-- C79 for no weights, two-dimensional arrays, and tensors. Missing: three-dimensional arrays, for which C79 is false. -/
theorem C79_forms_partial (a : MmiArg) (h3 : ∀ k m n w, a ≠ .array3 k m n w) (m n : ℕ) (M : Matrix (Fin m) (Fin n) ℂ)
    (h : meant a = some ⟨m, n, M⟩) : MmiMakes a m n M := by
  cases a with
  | none =>
    simp only [meant, Option.some.injEq] at h
    cases h
    refine mmi_makes _ _ rfl fun i j => ?_
    apply Complex.ext
    · show √(0.5 * 1) = 1 / √2
      rw [one_div, ← Real.sqrt_inv]
      norm_num
    · rfl
  | noShape => exact absurd h (by simp [meant])
  | array2 m' n' w =>
    simp only [meant, Option.some.injEq] at h
    cases h
    exact mmi_makes _ _ rfl fun i j => rfl
  | array3 k m n w => exact absurd rfl (h3 k m n w)
  | tensor2 m' n' w =>
    simp only [meant, Option.some.injEq] at h
    cases h
    exact mmi_makes _ _ rfl fun i j => rfl
  | tensor3 w =>
    obtain ⟨k, m', n', w⟩ := w
    by_cases hk : k = 2
    · subst hk
      simp only [meant, Option.some.injEq] at h
      cases h
      refine mmi_makes (w 0) (w 1) ?_ fun i j => ?_
      · simp only [mmiNew, mmiPair, Except.ok.injEq]
        congr 1
        funext x
        fin_cases x <;> rfl
      · apply Complex.ext <;> simp
    · exfalso
      unfold meant at h
      split at h <;> simp_all
  | otherDim t => exact absurd h (by simp [meant])

/-- C79: three-dimensional arrays are always rejected. -/
theorem C79_arrays (k m n : ℕ) (w : Fin k → Matrix (Fin m) (Fin n) ℂ) : mmiNew (.array3 k m n w) = .error .valueError := rfl

/-- C79 is false. -/
theorem C79_violation : ¬C79 := by
  intro h
  obtain ⟨re, im, h1, -⟩ := h (.array3 2 1 2 fun i _ _ => if i = 0 then 0.6 else 0.8) 1 2 _ rfl
  exact absurd h1 (by simp [mmiNew])

/-- C79: a tensor with one matrix in front is accepted, and gives every weight an imaginary part equal to its real part. -/
theorem C79_broadcast (m n : ℕ) (w : Matrix (Fin m) (Fin n) ℝ) : mmiNew (.tensor3 ⟨1, m, n, fun _ => w⟩) = .ok ⟨1, m, n, fun _ => w⟩ ∧
    mmiSetS ⟨1, m, n, fun _ => w⟩ = .ok ((Part.mmi m n w w).S 0) ∧
    ∀ wl i j, scattering (.mmi m n w w) wl (Fin.natAdd m j) (Fin.castAdd n i) = w i j * (1 + Complex.I) := by
  refine ⟨rfl, rfl, fun wl i j => ?_⟩
  rw [(C48_entries m n w w wl).1 i j]
  apply Complex.ext <;> simp [weight]

/-- C79: a tensor with three or more matrices (or none) is accepted, but cannot be used. -/
theorem C79_unusable (w : MmiWeights) (h1 : w.k ≠ 1) (h2 : w.k ≠ 2) : mmiNew (.tensor3 w) = .ok w ∧
    mmiSetS w = .error .runtimeError := by
  refine ⟨rfl, ?_⟩
  unfold mmiSetS
  rw [dif_neg h2, dif_neg h1]

example : MmiMakes (.array2 1 2 ![![0.6, 0.8 * Complex.I]]) 1 2 ![![0.6, 0.8 * Complex.I]] :=
  C79_forms_partial _ (by intro k m n w h; exact absurd h (by simp)) _ _ _ rfl

example : MmiMakes (.tensor3 ⟨2, 1, 2, fun i _ j => if i.val = j.val then 0.5 else 0⟩) 1 2
    ((Matrix.of fun (_ : Fin 1) (j : Fin 2) => if 0 = j.val then (0.5 : ℝ) else 0).map Complex.ofReal +
      Complex.I • (Matrix.of fun (_ : Fin 1) (j : Fin 2) => if 1 = j.val then (0.5 : ℝ) else 0).map Complex.ofReal) :=
  C79_forms_partial _ (by intro k m n w h; exact absurd h (by simp)) _ _ _ rfl

example : mmiSetS ⟨3, 1, 2, fun _ _ _ => 0.5⟩ = .error .runtimeError :=
  (C79_unusable ⟨3, 1, 2, fun _ _ _ => 0.5⟩ (by simp) (by simp)).2

/-! ## C80 -/

/-- The statement of C80: ratios outside of [0, 1] are rejected by the constructors of couplers and mirrors. -/
def C80 : Prop := ∀ (x : ℝ) (t : Bool), ¬(0 ≤ x ∧ x ≤ 1) → couplerNew x t = .error .valueError ∧ mirrorNew x t = .error .valueError

/-- C80 for trainable couplers and all mirrors. Missing: couplers which are not trainable, for which C80 is false. -/
theorem C80_rejects_partial (x : ℝ) (t : Bool) (h : ¬(0 ≤ x ∧ x ≤ 1)) :
    couplerNew x true = .error .valueError ∧ mirrorNew x t = .error .valueError := by
  have hb : boundedNew [x] 0 1 = .error .valueError := by
    refine C46_rejected _ _ _ (.inr ⟨x, by simp, ?_⟩)
    by_contra hc
    push Not at hc
    exact h hc
  refine ⟨?_, ?_⟩
  · unfold couplerNew
    rw [if_pos rfl, hb]
    rfl
  · unfold mirrorNew
    rw [hb]
    rfl

/-- C80 is false: a coupler that is not trainable accepts every number. -/
theorem C80_violation : ¬C80 ∧ ∀ x, couplerNew x false = .ok (.fixed x) := by
  refine ⟨fun h => ?_, fun x => rfl⟩
  exact absurd (h 2 false (by norm_num)).1 (by simp [couplerNew])

theorem ratio_mem {x : ℝ} {p : Bounded} (h : boundedNew [x] 0 1 = .ok p) (δs : List ℝ) :
    0 ≤ (δs.foldl (fun r δ => r.update δ) (Ratio.bounded p)).value ∧ (δs.foldl (fun r δ => r.update δ) (Ratio.bounded p)).value ≤ 1 := by
  have e : ∀ (δs : List ℝ) (p : Bounded), δs.foldl (fun r δ => r.update δ) (Ratio.bounded p) =
      Ratio.bounded ((δs.map fun δ => [δ]).foldl Bounded.update p) := by
    intro δs
    induction δs with
    | nil => intro p; rfl
    | cons δ δs ih => intro p; exact ih _
  rw [e]
  obtain ⟨hl, hv⟩ := C46_bounds _ _ _ p h (δs.map fun δ => [δ])
  simp only [Ratio.value]
  rcases hq : ((δs.map fun δ => [δ]).foldl Bounded.update p).values with _ | ⟨v, l⟩
  · rw [hq] at hl; simp at hl
  · rw [hq] at hv
    exact hv v (by simp)

/-- C80: couplers and mirrors made of a ratio in [0, 1] start with that ratio, and are lossless at every time of a
training, whatever the optimizer does. -/
theorem C80_trained (x : ℝ) (t : Bool) (hx : 0 ≤ x ∧ x ≤ 1) : ∃ r r', couplerNew x t = .ok r ∧ mirrorNew x t = .ok r' ∧
    r.value = x ∧ r'.value = x ∧
    ∀ (δs : List ℝ) (wl : ℝ), Unitary (scattering (.coupler (δs.foldl (fun r δ => r.update δ) r).value) wl) ∧
      Unitary (scattering (.mirror (δs.foldl (fun r δ => r.update δ) r').value) wl) := by
  obtain ⟨p, hp, hv⟩ := C46_value [x] 0 1 (by norm_num) (by simpa using hx)
  have hval : (Ratio.bounded p).value = x := by simp [Ratio.value, hv]
  have hm : mirrorNew x t = .ok (.bounded p) := by unfold mirrorNew; rw [hp]; rfl
  have hfix : ∀ (δs : List ℝ), δs.foldl (fun r δ => r.update δ) (Ratio.fixed x) = Ratio.fixed x := by
    intro δs
    induction δs with
    | nil => rfl
    | cons δ δs ih => exact ih
  cases t with
  | true =>
    refine ⟨.bounded p, .bounded p, ?_, hm, hval, hval, fun δs wl => ?_⟩
    · unfold couplerNew
      rw [if_pos rfl, hp]
      rfl
    · exact ⟨C42_unitary (.coupler _) (ratio_mem hp δs) wl, C42_unitary (.mirror _) (ratio_mem hp δs) wl⟩
  | false =>
    refine ⟨.fixed x, .bounded p, rfl, hm, rfl, hval, fun δs wl => ?_⟩
    rw [hfix]
    exact ⟨C42_unitary (.coupler x) hx wl, C42_unitary (.mirror _) (ratio_mem hp δs) wl⟩

/-- Training of a 30% coupler. -/
example : ∃ r, couplerNew 0.3 true = .ok r ∧ r.value = 0.3 ∧
    Unitary (scattering (.coupler (((r.update 2).update (-7)).update 3).value) 1.55e-6) := by
  obtain ⟨r, r', h1, -, h2, -, h3⟩ := C80_trained 0.3 true (by norm_num)
  exact ⟨r, h1, h2, (h3 [2, -7, 3] _).1⟩

/-- A mirror cannot have a negative reflection. -/
example : mirrorNew (-0.1) false = .error .valueError := (C80_rejects_partial (-0.1) false (by norm_num)).2

end PT
