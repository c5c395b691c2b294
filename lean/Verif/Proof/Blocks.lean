import Verif.Proof.Braid
import Mathlib.LinearAlgebra.UnitaryGroup
import Mathlib.Algebra.Group.Pointwise.Set.Basic
import Mathlib.Analysis.Complex.Basic

/-! Proof support: unitary matrices made of blocks, and brick walls of blocks of two modes. -/

namespace PT
open Matrix
open scoped Pointwise

section
variable {N : ℕ}

/-- The unitary matrices which mix only modes with the same value of `φ`. -/
def Blk (N : ℕ) (φ : ℕ → ℕ) : Set (Matrix (Fin N) (Fin N) ℂ) :=
  {U | U ∈ Matrix.unitaryGroup (Fin N) ℂ ∧ ∀ j k : Fin N, U j k ≠ 0 → φ j = φ k}

/-- The two modes `i` and `i + 1`. -/
def pairAt (i j : ℕ) : ℕ := if j = i + 1 then i else j

/-- The matrices which mix only the modes `i` and `i + 1`. -/
def Two (N i : ℕ) : Set (Matrix (Fin N) (Fin N) ℂ) := Blk N (pairAt i)

theorem Blk.mono {φ ψ : ℕ → ℕ} (h : ∀ j < N, ∀ k < N, φ j = φ k → ψ j = ψ k) : Blk N φ ⊆ Blk N ψ :=
  fun _ hU => ⟨hU.1, fun j k hjk => h j j.2 k k.2 (hU.2 j k hjk)⟩

theorem Blk.one (φ : ℕ → ℕ) : (1 : Matrix (Fin N) (Fin N) ℂ) ∈ Blk N φ := by
  refine ⟨one_mem _, fun j k h => ?_⟩
  by_contra hne
  exact h (Matrix.one_apply_ne fun e => hne (by rw [e]))

theorem Blk.mul {φ : ℕ → ℕ} {U V : Matrix (Fin N) (Fin N) ℂ} (hU : U ∈ Blk N φ) (hV : V ∈ Blk N φ) : U * V ∈ Blk N φ := by
  refine ⟨mul_mem hU.1 hV.1, fun j k h => ?_⟩
  rw [Matrix.mul_apply] at h
  obtain ⟨l, -, hl⟩ := Finset.exists_ne_zero_of_sum_ne_zero h
  exact (hU.2 j l (left_ne_zero_of_mul hl)).trans (hV.2 l k (right_ne_zero_of_mul hl))

theorem Blk.star {φ : ℕ → ℕ} {U : Matrix (Fin N) (Fin N) ℂ} (hU : U ∈ Blk N φ) : star U ∈ Blk N φ := by
  refine ⟨Unitary.star_mem hU.1, fun j k h => ?_⟩
  rw [Matrix.star_apply] at h
  exact (hU.2 k j fun h0 => h (by rw [h0, star_zero])).symm

theorem unitary_mul_star {U : Matrix (Fin N) (Fin N) ℂ} (hU : U ∈ Matrix.unitaryGroup (Fin N) ℂ) : U * star U = 1 :=
  Matrix.mem_unitaryGroup_iff.mp hU

theorem unitary_row {U : Matrix (Fin N) (Fin N) ℂ} (hU : U ∈ Matrix.unitaryGroup (Fin N) ℂ) (i j : Fin N) :
    ∑ k, U i k * star (U j k) = if i = j then 1 else 0 := by
  have h := congrFun (congrFun (unitary_mul_star hU) i) j
  rw [Matrix.mul_apply, Matrix.one_apply] at h
  rw [← h]
  rfl

/-- A row with one entry makes a column with one entry. -/
theorem unitary_peel {U : Matrix (Fin N) (Fin N) ℂ} (hU : U ∈ Matrix.unitaryGroup (Fin N) ℂ) (r : Fin N)
    (h : ∀ k, k ≠ r → U r k = 0) : ∀ j, j ≠ r → U j r = 0 := by
  have hne : U r r ≠ 0 := by
    intro h0
    have := unitary_row hU r r
    rw [if_pos rfl, Finset.sum_eq_zero] at this
    · exact zero_ne_one this
    · intro k _
      by_cases hk : k = r
      · rw [hk, h0, zero_mul]
      · rw [h k hk, zero_mul]
  intro j hj
  have := unitary_row hU j r
  rw [if_neg hj, Finset.sum_eq_single r] at this
  · rcases mul_eq_zero.mp this with h1 | h1
    · exact h1
    · exact absurd (star_eq_zero.mp h1) hne
  · intro k _ hk
    rw [h k hk, star_zero, mul_zero]
  · simp

/-- A rotation of two modes. -/
noncomputable def givens (a b : Fin N) (x y : ℂ) : Matrix (Fin N) (Fin N) ℂ := Matrix.of fun i j =>
  if i = a then (if j = a then y else 0) + (if j = b then star x else 0)
  else if i = b then (if j = a then -x else 0) + (if j = b then star y else 0)
  else if j = i then 1 else 0

theorem givens_unitary {a b : Fin N} (hab : a ≠ b) {x y : ℂ} (h : x * star x + y * star y = 1) :
    givens a b x y ∈ Matrix.unitaryGroup (Fin N) ℂ := by
  rw [Matrix.mem_unitaryGroup_iff]
  have h' : star x * x + star y * y = 1 := by rw [mul_comm (star x), mul_comm (star y)]; exact h
  have hba : b ≠ a := hab.symm
  ext i j
  rw [Matrix.mul_apply, Matrix.one_apply]
  simp only [Matrix.star_apply, givens, Matrix.of_apply]
  by_cases hia : i = a
  · by_cases hja : j = a
    · subst hia; subst hja
      simp [hab, add_mul, Finset.sum_add_distrib, hba]
      have := h
      simp only [RCLike.star_def] at this
      linear_combination this
    · by_cases hjb : j = b
      · subst hia; subst hjb
        simp [hab, hba, add_mul, Finset.sum_add_distrib]
        ring
      · subst hia
        simp [hab, hba, add_mul, Finset.sum_add_distrib, hja, hjb, Ne.symm hja, Ne.symm hjb]
  · by_cases hib : i = b
    · by_cases hja : j = a
      · subst hib; subst hja
        simp [hab, hba, add_mul, Finset.sum_add_distrib]
        ring
      · by_cases hjb : j = b
        · subst hib; subst hjb
          simp [hab, hba, add_mul, Finset.sum_add_distrib]
          have := h
          simp only [RCLike.star_def] at this
          linear_combination this
        · subst hib
          simp [hab, hba, add_mul, Finset.sum_add_distrib, hja, hjb, Ne.symm hja, Ne.symm hjb]
    · by_cases hja : j = a
      · subst hja
        simp [hab, hba, hia, hib, Ne.symm hia, Ne.symm hib]
      · by_cases hjb : j = b
        · subst hjb
          simp [hab, hba, hia, hib, Ne.symm hia, Ne.symm hib]
        · simp [hab, hba, hia, hib, hja, hjb, eq_comm]

theorem exists_rotation (u v : ℂ) : ∃ x y : ℂ, x * star x + y * star y = 1 ∧ u * y = v * x := by
  by_cases h0 : Complex.normSq u + Complex.normSq v = 0
  · have hu : Complex.normSq u = 0 := by have := Complex.normSq_nonneg u; have := Complex.normSq_nonneg v; linarith
    have hv : Complex.normSq v = 0 := by have := Complex.normSq_nonneg u; have := Complex.normSq_nonneg v; linarith
    rw [Complex.normSq_eq_zero] at hu hv
    exact ⟨1, 0, by simp, by rw [hu, hv]; simp⟩
  · set ρ : ℝ := Real.sqrt (Complex.normSq u + Complex.normSq v) with hρ
    have hpos : 0 ≤ Complex.normSq u + Complex.normSq v := add_nonneg (Complex.normSq_nonneg _) (Complex.normSq_nonneg _)
    have hsq : ρ * ρ = Complex.normSq u + Complex.normSq v := Real.mul_self_sqrt hpos
    have hne : ρ ≠ 0 := by intro h; rw [h, zero_mul] at hsq; exact h0 hsq.symm
    have hne' : (ρ : ℂ) ≠ 0 := by exact_mod_cast hne
    refine ⟨u / ρ, v / ρ, ?_, by ring⟩
    have e : ∀ z : ℂ, z / ρ * Star.star (z / ρ) = (Complex.normSq z : ℂ) / (ρ * ρ) := by
      intro z
      have : Star.star (z / ρ) = (starRingEnd ℂ) z / ρ := by simp
      rw [this, div_mul_div_comm, Complex.mul_conj]
    rw [e, e, ← add_div, div_eq_one_iff_eq (mul_ne_zero hne' hne')]
    exact_mod_cast hsq.symm

/-- One entry of a row is removed by mixing two columns. -/
theorem exists_kill (U : Matrix (Fin N) (Fin N) ℂ) (r : Fin N) {a b : Fin N} (hab : a ≠ b) : ∃ g : Matrix (Fin N) (Fin N) ℂ,
    (∀ φ : ℕ → ℕ, φ a = φ b → g ∈ Blk N φ) ∧ (U * g) r a = 0 ∧ ∀ k, k ≠ a → k ≠ b → (U * g) r k = U r k := by
  obtain ⟨x, y, h1, h2⟩ := exists_rotation (U r a) (U r b)
  refine ⟨givens a b x y, fun φ hφ => ⟨givens_unitary hab h1, ?_⟩, ?_, ?_⟩
  · intro j k hjk
    simp only [givens, Matrix.of_apply] at hjk
    by_cases hja : j = a
    · rw [if_pos hja] at hjk
      by_cases hka : k = a
      · rw [hja, hka]
      · by_cases hkb : k = b
        · rw [hja, hkb, hφ]
        · simp [hka, hkb] at hjk
    · rw [if_neg hja] at hjk
      by_cases hjb : j = b
      · rw [if_pos hjb] at hjk
        by_cases hka : k = a
        · rw [hjb, hka, hφ]
        · by_cases hkb : k = b
          · rw [hjb, hkb]
          · simp [hka, hkb] at hjk
      · rw [if_neg hjb] at hjk
        by_cases hkj : k = j
        · rw [hkj]
        · simp [hkj] at hjk
  · rw [Matrix.mul_apply]
    have e : ∀ l, U r l * givens a b x y l a = (if l = a then U r a * y else 0) + if l = b then -(U r b * x) else 0 := by
      intro l
      simp only [givens, Matrix.of_apply]
      by_cases hla : l = a
      · subst hla; simp [hab]
      · by_cases hlb : l = b
        · subst hlb; simp [hab, hla]
        · simp [hla, hlb, Ne.symm hla]
    rw [Finset.sum_congr rfl fun l _ => e l, Finset.sum_add_distrib]
    simp [h2]
  · intro k hka hkb
    rw [Matrix.mul_apply, Finset.sum_eq_single k]
    · simp [givens, hka, hkb]
    · intro l _ hl
      simp only [givens, Matrix.of_apply]
      simp [hka, hkb, Ne.symm hl]
    · simp

/-! ### Matrices of independent blocks -/

/-- A matrix restricted to some of its modes. -/
noncomputable def restrictTo (A : ℕ → Prop) [DecidablePred A] (U : Matrix (Fin N) (Fin N) ℂ) : Matrix (Fin N) (Fin N) ℂ :=
  Matrix.of fun j k => if A j then U j k else if j = k then 1 else 0

theorem restrictTo_mem {φ ψ : ℕ → ℕ} {A : ℕ → Prop} [DecidablePred A] {U : Matrix (Fin N) (Fin N) ℂ} (hU : U ∈ Blk N φ)
    (hA : ∀ j k, φ j = φ k → A j → A k) (hψ : ∀ j k, φ j = φ k → A j → ψ j = ψ k) : restrictTo A U ∈ Blk N ψ := by
  refine ⟨?_, ?_⟩
  · rw [Matrix.mem_unitaryGroup_iff]
    ext i j
    rw [Matrix.mul_apply, Matrix.one_apply]
    simp only [Matrix.star_apply, restrictTo, Matrix.of_apply]
    by_cases hi : A i
    · by_cases hj : A j
      · simp only [if_pos hi, if_pos hj]
        exact unitary_row hU.1 i j
      · have hne : i ≠ j := fun e => hj (e ▸ hi)
        have h0 : U i j = 0 := by
          by_contra hne'
          exact hj (hA i j (hU.2 i j hne') hi)
        simp [hi, hj, hne, h0]
    · by_cases hj : A j
      · have hne : i ≠ j := fun e => hi (e ▸ hj)
        have h0 : U j i = 0 := by
          by_contra hne'
          exact hi (hA j i (hU.2 j i hne') hj)
        simp [hi, hj, hne, h0]
      · simp [hi, hj, eq_comm]
  · intro j k hjk
    simp only [restrictTo, Matrix.of_apply] at hjk
    by_cases hj : A j
    · rw [if_pos hj] at hjk
      exact hψ j k (hU.2 j k hjk) hj
    · rw [if_neg hj] at hjk
      by_cases e : j = k
      · rw [e]
      · simp [e] at hjk

theorem restrictTo_mul {φ : ℕ → ℕ} {A : ℕ → Prop} [DecidablePred A] {U : Matrix (Fin N) (Fin N) ℂ} (hU : U ∈ Blk N φ)
    (hA : ∀ j k, φ j = φ k → A j → A k) : restrictTo A U * restrictTo (fun j => ¬A j) U = U := by
  ext i j
  rw [Matrix.mul_apply]
  simp only [restrictTo, Matrix.of_apply]
  by_cases hi : A i
  · rw [Finset.sum_eq_single j]
    · by_cases hj : A j
      · simp [hi, hj]
      · have h0 : U i j = 0 := by
          by_contra hne'
          exact hj (hA i j (hU.2 i j hne') hi)
        simp [hi, hj, h0]
    · intro l _ hl
      by_cases hA' : A l
      · simp [hA', hl]
      · have h0 : U i l = 0 := by
          by_contra hne'
          exact hA' (hA i l (hU.2 i l hne') hi)
        simp [hi, h0]
    · simp
  · rw [Finset.sum_eq_single i]
    · simp [hi]
    · intro l _ hl
      rw [if_neg hi, if_neg (Ne.symm hl), zero_mul]
    · simp

/-- The modes `i`, `i + 1` and the modes `j`, `j + 1`. -/
def pairsAt (i j k : ℕ) : ℕ := if k = i + 1 then i else if k = j + 1 then j else k

theorem two_mul_two {i j : ℕ} (hij : i + 2 ≤ j ∨ j + 2 ≤ i) : Two N i * Two N j = Blk N (pairsAt i j) := by
  apply Set.Subset.antisymm
  · intro U hU
    obtain ⟨f, hf, g, hg, rfl⟩ := Set.mem_mul.mp hU
    refine Blk.mul (Blk.mono ?_ hf) (Blk.mono ?_ hg)
    · intro k _ l _ h
      unfold pairAt at h
      unfold pairsAt
      split_ifs at h ⊢ <;> omega
    · intro k _ l _ h
      unfold pairAt at h
      unfold pairsAt
      split_ifs at h ⊢ <;> omega
  · intro U hU
    have hA : ∀ k l, pairsAt i j k = pairsAt i j l → (k = i ∨ k = i + 1) → (l = i ∨ l = i + 1) := by
      intro k l h hk
      unfold pairsAt at h
      split_ifs at h <;> omega
    refine Set.mem_mul.mpr ⟨_, restrictTo_mem (A := fun k => k = i ∨ k = i + 1) hU hA ?_, _,
      restrictTo_mem (A := fun k => ¬(k = i ∨ k = i + 1)) hU ?_ ?_, restrictTo_mul hU hA⟩
    · intro k l h hk
      unfold pairsAt at h
      unfold pairAt
      split_ifs at h ⊢ <;> omega
    · intro k l h hk
      unfold pairsAt at h
      split_ifs at h <;> omega
    · intro k l h hk
      unfold pairsAt at h
      unfold pairAt
      split_ifs at h ⊢ <;> omega

theorem two_far {i j : ℕ} (hij : i + 2 ≤ j) : Two N i * Two N j = Two N j * Two N i := by
  rw [two_mul_two (.inl hij), two_mul_two (.inr hij)]
  apply Set.Subset.antisymm <;>
  · apply Blk.mono
    intro k _ l _ h
    unfold pairsAt at h ⊢
    split_ifs at h ⊢ <;> omega

/-- The three modes `i`, `i + 1` and `i + 2`. -/
def tripleAt (i k : ℕ) : ℕ := if k = i + 1 ∨ k = i + 2 then i else k

theorem two_triple (i : ℕ) : Two N i ⊆ Blk N (tripleAt i) ∧ Two N (i + 1) ⊆ Blk N (tripleAt i) := by
  constructor <;>
  · apply Blk.mono
    intro k _ l _ h
    unfold pairAt at h
    unfold tripleAt
    split_ifs at h ⊢ <;> omega

/-- Three mixed modes, from mixing the pairs `a`, `b` and `b`, `c`. -/
theorem triple_factor {φ ψ ω : ℕ → ℕ} {a b c : Fin N} (hab : a ≠ b) (hbc : b ≠ c) (hac : a ≠ c) (hψ : ψ a = ψ b) (hω : ω b = ω c)
    (hψφ : ∀ j < N, ∀ k < N, ψ j = ψ k → φ j = φ k) (hωφ : ∀ j < N, ∀ k < N, ω j = ω k → φ j = φ k)
    (hφ : ∀ j k : Fin N, φ j = φ k → j ≠ c → k ≠ c → ψ j = ψ k)
    (hc : ∀ k : Fin N, φ c = φ k → k = a ∨ k = b ∨ k = c) {U : Matrix (Fin N) (Fin N) ℂ} (hU : U ∈ Blk N φ) :
    U ∈ Blk N ψ * Blk N ω * Blk N ψ := by
  obtain ⟨g, hg, hg1, hg2⟩ := exists_kill U c hab
  obtain ⟨h, hh, hh1, hh2⟩ := exists_kill (U * g) c hbc
  have hgm := hg ψ hψ
  have hhm := hh ω hω
  have hV : U * g * h ∈ Blk N φ := Blk.mul (Blk.mul hU (Blk.mono hψφ hgm)) (Blk.mono hωφ hhm)
  have hrow : ∀ k, k ≠ c → (U * g * h) c k = 0 := by
    intro k hk
    by_cases hka : k = a
    · subst hka
      rw [hh2 k hab hac, hg1]
    · by_cases hkb : k = b
      · rw [hkb, hh1]
      · by_contra hne
        rcases hc k (hV.2 c k hne) with e | e | e
        · exact hka e
        · exact hkb e
        · exact hk e
  have hcol := unitary_peel hV.1 c hrow
  have hVψ : U * g * h ∈ Blk N ψ := by
    refine ⟨hV.1, fun j k hjk => ?_⟩
    by_cases hj : j = c
    · by_cases hk : k = c
      · rw [hj, hk]
      · rw [hj] at hjk
        exact absurd (hrow k hk) hjk
    · by_cases hk : k = c
      · rw [hk] at hjk
        exact absurd (hcol j hj) hjk
      · exact hφ j k (hV.2 j k hjk) hj hk
  refine Set.mem_mul.mpr ⟨U * g * h * star h, Set.mem_mul.mpr ⟨_, hVψ, _, Blk.star hhm, rfl⟩, _, Blk.star hgm, ?_⟩
  rw [Matrix.mul_assoc (U * g), unitary_mul_star hhm.1, Matrix.mul_one, Matrix.mul_assoc, unitary_mul_star hgm.1, Matrix.mul_one]

theorem two_near {i : ℕ} (hi : i + 2 < N) : Two N i * Two N (i + 1) * Two N i = Two N (i + 1) * Two N i * Two N (i + 1) := by
  have h1 : Blk N (tripleAt i) ⊆ Two N i * Two N (i + 1) * Two N i := by
    intro U hU
    refine triple_factor (a := ⟨i, by omega⟩) (b := ⟨i + 1, by omega⟩) (c := ⟨i + 2, hi⟩) (by simp) (by simp) (by simp)
      (by simp [pairAt]) (by simp [pairAt]) ?_ ?_ ?_ ?_ hU
    · intro k _ l _ h
      unfold pairAt at h
      unfold tripleAt
      split_ifs at h ⊢ <;> omega
    · intro k _ l _ h
      unfold pairAt at h
      unfold tripleAt
      split_ifs at h ⊢ <;> omega
    · intro j k h hj hk
      have hj' : (j : ℕ) ≠ i + 2 := fun e => hj (Fin.ext e)
      have hk' : (k : ℕ) ≠ i + 2 := fun e => hk (Fin.ext e)
      unfold tripleAt at h
      unfold pairAt
      split_ifs at h ⊢ <;> omega
    · intro k h
      simp only [Fin.ext_iff]
      unfold tripleAt at h
      simp only at h
      split_ifs at h <;> omega
  have h2 : Blk N (tripleAt i) ⊆ Two N (i + 1) * Two N i * Two N (i + 1) := by
    intro U hU
    refine triple_factor (c := ⟨i, by omega⟩) (b := ⟨i + 1, by omega⟩) (a := ⟨i + 2, hi⟩) (by simp) (by simp) (by simp)
      (by simp [pairAt]) (by simp [pairAt]) ?_ ?_ ?_ ?_ hU
    · intro k _ l _ h
      unfold pairAt at h
      unfold tripleAt
      split_ifs at h ⊢ <;> omega
    · intro k _ l _ h
      unfold pairAt at h
      unfold tripleAt
      split_ifs at h ⊢ <;> omega
    · intro j k h hj hk
      have hj' : (j : ℕ) ≠ i := fun e => hj (Fin.ext e)
      have hk' : (k : ℕ) ≠ i := fun e => hk (Fin.ext e)
      unfold tripleAt at h
      unfold pairAt
      split_ifs at h ⊢ <;> omega
    · intro k h
      simp only [Fin.ext_iff]
      unfold tripleAt at h
      simp only at h
      split_ifs at h <;> omega
  have h3 : ∀ U V W : Set (Matrix (Fin N) (Fin N) ℂ), U ⊆ Blk N (tripleAt i) → V ⊆ Blk N (tripleAt i) → W ⊆ Blk N (tripleAt i) →
      U * V * W ⊆ Blk N (tripleAt i) := by
    intro U V W hU hV hW X hX
    obtain ⟨Y, hY, w, hw, rfl⟩ := Set.mem_mul.mp hX
    obtain ⟨u, hu, v, hv, rfl⟩ := Set.mem_mul.mp hY
    exact Blk.mul (Blk.mul (hU hu) (hV hv)) (hW hw)
  obtain ⟨t1, t2⟩ := two_triple (N := N) i
  exact Set.Subset.antisymm ((h3 _ _ _ t1 t2 t1).trans h2) ((h3 _ _ _ t2 t1 t2).trans h1)

theorem two_braids (hN : 0 < N) : Braids (Two N) (N - 1) :=
  ⟨fun _ _ h _ => two_far h, fun _ h => two_near (by omega)⟩

/-! ### Staircases -/

theorem stair_factor {m : ℕ} (hm : m + 1 < N) {U : Matrix (Fin N) (Fin N) ℂ} (hU : U ∈ Blk N (· - (m + 1))) :
    U ∈ Blk N (· - m) * stair (Two N) 0 (m + 1) := by
  have key : ∀ t ≤ m + 1, ∃ V ∈ Blk N (· - (m + 1)), (∀ k : Fin N, (k : ℕ) < t → V ⟨m + 1, hm⟩ k = 0) ∧
      ∃ h ∈ stair (Two N) 0 t, U = V * h := by
    intro t
    induction t with
    | zero => exact fun _ => ⟨U, hU, fun k hk => absurd hk (Nat.not_lt_zero _), 1, Set.mem_one.mpr rfl, (Matrix.mul_one U).symm⟩
    | succ t ih =>
      intro ht
      obtain ⟨V, hV, hz, h, hh, he⟩ := ih (by omega)
      obtain ⟨g, hg, hg1, hg2⟩ := exists_kill V ⟨m + 1, hm⟩ (a := ⟨t, by omega⟩) (b := ⟨t + 1, by omega⟩) (by simp)
      have hgt : g ∈ Two N t := hg _ (by simp [pairAt])
      have hgm : g ∈ Blk N (· - (m + 1)) := hg _ (by simp only; omega)
      refine ⟨V * g, Blk.mul hV hgm, ?_, star g * h, Set.mem_mul.mpr ⟨_, by rw [Nat.zero_add]; exact Blk.star hgt, _, hh, rfl⟩, ?_⟩
      · intro k hk
        by_cases hkt : (k : ℕ) = t
        · have : k = ⟨t, by omega⟩ := Fin.ext hkt
          rw [this, hg1]
        · rw [hg2 k (fun e => hkt (Fin.ext_iff.mp e)) (fun e => by have := Fin.ext_iff.mp e; simp only at this; omega)]
          exact hz k (by omega)
      · rw [Matrix.mul_assoc, ← Matrix.mul_assoc g, unitary_mul_star hgt.1, Matrix.one_mul, he]
  obtain ⟨V, hV, hz, h, hh, he⟩ := key (m + 1) (le_refl _)
  have hrow : ∀ k, k ≠ ⟨m + 1, hm⟩ → V ⟨m + 1, hm⟩ k = 0 := by
    intro k hk
    have hk' : (k : ℕ) ≠ m + 1 := fun e => hk (Fin.ext e)
    by_cases hlt : (k : ℕ) < m + 1
    · exact hz k hlt
    · by_contra hne
      have := hV.2 _ _ hne
      simp only at this
      omega
  have hcol := unitary_peel hV.1 _ hrow
  refine Set.mem_mul.mpr ⟨V, ⟨hV.1, fun j k hjk => ?_⟩, h, hh, he.symm⟩
  by_cases hj : j = ⟨m + 1, hm⟩
  · by_cases hk : k = ⟨m + 1, hm⟩
    · rw [hj, hk]
    · rw [hj] at hjk
      exact absurd (hrow k hk) hjk
  · by_cases hk : k = ⟨m + 1, hm⟩
    · rw [hk] at hjk
      exact absurd (hcol j hj) hjk
    · have := hV.2 j k hjk
      have hj' : (j : ℕ) ≠ m + 1 := fun e => hj (Fin.ext e)
      have hk' : (k : ℕ) ≠ m + 1 := fun e => hk (Fin.ext e)
      simp only at this ⊢
      omega

/-- Every unitary matrix is a phase for every mode times a triangle of pairs. -/
theorem triangle_factor : ∀ n < N, ∀ U ∈ Blk N (· - n), U ∈ Blk N id * triangle (Two N) n
  | 0, _, U, hU => Set.mem_mul.mpr ⟨U, hU, 1, Set.mem_one.mpr rfl, Matrix.mul_one U⟩
  | n + 1, hn, U, hU => by
    obtain ⟨V, hV, h, hh, rfl⟩ := Set.mem_mul.mp (stair_factor hn hU)
    obtain ⟨d, hd, t, ht, rfl⟩ := Set.mem_mul.mp (triangle_factor n (by omega) V hV)
    exact Set.mem_mul.mpr ⟨d, hd, t * h, Set.mem_mul.mpr ⟨t, ht, h, hh, rfl⟩, (Matrix.mul_assoc _ _ _).symm⟩

/-! ### Brick walls -/

/-- The pairs of modes mixed by layer `l`. -/
def layerPair (l j : ℕ) : ℕ := (j + l % 2) / 2

theorem brickLayer_mem {n c T l : ℕ} (hc : c % 2 = 0) : brickLayer (Two N) n c T l ⊆ Blk N (layerPair l) := by
  have hb : ∀ t, brick (Two N) n c l t ⊆ Blk N (layerPair l) := by
    intro t
    unfold brick
    split
    · apply Blk.mono
      intro j _ k _ h
      unfold pairAt at h
      unfold layerPair
      split_ifs at h <;> omega
    · intro U hU
      rw [Set.mem_one.mp hU]
      exact Blk.one _
  unfold brickLayer
  induction List.range T with
  | nil =>
    intro U hU
    rw [Set.mem_one.mp hU]
    exact Blk.one _
  | cons t l' ih =>
    intro U hU
    rw [List.map_cons, List.prod_cons] at hU
    obtain ⟨x, hx, y, hy, rfl⟩ := Set.mem_mul.mp hU
    exact Blk.mul (hb t hx) (ih hy)

theorem one_mem_brickLayer {n c T l : ℕ} : (1 : Matrix (Fin N) (Fin N) ℂ) ∈ brickLayer (Two N) n c T l := by
  have hb : ∀ t, (1 : Matrix (Fin N) (Fin N) ℂ) ∈ brick (Two N) n c l t := by
    intro t
    unfold brick
    split
    · exact Blk.one _
    · exact Set.mem_one.mpr rfl
  unfold brickLayer
  induction List.range T with
  | nil => exact Set.mem_one.mpr rfl
  | cons t l' ih =>
    rw [List.map_cons, List.prod_cons]
    exact Set.mem_mul.mpr ⟨1, hb t, 1, ih, Matrix.mul_one 1⟩

/-- The product of the first `K` matrices, later ones on the left. -/
noncomputable def layersProd (f : ℕ → Matrix (Fin N) (Fin N) ℂ) : ℕ → Matrix (Fin N) (Fin N) ℂ
  | 0 => 1
  | K + 1 => f K * layersProd f K

theorem layersProd_congr {f g : ℕ → Matrix (Fin N) (Fin N) ℂ} : ∀ K, (∀ l < K, f l = g l) → layersProd f K = layersProd g K
  | 0, _ => rfl
  | K + 1, h => by rw [layersProd, layersProd, h K (by omega), layersProd_congr K fun l hl => h l (by omega)]

theorem wall_layers {n c T : ℕ} (hc : c % 2 = 0) : ∀ K, ∀ U ∈ wall (Two N) n c T K,
    ∃ f : ℕ → Matrix (Fin N) (Fin N) ℂ, (∀ l, f l ∈ Blk N (layerPair l)) ∧ U = layersProd f K
  | 0, U, hU => ⟨fun _ => 1, fun _ => Blk.one _, Set.mem_one.mp hU⟩
  | K + 1, U, hU => by
    obtain ⟨x, hx, y, hy, rfl⟩ := Set.mem_mul.mp hU
    obtain ⟨f, hf, rfl⟩ := wall_layers hc K y hy
    refine ⟨fun l => if l = K then x else f l, fun l => ?_, ?_⟩
    · show (if l = K then x else f l) ∈ _
      by_cases h : l = K
      · rw [if_pos h, h]
        exact brickLayer_mem hc hx
      · rw [if_neg h]
        exact hf l
    · rw [layersProd, if_pos rfl]
      congr 1
      exact layersProd_congr K fun l hl => (if_neg (by omega)).symm

theorem wall_grow {n c T : ℕ} {U : Matrix (Fin N) (Fin N) ℂ} {K : ℕ} (hU : U ∈ wall (Two N) n c T K) :
    ∀ m, U ∈ wall (Two N) n c T (K + m)
  | 0 => hU
  | m + 1 => Set.mem_mul.mpr ⟨1, one_mem_brickLayer, U, wall_grow hU m, Matrix.one_mul U⟩

/-- Every unitary matrix is a brick wall of at least as many layers as it has modes, and phases. -/
theorem brick_universal {K : ℕ} (hN : 0 < N) (hK : N ≤ K) {U : Matrix (Fin N) (Fin N) ℂ} (hU : U ∈ Matrix.unitaryGroup (Fin N) ℂ) :
    ∃ δ ∈ Blk N id, ∃ f : ℕ → Matrix (Fin N) (Fin N) ℂ, (∀ l, f l ∈ Blk N (layerPair l)) ∧ U = δ * layersProd f K := by
  have h0 : U ∈ Blk N (· - (N - 1)) := ⟨hU, fun j k _ => by simp only; omega⟩
  obtain ⟨δ, hδ, t, ht, rfl⟩ := Set.mem_mul.mp (triangle_factor (N - 1) (by omega) U h0)
  rw [← wall_triangle (N - 1) (2 * N) (4 * N) (two_braids hN) (by omega) (by omega)] at ht
  have h1 := wall_grow ht (K - N)
  rw [show N - 1 + 1 + (K - N) = K by omega] at h1
  obtain ⟨f, hf, rfl⟩ := wall_layers (by omega) K t h1
  exact ⟨δ, hδ, f, hf, rfl⟩

end

end PT
