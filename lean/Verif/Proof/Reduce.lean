import Verif.Props.Reduction

/-!
# Eliminating the memory-less ports
-/

namespace PT

open Matrix Spec

section
variable {α β : Type} [Fintype α] [Fintype β] [DecidableEq β]

/-- One time step of the full equations determines the reduced one. -/
theorem reduce_step (Caa : Matrix α α ℂ) (Cab : Matrix α β ℂ) (Cba : Matrix β α ℂ) (Cbb Sbb : Matrix β β ℂ)
    (hP : (1 - Cbb * Sbb).det ≠ 0) (aa : α → ℂ) (ab : β → ℂ) (ba : α → ℂ) (bb : β → ℂ)
    (h1 : aa = Caa *ᵥ ba + Cab *ᵥ bb) (h2 : ab = Cba *ᵥ ba + Cbb *ᵥ bb) (h3 : bb = Sbb *ᵥ ab) :
    ab = ((1 - Cbb * Sbb)⁻¹ * Cba) *ᵥ ba ∧
      aa = (Cab * Sbb * (1 - Cbb * Sbb)⁻¹ * Cba + Caa) *ᵥ ba := by
  have e1 : (1 - Cbb * Sbb) *ᵥ ab = Cba *ᵥ ba := by
    rw [Matrix.sub_mulVec, Matrix.one_mulVec, ← Matrix.mulVec_mulVec, ← h3, sub_eq_iff_eq_add]
    exact h2
  have e2 : ab = ((1 - Cbb * Sbb)⁻¹ * Cba) *ᵥ ba := by
    rw [← Matrix.mulVec_mulVec, ← e1, Matrix.mulVec_mulVec,
      Matrix.nonsing_inv_mul _ (isUnit_iff_ne_zero.2 hP), Matrix.one_mulVec]
  refine ⟨e2, ?_⟩
  rw [h1, h3, Matrix.add_mulVec, add_comm, e2]
  simp only [Matrix.mulVec_mulVec, Matrix.mul_assoc]

/-- Conversely, the reduced step extends to a solution of the full one. -/
theorem extend_step (Cba : Matrix β α ℂ) (Cbb Sbb : Matrix β β ℂ)
    (hP : (1 - Cbb * Sbb).det ≠ 0) (ba : α → ℂ) :
    ((1 - Cbb * Sbb)⁻¹ * Cba) *ᵥ ba =
      Cba *ᵥ ba + Cbb *ᵥ (Sbb *ᵥ (((1 - Cbb * Sbb)⁻¹ * Cba) *ᵥ ba)) := by
  set ab := ((1 - Cbb * Sbb)⁻¹ * Cba) *ᵥ ba with hab
  have e1 : (1 - Cbb * Sbb) *ᵥ ab = Cba *ᵥ ba := by
    rw [hab, Matrix.mulVec_mulVec, ← Matrix.mul_assoc,
      Matrix.mul_nonsing_inv _ (isUnit_iff_ne_zero.2 hP), Matrix.one_mul]
  rw [Matrix.sub_mulVec, Matrix.one_mulVec, sub_eq_iff_eq_add] at e1
  rw [Matrix.mulVec_mulVec]
  exact e1

end

section
variable {ι : Type} [Fintype ι] [DecidableEq ι]

/-- `mc` and `ml` list every port exactly once. -/
def Splits (mc ml : List ι) : Prop := (mc ++ ml).Nodup ∧ ∀ i, i ∈ mc ∨ i ∈ ml

/-- The ports as memory-containing plus memory-less nodes. -/
noncomputable def Splits.equiv {mc ml : List ι} (h : Splits mc ml) :
    Fin mc.length ⊕ Fin ml.length ≃ ι :=
  Equiv.ofBijective (Sum.elim mc.get ml.get) (by
    obtain ⟨hn, hc⟩ := h
    rw [List.nodup_append] at hn
    obtain ⟨h1, h2, h3⟩ := hn
    constructor
    · rintro (x | x) (y | y) hxy
      · simp only [Sum.elim_inl] at hxy
        rw [(List.nodup_iff_injective_get.1 h1) hxy]
      · exact absurd hxy (h3 _ (List.get_mem mc x) _ (List.get_mem ml y))
      · exact absurd hxy.symm (h3 _ (List.get_mem mc y) _ (List.get_mem ml x))
      · simp only [Sum.elim_inr] at hxy
        rw [(List.nodup_iff_injective_get.1 h2) hxy]
    · intro i
      rcases hc i with h | h
      · obtain ⟨k, hk⟩ := List.get_of_mem h
        exact ⟨Sum.inl k, hk⟩
      · obtain ⟨k, hk⟩ := List.get_of_mem h
        exact ⟨Sum.inr k, hk⟩)

theorem Splits.equiv_inl {mc ml : List ι} (h : Splits mc ml) (k : Fin mc.length) :
    h.equiv (Sum.inl k) = mc.get k := rfl

theorem Splits.equiv_inr {mc ml : List ι} (h : Splits mc ml) (k : Fin ml.length) :
    h.equiv (Sum.inr k) = ml.get k := rfl

/-- The vector with the given parts. -/
noncomputable def Splits.join {mc ml : List ι} (h : Splits mc ml) (u : Fin mc.length → ℂ)
    (v : Fin ml.length → ℂ) : ι → ℂ := Sum.elim u v ∘ h.equiv.symm

theorem Splits.join_mc {mc ml : List ι} (h : Splits mc ml) (u : Fin mc.length → ℂ)
    (v : Fin ml.length → ℂ) (k : Fin mc.length) : h.join u v (mc.get k) = u k := by
  rw [← h.equiv_inl k, Splits.join, Function.comp, Equiv.symm_apply_apply]; rfl

theorem Splits.join_ml {mc ml : List ι} (h : Splits mc ml) (u : Fin mc.length → ℂ)
    (v : Fin ml.length → ℂ) (k : Fin ml.length) : h.join u v (ml.get k) = v k := by
  rw [← h.equiv_inr k, Splits.join, Function.comp, Equiv.symm_apply_apply]; rfl

theorem Splits.ext {mc ml : List ι} (h : Splits mc ml) {f g : ι → ℂ}
    (h1 : ∀ k, f (mc.get k) = g (mc.get k)) (h2 : ∀ k, f (ml.get k) = g (ml.get k)) : f = g := by
  funext i
  rcases h.2 i with hi | hi
  · obtain ⟨k, rfl⟩ := List.get_of_mem hi
    exact h1 k
  · obtain ⟨k, rfl⟩ := List.get_of_mem hi
    exact h2 k

theorem Splits.sum {mc ml : List ι} (h : Splits mc ml) {M : Type} [AddCommMonoid M] (f : ι → M) :
    ∑ i, f i = ∑ k, f (mc.get k) + ∑ k, f (ml.get k) := by
  rw [← h.equiv.sum_comp, Fintype.sum_sum_type]
  rfl

theorem Splits.mulVec {mc ml : List ι} (h : Splits mc ml) (M : Matrix ι ι ℂ) (v : ι → ℂ)
    (rows : List ι) :
    (M *ᵥ v) ∘ rows.get =
      pick M rows mc *ᵥ (v ∘ mc.get) + pick M rows ml *ᵥ (v ∘ ml.get) := by
  funext k
  simp only [Function.comp, Matrix.mulVec, dotProduct, Pi.add_apply, pick, Matrix.submatrix_apply]
  rw [h.sum]

/-- The reduced connection matrix. -/
noncomputable def redC (C S : Matrix ι ι ℂ) (mc ml : List ι) :
    Matrix (Fin mc.length) (Fin mc.length) ℂ :=
  pick C mc ml * pick S ml ml * (1 - pick C ml ml * pick S ml ml)⁻¹ * pick C ml mc + pick C mc mc

/-- `S` does not couple the two kinds of ports. -/
def Decoupled (S : Matrix ι ι ℂ) (mc ml : List ι) : Prop :=
  pick S mc ml = 0 ∧ pick S ml mc = 0

theorem Splits.reduce {mc ml : List ι} (h : Splits mc ml) (C S : Matrix ι ι ℂ)
    (hS : Decoupled S mc ml) (hP : (1 - pick C ml ml * pick S ml ml).det ≠ 0)
    (a b u s : ι → ℂ) (h1 : a = C *ᵥ b) (h2 : b = S *ᵥ u + s) (hu : u ∘ ml.get = a ∘ ml.get)
    (hs : s ∘ ml.get = 0) :
    a ∘ ml.get = ((1 - pick C ml ml * pick S ml ml)⁻¹ * pick C ml mc) *ᵥ
        (pick S mc mc *ᵥ (u ∘ mc.get) + s ∘ mc.get) ∧
      a ∘ mc.get = redC C S mc ml *ᵥ (pick S mc mc *ᵥ (u ∘ mc.get) + s ∘ mc.get) := by
  have hb1 : b ∘ mc.get = pick S mc mc *ᵥ (u ∘ mc.get) + s ∘ mc.get := by
    have : b ∘ mc.get = (S *ᵥ u) ∘ mc.get + s ∘ mc.get := by rw [h2]; rfl
    rw [this, h.mulVec, hS.1, Matrix.zero_mulVec, add_zero]
  have hb2 : b ∘ ml.get = pick S ml ml *ᵥ (a ∘ ml.get) := by
    have : b ∘ ml.get = (S *ᵥ u) ∘ ml.get + s ∘ ml.get := by rw [h2]; rfl
    rw [this, h.mulVec, hS.2, Matrix.zero_mulVec, zero_add, hs, add_zero, hu]
  have := reduce_step (pick C mc mc) (pick C mc ml) (pick C ml mc) (pick C ml ml) (pick S ml ml) hP
    (a ∘ mc.get) (a ∘ ml.get) (b ∘ mc.get) (b ∘ ml.get) (by rw [h1, h.mulVec])
    (by rw [h1, h.mulVec]) hb2
  rw [hb1] at this
  exact this

theorem Splits.extend {mc ml : List ι} (h : Splits mc ml) (C S : Matrix ι ι ℂ)
    (hS : Decoupled S mc ml) (hP : (1 - pick C ml ml * pick S ml ml).det ≠ 0)
    (u : Fin mc.length → ℂ) (s : ι → ℂ) (hs : s ∘ ml.get = 0) :
    ∃ a b : ι → ℂ, a = C *ᵥ b ∧
      b = S *ᵥ h.join u (a ∘ ml.get) + s ∧
      a ∘ mc.get = redC C S mc ml *ᵥ (pick S mc mc *ᵥ u + s ∘ mc.get) := by
  set y := pick S mc mc *ᵥ u + s ∘ mc.get with hy
  set al := ((1 - pick C ml ml * pick S ml ml)⁻¹ * pick C ml mc) *ᵥ y with hal
  set b := h.join y (pick S ml ml *ᵥ al) with hb
  set a := h.join (redC C S mc ml *ᵥ y) al with ha
  have b1 : b ∘ mc.get = y := funext fun k => h.join_mc _ _ k
  have b2 : b ∘ ml.get = pick S ml ml *ᵥ al := funext fun k => h.join_ml _ _ k
  have a1 : a ∘ mc.get = redC C S mc ml *ᵥ y := funext fun k => h.join_mc _ _ k
  have a2 : a ∘ ml.get = al := funext fun k => h.join_ml _ _ k
  refine ⟨a, b, ?_, ?_, a1⟩
  · apply h.ext
    · intro k
      have e := congrFun (h.mulVec C b mc) k
      have e' := congrFun a1 k
      simp only [Function.comp_apply] at e e'
      rw [e', e, b1, b2, redC, Matrix.add_mulVec]
      simp only [hal, Matrix.mulVec_mulVec, Matrix.mul_assoc, Pi.add_apply]
      rw [add_comm]
    · intro k
      have e := congrFun (h.mulVec C b ml) k
      have e' := congrFun a2 k
      simp only [Function.comp_apply] at e e'
      rw [e', e, b1, b2]
      have := congrFun (extend_step (pick C ml mc) (pick C ml ml) (pick S ml ml) hP y) k
      rw [← hal] at this
      exact this
  · have j1 : h.join u (a ∘ ml.get) ∘ mc.get = u := funext fun k => h.join_mc _ _ k
    have j2 : h.join u (a ∘ ml.get) ∘ ml.get = al := by rw [← a2]; exact funext fun k => h.join_ml _ _ k
    apply h.ext
    · intro k
      have e := congrFun (h.mulVec S (h.join u (a ∘ ml.get)) mc) k
      have e' := congrFun b1 k
      simp only [Function.comp_apply] at e e'
      rw [e', Pi.add_apply, e, j1, hS.1, Matrix.zero_mulVec, add_zero, hy]
      rfl
    · intro k
      have e := congrFun (h.mulVec S (h.join u (a ∘ ml.get)) ml) k
      have e' := congrFun b2 k
      simp only [Function.comp_apply] at e e'
      rw [e', Pi.add_apply, e, j2, hS.2, Matrix.zero_mulVec, zero_add]
      have := congrFun hs k
      simp only [Function.comp_apply, Pi.zero_apply] at this
      rw [this, add_zero]

end

end PT
