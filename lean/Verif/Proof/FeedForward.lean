import Verif.Proof.Plant
import Verif.Props.Energy
import Mathlib.LinearAlgebra.Matrix.ToLinearEquiv
import Mathlib.LinearAlgebra.UnitaryGroup

/-! Proof support: circuits in which light travels in one direction. -/

namespace PT
open Spec Matrix

theorem mulVec_entry_zero {ι : Type} [Fintype ι] {M : Matrix ι ι ℂ} {v : ι → ℂ} {i : ι}
    (h : ∀ j, M i j ≠ 0 → v j = 0) : (M *ᵥ v) i = 0 := by
  simp only [Matrix.mulVec, dotProduct]
  refine Finset.sum_eq_zero fun j _ => ?_
  by_cases hM : M i j = 0
  · rw [hM, zero_mul]
  · rw [h j hM, mul_zero]

/-- A matrix that only leads to smaller values of a potential has no eigenvalue 1. -/
theorem det_ne_zero_of_potential {ι : Type} [Fintype ι] [DecidableEq ι] (M : Matrix ι ι ℂ) (φ : ι → ℕ)
    (h : ∀ i k, M i k ≠ 0 → φ k < φ i) : (1 - M).det ≠ 0 := by
  intro h0
  obtain ⟨v, hv, he⟩ := Matrix.exists_mulVec_eq_zero_iff.mpr h0
  apply hv
  have key : ∀ n i, φ i < n → v i = 0 := by
    intro n
    induction n with
    | zero => intro i hi; omega
    | succ n ih =>
      intro i hi
      have h1 := congrFun he i
      rw [Matrix.sub_mulVec, Matrix.one_mulVec, Pi.sub_apply, Pi.zero_apply, sub_eq_zero] at h1
      rw [h1]
      exact mulVec_entry_zero fun k hM => ih k (by have := h i k hM; omega)
  funext i
  exact key (φ i + 1) i (by omega)

/-- The largest rank. -/
def topRank (n : ℕ) (rank : ℕ → ℕ) : ℕ := (Finset.range n).sup rank

theorem le_topRank {n : ℕ} (rank : ℕ → ℕ) {i : ℕ} (h : i < n) : rank i ≤ topRank n rank :=
  Finset.le_sup (f := rank) (Finset.mem_range.mpr h)

section
variable {d : Dev} {front : ℕ → Bool} {rank : ℕ → ℕ} (hff : FeedForward d front rank) (v : ℝ) {W : Type} (wl : W → ℝ)
include hff

theorem ff_scatter (w : W) (i j : Fin d.comp.n)
    (h : cx ((d.plant v wl).rS w) ((d.plant v wl).iS w) i j ≠ 0) : front i ≠ front j ∧ rank i = rank j := by
  refine hff.scatter (wl w) i j i.2 j.2 ?_
  by_contra hn
  push Not at hn
  apply h
  apply Complex.ext
  · exact hn.1
  · exact hn.2

theorem ff_connect (i j : Fin d.comp.n) (h : cx (d.plant v wl).C 0 i j ≠ 0) :
    front i ≠ front j ∧ (front i = false → rank i < rank j) := by
  refine hff.connect i j ?_
  intro h0
  apply h
  apply Complex.ext
  · show ((d.comp.C i j : ℚ) : ℝ) = 0
    rw [h0]; norm_num
  · rfl

/-- A feed-forward circuit can be simulated in every environment. -/
theorem ff_init (hc : Clean d.comp) (ht : d.comp.terminated = true) (env : SimEnv)
    (hm : ∃ i, (d.plant v wl).mcAt env i = true) : ∃ r, initNet (d.plant v wl) env = .ok (some r) := by
  refine C26_initialized _ env (plant_terminated hc ht v wl) hm fun w => ?_
  set p := d.plant v wl with hp
  set ml := p.mlPorts env
  refine det_ne_zero_of_potential _ (fun i => if front (ml.get i) = true then rank (ml.get i)
    else topRank d.comp.n rank - rank (ml.get i)) ?_
  intro i k hM
  rw [Matrix.mul_apply] at hM
  obtain ⟨j, -, hj⟩ := Finset.exists_ne_zero_of_sum_ne_zero hM
  have hC : cx p.C 0 (ml.get i) (ml.get j) ≠ 0 := left_ne_zero_of_mul hj
  have hS : cx (p.rS w) (p.iS w) (ml.get j) (ml.get k) ≠ 0 := right_ne_zero_of_mul hj
  obtain ⟨c1, c2⟩ := ff_connect hff v wl _ _ hC
  have hC' : cx p.C 0 (ml.get j) (ml.get i) ≠ 0 := by
    have h := plant_C_symm hc v wl
    intro h0
    apply hC
    apply Complex.ext
    · have h1 := congrArg Complex.re h0
      have h2 := congrFun (congrFun h (ml.get i)) (ml.get j)
      rw [Matrix.transpose_apply] at h2
      exact h2.symm.trans h1
    · rfl
  obtain ⟨c3, c4⟩ := ff_connect hff v wl _ _ hC'
  obtain ⟨s1, s2⟩ := ff_scatter hff v wl w _ _ hS
  have t1 := le_topRank (n := d.comp.n) rank (ml.get i).2
  have t2 := le_topRank (n := d.comp.n) rank (ml.get k).2
  have t3 := le_topRank (n := d.comp.n) rank (ml.get j).2
  cases hi : front (ml.get i) <;> cases hj : front (ml.get j) <;> cases hk : front (ml.get k) <;>
    rw [hi, hj] at c1 <;> rw [hj, hk] at s1 <;> simp only [ne_eq, not_true_eq_false] at c1 s1
  · have := c2 hi
    simp only [Bool.false_eq_true, if_false]
    omega
  · have := c4 hj
    simp only [if_true]
    omega

/-- Nothing comes out of the front of a feed-forward circuit. -/
theorem ff_no_return (hc : Clean d.comp) (hsrc : ∀ i, (d.plant v wl).src i = true → front i = false) (w : W) (s : ℕ → ℂ)
    (a b : Fin d.comp.n → ℂ) (h : SolvesStatic (cx (d.plant v wl).C 0)
      (cx ((d.plant v wl).rS w) ((d.plant v wl).iS w)) (emitted (d.plant v wl).src s) a b) :
    ∀ i : Fin d.comp.n, front i = false → a i = 0 := by
  have key : ∀ n, ∀ i : Fin d.comp.n, front i = true → topRank d.comp.n rank - rank i < n → b i = 0 := by
    intro n
    induction n with
    | zero => intro i _ hi; omega
    | succ n ih =>
      intro i hfi hi
      rw [h.outgoing, Pi.add_apply]
      have hs : emitted (d.plant v wl).src s i = 0 := by
        unfold emitted
        rw [if_neg]
        intro h1
        rw [hsrc i h1] at hfi
        cases hfi
      rw [hs, add_zero]
      refine mulVec_entry_zero fun j hS => ?_
      obtain ⟨s1, s2⟩ := ff_scatter hff v wl w _ _ hS
      have hfj : front j = false := by
        rw [hfi] at s1
        cases hj : front j
        · rfl
        · rw [hj] at s1; exact absurd rfl s1
      have haj : a j = 0 := by
        rw [h.incoming]
        refine mulVec_entry_zero fun k hC => ?_
        obtain ⟨c1, c2⟩ := ff_connect hff v wl _ _ hC
        have := c2 hfj
        have hfk : front k = true := by
          rw [hfj] at c1
          cases hk : front k
          · rw [hk] at c1; exact absurd rfl c1
          · rfl
        have t := le_topRank (n := d.comp.n) rank k.2
        exact ih k hfk (by omega)
      exact haj
  intro i hi
  rw [h.incoming]
  refine mulVec_entry_zero fun k hC => ?_
  obtain ⟨c1, c2⟩ := ff_connect hff v wl _ _ hC
  have hfk : front k = true := by
    rw [hi] at c1
    cases hk : front k
    · rw [hk] at c1; exact absurd rfl c1
    · rfl
  exact key _ k hfk (Nat.lt_succ_self _)

end

end PT
