import Verif.Proof.Columns
import Verif.Spec.SensitiveTime

/-! A simulation over `T` time steps is a static circuit with `T` copies of each port. -/

namespace PT.Sens
open Matrix Spec

variable {ι : Type} [Fintype ι]

/-- The scattering matrix of the copies: what comes in at one time goes out when the delay is over. -/
def spread (d : ι → ℕ) (T : ℕ) (S : Matrix ι ι ℂ) : Matrix (ι × Fin T) (ι × Fin T) ℂ :=
  Matrix.of fun x y => if (y.2 : ℕ) + d y.1 = x.2 then S x.1 y.1 else 0

/-- Connections of the copies. -/
def copies (T : ℕ) (C : Matrix ι ι ℝ) : Matrix (ι × Fin T) (ι × Fin T) ℝ := Matrix.of fun x y => if y.2 = x.2 then C x.1 y.1 else 0

/-- The waves of all times as one. -/
def flat (T : ℕ) (a : ℕ → ι → ℂ) : ι × Fin T → ℂ := fun x => a x.2 x.1

/-- And back. -/
def unflat {T : ℕ} (u : ι × Fin T → ℂ) : ℕ → ι → ℂ := fun t i => if h : t < T then u (i, ⟨t, h⟩) else 0

theorem flat_unflat {T : ℕ} (u : ι × Fin T → ℂ) : flat T (unflat u) = u := by
  funext x
  unfold flat unflat
  rw [dif_pos x.2.2]

theorem power_flat (T : ℕ) (a : ℕ → ι → ℂ) : power (flat T a) = energy T a := by
  unfold power energy power
  rw [Fintype.sum_prod_type_right]
  exact Fin.sum_univ_eq_sum_range (fun t => ∑ i, Complex.normSq (a t i)) T

theorem spread_flat (d : ι → ℕ) (T : ℕ) (S : Matrix ι ι ℂ) (a : ℕ → ι → ℂ) (x : ι × Fin T) :
    (spread d T S *ᵥ flat T a) x = (S *ᵥ delayed d a x.2) x.1 := by
  simp only [Matrix.mulVec, dotProduct, spread, flat, Matrix.of_apply]
  rw [Fintype.sum_prod_type]
  refine Finset.sum_congr rfl fun j _ => ?_
  unfold delayed
  by_cases h : d j ≤ x.2
  · rw [if_pos h, Finset.sum_eq_single (⟨(x.2 : ℕ) - d j, by have := x.2.2; omega⟩ : Fin T)]
    · rw [if_pos (by simp only; omega)]
    · intro t _ ht
      rw [if_neg, zero_mul]
      intro he
      apply ht
      apply Fin.ext
      simp only at he ⊢
      omega
    · intro hn
      exact absurd (Finset.mem_univ _) hn
  · rw [if_neg h, mul_zero]
    refine Finset.sum_eq_zero fun t _ => ?_
    rw [if_neg (by simp only; omega), zero_mul]

theorem energy_delayed (d : ι → ℕ) (a : ℕ → ι → ℂ) (T : ℕ) : energy T (fun t => delayed d a t) ≤ energy T a := by
  classical
  have h := powerAt_delayed_le (fun _ => true) d a T
  unfold powerAt at h
  simpa [energy, power] using h

/-- Bounds for the matrix are bounds for the copies. -/
theorem spread_bound (d : ι → ℕ) (T : ℕ) (S : Matrix ι ι ℂ) (c : ℝ) (h : ∀ v, power (S *ᵥ v) ≤ c * power v) (hc : 0 ≤ c)
    (u : ι × Fin T → ℂ) : power (spread d T S *ᵥ u) ≤ c * power u := by
  rw [← flat_unflat u]
  set a := unflat u
  have e : spread d T S *ᵥ flat T a = flat T fun t => S *ᵥ delayed d a t := by
    funext x
    rw [spread_flat]
    rfl
  rw [e, power_flat, power_flat]
  refine le_trans (Finset.sum_le_sum fun t _ => h _) ?_
  rw [← Finset.mul_sum]
  exact mul_le_mul_of_nonneg_left (energy_delayed d a T) hc

theorem spread_contracts (d : ι → ℕ) (T : ℕ) {S : Matrix ι ι ℂ} (h : Contracts S) : Contracts (spread d T S) := by
  intro u
  have := spread_bound d T S 1 (fun v => by rw [one_mul]; exact h v) zero_le_one u
  rwa [one_mul] at this

theorem spread_sub (d : ι → ℕ) (T : ℕ) (S S' : Matrix ι ι ℂ) : spread d T S' - spread d T S = spread d T (S' - S) := by
  ext x y
  simp only [spread, Matrix.sub_apply, Matrix.of_apply]
  split
  · rfl
  · rw [sub_zero]

theorem sqrt_iff {x y c : ℝ} (hy : 0 ≤ y) (hc : 0 ≤ c) : √x ≤ c * √y ↔ x ≤ c ^ 2 * y := by
  rw [Real.sqrt_le_left (by positivity), mul_pow, Real.sq_sqrt hy]

theorem spread_amplitude (d : ι → ℕ) (T : ℕ) {S : Matrix ι ι ℂ} {c : ℝ} (hc : 0 ≤ c) (h : ∀ v, √(power (S *ᵥ v)) ≤ c * √(power v))
    (u : ι × Fin T → ℂ) : √(power (spread d T S *ᵥ u)) ≤ c * √(power u) := by
  rw [sqrt_iff (power_nonneg _) hc]
  exact spread_bound d T S (c ^ 2) (fun v => (sqrt_iff (power_nonneg _) hc).1 (h v)) (sq_nonneg _) u

theorem spread_deviates (d : ι → ℕ) (T : ℕ) {S S' : Matrix ι ι ℂ} {ε : ℝ} (h0 : 0 ≤ ε) (h : DeviatesBy ε S S') :
    DeviatesBy ε (spread d T S) (spread d T S') := by
  intro u
  rw [spread_sub]
  exact spread_amplitude d T h0 h u

theorem copies_paired [DecidableEq ι] (T : ℕ) {C : Matrix ι ι ℝ} (h : Paired C) : Paired (copies T C) := by
  obtain ⟨σ, hσ, hC⟩ := h
  refine ⟨fun x => (σ x.1, x.2), fun x => by simp only [hσ x.1], fun x y => ?_⟩
  simp only [copies, Matrix.of_apply, hC, Prod.ext_iff]
  by_cases h1 : y.2 = x.2 <;> by_cases h2 : y.1 = σ x.1 <;> simp [h1, h2]

theorem copies_flat (T : ℕ) (C : Matrix ι ι ℝ) (b : ℕ → ι → ℂ) (x : ι × Fin T) :
    (cx (copies T C) 0 *ᵥ flat T b) x = (cx C 0 *ᵥ b x.2) x.1 := by
  simp only [Matrix.mulVec, dotProduct, flat]
  rw [Fintype.sum_prod_type]
  refine Finset.sum_congr rfl fun j _ => ?_
  rw [Finset.sum_eq_single x.2]
  · simp only [cx, copies, Matrix.of_apply, if_true, Matrix.zero_apply]
  · intro t _ ht
    have : cx (copies T C) 0 x (j, t) = 0 := by
      simp only [cx, copies, Matrix.of_apply, Matrix.zero_apply, if_neg ht]
      rfl
    rw [this, zero_mul]
  · intro hn
    exact absurd (Finset.mem_univ _) hn

theorem solves_flat {C : Matrix ι ι ℝ} {S : Matrix ι ι ℂ} {d : ι → ℕ} {T : ℕ} {s a b : ℕ → ι → ℂ} :
    Solves (cx C 0) S d T s a b ↔ SolvesStatic (cx (copies T C) 0) (spread d T S) (flat T s) (flat T a) (flat T b) := by
  constructor
  · intro h
    constructor
    · funext x
      rw [copies_flat, ← h.incoming x.2 x.2.2]
      rfl
    · funext x
      rw [Pi.add_apply, spread_flat]
      have := congrFun (h.outgoing x.2 x.2.2) x.1
      exact this
  · intro h
    constructor
    · intro t ht
      funext i
      have := congrFun h.incoming (i, ⟨t, ht⟩)
      rw [copies_flat] at this
      exact this
    · intro t ht
      funext i
      have := congrFun h.outgoing (i, ⟨t, ht⟩)
      rw [Pi.add_apply, spread_flat] at this
      exact this

theorem spread_levels (d : ι → ℕ) (T : ℕ) {C : Matrix ι ι ℝ} {S : Matrix ι ι ℂ} {φ : ι → ℕ} (h : Levels (cx C 0 * S) φ) :
    Levels (cx (copies T C) 0 * spread d T S) fun x => φ x.1 := by
  have e : ∀ x y, (cx (copies T C) 0 * spread d T S) x y ≠ 0 → (cx C 0 * S) x.1 y.1 ≠ 0 := by
    intro x y hxy h0
    apply hxy
    rw [Matrix.mul_apply, Fintype.sum_prod_type_right]
    refine Finset.sum_eq_zero fun t _ => ?_
    by_cases ht : t = x.2
    · subst ht
      by_cases hd : (y.2 : ℕ) + d y.1 = x.2
      · rw [Matrix.mul_apply] at h0
        rw [← h0]
        refine Finset.sum_congr rfl fun j _ => ?_
        simp only [cx, copies, spread, Matrix.of_apply, if_true, Matrix.zero_apply, if_pos hd]
      · refine Finset.sum_eq_zero fun j _ => ?_
        simp only [spread, Matrix.of_apply, if_neg hd, mul_zero]
    · refine Finset.sum_eq_zero fun j _ => ?_
      have : cx (copies T C) 0 x (j, t) = 0 := by
        simp only [cx, copies, Matrix.of_apply, Matrix.zero_apply, if_neg ht]
        rfl
      rw [this, zero_mul]
  exact ⟨fun x y hxy => h.up _ _ (e x y hxy), fun x y z hy hz => h.row _ _ _ (e x y hy) (e x z hz)⟩

theorem enhances_copies {C : Matrix ι ι ℝ} {S : Matrix ι ι ℂ} {d : ι → ℕ} {κ : ℝ} (h : EnhancesOverTime κ (cx C 0) S d) (T : ℕ) :
    EnhancesBy κ (cx (copies T C) 0) (spread d T S) := by
  intro s a b hs
  rw [← flat_unflat s, ← flat_unflat a, ← flat_unflat b] at hs
  have := h T _ _ _ (solves_flat.2 hs)
  rwa [← power_flat, ← power_flat, flat_unflat, flat_unflat] at this

theorem enhances_of_copies {C : Matrix ι ι ℝ} {S : Matrix ι ι ℂ} {d : ι → ℕ} {κ : ℝ}
    (h : ∀ T, EnhancesBy κ (cx (copies T C) 0) (spread d T S)) : EnhancesOverTime κ (cx C 0) S d := by
  intro T s a b hs
  rw [← power_flat, ← power_flat]
  exact h T _ _ _ (solves_flat.1 hs)

/-- Circuits of the ports without delay: no light goes round in them. -/
theorem undelayed_det [DecidableEq ι] {C : Matrix ι ι ℝ} {S S' : Matrix ι ι ℂ} {d : ι → ℕ} {κ ε : ℝ}
    (hκ : EnhancesOverTime κ (cx C 0) S d) (hε : DeviatesBy ε S S') (h0 : 0 ≤ κ) (hε0 : 0 ≤ ε) (hs : κ * ε < 1)
    (hmix : ∀ i j, d i = 0 → d j ≠ 0 → S' i j = 0 ∧ S' j i = 0) (l : List ι) (hl : l.Nodup) (hmem : ∀ i, i ∈ l ↔ d i = 0) :
    (1 - pick (cx C 0) l l * pick S' l l).det ≠ 0 := by
  set Z : Matrix ι ι ℂ := Matrix.of fun i j => if d j = 0 then (if d i = 0 then S' i j else 0) else 0 with hZ
  have e : pick S' l l = pick Z l l := by
    ext i j
    have hi := (hmem _).1 (l.get_mem i)
    have hj := (hmem _).1 (l.get_mem j)
    simp only [pick, Matrix.submatrix_apply, hZ, Matrix.of_apply]
    rw [if_pos hj, if_pos hi]
  rw [e]
  refine pick_det l hl (fun i hi j => ?_) fun x hx => ?_
  · rw [hmem] at hi
    simp only [hZ, Matrix.of_apply, if_neg hi]
    simp
  · have key := no_mode (enhances_copies hκ 1) (spread_deviates d 1 hε0 hε) h0 hs (fun y => x y.1) ?_
    · funext i
      exact congrFun key (i, 0)
    have e0 : (fun y : ι × Fin 1 => x y.1) = flat 1 fun _ => x := rfl
    have e1 : spread d 1 S' *ᵥ flat 1 (fun _ => x) = flat 1 fun _ => Z *ᵥ x := by
      funext y
      rw [spread_flat]
      simp only [Matrix.mulVec, dotProduct, flat]
      refine Finset.sum_congr rfl fun j _ => ?_
      have hy : (y.2 : ℕ) = 0 := by omega
      unfold delayed
      rw [hy]
      simp only [hZ, Matrix.of_apply]
      by_cases hj : d j = 0
      · rw [if_pos (by omega), if_pos hj]
        by_cases hi : d y.1 = 0
        · rw [if_pos hi]
        · rw [if_neg hi, (hmix j y.1 hj hi).2]
      · rw [if_neg (by omega), if_neg hj, mul_zero, zero_mul]
    rw [e0, e1]
    funext y
    rw [copies_flat]
    exact congrFun hx y.1

end PT.Sens
