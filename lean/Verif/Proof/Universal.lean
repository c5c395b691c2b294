import Verif.Proof.Reck
import Verif.Proof.Energy
import Mathlib.LinearAlgebra.UnitaryGroup
import Mathlib.LinearAlgebra.Matrix.ToLin
import Mathlib.Analysis.SpecialFunctions.Trigonometric.Inverse
import Mathlib.Analysis.SpecialFunctions.Complex.Arg

/-! Proof support: every unitary matrix is the matrix of a Reck network. -/

namespace PT
open Spec Matrix

/-- The forward transmissions of an `Mzi` with propagation factor `p`. -/
noncomputable def mziCell (p : ℂ) (phi theta : ℝ) : Cell ℂ :=
  ⟨p * Complex.exp (phi * Complex.I) * (Real.cos theta : ℂ), -(p * (Real.sin theta : ℂ)),
    p * Complex.exp (phi * Complex.I) * (Real.sin theta : ℂ), p * (Real.cos theta : ℂ)⟩

theorem normSq_exp (x : ℝ) : Complex.normSq (Complex.exp (x * Complex.I)) = 1 := by
  rw [Complex.normSq_eq_norm_sq, Complex.norm_exp_ofReal_mul_I]
  norm_num

/-- A cell conserves power. -/
def Cell.Conserves (c : Cell ℂ) : Prop := ∀ u v : ℂ, Complex.normSq (c.α * u + c.β * v) + Complex.normSq (c.γ * u + c.δ * v) =
  Complex.normSq u + Complex.normSq v

theorem mziCell_conserves {p : ℂ} (hp : Complex.normSq p = 1) (phi theta : ℝ) : (mziCell p phi theta).Conserves := by
  intro u v
  simp only [mziCell]
  set e := Complex.exp (phi * Complex.I) with he
  have h1 : p * e * (Real.cos theta : ℂ) * u + -(p * (Real.sin theta : ℂ)) * v =
      p * ((Real.cos theta : ℂ) * (e * u) - (Real.sin theta : ℂ) * v) := by ring
  have h2 : p * e * (Real.sin theta : ℂ) * u + p * (Real.cos theta : ℂ) * v =
      p * ((Real.sin theta : ℂ) * (e * u) + (Real.cos theta : ℂ) * v) := by ring
  have h3 : Complex.normSq u = Complex.normSq (e * u) := by rw [Complex.normSq_mul, he, normSq_exp, one_mul]
  rw [h1, h2, Complex.normSq_mul, Complex.normSq_mul, hp, one_mul, one_mul, h3]
  have hsc := Real.sin_sq_add_cos_sq theta
  generalize e * u = z
  simp only [Complex.normSq_apply, Complex.add_re, Complex.add_im, Complex.sub_re, Complex.sub_im, Complex.re_ofReal_mul,
    Complex.im_ofReal_mul]
  linear_combination (z.re * z.re + z.im * z.im + v.re * v.re + v.im * v.im) * hsc

/-- Any complex number is its modulus times a phase, relative to a number of modulus 1. -/
theorem exists_phase {p : ℂ} (hp : Complex.normSq p = 1) (u : ℂ) :
    ∃ x : ℝ, p * Complex.exp (x * Complex.I) * (‖u‖ : ℂ) = u := by
  have hne : p ≠ 0 := by rintro rfl; simp at hp
  have hn : ‖p‖ = 1 := by
    rw [Complex.normSq_eq_norm_sq] at hp
    have := norm_nonneg p
    nlinarith
  refine ⟨Complex.arg (u / p), ?_⟩
  have h := Complex.norm_mul_exp_arg_mul_I (u / p)
  rw [norm_div, hn, div_one] at h
  calc p * Complex.exp (Complex.arg (u / p) * Complex.I) * (‖u‖ : ℂ)
      = p * ((‖u‖ : ℂ) * Complex.exp (Complex.arg (u / p) * Complex.I)) := by ring
    _ = p * (u / p) := by rw [h]
    _ = u := by field_simp

theorem sum_eq_zero_of_normSq {n : ℕ} {u : ℕ → ℂ} (h : ∑ k ∈ Finset.range n, Complex.normSq (u k) = 0) :
    ∀ k < n, u k = 0 := by
  intro k hk
  rw [Finset.sum_eq_zero_iff_of_nonneg fun i _ => Complex.normSq_nonneg _] at h
  exact Complex.normSq_eq_zero.mp (h k (Finset.mem_range.mpr hk))

/-- The first output of a layer can be any unit combination of the inputs. -/
theorem layTop_universal : ∀ (n : ℕ) (u : ℕ → ℂ) (p : ℕ → ℂ) (q : ℂ), ∑ k ∈ Finset.range (n + 1), Complex.normSq (u k) = 1 →
    (∀ k, Complex.normSq (p k) = 1) → Complex.normSq q = 1 → ∃ (phi theta : ℕ → ℝ) (psi : ℝ), ∀ a : ℕ → ℂ,
      layTop n (fun k => mziCell (p k) (phi k) (theta k)) (q * Complex.exp (psi * Complex.I)) a =
        ∑ k ∈ Finset.range (n + 1), u k * a k
  | 0, u, p, q, hu, hp, hq => by
    obtain ⟨x, hx⟩ := exists_phase hq (u 0)
    refine ⟨fun _ => 0, fun _ => 0, x, fun a => ?_⟩
    have h1 : ‖u 0‖ = 1 := by
      rw [Finset.sum_range_one, Complex.normSq_eq_norm_sq] at hu
      have := norm_nonneg (u 0)
      nlinarith
    rw [h1, Complex.ofReal_one, mul_one] at hx
    rw [layTop, hx, Finset.sum_range_one]
  | n + 1, u, p, q, hu, hp, hq => by
    rw [Finset.sum_range_succ'] at hu
    set r := ‖u 0‖ with hr
    have hr2 : Complex.normSq (u 0) = r ^ 2 := Complex.normSq_eq_norm_sq _
    have hr0 : 0 ≤ r := norm_nonneg _
    have hrest : 0 ≤ ∑ k ∈ Finset.range (n + 1), Complex.normSq (u (k + 1)) :=
      Finset.sum_nonneg fun _ _ => Complex.normSq_nonneg _
    have hr1 : r ≤ 1 := by nlinarith
    obtain ⟨x, hx⟩ := exists_phase (hp 0) (u 0)
    set t := Real.arccos r with ht
    have hcos : Real.cos t = r := Real.cos_arccos (by linarith) hr1
    have hsin : Real.sin t ^ 2 = 1 - r ^ 2 := by
      have := Real.sin_sq_add_cos_sq t
      rw [hcos] at this
      linarith
    have hne : p 0 ≠ 0 := by intro h0; have := hp 0; rw [h0] at this; simp at this
    have hex : ∃ u' : ℕ → ℂ, ∑ k ∈ Finset.range (n + 1), Complex.normSq (u' k) = 1 ∧
        ∀ k < n + 1, -(p 0 * (Real.sin t : ℂ)) * u' k = u (k + 1) := by
      by_cases hs : Real.sin t = 0
      · have hz : ∑ k ∈ Finset.range (n + 1), Complex.normSq (u (k + 1)) = 0 := by
          rw [hs] at hsin
          nlinarith
        refine ⟨fun k => if k = 0 then 1 else 0, ?_, ?_⟩
        · rw [Finset.sum_eq_single 0]
          · simp
          · intro k _ hk
            simp [hk]
          · intro h; exact absurd (Finset.mem_range.mpr (Nat.succ_pos n)) h
        · intro k hk
          rw [hs, sum_eq_zero_of_normSq (u := fun k => u (k + 1)) hz k hk]
          simp
      · refine ⟨fun k => -u (k + 1) / (p 0 * (Real.sin t : ℂ)), ?_, ?_⟩
        · have : ∀ k, Complex.normSq (-u (k + 1) / (p 0 * (Real.sin t : ℂ))) =
              Complex.normSq (u (k + 1)) / Real.sin t ^ 2 := by
            intro k
            rw [Complex.normSq_div, Complex.normSq_neg, Complex.normSq_mul, hp, one_mul, Complex.normSq_ofReal, sq]
          simp only [this]
          rw [← Finset.sum_div, hsin, div_eq_one_iff_eq]
          · linarith
          · rw [← hsin]; exact pow_ne_zero 2 hs
        · intro k _
          have hs' : (Real.sin t : ℂ) ≠ 0 := by exact_mod_cast hs
          field_simp
    obtain ⟨u', hu', hscale⟩ := hex
    obtain ⟨phi, theta, psi, ih⟩ := layTop_universal n u' (fun k => p (k + 1)) q hu' (fun k => hp _) hq
    refine ⟨fun k => Nat.casesOn k x phi, fun k => Nat.casesOn k t theta, psi, fun a => ?_⟩
    rw [layTop, ih, Finset.sum_range_succ' _ (n + 1), add_comm]
    congr 1
    · rw [Finset.mul_sum]
      refine Finset.sum_congr rfl fun k hk => ?_
      rw [← hscale k (Finset.mem_range.mp hk)]
      show -(p 0 * (Real.sin t : ℂ)) * (u' k * a (k + 1)) = _
      ring
    · show p 0 * Complex.exp (x * Complex.I) * (Real.cos t : ℂ) * a 0 = _
      rw [hcos, hx]

/-! ### Layers as matrices -/

section
variable {R : Type} [CommRing R]

theorem layTop_congr : ∀ (n : ℕ) (c : ℕ → Cell R) (w : R) (a b : ℕ → R), (∀ k ≤ n, a k = b k) → layTop n c w a = layTop n c w b
  | 0, _, _, a, b, h => by rw [layTop, layTop, h 0 (le_refl _)]
  | n + 1, c, w, a, b, h => by
    rw [layTop, layTop, h 0 (by omega), layTop_congr n _ w _ (fun k => b (k + 1)) fun k hk => h (k + 1) (by omega)]

theorem layTop_add : ∀ (n : ℕ) (c : ℕ → Cell R) (w : R) (a b : ℕ → R),
    layTop n c w (fun k => a k + b k) = layTop n c w a + layTop n c w b
  | 0, _, _, a, b => by simp only [layTop]; ring
  | n + 1, c, w, a, b => by
    simp only [layTop]
    rw [layTop_add n _ w (fun k => a (k + 1)) fun k => b (k + 1)]
    ring

theorem layTop_smul (z : R) : ∀ (n : ℕ) (c : ℕ → Cell R) (w : R) (a : ℕ → R),
    layTop n c w (fun k => z * a k) = z * layTop n c w a
  | 0, _, _, a => by simp only [layTop]; ring
  | n + 1, c, w, a => by
    simp only [layTop]
    rw [layTop_smul z n _ w fun k => a (k + 1)]
    ring

theorem layY_congr {n : ℕ} (c : ℕ → Cell R) (w : R) {a b : ℕ → R} (h : ∀ k ≤ n, a k = b k) :
    ∀ k ≤ n, layY n c w a k = layY n c w b k
  | 0, _ => layTop_congr _ _ _ _ _ fun k hk => h _ (by omega)
  | k + 1, hk => by
    simp only [layY, layX]
    rw [h k (by omega), layTop_congr _ _ _ _ _ fun i hi => h (k + 1 + i) (by omega)]

theorem layY_add (n : ℕ) (c : ℕ → Cell R) (w : R) (a b : ℕ → R) :
    ∀ k, layY n c w (fun i => a i + b i) k = layY n c w a k + layY n c w b k
  | 0 => layTop_add _ _ _ (fun i => a (0 + i)) fun i => b (0 + i)
  | k + 1 => by
    simp only [layY, layX]
    rw [layTop_add _ _ _ (fun i => a (k + 1 + i)) fun i => b (k + 1 + i)]
    ring

theorem layY_smul (z : R) (n : ℕ) (c : ℕ → Cell R) (w : R) (a : ℕ → R) :
    ∀ k, layY n c w (fun i => z * a i) k = z * layY n c w a k
  | 0 => layTop_smul z _ _ _ fun i => a (0 + i)
  | k + 1 => by
    simp only [layY, layX]
    rw [layTop_smul z _ _ _ fun i => a (k + 1 + i)]
    ring

theorem layX_shift (n : ℕ) (c : ℕ → Cell R) (w : R) (a : ℕ → R) (k : ℕ) :
    layX (n + 1) c w a (k + 1) = layX n (fun i => c (i + 1)) w (fun i => a (i + 1)) k := by
  unfold layX
  rw [Nat.add_sub_add_right]
  simp only [Nat.add_right_comm]

end

theorem layY_power : ∀ (n : ℕ) (c : ℕ → Cell ℂ) (w : ℂ) (a : ℕ → ℂ), (∀ k, (c k).Conserves) → Complex.normSq w = 1 →
    ∑ k ∈ Finset.range (n + 1), Complex.normSq (layY n c w a k) = ∑ k ∈ Finset.range (n + 1), Complex.normSq (a k)
  | 0, c, w, a, _, hw => by
    rw [Finset.sum_range_one, Finset.sum_range_one]
    simp [layY, layX, layTop, Complex.normSq_mul, hw]
  | n + 1, c, w, a, hc, hw => by
    have ih := layY_power n (fun i => c (i + 1)) w (fun i => a (i + 1)) (fun k => hc _) hw
    rw [Finset.sum_range_succ', Finset.sum_range_succ'] at ih
    rw [Finset.sum_range_succ', Finset.sum_range_succ' _ n, Finset.sum_range_succ' _ (n + 1)]
    have h0 := hc 0 (a 0) (layX (n + 1) c w a 1)
    have e1 : layY (n + 1) c w a 0 = (c 0).α * a 0 + (c 0).β * layX (n + 1) c w a 1 := layX_step (by omega) c w a
    have e2 : layY (n + 1) c w a (0 + 1) = (c 0).γ * a 0 + (c 0).δ * layX (n + 1) c w a 1 := rfl
    have e3 : layY n (fun i => c (i + 1)) w (fun i => a (i + 1)) 0 = layX (n + 1) c w a 1 := (layX_shift n c w a 0).symm
    have e4 : ∀ k, layY (n + 1) c w a (k + 1 + 1) = layY n (fun i => c (i + 1)) w (fun i => a (i + 1)) (k + 1) := by
      intro k
      simp only [layY]
      rw [layX_shift]
    rw [e3] at ih
    simp only [e4]
    rw [e1, e2]
    rw [Finset.sum_range_succ' (fun k => Complex.normSq (a (k + 1)))]
    linarith

/-- A finite vector continued by zeros. -/
noncomputable def extend {n : ℕ} (x : Fin n → ℂ) (i : ℕ) : ℂ := if h : i < n then x ⟨i, h⟩ else 0

theorem extend_val {n : ℕ} (x : Fin n → ℂ) (i : Fin n) : extend x i = x i := by
  unfold extend
  rw [dif_pos i.2]

/-- The matrix of a layer. -/
theorem lay_matrix (n : ℕ) (c : ℕ → Cell ℂ) (w : ℂ) (hc : ∀ k, (c k).Conserves) (hw : Complex.normSq w = 1) :
    ∃ L ∈ Matrix.unitaryGroup (Fin (n + 1)) ℂ, ∀ (a : ℕ → ℂ) (k : Fin (n + 1)),
      layY n c w a k = ∑ j : Fin (n + 1), L k j * a j := by
  let f : (Fin (n + 1) → ℂ) →ₗ[ℂ] (Fin (n + 1) → ℂ) :=
    { toFun := fun x k => layY n c w (extend x) k
      map_add' := by
        intro x y
        funext k
        rw [Pi.add_apply, ← layY_add]
        refine layY_congr c w (fun i hi => ?_) k (by omega)
        have hi' : i < n + 1 := by omega
        simp [extend, hi']
      map_smul' := by
        intro z x
        funext k
        simp only [Pi.smul_apply, smul_eq_mul, RingHom.id_apply]
        rw [← layY_smul]
        refine layY_congr c w (fun i hi => ?_) k (by omega)
        have hi' : i < n + 1 := by omega
        simp [extend, hi'] }
  have hf : ∀ x, (LinearMap.toMatrix' f) *ᵥ x = fun k : Fin (n + 1) => layY n c w (extend x) k := by
    intro x
    rw [LinearMap.toMatrix'_mulVec]
    rfl
  refine ⟨LinearMap.toMatrix' f, ?_, ?_⟩
  · have hl := lossless_of_power (LinearMap.toMatrix' f) (fun _ => false) (fun x => by
      rw [hf]
      have e1 : power (fun k : Fin (n + 1) => layY n c w (extend x) k) = power x := by
        unfold power
        rw [Fin.sum_univ_eq_sum_range (fun k => Complex.normSq (layY n c w (extend x) k)), layY_power n c w _ hc hw,
          ← Fin.sum_univ_eq_sum_range (fun k => Complex.normSq (extend x k))]
        exact Finset.sum_congr rfl fun i _ => by rw [extend_val]
      rw [e1]
      simp [power, powerAt])
    rw [Matrix.mem_unitaryGroup_iff']
    ext i j
    have := hl i j
    simp only [and_true] at this
    rw [Matrix.mul_apply, Matrix.one_apply, ← this]
    rfl
  · intro a k
    have h := congrFun (hf fun j => a j) k
    rw [layY_congr c w (b := a) (fun i hi => ?_) k (by omega)] at h
    · rw [← h]
      rfl
    · rw [extend, dif_pos (by omega)]

/-- Every unitary matrix is the matrix of a Reck network. -/
theorem reck_universal : ∀ (n : ℕ) (U : Matrix (Fin (n + 1)) (Fin (n + 1)) ℂ), U ∈ Matrix.unitaryGroup (Fin (n + 1)) ℂ →
    ∀ (p : ℕ → ℕ → ℂ) (q : ℕ → ℂ), (∀ m i, Complex.normSq (p m i) = 1) → (∀ m, Complex.normSq (q m) = 1) →
    ∃ (phi theta : ℕ → ℕ → ℝ) (psi : ℕ → ℝ), ∀ (a : ℕ → ℂ) (k : Fin (n + 1)),
      reckRes n (fun m i => mziCell (p m i) (phi m i) (theta m i)) (fun m => q m * Complex.exp (psi m * Complex.I)) a k =
        ∑ j : Fin (n + 1), U k j * a j := by
  have hrow : ∀ (n : ℕ) (U : Matrix (Fin (n + 1)) (Fin (n + 1)) ℂ), U ∈ Matrix.unitaryGroup (Fin (n + 1)) ℂ →
      ∀ (p : ℕ → ℂ) (q : ℂ), (∀ i, Complex.normSq (p i) = 1) → Complex.normSq q = 1 →
      ∃ (phi theta : ℕ → ℝ) (psi : ℝ), ∀ a : ℕ → ℂ,
        layY n (fun i => mziCell (p i) (phi i) (theta i)) (q * Complex.exp (psi * Complex.I)) a 0 =
          ∑ j : Fin (n + 1), U 0 j * a j := by
    intro n U hU p q hp hq
    have hu : ∑ k ∈ Finset.range (n + 1), Complex.normSq (extend (U 0) k) = 1 := by
      rw [← Fin.sum_univ_eq_sum_range (fun k => Complex.normSq (extend (U 0) k))]
      have h1 := congrFun (congrFun (Matrix.mem_unitaryGroup_iff.mp hU) 0) 0
      rw [Matrix.mul_apply, Matrix.one_apply_eq] at h1
      have h2 := congrArg Complex.re h1
      rw [Complex.re_sum] at h2
      rw [Complex.one_re] at h2
      rw [← h2]
      refine Finset.sum_congr rfl fun j _ => ?_
      rw [extend_val, Complex.normSq_apply, Matrix.star_apply]
      simp [Complex.mul_re]
    obtain ⟨phi, theta, psi, h⟩ := layTop_universal n (extend (U 0)) p q hu hp hq
    refine ⟨phi, theta, psi, fun a => ?_⟩
    have h' := h a
    have e : layY n (fun i => mziCell (p i) (phi i) (theta i)) (q * Complex.exp (psi * Complex.I)) a 0 =
        layTop n (fun i => mziCell (p i) (phi i) (theta i)) (q * Complex.exp (psi * Complex.I)) a := by
      simp [layY, layX]
    rw [e, h', ← Fin.sum_univ_eq_sum_range (fun k => extend (U 0) k * a k)]
    exact Finset.sum_congr rfl fun j _ => by rw [extend_val]
  intro n
  induction n with
  | zero =>
    intro U hU p q hp hq
    obtain ⟨phi, theta, psi, h⟩ := hrow 0 U hU (p 0) (q 0) (hp 0) (hq 0)
    refine ⟨fun _ => phi, fun _ => theta, fun _ => psi, fun a k => ?_⟩
    have hk : k = 0 := Fin.ext (by omega)
    subst hk
    exact h a
  | succ n ih =>
    intro U hU p q hp hq
    obtain ⟨phi, theta, psi, h⟩ := hrow (n + 1) U hU (p 0) (q 0) (hp 0) (hq 0)
    obtain ⟨L, hL, hLa⟩ := lay_matrix (n + 1) (fun i => mziCell (p 0 i) (phi i) (theta i))
      (q 0 * Complex.exp (psi * Complex.I)) (fun k => mziCell_conserves (hp 0 k) _ _)
      (by rw [Complex.normSq_mul, hq, normSq_exp, one_mul])
    have hLrow : ∀ j, L 0 j = U 0 j := by
      intro j
      have h1 := hLa (fun i => if i = (j : ℕ) then 1 else 0) 0
      have h2 := h fun i => if i = (j : ℕ) then 1 else 0
      have h3 := h1.symm.trans h2
      simp only [mul_ite, mul_one, mul_zero] at h3
      have key : ∀ M : Matrix (Fin (n + 1 + 1)) (Fin (n + 1 + 1)) ℂ,
          (∑ x : Fin (n + 1 + 1), if (x : ℕ) = (j : ℕ) then M 0 x else 0) = M 0 j := by
        intro M
        rw [Finset.sum_eq_single j]
        · rw [if_pos rfl]
        · intro x _ hx
          rw [if_neg fun hx' => hx (Fin.ext hx')]
        · simp
      rw [key, key] at h3
      exact h3
    set V := U * star L with hV
    have hVu : V ∈ Matrix.unitaryGroup (Fin (n + 1 + 1)) ℂ := mul_mem hU (Unitary.star_mem hL)
    have hV0 : ∀ k, V 0 k = if k = 0 then 1 else 0 := by
      intro k
      have h1 := congrFun (congrFun (Matrix.mem_unitaryGroup_iff.mp hL) 0) k
      rw [Matrix.mul_apply, Matrix.one_apply] at h1
      rw [hV, Matrix.mul_apply]
      simp only [← hLrow]
      rw [h1]
      by_cases hk : k = 0
      · rw [if_pos hk, if_pos hk.symm]
      · rw [if_neg hk, if_neg fun h => hk h.symm]
    have hVc : ∀ i : Fin (n + 1), V i.succ 0 = 0 := by
      intro i
      have h1 := congrFun (congrFun (Matrix.mem_unitaryGroup_iff.mp hVu) i.succ) 0
      rw [Matrix.mul_apply, Matrix.one_apply_ne (Fin.succ_ne_zero i), Finset.sum_eq_single 0] at h1
      · rw [Matrix.star_apply, hV0, if_pos rfl, star_one, mul_one] at h1
        exact h1
      · intro j _ hj
        rw [Matrix.star_apply, hV0, if_neg hj, star_zero, mul_zero]
      · simp
    set V' : Matrix (Fin (n + 1)) (Fin (n + 1)) ℂ := Matrix.of fun i j => V i.succ j.succ with hV'
    have hV'u : V' ∈ Matrix.unitaryGroup (Fin (n + 1)) ℂ := by
      rw [Matrix.mem_unitaryGroup_iff]
      ext i j
      have h1 := congrFun (congrFun (Matrix.mem_unitaryGroup_iff.mp hVu) i.succ) j.succ
      rw [Matrix.mul_apply, Fin.sum_univ_succ, Matrix.star_apply, hVc, zero_mul, zero_add] at h1
      rw [Matrix.mul_apply]
      rw [Matrix.one_apply] at h1 ⊢
      simp only [Fin.succ_inj] at h1
      rw [← h1]
      rfl
    obtain ⟨phi', theta', psi', h'⟩ := ih V' hV'u (fun m => p (m + 1)) (fun m => q (m + 1)) (fun m i => hp _ i) fun m => hq _
    refine ⟨fun m => Nat.casesOn m phi phi', fun m => Nat.casesOn m theta theta', fun m => Nat.casesOn m psi psi', ?_⟩
    intro a k
    refine Fin.cases ?_ (fun k => ?_) k
    · exact h a
    · show reckRes (n + 1) _ _ a ((k : ℕ) + 1) = _
      rw [reckRes_succ]
      refine (h' _ k).trans ?_
      have hVL : V * L = U := by
        rw [hV, Matrix.mul_assoc, Matrix.mem_unitaryGroup_iff'.mp hL, Matrix.mul_one]
      have e1 : ∑ j : Fin (n + 1 + 1), U k.succ j * a j =
          ∑ i : Fin (n + 1 + 1), V k.succ i * ∑ j : Fin (n + 1 + 1), L i j * a j := by
        rw [← hVL]
        simp only [Matrix.mul_apply, Finset.sum_mul, Finset.mul_sum]
        rw [Finset.sum_comm]
        refine Finset.sum_congr rfl fun i _ => Finset.sum_congr rfl fun j _ => by ring
      rw [e1]
      refine Eq.trans ?_ (Fin.sum_univ_succ _).symm
      rw [hVc, zero_mul, zero_add]
      refine Finset.sum_congr rfl fun i _ => ?_
      rw [← hLa a i.succ]
      rfl

end PT
