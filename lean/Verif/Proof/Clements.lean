import Verif.Proof.Blocks
import Verif.Proof.Universal

/-! Proof support: the waves in Clements networks, and every unitary matrix is the matrix of a Clements network. -/

namespace PT
open Spec Matrix

section
variable {R : Type} [CommRing R]

/-- What leaves a row of four-ports on the modes `k`, `k + 1` for `k < n` of one parity; the other modes pass a factor. -/
def rowOut (q n : ℕ) (c : ℕ → Cell R) (w : R) (a : ℕ → R) (k : ℕ) : R :=
  if k % 2 = q then (if k < n then (c k).α * a k + (c k).β * a (k + 1) else w * a k)
  else if k = 0 then w * a 0 else (c (k - 1)).γ * a (k - 1) + (c (k - 1)).δ * a k

theorem rowOut_congr {q n : ℕ} (hq : q < 2) {c c' : ℕ → Cell R} {w w' : R} {a a' : ℕ → R} (hc : ∀ k < n, k % 2 = q → c k = c' k)
    (hw : w = w') (ha : ∀ k ≤ n, a k = a' k) : ∀ k ≤ n, rowOut q n c w a k = rowOut q n c' w' a' k := by
  intro k hk
  unfold rowOut
  subst hw
  split
  · split
    · rw [hc k (by omega) (by omega), ha k hk, ha (k + 1) (by omega)]
    · rw [ha k hk]
  · split
    · rw [ha 0 (by omega)]
    · rw [hc (k - 1) (by omega) (by omega), ha k hk, ha (k - 1) (by omega)]

/-- What enters row `l`. -/
def rowState (n : ℕ) (c : ℕ → ℕ → Cell R) (w : ℕ → R) (a : ℕ → R) : ℕ → ℕ → R
  | 0 => a
  | l + 1 => rowOut (l % 2) n (c l) (w l) (rowState n c w a l)

theorem rowState_congr {n : ℕ} {c c' : ℕ → ℕ → Cell R} {w w' : ℕ → R} {a : ℕ → R} : ∀ L,
    (∀ l < L, ∀ k < n, k % 2 = l % 2 → c l k = c' l k) → (∀ l < L, w l = w' l) →
      ∀ k ≤ n, rowState n c w a L k = rowState n c' w' a L k
  | 0, _, _, _, _ => rfl
  | L + 1, hc, hw, k, hk => rowOut_congr (by omega) (hc L (by omega)) (hw L (by omega))
      (rowState_congr L (fun l hl => hc l (by omega)) fun l hl => hw l (by omega)) k hk

end

/-! ### Every unitary block is an interferometer and two phases -/

theorem normSq_of_conj {z w : ℂ} (h : z * star z + w * star w = 1) : Complex.normSq z + Complex.normSq w = 1 := by
  have h1 : z * star z = (Complex.normSq z : ℂ) := Complex.mul_conj z
  have h2 : w * star w = (Complex.normSq w : ℂ) := Complex.mul_conj w
  rw [h1, h2] at h
  exact_mod_cast h

theorem conj_of_normSq {z : ℂ} (h : Complex.normSq z = 1) : z * star z = 1 := by
  have h1 : z * star z = (Complex.normSq z : ℂ) := Complex.mul_conj z
  rw [h1, h, Complex.ofReal_one]

theorem block_mzi {α β γ δ p : ℂ} (hp : Complex.normSq p = 1) (h1 : α * star α + β * star β = 1)
    (h2 : γ * star γ + δ * star δ = 1) (h3 : γ * star α + δ * star β = 0) :
    ∃ (phi theta : ℝ) (d₁ d₂ : ℂ), Complex.normSq d₁ = 1 ∧ Complex.normSq d₂ = 1 ∧
      α = d₁ * (mziCell p phi theta).α ∧ β = d₁ * (mziCell p phi theta).β ∧
      γ = d₂ * (mziCell p phi theta).γ ∧ δ = d₂ * (mziCell p phi theta).δ := by
  have hpne : p ≠ 0 := by rintro rfl; simp at hp
  have hn1 := normSq_of_conj h1
  have hn2 := normSq_of_conj h2
  have hs0 : 0 ≤ ‖β‖ := norm_nonneg _
  have hc0 : 0 ≤ ‖α‖ := norm_nonneg _
  rw [Complex.normSq_eq_norm_sq, Complex.normSq_eq_norm_sq] at hn1
  set t := Real.arccos ‖α‖ with ht
  have hcos : Real.cos t = ‖α‖ := Real.cos_arccos (by linarith) (by nlinarith)
  have hsin : Real.sin t = ‖β‖ := by
    have hsq := Real.sin_sq_add_cos_sq t
    rw [hcos] at hsq
    have hnn : 0 ≤ Real.sin t := Real.sin_nonneg_of_nonneg_of_le_pi (Real.arccos_nonneg _) (Real.arccos_le_pi _)
    nlinarith
  obtain ⟨y, hy⟩ := exists_phase hp (-β)
  rw [norm_neg] at hy
  set d₁ := Complex.exp (y * Complex.I) with hd1
  have hd1n : Complex.normSq d₁ = 1 := normSq_exp y
  obtain ⟨x, hx⟩ := exists_phase (p := d₁ * p) (by rw [Complex.normSq_mul, hd1n, hp, one_mul]) α
  set e := Complex.exp (x * Complex.I) with he
  have hen : Complex.normSq e = 1 := normSq_exp x
  have hee := conj_of_normSq hen
  have hpp := conj_of_normSq hp
  have hdd := conj_of_normSq hd1n
  set C : ℂ := (‖α‖ : ℂ) with hC
  set S : ℂ := (‖β‖ : ℂ) with hS
  have hCS : C ^ 2 + S ^ 2 = 1 := by
    rw [hC, hS]
    exact_mod_cast hn1
  have hCr : star C = C := Complex.conj_ofReal _
  have hSr : star S = S := Complex.conj_ofReal _
  have hα : α = d₁ * p * e * C := hx.symm
  have hβ : β = -(d₁ * p * S) := by
    have : -β = p * d₁ * S := hy.symm
    linear_combination -this
  have hort : C * γ = e * S * δ := by
    rw [hα, hβ] at h3
    simp only [star_mul', star_neg, hCr, hSr] at h3
    have : star d₁ * star p * (star e * C * γ - S * δ) = 0 := by linear_combination h3
    have h4 : (d₁ * star d₁) * (p * star p) * (e * star e * C * γ - e * S * δ) = 0 := by linear_combination d₁ * p * e * this
    rw [hdd, hpp, hee] at h4
    linear_combination h4
  set D := star p * (γ * star e * S + δ * C) with hD
  have hγ : γ = D * (p * e * S) := by
    have : D * (p * e * S) = (p * star p) * ((e * star e) * γ * S ^ 2 + δ * C * e * S) := by rw [hD]; ring
    rw [this, hpp, hee]
    linear_combination -γ * hCS + C * hort
  have hδ : δ = D * (p * C) := by
    have h5 : S * star e * (C * γ) = S * (e * star e) * S * δ := by rw [hort]; ring
    rw [hee] at h5
    have : D * (p * C) = (p * star p) * (S * star e * (C * γ) + δ * C ^ 2) := by rw [hD]; ring
    rw [this, hpp, h5]
    linear_combination -δ * hCS
  clear_value D
  refine ⟨x, t, d₁, D, hd1n, ?_, ?_, ?_, ?_, ?_⟩
  · have e1 : Complex.normSq γ = Complex.normSq D * ‖β‖ ^ 2 := by
      conv_lhs => rw [hγ]
      rw [Complex.normSq_mul, Complex.normSq_mul, Complex.normSq_mul, hp, hen, hS, Complex.normSq_ofReal]
      ring
    have e2 : Complex.normSq δ = Complex.normSq D * ‖α‖ ^ 2 := by
      conv_lhs => rw [hδ]
      rw [Complex.normSq_mul, Complex.normSq_mul, hp, hC, Complex.normSq_ofReal]
      ring
    rw [e1, e2] at hn2
    nlinarith
  · simp only [mziCell]
    rw [hcos]
    refine hα.trans ?_
    ring
  · simp only [mziCell]
    rw [hsin]
    refine hβ.trans ?_
    ring
  · simp only [mziCell]
    rw [hsin]
    exact hγ
  · simp only [mziCell]
    rw [hcos]
    exact hδ

/-- An entry of a matrix, by numbers. -/
noncomputable def entryAt {N : ℕ} (f : Matrix (Fin N) (Fin N) ℂ) (i j : ℕ) : ℂ := if h : i < N ∧ j < N then f ⟨i, h.1⟩ ⟨j, h.2⟩ else 0

/-- A row of blocks is a row of interferometers and phases. -/
theorem row_mzi {n l : ℕ} {f : Matrix (Fin (n + 1)) (Fin (n + 1)) ℂ} (hf : f ∈ Blk (n + 1) (layerPair l)) {p : ℕ → ℂ} {w : ℂ}
    (hp : ∀ k, Complex.normSq (p k) = 1) (hw : Complex.normSq w = 1) :
    ∃ (phi theta : ℕ → ℝ) (d : ℕ → ℂ), (∀ k, Complex.normSq (d k) = 1) ∧ ∀ (a : ℕ → ℂ) (k : Fin (n + 1)),
      ∑ j, f k j * a j = d k * rowOut (l % 2) n (fun j => mziCell (p j) (phi j) (theta j)) w a k := by
  have hwne : w ≠ 0 := by rintro rfl; simp at hw
  -- the blocks
  have hpair : ∀ k (hk : k < n), k % 2 = l % 2 → ∀ g : Fin (n + 1) → ℂ,
      (∑ j, f ⟨k, by omega⟩ j * g j = f ⟨k, by omega⟩ ⟨k, by omega⟩ * g ⟨k, by omega⟩ +
        f ⟨k, by omega⟩ ⟨k + 1, by omega⟩ * g ⟨k + 1, by omega⟩) ∧
      (∑ j, f ⟨k + 1, by omega⟩ j * g j = f ⟨k + 1, by omega⟩ ⟨k, by omega⟩ * g ⟨k, by omega⟩ +
        f ⟨k + 1, by omega⟩ ⟨k + 1, by omega⟩ * g ⟨k + 1, by omega⟩) := by
    intro k hk hkl g
    constructor <;>
    · refine Finset.sum_eq_add (⟨k, by omega⟩ : Fin (n + 1)) ⟨k + 1, by omega⟩ (by simp) ?_ (by simp) (by simp)
      intro j _ hj
      rw [mul_eq_zero]
      left
      by_contra hne
      have := hf.2 _ _ hne
      have h1 : (j : ℕ) ≠ k := fun e => hj.1 (Fin.ext e)
      have h2 : (j : ℕ) ≠ k + 1 := fun e => hj.2 (Fin.ext e)
      unfold layerPair at this
      simp only at this
      omega
  have hblock : ∀ k, ∃ (phi theta : ℝ) (d₁ d₂ : ℂ), Complex.normSq d₁ = 1 ∧ Complex.normSq d₂ = 1 ∧ (k < n → k % 2 = l % 2 →
      entryAt f k k = d₁ * (mziCell (p k) phi theta).α ∧ entryAt f k (k + 1) = d₁ * (mziCell (p k) phi theta).β ∧
      entryAt f (k + 1) k = d₂ * (mziCell (p k) phi theta).γ ∧ entryAt f (k + 1) (k + 1) = d₂ * (mziCell (p k) phi theta).δ) := by
    intro k
    by_cases h : k < n ∧ k % 2 = l % 2
    · have e : ∀ i j (hi : i < n + 1) (hj : j < n + 1), entryAt f i j = f ⟨i, hi⟩ ⟨j, hj⟩ := by
        intro i j hi hj
        unfold entryAt
        rw [dif_pos ⟨hi, hj⟩]
      have r1 := unitary_row hf.1 ⟨k, by omega⟩ ⟨k, by omega⟩
      rw [((hpair k h.1 h.2) fun j => star (f ⟨k, by omega⟩ j)).1, if_pos rfl] at r1
      have r2 := unitary_row hf.1 ⟨k + 1, by omega⟩ ⟨k + 1, by omega⟩
      rw [((hpair k h.1 h.2) fun j => star (f ⟨k + 1, by omega⟩ j)).2, if_pos rfl] at r2
      have r3 := unitary_row hf.1 ⟨k + 1, by omega⟩ ⟨k, by omega⟩
      rw [((hpair k h.1 h.2) fun j => star (f ⟨k, by omega⟩ j)).2, if_neg (by simp)] at r3
      obtain ⟨phi, theta, d₁, d₂, h1, h2, h3⟩ := block_mzi (hp k) r1 r2 r3
      refine ⟨phi, theta, d₁, d₂, h1, h2, fun _ _ => ?_⟩
      rw [e k k (by omega) (by omega), e k (k + 1) (by omega) (by omega), e (k + 1) k (by omega) (by omega),
        e (k + 1) (k + 1) (by omega) (by omega)]
      exact h3
    · exact ⟨0, 0, 1, 1, by simp, by simp, fun h1 h2 => absurd ⟨h1, h2⟩ h⟩
  choose phi theta d₁ d₂ hd1 hd2 hb using hblock
  -- the modes which pass
  have hedge : ∀ k : Fin (n + 1), (∀ j : Fin (n + 1), layerPair l k = layerPair l j → j = k) →
      (∀ a : Fin (n + 1) → ℂ, ∑ j, f k j * a j = f k k * a k) ∧ Complex.normSq (f k k) = 1 := by
    intro k hk
    have hs : ∀ a : Fin (n + 1) → ℂ, ∑ j, f k j * a j = f k k * a k := by
      intro a
      refine Finset.sum_eq_single k (fun j _ hj => ?_) (by simp)
      have h0 : f k j = 0 := by
        by_contra hne
        exact hj (hk j (hf.2 k j hne))
      rw [h0, zero_mul]
    refine ⟨hs, ?_⟩
    have := unitary_row hf.1 k k
    rw [hs (fun j => star (f k j)), if_pos rfl] at this
    have h1 : f k k * star (f k k) = (Complex.normSq (f k k) : ℂ) := Complex.mul_conj _
    rw [h1] at this
    exact_mod_cast this
  have hq : ∀ k, entryAt f k k / w * w = entryAt f k k := fun k => div_mul_cancel₀ _ hwne
  set d : ℕ → ℂ := fun k => if k % 2 = l % 2 then (if k < n then d₁ k else if k ≤ n then entryAt f k k / w else 1)
    else if k = 0 then entryAt f 0 0 / w else d₂ (k - 1) with hd
  have hpass : ∀ k : Fin (n + 1), (∀ j : Fin (n + 1), layerPair l k = layerPair l j → j = k) →
      Complex.normSq (entryAt f k k / w) = 1 := by
    intro k hk
    rw [Complex.normSq_div, hw, div_one]
    unfold entryAt
    rw [dif_pos ⟨k.2, k.2⟩]
    exact (hedge k hk).2
  have hlast : n % 2 = l % 2 → ∀ j : Fin (n + 1), layerPair l (⟨n, by omega⟩ : Fin (n + 1)) = layerPair l j → j = ⟨n, by omega⟩ := by
    intro h0 j hj
    apply Fin.ext
    unfold layerPair at hj
    simp only at hj ⊢
    omega
  have hfirst : ¬ 0 % 2 = l % 2 → ∀ j : Fin (n + 1), layerPair l (⟨0, by omega⟩ : Fin (n + 1)) = layerPair l j → j = ⟨0, by omega⟩ := by
    intro h0 j hj
    apply Fin.ext
    unfold layerPair at hj
    simp only at hj ⊢
    omega
  refine ⟨phi, theta, d, ?_, ?_⟩
  · intro k
    simp only [hd]
    split
    · rename_i h1
      split
      · exact hd1 k
      · split
        · have : k = n := by omega
          subst this
          exact hpass _ (hlast h1)
        · simp
    · rename_i h1
      split
      · rename_i h0
        subst h0
        exact hpass _ (hfirst h1)
      · exact hd2 _
  · intro a k
    have hent : ∀ i j : Fin (n + 1), f i j = entryAt f i j := by
      intro i j
      unfold entryAt
      rw [dif_pos ⟨i.2, j.2⟩]
    simp only [hd, rowOut]
    split
    · rename_i h1
      split
      · rename_i h2
        have := ((hpair k h2 h1) fun j => a j).1
        refine this.trans ?_
        rw [hent, hent]
        simp only
        rw [(hb k h2 h1).1, (hb k h2 h1).2.1]
        ring
      · rename_i h2
        have hk : k = ⟨n, Nat.lt_succ_self n⟩ := Fin.ext (by have := k.2; simp only; omega)
        subst hk
        rw [(hedge _ (hlast h1)).1 fun j => a j, if_pos (le_refl _), hent, ← mul_assoc, hq]
    · rename_i h1
      split
      · rename_i h0
        have hk : k = ⟨0, Nat.succ_pos n⟩ := Fin.ext h0
        subst hk
        rw [(hedge _ (hfirst h1)).1 fun j => a j, hent, ← mul_assoc, hq]
      · rename_i h0
        obtain ⟨m, hm⟩ : ∃ m, (k : ℕ) = m + 1 := ⟨k - 1, by omega⟩
        have hmn : m < n := by have := k.2; omega
        have hm2 : m % 2 = l % 2 := by omega
        have hk : k = ⟨m + 1, Nat.succ_lt_succ hmn⟩ := Fin.ext hm
        subst hk
        have := ((hpair m hmn hm2) fun j => a j).2
        refine this.trans ?_
        rw [hent, hent]
        simp only [Nat.add_sub_cancel]
        rw [(hb m hmn hm2).2.2.1, (hb m hmn hm2).2.2.2]
        ring

/-- A brick wall is a number of rows of interferometers, and phases. -/
theorem rows_mzi {n : ℕ} {f : ℕ → Matrix (Fin (n + 1)) (Fin (n + 1)) ℂ} (hf : ∀ l, f l ∈ Blk (n + 1) (layerPair l))
    {p : ℕ → ℕ → ℂ} {w : ℕ → ℂ} (hp : ∀ l k, Complex.normSq (p l k) = 1) (hw : ∀ l, Complex.normSq (w l) = 1) : ∀ K,
    ∃ (phi theta : ℕ → ℕ → ℝ) (d : ℕ → ℂ), (∀ k, Complex.normSq (d k) = 1) ∧ ∀ (a : ℕ → ℂ) (k : Fin (n + 1)),
      ∑ j, layersProd f K k j * a j =
        d k * rowState n (fun l j => mziCell (p l j) (phi l j) (theta l j)) w a K k
  | 0 => by
    refine ⟨fun _ _ => 0, fun _ _ => 0, fun _ => 1, fun _ => by simp, fun a k => ?_⟩
    simp only [layersProd, rowState, Matrix.one_apply, ite_mul, one_mul, zero_mul, Finset.sum_ite_eq, Finset.mem_univ, if_true]
  | K + 1 => by
    obtain ⟨phi, theta, d, hd, h⟩ := rows_mzi hf hp hw K
    have hdiag : Matrix.diagonal (fun k : Fin (n + 1) => d k) ∈ Blk (n + 1) (layerPair K) := by
      refine ⟨?_, ?_⟩
      · rw [Matrix.mem_unitaryGroup_iff, Matrix.star_eq_conjTranspose, Matrix.diagonal_conjTranspose, Matrix.diagonal_mul_diagonal,
          ← Matrix.diagonal_one]
        congr 1
        funext k
        exact conj_of_normSq (hd k)
      · intro j k hjk
        by_cases e : j = k
        · rw [e]
        · exact absurd (Matrix.diagonal_apply_ne _ e) hjk
    obtain ⟨phi', theta', d', hd', h'⟩ := row_mzi (Blk.mul (hf K) hdiag) (hp K) (hw K)
    refine ⟨fun l => if l = K then phi' else phi l, fun l => if l = K then theta' else theta l, d', hd', fun a k => ?_⟩
    have e1 : ∑ j, layersProd f (K + 1) k j * a j =
        ∑ i, (f K * Matrix.diagonal fun k : Fin (n + 1) => d k) k i *
          rowState n (fun l j => mziCell (p l j) (phi l j) (theta l j)) w a K i := by
      simp only [layersProd, Matrix.mul_diagonal]
      simp only [Matrix.mul_apply, Finset.sum_mul]
      rw [Finset.sum_comm]
      refine Finset.sum_congr rfl fun i _ => ?_
      rw [mul_assoc, ← h a i, Finset.mul_sum]
      exact Finset.sum_congr rfl fun j _ => by ring
    rw [e1, h' _ k]
    congr 1
    rw [rowState]
    refine rowOut_congr (by omega) (fun j _ _ => by simp) rfl ?_ k (by have := k.2; omega)
    refine rowState_congr K (fun l hl j _ _ => ?_) fun _ _ => rfl
    simp only [if_neg (show ¬ l = K by omega)]

/-- Every unitary matrix is the matrix of rows of interferometers, as many as there are modes, and phases. -/
theorem rows_universal {n K : ℕ} (hK : n + 1 ≤ K) {U : Matrix (Fin (n + 1)) (Fin (n + 1)) ℂ}
    (hU : U ∈ Matrix.unitaryGroup (Fin (n + 1)) ℂ) {p : ℕ → ℕ → ℂ} {w v : ℕ → ℂ} (hp : ∀ l k, Complex.normSq (p l k) = 1)
    (hw : ∀ l, Complex.normSq (w l) = 1) (hv : ∀ l, Complex.normSq (v l) = 1) :
    ∃ (phi theta : ℕ → ℕ → ℝ) (psi : ℕ → ℝ), ∀ (a : ℕ → ℂ) (k : Fin (n + 1)),
      v k * Complex.exp (psi k * Complex.I) *
          rowState n (fun l j => mziCell (p l j) (phi l j) (theta l j)) w a K k = ∑ j, U k j * a j := by
  obtain ⟨δ, hδ, f, hf, rfl⟩ := brick_universal (Nat.succ_pos n) hK hU
  obtain ⟨phi, theta, d, hd, h⟩ := rows_mzi hf hp hw K
  have hdel : ∀ (k : Fin (n + 1)) (g : Fin (n + 1) → ℂ), ∑ j, δ k j * g j = δ k k * g k := by
    intro k g
    refine Finset.sum_eq_single k (fun j _ hj => ?_) (by simp)
    have h0 : δ k j = 0 := by
      by_contra hne
      exact hj (Fin.ext (hδ.2 k j hne).symm)
    rw [h0, zero_mul]
  have hdn : ∀ k : Fin (n + 1), Complex.normSq (δ k k) = 1 := by
    intro k
    have := unitary_row hδ.1 k k
    rw [hdel k fun j => star (δ k j), if_pos rfl] at this
    have h1 : δ k k * star (δ k k) = (Complex.normSq (δ k k) : ℂ) := Complex.mul_conj _
    rw [h1] at this
    exact_mod_cast this
  have hpsi : ∀ k, ∃ x : ℝ, ∀ h : k < n + 1, v k * Complex.exp (x * Complex.I) = δ ⟨k, h⟩ ⟨k, h⟩ * d k := by
    intro k
    by_cases hk : k < n + 1
    · obtain ⟨x, hx⟩ := exists_phase (hv k) (δ ⟨k, hk⟩ ⟨k, hk⟩ * d k)
      have h1 : ‖δ ⟨k, hk⟩ ⟨k, hk⟩ * d k‖ = 1 := by
        have := hdn ⟨k, hk⟩
        have h2 := hd k
        rw [Complex.normSq_eq_norm_sq] at this h2
        have h3 := norm_nonneg (δ ⟨k, hk⟩ ⟨k, hk⟩)
        have h4 := norm_nonneg (d k)
        rw [norm_mul, show ‖δ ⟨k, hk⟩ ⟨k, hk⟩‖ = 1 by nlinarith, show ‖d k‖ = 1 by nlinarith, one_mul]
      rw [h1, Complex.ofReal_one, mul_one] at hx
      exact ⟨x, fun _ => hx⟩
    · exact ⟨0, fun h => absurd h hk⟩
  choose psi hpsi using hpsi
  refine ⟨phi, theta, psi, fun a k => ?_⟩
  rw [hpsi k k.2]
  have e1 : ∑ j, (δ * layersProd f K) k j * a j = ∑ i, δ k i * ∑ j, layersProd f K i j * a j := by
    simp only [Matrix.mul_apply, Finset.sum_mul, Finset.mul_sum]
    rw [Finset.sum_comm]
    exact Finset.sum_congr rfl fun i _ => Finset.sum_congr rfl fun j _ => by ring
  rw [e1, hdel, h a k]
  ring

end PT
