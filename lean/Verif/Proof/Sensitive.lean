import Verif.Props.Lossy
import Verif.Props.Drift
import Verif.Spec.Sensitive

/-! Proof support for C149: circuits whose scattering matrices are known only approximately. -/

namespace PT
open Spec Matrix

namespace Sens

variable {ι : Type} [Fintype ι]

theorem norm_mulVec (N : Matrix ι ι ℂ) : ∃ K, 0 < K ∧ ∀ v, √(power (N *ᵥ v)) ≤ K * √(power v) := by
  classical
  refine ⟨‖(Matrix.toEuclideanLin N).toContinuousLinearMap‖ + 1, by positivity, fun v => ?_⟩
  rw [sqrt_power, sqrt_power]
  have h := (Matrix.toEuclideanLin N).toContinuousLinearMap.le_opNorm (WithLp.toLp 2 v)
  have e : (Matrix.toEuclideanLin N).toContinuousLinearMap (WithLp.toLp 2 v) = WithLp.toLp 2 (N *ᵥ v) := rfl
  rw [e] at h
  refine h.trans ?_
  have := norm_nonneg (WithLp.toLp 2 v)
  nlinarith

theorem power_neg (v : ι → ℂ) : power (-v) = power v := by
  unfold power
  exact Finset.sum_congr rfl fun i _ => by rw [Pi.neg_apply, Complex.normSq_neg]

/-- The difference between the exact and the perturbed fields. -/
theorem diff_solves {C S S' : Matrix ι ι ℂ} {s a b a' b' : ι → ℂ} (h : SolvesStatic C S s a b) (h' : SolvesStatic C S' s a' b') :
    SolvesStatic C S ((S' - S) *ᵥ a') (a' - a) (b' - b) := by
  constructor
  · rw [Matrix.mulVec_sub, ← h.incoming, ← h'.incoming]
  · rw [Matrix.mulVec_sub, Matrix.sub_mulVec]
    conv_lhs => rw [h.outgoing, h'.outgoing]
    abel

theorem fields_near {C S S' : Matrix ι ι ℂ} {κ ε : ℝ} (hκ : EnhancesBy κ C S) (hε : DeviatesBy ε S S') (h0 : 0 ≤ κ) (hs : κ * ε < 1)
    {s a b a' b' : ι → ℂ} (h : SolvesStatic C S s a b) (h' : SolvesStatic C S' s a' b') :
    √(power (a' - a)) ≤ κ ^ 2 * ε / (1 - κ * ε) * √(power s) := by
  have h1 := hκ _ _ _ (diff_solves h h')
  have h2 := hκ _ _ _ h
  have h3 := hε a'
  have h4 : √(power a') ≤ √(power (a' - a)) + √(power a) := by
    have := sqrt_power_add (a' - a) a
    rwa [sub_add_cancel] at this
  have h5 : √(power (a' - a)) ≤ κ * (ε * √(power a')) := h1.trans (mul_le_mul_of_nonneg_left h3 h0)
  rw [div_mul_eq_mul_div, le_div_iff₀ (by linarith)]
  have hp := Real.sqrt_nonneg (power a')
  have hq := Real.sqrt_nonneg (power (a' - a))
  have hpa := Real.sqrt_nonneg (power a)
  by_cases hke : 0 ≤ κ * ε
  · nlinarith [mul_le_mul_of_nonneg_left h4 hke, mul_le_mul_of_nonneg_left h2 hke]
  · -- then everything vanishes
    have hz : √(power (a' - a)) = 0 := by nlinarith
    have hz' : √(power a') = 0 := by
      by_contra hne
      have : 0 < √(power a') := lt_of_le_of_ne hp (Ne.symm hne)
      nlinarith
    have hza : √(power a) = 0 := by
      have := sqrt_power_add (a - a') a'
      rw [sub_add_cancel, ← neg_sub, power_neg, hz, hz'] at this
      linarith
    have hε0 : ε < 0 := by
      by_contra hn
      exact hke (mul_nonneg h0 (not_lt.mp hn))
    have := hε s
    have hss := Real.sqrt_nonneg (power ((S' - S) *ᵥ s))
    have hs0 : √(power s) = 0 := by
      have := Real.sqrt_nonneg (power s)
      nlinarith
    rw [hz, hs0]; simp

/-- An approximation of a circuit without resonances has none. -/
theorem no_mode {C S S' : Matrix ι ι ℂ} {κ ε : ℝ} (hκ : EnhancesBy κ C S) (hε : DeviatesBy ε S S') (h0 : 0 ≤ κ) (hs : κ * ε < 1)
    (x : ι → ℂ) (hx : C *ᵥ (S' *ᵥ x) = x) : x = 0 := by
  have h1 : SolvesStatic C S ((S' - S) *ᵥ x) x (S' *ᵥ x) := by
    refine ⟨hx.symm, ?_⟩
    rw [Matrix.sub_mulVec]; abel
  have h2 := hκ _ _ _ h1
  have h3 := hε x
  have h4 := Real.sqrt_nonneg (power x)
  have h5 : √(power x) ≤ κ * ε * √(power x) := by
    rw [mul_assoc]; exact h2.trans (mul_le_mul_of_nonneg_left h3 h0)
  have h6 : √(power x) = 0 := by nlinarith
  have h7 : power x = 0 := by
    have hn : 0 ≤ power x := Finset.sum_nonneg fun i _ => Complex.normSq_nonneg _
    exact (Real.sqrt_eq_zero hn).1 h6
  funext i
  exact Complex.normSq_eq_zero.1 ((Finset.sum_eq_zero_iff_of_nonneg fun i _ => Complex.normSq_nonneg (x i)).1 h7 i (Finset.mem_univ i))

/-- Without modes, the part of the circuit that remains when ports that scatter nothing are removed has none. -/
theorem pick_det [DecidableEq ι] {C S : Matrix ι ι ℂ} (l : List ι) (hl : l.Nodup) (hz : ∀ i, i ∉ l → ∀ j, S i j = 0 ∧ S j i = 0)
    (hno : ∀ x, C *ᵥ (S *ᵥ x) = x → x = 0) : (1 - pick C l l * pick S l l).det ≠ 0 := by
  intro hdet
  obtain ⟨x, hx, hx0⟩ := Matrix.exists_mulVec_eq_zero_iff.2 hdet
  apply hx
  rw [Matrix.sub_mulVec, Matrix.one_mulVec, sub_eq_zero, ← Matrix.mulVec_mulVec] at hx0
  have hinj : Function.Injective l.get := List.nodup_iff_injective_get.1 hl
  let ext (y : Fin l.length → ℂ) (i : ι) : ℂ := ∑ k, if l.get k = i then y k else 0
  have ext_get : ∀ y k, ext y (l.get k) = y k := by
    intro y k
    show (∑ k', if l.get k' = l.get k then y k' else 0) = _
    rw [Finset.sum_eq_single k]
    · simp
    · intro k' _ hk'
      rw [if_neg fun e => hk' (hinj e)]
    · simp
  have hpick : ∀ (M : Matrix ι ι ℂ) y k, (pick M l l *ᵥ y) k = (M *ᵥ ext y) (l.get k) := by
    intro M y k
    simp only [pick, Matrix.mulVec, dotProduct, Matrix.submatrix_apply, ext]
    simp only [Finset.mul_sum, mul_ite, mul_zero]
    rw [Finset.sum_comm]
    refine Finset.sum_congr rfl fun k' _ => ?_
    simp
  have hmem : ∀ i, i ∈ l → ∃ k, l.get k = i := fun i hi => List.mem_iff_get.1 hi
  -- vectors that agree on `l` are scattered alike
  have hS : ∀ u v : ι → ℂ, (∀ i ∈ l, u i = v i) → S *ᵥ u = S *ᵥ v := by
    intro u v huv
    funext i
    simp only [Matrix.mulVec, dotProduct]
    refine Finset.sum_congr rfl fun j _ => ?_
    by_cases hj : j ∈ l
    · rw [huv j hj]
    · rw [(hz j hj i).2, zero_mul, zero_mul]
  have hout : ext (pick S l l *ᵥ x) = S *ᵥ ext x := by
    funext i
    by_cases hi : i ∈ l
    · obtain ⟨k, rfl⟩ := hmem i hi
      rw [ext_get, hpick]
    · have h1 : (S *ᵥ ext x) i = 0 := by
        simp only [Matrix.mulVec, dotProduct]
        exact Finset.sum_eq_zero fun j _ => by rw [(hz i hi j).1, zero_mul]
      rw [h1]
      refine Finset.sum_eq_zero fun k _ => if_neg fun e => hi ?_
      rw [← e]
      exact List.get_mem _ _
  set y := C *ᵥ (S *ᵥ ext x) with hy
  have hyx : ∀ i ∈ l, y i = ext x i := by
    intro i hi
    obtain ⟨k, rfl⟩ := hmem i hi
    rw [ext_get, hx0, hpick, hout]
  have h0 := hno y (by rw [hS y (ext x) hyx])
  funext k
  rw [← ext_get x k, ← hyx _ (List.get_mem _ _), h0]
  rfl

/-- Conversely, light circulating in the circuit circulates in that part. -/
theorem no_mode_of_pick [DecidableEq ι] {C S : Matrix ι ι ℂ} (l : List ι) (hl : l.Nodup)
    (hz : ∀ i, i ∉ l → ∀ j, S i j = 0 ∧ S j i = 0) (hdet : (1 - pick C l l * pick S l l).det ≠ 0) (x : ι → ℂ)
    (hx : C *ᵥ (S *ᵥ x) = x) : x = 0 := by
  have hmem : ∀ i, i ∈ l → ∃ k, l.get k = i := fun i hi => List.mem_iff_get.1 hi
  have hinj : Function.Injective l.get := List.nodup_iff_injective_get.1 hl
  have hsum : ∀ (f : ι → ℂ), (∀ i, i ∉ l → f i = 0) → ∑ i, f i = ∑ k, f (l.get k) := by
    intro f hf
    rw [← Finset.sum_subset (Finset.subset_univ (Finset.univ.map ⟨l.get, hinj⟩))]
    · rw [Finset.sum_map]; rfl
    · intro i _ hi
      refine hf i fun h => hi ?_
      obtain ⟨k, rfl⟩ := hmem i h
      exact Finset.mem_map_of_mem _ (Finset.mem_univ k)
  have h1 : (1 - pick C l l * pick S l l) *ᵥ (fun k => x (l.get k)) = 0 := by
    rw [Matrix.sub_mulVec, Matrix.one_mulVec, ← Matrix.mulVec_mulVec, sub_eq_zero]
    funext k
    have e1 : ∀ k, (pick S l l *ᵥ fun k => x (l.get k)) k = (S *ᵥ x) (l.get k) := by
      intro k
      simp only [pick, Matrix.mulVec, dotProduct, Matrix.submatrix_apply]
      exact (hsum (fun j => S (l.get k) j * x j) fun i hi => by rw [(hz i hi _).2, zero_mul]).symm
    have e2 : (pick C l l *ᵥ (pick S l l *ᵥ fun k => x (l.get k))) k = (C *ᵥ (S *ᵥ x)) (l.get k) := by
      rw [show (pick S l l *ᵥ fun k => x (l.get k)) = fun k => (S *ᵥ x) (l.get k) from funext e1]
      simp only [pick, Matrix.mulVec, dotProduct, Matrix.submatrix_apply]
      refine (hsum (fun j => C (l.get k) j * ∑ j', S j j' * x j') fun i hi => ?_).symm
      rw [Finset.sum_eq_zero fun j _ => by rw [(hz i hi j).1, zero_mul], mul_zero]
    rw [e2, hx]
  have h2 : (fun k => x (l.get k)) = 0 := by
    by_contra hne
    exact hdet (Matrix.exists_mulVec_eq_zero_iff.1 ⟨_, hne, h1⟩)
  have h3 : S *ᵥ x = 0 := by
    funext i
    simp only [Matrix.mulVec, dotProduct, Pi.zero_apply]
    refine Finset.sum_eq_zero fun j _ => ?_
    by_cases hj : j ∈ l
    · obtain ⟨k, rfl⟩ := hmem j hj
      rw [congrFun h2 k, Pi.zero_apply, mul_zero]
    · rw [(hz j hj i).2, zero_mul]
  rw [← hx, h3, Matrix.mulVec_zero]

/-- A circuit without modes enhances light only by a certain factor. -/
theorem enhances_of_no_mode [DecidableEq ι] (C S : Matrix ι ι ℂ) (hno : ∀ x, C *ᵥ (S *ᵥ x) = x → x = 0) :
    ∃ κ, 0 < κ ∧ EnhancesBy κ C S := by
  have hdet : IsUnit (1 - C * S).det := by
    rw [isUnit_iff_ne_zero]
    intro h0
    obtain ⟨x, hx, he⟩ := Matrix.exists_mulVec_eq_zero_iff.2 h0
    apply hx
    rw [Matrix.sub_mulVec, Matrix.one_mulVec, sub_eq_zero, ← Matrix.mulVec_mulVec] at he
    exact hno x he.symm
  obtain ⟨K, hK, hb⟩ := norm_mulVec ((1 - C * S)⁻¹ * C)
  refine ⟨K, hK, fun s a b h => ?_⟩
  have e : a = ((1 - C * S)⁻¹ * C) *ᵥ s := by
    have h1 : (1 - C * S) *ᵥ a = C *ᵥ s := by
      rw [Matrix.sub_mulVec, Matrix.one_mulVec, ← Matrix.mulVec_mulVec]
      conv_lhs => arg 1; rw [h.incoming, h.outgoing, Matrix.mulVec_add]
      abel
    rw [← Matrix.mulVec_mulVec, ← h1, Matrix.mulVec_mulVec, Matrix.nonsing_inv_mul _ hdet, Matrix.one_mulVec]
  rw [e]
  exact hb s

/-- If all components absorb a little, light is enhanced little. -/
theorem enhances_of_absorbing [DecidableEq ι] {C : Matrix ι ι ℝ} (hC : Paired C) (S : Matrix ι ι ℂ) (ρ : ℝ) (hρ : ρ < 1)
    (hS : ∀ v, √(power (S *ᵥ v)) ≤ ρ * √(power v)) : EnhancesBy (1 / (1 - ρ)) (cx C 0) S := by
  intro s a b h
  have h1 : √(power a) = √(power b) := by rw [h.incoming, power_paired hC]
  have h2 : √(power b) ≤ √(power (S *ᵥ a)) + √(power s) := by
    conv_lhs => rw [h.outgoing]
    exact sqrt_power_add _ _
  have h3 := hS a
  rw [div_mul_eq_mul_div, one_mul, le_div_iff₀ (by linarith)]
  nlinarith

/-- If light gets further with every component, it is enhanced at most by the number of steps. -/
theorem enhances_of_potential [DecidableEq ι] {C : Matrix ι ι ℝ} (hC : Paired C) (S : Matrix ι ι ℂ) (hS : Contracts S) (φ : ι → ℕ) (D : ℕ)
    (hφ : ∀ i k, (cx C 0 * S) i k ≠ 0 → φ k < φ i) (hD : ∀ i, φ i ≤ D) : EnhancesBy (D + 1) (cx C 0) S := by
  intro s a b h
  set M := cx C 0 * S with hM
  have hMp : ∀ v, √(power (M *ᵥ v)) ≤ √(power v) := fun v => by
    rw [hM, ← Matrix.mulVec_mulVec, power_paired hC]
    exact Real.sqrt_le_sqrt (hS v)
  have ha : a = M *ᵥ a + cx C 0 *ᵥ s := by
    rw [hM, ← Matrix.mulVec_mulVec, ← Matrix.mulVec_add, ← h.outgoing]
    exact h.incoming
  -- the light that has passed at least `k` components
  let far : ℕ → ι → ℂ := fun k => Nat.rec a (fun _ v => M *ᵥ v) k
  have far_succ : ∀ k, far (k + 1) = M *ᵥ far k := fun _ => rfl
  have hfar : ∀ k i, φ i < k → far k i = 0 := by
    intro k
    induction k with
    | zero => intro i hi; omega
    | succ k ih =>
      intro i hi
      rw [far_succ]
      exact mulVec_entry_zero fun j hj => ih j (by have := hφ i j hj; omega)
  let near : ℕ → ι → ℂ := fun k => Nat.rec (cx C 0 *ᵥ s) (fun _ v => M *ᵥ v) k
  have near_succ : ∀ k, near (k + 1) = M *ᵥ near k := fun _ => rfl
  have hnear : ∀ k, √(power (near k)) ≤ √(power s) := by
    intro k
    induction k with
    | zero => show √(power (cx C 0 *ᵥ s)) ≤ _; rw [power_paired hC]
    | succ k ih => rw [near_succ]; exact (hMp _).trans ih
  have hstep : ∀ k, far k = far (k + 1) + near k := by
    intro k
    induction k with
    | zero => exact ha
    | succ k ih =>
      rw [far_succ (k + 1), near_succ, ← Matrix.mulVec_add, ← ih]
  have hsum : ∀ k : ℕ, √(power a) ≤ √(power (far k)) + k * √(power s) := by
    intro k
    induction k with
    | zero => show √(power a) ≤ √(power a) + _; simp
    | succ k ih =>
      have h1 : √(power (far k)) ≤ √(power (far (k + 1))) + √(power (near k)) := by
        conv_lhs => rw [hstep k]
        exact sqrt_power_add _ _
      have := hnear k
      push_cast
      linarith
  have h0 : far (D + 1) = 0 := by
    funext i
    exact hfar (D + 1) i (by have := hD i; omega)
  have h1 := hsum (D + 1)
  rw [h0] at h1
  have h2 : power (0 : ι → ℂ) = 0 := by simp [power]
  rw [h2, Real.sqrt_zero, zero_add] at h1
  push_cast at h1
  exact h1

/-- Errors of entries and of the whole matrix. -/
theorem deviates_of_entries {S S' : Matrix ι ι ℂ} {δ : ℝ} {m : ℕ} (h : EntriesWithin δ m S S') (hδ : 0 ≤ δ) : DeviatesBy (m * δ) S S' := by
  classical
  have hrow : ∀ i, ∑ j, ‖(S' - S) i j‖ ≤ m * δ := by
    intro i
    obtain ⟨J, hJ, hm⟩ := h.row i
    rw [← Finset.sum_subset (Finset.subset_univ J)]
    · refine (Finset.sum_le_card_nsmul J _ δ fun j _ => h.near i j).trans ?_
      rw [nsmul_eq_mul]
      exact mul_le_mul_of_nonneg_right (by exact_mod_cast hJ) hδ
    · intro j _ hj
      have : S' i j = S i j := by
        by_contra hne
        exact hj (hm j hne)
      rw [Matrix.sub_apply, this, sub_self, norm_zero]
  have hcol : ∀ j, ∑ i, ‖(S' - S) i j‖ ≤ m * δ := by
    intro j
    obtain ⟨I, hI, hm⟩ := h.col j
    rw [← Finset.sum_subset (Finset.subset_univ I)]
    · refine (Finset.sum_le_card_nsmul I _ δ fun i _ => h.near i j).trans ?_
      rw [nsmul_eq_mul]
      exact mul_le_mul_of_nonneg_right (by exact_mod_cast hI) hδ
    · intro i _ hi
      have : S' i j = S i j := by
        by_contra hne
        exact hi (hm i hne)
      rw [Matrix.sub_apply, this, sub_self, norm_zero]
  have hmδ : 0 ≤ m * δ := by positivity
  intro v
  set E := S' - S with hE
  have hentry : ∀ i, Complex.normSq ((E *ᵥ v) i) ≤ (m * δ) * ∑ j, ‖E i j‖ * Complex.normSq (v j) := by
    intro i
    have h1 : ‖(E *ᵥ v) i‖ ≤ ∑ j, ‖E i j‖ * ‖v j‖ := by
      simp only [Matrix.mulVec, dotProduct]
      refine (norm_sum_le _ _).trans (Finset.sum_le_sum fun j _ => by rw [norm_mul])
    have h2 : (∑ j, ‖E i j‖ * ‖v j‖) ^ 2 ≤ (∑ j, ‖E i j‖) * ∑ j, ‖E i j‖ * ‖v j‖ ^ 2 := by
      refine Finset.sum_sq_le_sum_mul_sum_of_sq_eq_mul _ (fun j _ => norm_nonneg _) (fun j _ => by positivity) fun j _ => by ring
    rw [Complex.normSq_eq_norm_sq]
    have h3 : ‖(E *ᵥ v) i‖ ^ 2 ≤ (∑ j, ‖E i j‖ * ‖v j‖) ^ 2 := pow_le_pow_left₀ (norm_nonneg _) h1 2
    refine (h3.trans h2).trans ?_
    have h4 : 0 ≤ ∑ j, ‖E i j‖ * ‖v j‖ ^ 2 := Finset.sum_nonneg fun j _ => by positivity
    refine (mul_le_mul_of_nonneg_right (hrow i) h4).trans (le_of_eq ?_)
    simp only [Complex.normSq_eq_norm_sq]
  have htotal : power (E *ᵥ v) ≤ (m * δ) ^ 2 * power v := by
    unfold power
    refine (Finset.sum_le_sum fun i _ => hentry i).trans ?_
    rw [← Finset.mul_sum, Finset.sum_comm, sq, mul_assoc (m * δ) (m * δ)]
    refine mul_le_mul_of_nonneg_left ?_ hmδ
    rw [Finset.mul_sum]
    refine Finset.sum_le_sum fun j _ => ?_
    rw [← Finset.sum_mul]
    exact mul_le_mul_of_nonneg_right (hcol j) (Complex.normSq_nonneg _)
  have hpv : 0 ≤ power v := Finset.sum_nonneg fun i _ => Complex.normSq_nonneg _
  refine (Real.sqrt_le_sqrt htotal).trans (le_of_eq ?_)
  rw [Real.sqrt_mul (sq_nonneg _), Real.sqrt_sq hmδ]

end Sens

end PT
