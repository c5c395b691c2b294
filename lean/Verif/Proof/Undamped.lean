import Verif.Proof.PartEqs
import Verif.Proof.Settled
import Verif.Props.Modulate

/-!
# Circuits that do not amplify settle at their detectors, damped or not
-/

namespace PT
open Matrix Spec Filter Topology

variable {ι : Type} [Fintype ι] {W : Type}

/-- A delayed sequence with a constant history has at most the energy of the history more. -/
theorem sum_history_le (d : ℕ) (a : ℕ → ℝ) (c : ℝ) (ha : ∀ t, 0 ≤ a t) (hc : 0 ≤ c) (T : ℕ) :
    ∑ t ∈ Finset.range T, (if d ≤ t then a (t - d) else c) ≤ ∑ t ∈ Finset.range T, a t + d * c := by
  have h1 : ∀ t, (if d ≤ t then a (t - d) else c) = (if d ≤ t then a (t - d) else 0) + if t < d then c else 0 := by
    intro t
    by_cases h : d ≤ t
    · rw [if_pos h, if_pos h, if_neg (by omega), add_zero]
    · rw [if_neg h, if_neg h, if_pos (by omega), zero_add]
  simp only [h1]
  rw [Finset.sum_add_distrib]
  refine add_le_add (sum_delayed_le d a ha T) ?_
  rw [← Finset.sum_filter, Finset.sum_const, nsmul_eq_mul]
  refine mul_le_mul_of_nonneg_right ?_ hc
  have : (Finset.filter (fun t => t < d) (Finset.range T)).card ≤ (Finset.range d).card := by
    refine Finset.card_le_card fun t ht => ?_
    rw [Finset.mem_filter] at ht
    exact Finset.mem_range.2 ht.2
  rw [Finset.card_range] at this
  exact_mod_cast this

/-- The total deviation from the steady state at the terminals is at most the energy stored in the steady state. -/
theorem deviation_le [DecidableEq ι] {C : Matrix ι ι ℝ} (hC : Paired C) (S S' : Matrix ι ι ℂ) (hS : Contracts S)
    (term : ι → Bool) (hcol : ∀ j, term j = true → ∀ i, S i j = 0) (d : ι → ℕ)
    (z : ℂ) (hz : ‖z‖ = 1) (hS' : ∀ i j, S' i j = S i j * (z ^ d j)⁻¹) (s a₀ b₀ : ι → ℂ)
    (hstat : SolvesStatic (cx C 0) S' s a₀ b₀) (T : ℕ) (a b : ℕ → ι → ℂ) (h : Solves (cx C 0) S d T (fun t => z ^ t • s) a b) :
    ∑ t ∈ Finset.range T, powerAt term (a t - z ^ t • a₀) ≤ ∑ i, if term i then 0 else d i * Complex.normSq (a₀ i) := by
  set e : ℕ → ι → ℂ := fun t => a t - z ^ t • a₀ with he
  set g : ℕ → ι → ℂ := fun t k => if d k ≤ t then e (t - d k) k else -(z ^ t * ((z ^ d k)⁻¹ * a₀ k)) with hg
  have hz0 : z ≠ 0 := by
    rintro rfl
    rw [norm_zero] at hz
    linarith
  have hzn : ∀ n : ℕ, Complex.normSq (z ^ n) = 1 := by
    intro n
    rw [Complex.normSq_eq_norm_sq, norm_pow, hz, one_pow, one_pow]
  have hSv : S' *ᵥ a₀ = S *ᵥ fun k => (z ^ d k)⁻¹ * a₀ k := by
    funext i
    simp only [Matrix.mulVec, dotProduct]
    exact Finset.sum_congr rfl fun j _ => by rw [hS', mul_assoc]
  have hstep : ∀ t < T, e t = cx C 0 *ᵥ (S *ᵥ g t) := by
    intro t ht
    have h1 : z ^ t • a₀ = cx C 0 *ᵥ (S *ᵥ (z ^ t • fun k => (z ^ d k)⁻¹ * a₀ k) + z ^ t • s) := by
      rw [Matrix.mulVec_smul, ← smul_add, Matrix.mulVec_smul, ← hSv, ← hstat.outgoing, ← hstat.incoming]
    show a t - z ^ t • a₀ = _
    rw [h1, h.incoming t ht, h.outgoing t ht, ← Matrix.mulVec_sub, add_sub_add_right_eq_sub, ← Matrix.mulVec_sub]
    congr 2
    funext k
    simp only [Pi.sub_apply, Pi.smul_apply, smul_eq_mul, delayed, hg, he]
    by_cases hk : d k ≤ t
    · rw [if_pos hk, if_pos hk]
      congr 1
      rw [← mul_assoc, pow_sub₀ _ hz0 hk]
    · rw [if_neg hk, if_neg hk, zero_sub]
  have h1 : ∀ t < T, power (e t) ≤ powerAt (fun i => !term i) (g t) := by
    intro t ht
    rw [hstep t ht, power_paired hC, ← mulVec_mask S term hcol, ← power_mask]
    exact hS _
  have h2 : ∑ t ∈ Finset.range T, power (e t) ≤ ∑ t ∈ Finset.range T, powerAt (fun i => !term i) (g t) :=
    Finset.sum_le_sum fun t ht => h1 t (Finset.mem_range.1 ht)
  have h3 : ∑ t ∈ Finset.range T, powerAt (fun i => !term i) (g t) ≤
      ∑ t ∈ Finset.range T, powerAt (fun i => !term i) (e t) + ∑ i, if term i then 0 else d i * Complex.normSq (a₀ i) := by
    unfold powerAt
    rw [Finset.sum_comm, Finset.sum_comm (s := Finset.range T), ← Finset.sum_add_distrib]
    refine Finset.sum_le_sum fun i _ => ?_
    cases hti : term i with
    | true => simp [hti]
    | false =>
      simp only [hti, Bool.not_false, if_true, Bool.false_eq_true, if_false]
      refine le_trans (le_of_eq ?_) (sum_history_le (d i) (fun t => Complex.normSq (e t i)) (Complex.normSq (a₀ i))
        (fun t => Complex.normSq_nonneg _) (Complex.normSq_nonneg _) T)
      refine Finset.sum_congr rfl fun t _ => ?_
      simp only [hg]
      split
      · rfl
      · rw [Complex.normSq_neg, Complex.normSq_mul, Complex.normSq_mul, Complex.normSq_inv, hzn, hzn, inv_one, one_mul, one_mul]
  have h4 : ∑ t ∈ Finset.range T, power (e t) = ∑ t ∈ Finset.range T, powerAt term (e t) +
      ∑ t ∈ Finset.range T, powerAt (fun i => !term i) (e t) := by
    rw [← Finset.sum_add_distrib]
    exact Finset.sum_congr rfl fun t _ => power_split term (e t)
  linarith

/-- The same for all times. -/
theorem deviation_settles [DecidableEq ι] {C : Matrix ι ι ℝ} (hC : Paired C) (S S' : Matrix ι ι ℂ) (hS : Contracts S)
    (term : ι → Bool) (hcol : ∀ j, term j = true → ∀ i, S i j = 0) (d : ι → ℕ)
    (h0 : ∀ v : ι → ℂ, v = (cx C 0 * S) *ᵥ (fun k => if d k = 0 then v k else 0) → v = 0)
    (z : ℂ) (hz : ‖z‖ = 1) (hS' : ∀ i j, S' i j = S i j * (z ^ d j)⁻¹) (s a₀ b₀ : ι → ℂ)
    (hstat : SolvesStatic (cx C 0) S' s a₀ b₀) (ε : ℝ) (hε : 0 < ε) :
    ∃ N, ∀ T a b, Solves (cx C 0) S d T (fun t => z ^ t • s) a b → ∀ t, N ≤ t → t < T → ∀ i, term i = true →
      ‖a t i - z ^ t * a₀ i‖ < ε := by
  obtain ⟨A, hA⟩ := solution_exists (cx C 0 * S) d h0 (fun t => z ^ t • (cx C 0 *ᵥ s))
  have hAs : ∀ T, Solves (cx C 0) S d T (fun t => z ^ t • s) A (fun t => S *ᵥ delayed d A t + z ^ t • s) := fun T =>
    ⟨fun t _ => by rw [Matrix.mulVec_add, Matrix.mulVec_mulVec, Matrix.mulVec_smul]; exact hA t, fun t _ => rfl⟩
  set E : ℝ := ∑ i, if term i then 0 else d i * Complex.normSq (a₀ i) with hE
  have hbound : ∀ T, ∑ t ∈ Finset.range T, powerAt term (A t - z ^ t • a₀) ≤ E := fun T =>
    deviation_le hC S S' hS term hcol d z hz hS' s a₀ b₀ hstat T A _ (hAs T)
  have hsum : Summable fun t => powerAt term (A t - z ^ t • a₀) :=
    summable_of_sum_range_le (fun t => powerAt_nonneg _ _) hbound
  obtain ⟨N, hN⟩ := Metric.tendsto_atTop.1 hsum.tendsto_atTop_zero (ε ^ 2) (by positivity)
  refine ⟨N, fun T a b h t hNt ht i hi => ?_⟩
  have hu : a t = A t := by
    refine solution_unique (cx C 0 * S) d h0 (fun t => z ^ t • (cx C 0 *ᵥ s)) T a A (fun t ht => ?_) (fun t _ => hA t) t ht
    rw [h.incoming t ht, h.outgoing t ht, Matrix.mulVec_add, Matrix.mulVec_mulVec, Matrix.mulVec_smul]
  have h1 := hN t hNt
  rw [Real.dist_eq, sub_zero, abs_of_nonneg (powerAt_nonneg _ _)] at h1
  have h2 : Complex.normSq ((A t - z ^ t • a₀) i) ≤ powerAt term (A t - z ^ t • a₀) := by
    unfold powerAt
    refine le_trans (le_of_eq ?_) (Finset.single_le_sum (f := fun i => if term i = true then Complex.normSq ((A t - z ^ t • a₀) i) else 0)
      (fun j _ => ?_) (Finset.mem_univ i))
    · simp only [hi, if_true]
    · split
      · exact Complex.normSq_nonneg _
      · exact le_rfl
  rw [hu]
  have h3 : ‖A t i - z ^ t * a₀ i‖ ^ 2 < ε ^ 2 := by
    rw [← Complex.normSq_eq_norm_sq]
    exact lt_of_le_of_lt h2 h1
  exact lt_of_pow_lt_pow_left₀ 2 hε.le h3

/-- A circuit that does not amplify and has no waves without a source has none in any part of it. -/
theorem pick_nullfree [DecidableEq ι] {C : Matrix ι ι ℝ} (hC : Paired C) (S S' : Matrix ι ι ℂ) (hS : Contracts S)
    (hnull : ∀ a : ι → ℂ, a = cx C 0 *ᵥ (S' *ᵥ a) → a = 0) (l : List ι) (hl : l.Nodup) (hS' : ∀ i, ∀ j ∈ l, S' i j = S i j) :
    (1 - pick (cx C 0) l l * pick S l l).det ≠ 0 := by
  refine pick_invertible _ _ l hl fun u y hout hin => hnull u ?_
  have hSu : S' *ᵥ u = S *ᵥ u := by
    funext i
    simp only [Matrix.mulVec, dotProduct]
    refine Finset.sum_congr rfl fun j _ => ?_
    by_cases hj : j ∈ l
    · rw [hS' i j hj]
    · rw [(hout j hj).1, mul_zero, mul_zero]
  have h1 : ∀ i, Complex.normSq (u i) ≤ Complex.normSq ((cx C 0 *ᵥ y) i) := by
    intro i
    by_cases hi : i ∈ l
    · rw [(hin i hi).1]
    · rw [(hout i hi).1, Complex.normSq_zero]
      exact Complex.normSq_nonneg _
  have h2 : ∀ i, Complex.normSq (y i) ≤ Complex.normSq ((S *ᵥ u) i) := by
    intro i
    by_cases hi : i ∈ l
    · rw [(hin i hi).2]
    · rw [(hout i hi).2, Complex.normSq_zero]
      exact Complex.normSq_nonneg _
  have p1 : power u ≤ power y := by
    rw [← power_paired hC y]
    exact Finset.sum_le_sum fun i _ => h1 i
  have p2 : power y ≤ power (S *ᵥ u) := Finset.sum_le_sum fun i _ => h2 i
  have p3 := hS u
  have e1 := (Finset.sum_eq_sum_iff_of_le fun i _ => h1 i).1 (show power u = power (cx C 0 *ᵥ y) by
    rw [power_paired hC]; linarith)
  have e2 := (Finset.sum_eq_sum_iff_of_le fun i _ => h2 i).1 (show power y = power (S *ᵥ u) by linarith)
  have f1 : y = S *ᵥ u := by
    funext i
    by_cases hi : i ∈ l
    · exact (hin i hi).2
    · have := e2 i (Finset.mem_univ i)
      rw [(hout i hi).2, Complex.normSq_zero] at this
      rw [(hout i hi).2, Complex.normSq_eq_zero.1 this.symm]
  have f2 : u = cx C 0 *ᵥ y := by
    funext i
    by_cases hi : i ∈ l
    · exact (hin i hi).1
    · have := e1 i (Finset.mem_univ i)
      rw [(hout i hi).1, Complex.normSq_zero] at this
      rw [(hout i hi).1, Complex.normSq_eq_zero.1 this.symm]
  rw [hSu, ← f1, ← f2]

/-- A circuit that can be initialized in the frequency domain has no waves without a source. -/
theorem freq_nullfree (p : Plant W) (env : SimEnv) (hf : env.freqdomain = true) (hact : ∀ i, p.act i = false)
    (hterm : ∀ w i, (p.src i || p.det i) = true → ∀ j, cx (p.rS w) (p.iS w) i j = 0 ∧ cx (p.rS w) (p.iS w) j i = 0)
    (r : Reduced W) (hr : initNet p env = .ok (some r)) (w : W) (a : Fin p.n → ℂ)
    (ha : a = cx p.C 0 *ᵥ (cx (p.rS w) (p.iS w) *ᵥ a)) : a = 0 := by
  obtain ⟨-, C, hC, -⟩ := initNet_some hr
  have hmk : ∀ i, i ∉ p.mlPorts env ↔ (p.src i || p.det i) = true := by
    intro i
    rw [mem_mlPorts, Bool.not_eq_false, mcAt_iff, steps_freq p env hf]
    unfold Plant.marked
    rw [hact, Bool.or_false]
    simp
  have hu : (fun i => if (p.src i || p.det i) = true then 0 else a i) = 0 := by
    by_contra hne
    have := pick_singular (cx p.C 0) (cx (p.rS w) (p.iS w)) (p.mlPorts env) ((List.nodup_finRange _).filter _)
      (fun i => if (p.src i || p.det i) = true then 0 else a i) (cx (p.rS w) (p.iS w) *ᵥ a) (fun i hi => by
        rw [hmk] at hi
        refine ⟨if_pos hi, ?_⟩
        simp only [Matrix.mulVec, dotProduct]
        exact Finset.sum_eq_zero fun j _ => by rw [(hterm w i hi j).1, zero_mul]) (fun i hi => by
        have hi' : ¬(p.src i || p.det i) = true := fun h => (hmk i).2 h hi
        refine ⟨?_, ?_⟩
        · simp only [if_neg hi']
          exact congrFun ha i
        · simp only [Matrix.mulVec, dotProduct]
          refine Finset.sum_congr rfl fun j _ => ?_
          by_cases hj : (p.src j || p.det j) = true
          · rw [(hterm w j hj i).2, zero_mul, zero_mul]
          · rw [if_neg hj]) hne
    have h2 := (C25_failure p.C p.rS p.iS (p.mcOrder env) (p.mlPorts env) .runtimeError).2 ⟨rfl, w, this⟩
    rw [h2] at hC
    cases hC
  have hz : cx (p.rS w) (p.iS w) *ᵥ a = 0 := by
    funext i
    simp only [Matrix.mulVec, dotProduct, Pi.zero_apply]
    refine Finset.sum_eq_zero fun j _ => ?_
    by_cases hj : (p.src j || p.det j) = true
    · rw [(hterm w j hj i).2, zero_mul]
    · have := congrFun hu j
      simp only [if_neg hj, Pi.zero_apply] at this
      rw [this, mul_zero]
  rw [ha, hz, Matrix.mulVec_zero]

end PT
