import Verif.Props.Threshold

/-!
# C142: circuits with gain that settle
-/

namespace PT
open Spec Matrix

variable {W B : Type}

theorem Spec.Stable.damped {ι : Type} [Fintype ι] {C S : Matrix ι ι ℂ} {d : ι → ℕ} (h : Stable C S d) : Damped C S d :=
  fun z hz a ha => h z hz.ge a ha

/-- C142, for which circuits with gain it holds: if no wave that circulates in the circuit without sources grows or persists, the
detected fields approach the result of the frequency domain, which exists. -/
theorem C142_stable_partial (d : Dev) (hM : MadeOf (fun _ => True) d) (ht : d.comp.terminated = true) (v : ℝ) (wl : W → ℝ) (dt : ℝ)
    (hpos : 0 < dt) (hd : portsWith (d.plant v wl).det ≠ [])
    (hst : ∀ w, Stable (cx (d.plant v wl).C 0) (cx ((d.plant v wl).rS w) ((d.plant v wl).iS w)) (circuitDelay d v wl dt))
    (fenv : SimEnv) (hf : fenv.freqdomain = true) (ht1 : fenv.t.length = 1) (cs' : List (Actor W B)) (amp : ℕ → W → B → ℝ × ℝ) :
    ∃ r' o, initNet (d.plant v wl) fenv = .ok (some r') ∧ forwardReduced r' fenv cs' (fun _ => amp) = .ok [o] ∧ ∀ w b ε, 0 < ε →
      ∃ N, ∀ (ts : List ℝ) (r : Reduced W) (cs : List (Actor W B)), initNet (d.plant v wl) ⟨some dt, false, ts⟩ = .ok (some r) →
        ∃ out, forwardReduced r ⟨some dt, false, ts⟩ cs (fun _ => amp) = .ok out ∧ out.length = ts.length ∧
          ∀ t (h : t < out.length), N ≤ t → CloseUpTo ε 1 (out[t] w b) (o w b) := by
  obtain ⟨r', o, hr', ho, h⟩ := circuit_settles_of d hM ht v wl wl dt hpos hd (fun w => (hst w).damped) (fun w _ => hst w)
    (fun _ => 1) (fun _ => norm_one) (unshifted d v wl dt) fenv hf ht1 cs' amp
  refine ⟨r', o, hr', ho, fun w b ε hε => ?_⟩
  obtain ⟨N, hN⟩ := h w b ε hε
  refine ⟨N, fun ts r cs hr => ?_⟩
  obtain ⟨out, h1, h2, h3⟩ := hN ts r cs hr
  rw [constant_source] at h1
  exact ⟨out, h1, h2, fun t ht hNt => by have := h3 t ht hNt; rwa [one_pow] at this⟩

/-- C142. Feed-forward circuits are such circuits, whatever their gain. -/
theorem C142_feedforward (d : Dev) (hM : MadeOf (fun _ => True) d) (front : ℕ → Bool) (rank : ℕ → ℕ)
    (hff : FeedForward d front rank) (v : ℝ) (wl : W → ℝ) (dt : ℝ) (w : W) :
    Stable (cx (d.plant v wl).C 0) (cx ((d.plant v wl).rS w) ((d.plant v wl).iS w)) (circuitDelay d v wl dt) := by
  intro z _ a ha
  have key : ∀ n (i : Fin d.comp.n), (if front i = true then rank i else topRank d.comp.n rank - rank i) < n → a i = 0 := by
    intro n
    induction n with
    | zero => intro i hi; omega
    | succ n ih =>
      intro i hi
      rw [ha, Matrix.mulVec_mulVec]
      simp only [Matrix.mulVec, dotProduct]
      refine Finset.sum_eq_zero fun j _ => ?_
      by_cases h0 : (cx (d.plant v wl).C 0 * cx ((d.plant v wl).rS w) ((d.plant v wl).iS w)) i j = 0
      · rw [h0, zero_mul]
      · have h1 := ff_rank hM hff v wl w i j h0
        rw [ih j (by omega), mul_zero, mul_zero]
  funext i
  exact key _ i (Nat.lt_succ_self _)

theorem weighted_zero {ι : Type} [Fintype ι] {C S : Matrix ι ι ℂ} (h : LosesWeighted C S) (a u : ι → ℂ)
    (hu : ∀ i, Complex.normSq (u i) ≤ Complex.normSq (a i)) (ha : a = C *ᵥ (S *ᵥ u)) : a = 0 := by
  obtain ⟨μ, hμ, hl⟩ := h
  by_cases h0 : u = 0
  · rw [ha, h0, Matrix.mulVec_zero, Matrix.mulVec_zero]
  · have h1 := hl u h0
    rw [← ha] at h1
    have h2 : ∑ i, μ i * Complex.normSq (u i) ≤ ∑ i, μ i * Complex.normSq (a i) :=
      Finset.sum_le_sum fun i _ => mul_le_mul_of_nonneg_left (hu i) (hμ i).le
    exact absurd h1 (not_lt.mpr h2)

/-- Circuits that lose weighted power are stable, whatever the delays. -/
theorem stable_of_weighted {ι : Type} [Fintype ι] {C S : Matrix ι ι ℂ} (h : LosesWeighted C S) (d : ι → ℕ) : Stable C S d := by
  intro z hz a ha
  refine weighted_zero h a _ (fun i => ?_) ha
  rw [Complex.normSq_mul, Complex.normSq_inv, map_pow, Complex.normSq_eq_norm_sq z]
  have h1 : (1 : ℝ) ≤ (‖z‖ ^ 2) ^ d i := one_le_pow₀ (one_le_pow₀ hz)
  have h2 := Complex.normSq_nonneg (a i)
  have h3 : ((‖z‖ ^ 2) ^ d i)⁻¹ ≤ 1 := inv_le_one_of_one_le₀ h1
  nlinarith

/-- C142. Circuits with gain in which every wave loses power, if the power at the ports is counted with suitable weights: they can be
initialized in every environment, and are such circuits for all step sizes. -/
theorem C142_weighted (d : Dev) (hM : MadeOf (fun _ => True) d) (ht : d.comp.terminated = true) (v : ℝ) (wl : W → ℝ)
    (hd : portsWith (d.plant v wl).det ≠ [])
    (hl : ∀ w, LosesWeighted (cx (d.plant v wl).C 0) (cx ((d.plant v wl).rS w) ((d.plant v wl).iS w))) :
    (∀ env, ∃ r, initNet (d.plant v wl) env = .ok (some r)) ∧
      ∀ dt w, Stable (cx (d.plant v wl).C 0) (cx ((d.plant v wl).rS w) ((d.plant v wl).iS w)) (circuitDelay d v wl dt) := by
  refine ⟨fun env => ?_, fun dt w => stable_of_weighted (hl w) _⟩
  obtain ⟨hc, L, hP, hL⟩ := madeOf_flat hM
  obtain ⟨i, hi⟩ := List.exists_mem_of_ne_nil _ hd
  refine C26_initialized _ env (plant_terminated hc ht v wl) ⟨i, mcAt_of_marked _ env i ?_⟩ fun w => ?_
  · rw [show (d.plant v wl).det i = true from (List.mem_filter.1 hi).2, Bool.or_true]
  obtain ⟨σ, -, hσ⟩ := plant_paired hc ht v wl
  have hCx : ∀ (y : Fin (d.plant v wl).n → ℂ) i, (cx (d.plant v wl).C 0 *ᵥ y) i = y (σ i) := by
    intro y i
    simp only [Matrix.mulVec, dotProduct]
    rw [Finset.sum_eq_single (σ i)]
    · have : cx (d.plant v wl).C 0 i (σ i) = 1 := by
        apply Complex.ext
        · exact (hσ i (σ i)).trans (if_pos rfl)
        · rfl
      rw [this, one_mul]
    · intro j _ hj
      have : cx (d.plant v wl).C 0 i j = 0 := by
        apply Complex.ext
        · exact (hσ i j).trans (if_neg hj)
        · rfl
      rw [this, zero_mul]
    · intro h
      exact absurd (Finset.mem_univ _) h
  refine pick_invertible _ _ _ ((List.nodup_finRange _).filter _) fun u y hout hin => ?_
  by_contra h0
  obtain ⟨μ, hμ, hlt⟩ := hl w
  refine absurd (hlt u h0) (not_lt.mpr (Finset.sum_le_sum fun i _ => mul_le_mul_of_nonneg_left ?_ (hμ i).le))
  rw [hCx]
  by_cases hi : i ∈ (d.plant v wl).mlPorts env
  · rw [(hin i hi).1, hCx]
    by_cases hj : σ i ∈ (d.plant v wl).mlPorts env
    · rw [(hin _ hj).2]
    · rw [(hout _ hj).2, Complex.normSq_zero]
      exact Complex.normSq_nonneg _
  · rw [(hout i hi).1, Complex.normSq_zero]
    exact Complex.normSq_nonneg _

/-- Not vacuous: a loop of an amplifier (threefold amplitude, from port 0 to port 1) and an attenuator (a quarter of the amplitude,
from port 2 to port 3). -/
example : LosesWeighted (!![0, 0, 0, 1; 0, 0, 1, 0; 0, 1, 0, 0; 1, 0, 0, 0] : Matrix (Fin 4) (Fin 4) ℂ)
    !![0, 0, 0, 0; 3, 0, 0, 0; 0, 0, 0, 0; 0, 0, 1 / 4, 0] := by
  refine ⟨![1, 1, 1 / 12, 1], fun i => by fin_cases i <;> norm_num, fun u hu => ?_⟩
  have h : ∃ i, 0 < Complex.normSq (u i) := by
    by_contra h
    push Not at h
    exact hu (funext fun i => Complex.normSq_eq_zero.1 (le_antisymm (h i) (Complex.normSq_nonneg _)))
  have e : ∀ i, 0 ≤ Complex.normSq (u i) := fun i => Complex.normSq_nonneg _
  have e0 := e 0
  have e1 := e 1
  have e2 := e 2
  have e3 := e 3
  have n3 : Complex.normSq 3 = 9 := by
    rw [show (3 : ℂ) = ((3 : ℝ) : ℂ) by norm_num, Complex.normSq_ofReal]; norm_num
  have n4 : Complex.normSq 4 = 16 := by
    rw [show (4 : ℂ) = ((4 : ℝ) : ℂ) by norm_num, Complex.normSq_ofReal]; norm_num
  simp [Fin.sum_univ_four, Matrix.mulVec, dotProduct, n3, n4]
  obtain ⟨i, hi⟩ := h
  fin_cases i <;> dsimp only [Fin.mk_zero, Fin.mk_one, Fin.reduceFinMk, Fin.zero_eta] at hi <;> linarith

/-- Not vacuous: the line of the examples of C66 (whose waveguide may as well amplify). -/
example (v : ℝ) (wl : W → ℝ) (dt : ℝ) (w : W) : ∃ d, mkDev none (exLineDevs .source .detector) (exLineCs.map Conn.text) = .ok d ∧
    d.comp.terminated = true ∧
    Stable (cx (d.plant v wl).C 0) (cx ((d.plant v wl).rS w) ((d.plant v wl).iS w)) (circuitDelay d v wl dt) := by
  obtain ⟨d, d', hd, -, -, -, -, -, ht, hff⟩ := exLine_devs
  exact ⟨d, hd, ht, C142_feedforward d (exLine_made _ _ _ ⟨trivial, rfl⟩ ⟨trivial, rfl⟩ trivial d hd) _ _ hff v wl dt w⟩

end PT
