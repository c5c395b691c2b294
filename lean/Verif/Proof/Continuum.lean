import Mathlib.Analysis.Complex.Basic
import Mathlib.Analysis.Normed.Group.Constructions
import Mathlib.Analysis.Normed.Module.FiniteDimension
import Mathlib.LinearAlgebra.Matrix.ToLin
import Mathlib.LinearAlgebra.Matrix.ToLinearEquiv
import Mathlib.LinearAlgebra.Matrix.NonsingularInverse
import Mathlib.Algebra.Order.Floor.Semiring
import Mathlib.Tactic.Linarith
import Verif.Spec.Continuum

/-! # Circuits in continuous time -/

namespace PT
open Spec Matrix

variable {ι : Type} [Fintype ι] [DecidableEq ι]

theorem mulVec_bound (N : Matrix ι ι ℂ) : ∃ G : ℝ, 0 ≤ G ∧ ∀ x, ‖N *ᵥ x‖ ≤ G * ‖x‖ :=
  ⟨‖(Matrix.toLin' N).toContinuousLinearMap‖, norm_nonneg _, fun x => by
    have h := (Matrix.toLin' N).toContinuousLinearMap.le_opNorm x
    rwa [LinearMap.coe_toContinuousLinearMap', Matrix.toLin'_apply] at h⟩

/-- Without undelayed loops the equations can be solved for the waves at one time. -/
theorem timely_solve {C S : Matrix ι ι ℂ} {τ : ι → ℝ} (h : Timely C S τ) :
    ∃ N M : Matrix ι ι ℂ, ∀ x y u : ι → ℂ, (∀ k, τ k = 0 → y k = x k) →
      (x = C *ᵥ (S *ᵥ y + u) ↔ x = N *ᵥ (fun k => if τ k = 0 then 0 else y k) + M *ᵥ u) := by
  set A : Matrix ι ι ℂ := C * S * Matrix.diagonal fun k => if τ k = 0 then 1 else 0 with hA
  have hAx : ∀ x, A *ᵥ x = C *ᵥ (S *ᵥ fun k => if τ k = 0 then x k else 0) := by
    intro x
    rw [hA, ← Matrix.mulVec_mulVec, ← Matrix.mulVec_mulVec]
    congr 2
    funext k
    rw [Matrix.mulVec_diagonal]
    split <;> simp
  have hdet : (1 - A).det ≠ 0 := by
    intro h0
    obtain ⟨x, hx, hx0⟩ := Matrix.exists_mulVec_eq_zero_iff.2 h0
    rw [Matrix.sub_mulVec, Matrix.one_mulVec, sub_eq_zero, hAx] at hx0
    exact hx (h x hx0)
  have hu : IsUnit (1 - A).det := isUnit_iff_ne_zero.2 hdet
  refine ⟨(1 - A)⁻¹ * (C * S), (1 - A)⁻¹ * C, fun x y u hy => ?_⟩
  have hsplit : S *ᵥ y = S *ᵥ (fun k => if τ k = 0 then x k else 0) + S *ᵥ (fun k => if τ k = 0 then 0 else y k) := by
    rw [← Matrix.mulVec_add]
    congr 1
    funext k
    by_cases hk : τ k = 0
    · simp [hk, hy k hk]
    · simp [hk]
  rw [hsplit, add_assoc, Matrix.mulVec_add C, ← hAx]
  have e : ((1 - A)⁻¹ * (C * S)) *ᵥ (fun k => if τ k = 0 then 0 else y k) + ((1 - A)⁻¹ * C) *ᵥ u =
      (1 - A)⁻¹ *ᵥ (C *ᵥ (S *ᵥ (fun k => if τ k = 0 then 0 else y k) + u)) := by
    rw [← Matrix.mulVec_mulVec, ← Matrix.mulVec_mulVec, ← Matrix.mulVec_mulVec, ← Matrix.mulVec_add, ← Matrix.mulVec_add]
  rw [e]
  constructor
  · intro hx
    have h1 : (1 - A) *ᵥ x = C *ᵥ (S *ᵥ (fun k => if τ k = 0 then 0 else y k) + u) := by
      rw [Matrix.sub_mulVec, Matrix.one_mulVec, sub_eq_iff_eq_add, add_comm]
      exact hx
    rw [← h1, Matrix.mulVec_mulVec, Matrix.nonsing_inv_mul _ hu, Matrix.one_mulVec]
  · intro hx
    have h1 : (1 - A) *ᵥ x = C *ᵥ (S *ᵥ (fun k => if τ k = 0 then 0 else y k) + u) := by
      rw [hx, Matrix.mulVec_mulVec, Matrix.mul_nonsing_inv _ hu, Matrix.one_mulVec]
    rw [Matrix.sub_mulVec, Matrix.one_mulVec, sub_eq_iff_eq_add, add_comm] at h1
    exact h1

theorem least_delay (τ : ι → ℝ) (hτ : ∀ k, 0 ≤ τ k) : ∃ μ : ℝ, 0 < μ ∧ ∀ k, τ k ≠ 0 → μ ≤ τ k := by
  classical
  by_cases h : (Finset.univ.filter fun k => τ k ≠ 0).Nonempty
  · obtain ⟨k₀, hk₀, hmin⟩ := Finset.exists_min_image _ τ h
    exact ⟨τ k₀, lt_of_le_of_ne (hτ _) (Ne.symm (Finset.mem_filter.1 hk₀).2), fun k hk => hmin k (by simp [hk])⟩
  · refine ⟨1, one_pos, fun k hk => absurd ⟨k, by simp [hk]⟩ h⟩

/-- The waves after `j` passes through the delays. -/
noncomputable def passes (N M : Matrix ι ι ℂ) (τ : ι → ℝ) (s : ℝ → ι → ℂ) : ℕ → ℝ → ι → ℂ
  | 0 => fun _ => 0
  | j + 1 => fun t => N *ᵥ (fun k => if τ k = 0 then 0 else passes N M τ s j (t - τ k) k) + M *ᵥ s t

section
variable {N M : Matrix ι ι ℂ} {τ : ι → ℝ} {s : ℝ → ι → ℂ}

theorem passes_dark (hτ : ∀ k, 0 ≤ τ k) (hs : ∀ t ≤ 0, s t = 0) (j : ℕ) : ∀ t ≤ 0, passes N M τ s j t = 0 := by
  induction j with
  | zero => intro t _; rfl
  | succ j ih =>
    intro t ht
    have : (fun k => if τ k = 0 then 0 else passes N M τ s j (t - τ k) k) = 0 := by
      funext k
      rw [ih (t - τ k) (by linarith [hτ k])]
      simp
    show N *ᵥ (fun k => if τ k = 0 then 0 else passes N M τ s j (t - τ k) k) + M *ᵥ s t = 0
    rw [this, hs t ht, Matrix.mulVec_zero, Matrix.mulVec_zero, add_zero]

theorem passes_succ (hτ : ∀ k, 0 ≤ τ k) (hs : ∀ t ≤ 0, s t = 0) {μ : ℝ} (hμ : ∀ k, τ k ≠ 0 → μ ≤ τ k) (j : ℕ) :
    ∀ t ≤ j * μ, passes N M τ s (j + 1) t = passes N M τ s j t := by
  induction j with
  | zero =>
    intro t ht
    have ht : t ≤ 0 := by simpa using ht
    rw [passes_dark hτ hs 1 t ht, passes_dark hτ hs 0 t ht]
  | succ j ih =>
    intro t ht
    show N *ᵥ (fun k => if τ k = 0 then 0 else passes N M τ s (j + 1) (t - τ k) k) + M *ᵥ s t =
      N *ᵥ (fun k => if τ k = 0 then 0 else passes N M τ s j (t - τ k) k) + M *ᵥ s t
    congr 2
    funext k
    by_cases hk : τ k = 0
    · simp [hk]
    · rw [if_neg hk, if_neg hk, ih (t - τ k) (by
        have := hμ k hk
        push_cast at ht
        linarith)]

theorem passes_stable (hτ : ∀ k, 0 ≤ τ k) (hs : ∀ t ≤ 0, s t = 0) {μ : ℝ} (h0 : 0 < μ) (hμ : ∀ k, τ k ≠ 0 → μ ≤ τ k) {t : ℝ} {j : ℕ}
    (ht : t ≤ j * μ) (i : ℕ) : passes N M τ s (j + i) t = passes N M τ s j t := by
  induction i with
  | zero => rfl
  | succ i ih =>
    rw [← ih]
    refine passes_succ hτ hs hμ (j + i) t (ht.trans ?_)
    push_cast
    nlinarith [Nat.cast_nonneg (α := ℝ) i]

theorem passes_lipschitz (L : ℝ) (hL : ∀ t t', ‖s t - s t'‖ ≤ L * |t - t'|) (j : ℕ) :
    ∃ Λ : ℝ, 0 ≤ Λ ∧ ∀ t t', ‖passes N M τ s j t - passes N M τ s j t'‖ ≤ Λ * |t - t'| := by
  have hL0 : 0 ≤ L := by
    have := (norm_nonneg _).trans (hL 1 0)
    simpa using this
  obtain ⟨G, hG, hN⟩ := mulVec_bound N
  obtain ⟨G', hG', hM⟩ := mulVec_bound M
  induction j with
  | zero => exact ⟨0, le_rfl, fun t t' => by simp [passes]⟩
  | succ j ih =>
    obtain ⟨Λ, h0, h⟩ := ih
    refine ⟨G * Λ + G' * L, by positivity, fun t t' => ?_⟩
    have e : passes N M τ s (j + 1) t - passes N M τ s (j + 1) t' =
        N *ᵥ ((fun k => if τ k = 0 then 0 else passes N M τ s j (t - τ k) k) -
          fun k => if τ k = 0 then 0 else passes N M τ s j (t' - τ k) k) + M *ᵥ (s t - s t') := by
      rw [Matrix.mulVec_sub, Matrix.mulVec_sub]
      show (_ + _) - (_ + _) = _
      abel
    rw [e]
    have h1 : ‖(fun k => if τ k = 0 then 0 else passes N M τ s j (t - τ k) k) -
          fun k => if τ k = 0 then 0 else passes N M τ s j (t' - τ k) k‖ ≤ Λ * |t - t'| := by
      rw [pi_norm_le_iff_of_nonneg (by positivity)]
      intro k
      by_cases hk : τ k = 0
      · simp only [Pi.sub_apply, hk, if_true, sub_self, norm_zero]
        positivity
      · simp only [Pi.sub_apply, if_neg hk]
        refine (norm_le_pi_norm (passes N M τ s j (t - τ k) - passes N M τ s j (t' - τ k)) k).trans ((h _ _).trans ?_)
        rw [sub_sub_sub_cancel_right]
    calc _ ≤ ‖_‖ + ‖_‖ := norm_add_le _ _
      _ ≤ G * (Λ * |t - t'|) + G' * (L * |t - t'|) :=
        add_le_add ((hN _).trans (mul_le_mul_of_nonneg_left h1 hG)) ((hM _).trans (mul_le_mul_of_nonneg_left (hL _ _) hG'))
      _ = _ := by ring

end

/-- What flows in continuous time: there is exactly one solution, and it is Lipschitz continuous up to every time. -/
theorem flows_exists {C S : Matrix ι ι ℂ} {τ : ι → ℝ} (hτ : ∀ k, 0 ≤ τ k) (h : Timely C S τ) {s : ℝ → ι → ℂ} (hs : ∀ t ≤ 0, s t = 0)
    {L : ℝ} (hL : ∀ t t', ‖s t - s t'‖ ≤ L * |t - t'|) :
    ∃ a, Flows C S τ s a ∧ (∀ a', Flows C S τ s a' → a' = a) ∧
      ∀ T, ∃ Λ : ℝ, 0 ≤ Λ ∧ ∀ t ≤ T, ∀ t' ≤ T, ‖a t - a t'‖ ≤ Λ * |t - t'| := by
  obtain ⟨N, M, hNM⟩ := timely_solve h
  obtain ⟨μ, h0, hμ⟩ := least_delay τ hτ
  have hstab : ∀ t (j : ℕ), t ≤ j * μ → passes N M τ s j t = passes N M τ s ⌈t / μ⌉₊ t := by
    intro t j ht
    have h1 : ⌈t / μ⌉₊ ≤ j := Nat.ceil_le.2 ((div_le_iff₀ h0).2 ht)
    obtain ⟨i, rfl⟩ := Nat.exists_eq_add_of_le h1
    exact passes_stable hτ hs h0 hμ ((div_le_iff₀ h0).1 (Nat.le_ceil _)) i
  have hceil : ∀ t : ℝ, t ≤ ⌈t / μ⌉₊ * μ := fun t => (div_le_iff₀ h0).1 (Nat.le_ceil _)
  refine ⟨fun t => passes N M τ s ⌈t / μ⌉₊ t, ⟨fun t ht => passes_dark hτ hs _ t ht, fun t => ?_⟩, fun a' ha' => ?_, fun T => ?_⟩
  · refine (hNM _ _ _ fun k hk => by simp only [hk, sub_zero]).2 ?_
    show passes N M τ s ⌈t / μ⌉₊ t = _
    rw [← hstab t (⌈t / μ⌉₊ + 1) ((hceil t).trans (by push_cast; nlinarith))]
    show N *ᵥ (fun k => if τ k = 0 then 0 else passes N M τ s ⌈t / μ⌉₊ (t - τ k) k) + M *ᵥ s t = _
    congr 2
    funext k
    rw [hstab (t - τ k) ⌈t / μ⌉₊ (by linarith [hτ k, hceil t])]
  · have key : ∀ j : ℕ, ∀ t ≤ j * μ, a' t = passes N M τ s j t := by
      intro j
      induction j with
      | zero =>
        intro t ht
        rw [ha'.dark t (by simpa using ht)]
        rfl
      | succ j ih =>
        intro t ht
        refine ((hNM (a' t) (fun k => a' (t - τ k) k) (s t) fun k hk => by rw [hk, sub_zero]).1 (ha'.flow t)).trans ?_
        show _ = N *ᵥ (fun k => if τ k = 0 then 0 else passes N M τ s j (t - τ k) k) + M *ᵥ s t
        congr 2
        funext k
        by_cases hk : τ k = 0
        · simp [hk]
        · rw [if_neg hk, if_neg hk, ih (t - τ k) (by
            have := hμ k hk
            push_cast at ht
            linarith)]
    exact funext fun t => key _ t (hceil t)
  · obtain ⟨Λ, hΛ, hl⟩ := passes_lipschitz (N := N) (M := M) (τ := τ) L hL ⌈T / μ⌉₊
    refine ⟨Λ, hΛ, fun t ht t' ht' => ?_⟩
    show ‖passes N M τ s ⌈t / μ⌉₊ t - passes N M τ s ⌈t' / μ⌉₊ t'‖ ≤ _
    rw [← hstab t _ (ht.trans (hceil T)), ← hstab t' _ (ht'.trans (hceil T))]
    exact hl t t'

theorem round_near {τ dt : ℝ} (hτ : 0 ≤ τ) (hdt : 0 < dt) : |τ - roundSteps (τ / dt) * dt| ≤ dt / 2 := by
  have h0 : 0 ≤ τ / dt := by positivity
  have hn : 0 ≤ ⌊τ / dt + 1 / 2⌋ := Int.floor_nonneg.2 (by linarith)
  have hc : ((roundSteps (τ / dt) : ℕ) : ℝ) = (⌊τ / dt + 1 / 2⌋ : ℝ) := by
    unfold roundSteps
    rw [← Int.cast_natCast, Int.toNat_of_nonneg hn]
  have h1 := Int.floor_le (τ / dt + 1 / 2)
  have h2 := Int.lt_floor_add_one (τ / dt + 1 / 2)
  rw [← hc] at h1 h2
  have e : τ = τ / dt * dt := by field_simp
  rw [abs_le]
  constructor
  · nlinarith
  · nlinarith

/-- The waves at the time steps are those of the circuit in continuous time, up to the time step. -/
theorem steps_near {C S : Matrix ι ι ℂ} {τ : ι → ℝ} (hτ : ∀ k, 0 ≤ τ k) (h : Timely C S τ) {s a : ℝ → ι → ℂ} (ha : Flows C S τ s a)
    {T Λ : ℝ} (hΛ : 0 ≤ Λ) (hl : ∀ t ≤ T, ∀ t' ≤ T, ‖a t - a t'‖ ≤ Λ * |t - t'|) :
    ∃ K : ℝ, 0 ≤ K ∧ ∀ dt, 0 < dt → (∀ k, τ k ≠ 0 → dt ≤ τ k) → ∀ d : ι → ℕ, (∀ k, d k = roundSteps (τ k / dt) ∨ ∀ i, S i k = 0) →
      ∀ n x y, Solves C S d n (fun t => s (t * dt)) x y → ∀ t < n, t * dt ≤ T → ‖x t - a (t * dt)‖ ≤ K * dt := by
  obtain ⟨N, M, hNM⟩ := timely_solve h
  obtain ⟨μ, h0, hμ⟩ := least_delay τ hτ
  obtain ⟨G, hG, hN⟩ := mulVec_bound N
  have key : ∀ j : ℕ, ∃ E : ℝ, 0 ≤ E ∧ ∀ dt, 0 < dt → (∀ k, τ k ≠ 0 → dt ≤ τ k) → ∀ d : ι → ℕ,
      (∀ k, d k = roundSteps (τ k / dt)) → ∀ n x y, Solves C S d n (fun t => s (t * dt)) x y →
      ∀ t < n, t * dt ≤ T → t * dt < j * (μ / 2) → ‖x t - a (t * dt)‖ ≤ E * dt := by
    intro j
    induction j with
    | zero =>
      refine ⟨0, le_rfl, fun dt hdt _ d _ n x y _ t _ _ hlt => ?_⟩
      have : 0 ≤ (t : ℝ) * dt := by positivity
      simp at hlt
      linarith
    | succ j ih =>
      obtain ⟨E, hE, ih⟩ := ih
      refine ⟨G * (E + Λ / 2), by positivity, fun dt hdt hsm d hd n x y hsol t ht hT hlt => ?_⟩
      have hx : x t = C *ᵥ (S *ᵥ (fun k => if τ k = 0 then x t k else delayed d x t k) + s (t * dt)) := by
        refine (hsol.incoming t ht).trans ?_
        rw [hsol.outgoing t ht]
        congr 3
        funext k
        by_cases hk : τ k = 0
        · have h2 : d k = 0 := by
            rw [hd k, hk, zero_div]
            unfold roundSteps
            norm_num
          rw [if_pos hk]
          unfold delayed
          rw [h2]
          simp
        · rw [if_neg hk]
      have e1 := (hNM (x t) _ _ fun k hk => by simp only [if_pos hk]).1 hx
      have e2 := (hNM (a (t * dt)) (fun k => a (t * dt - τ k) k) (s (t * dt)) fun k hk => by rw [hk, sub_zero]).1 (ha.flow _)
      have e3 : x t - a (t * dt) = N *ᵥ ((fun k => if τ k = 0 then 0 else delayed d x t k) -
          fun k => if τ k = 0 then 0 else a (t * dt - τ k) k) := by
        rw [Matrix.mulVec_sub]
        conv_lhs => rw [e1, e2]
        have : (fun k => if τ k = 0 then (0 : ℂ) else if τ k = 0 then x t k else delayed d x t k) =
            fun k => if τ k = 0 then 0 else delayed d x t k := by
          funext k
          split <;> rfl
        rw [this]
        abel
      rw [e3]
      refine (hN _).trans ?_
      rw [mul_assoc]
      refine mul_le_mul_of_nonneg_left ?_ hG
      rw [pi_norm_le_iff_of_nonneg (by positivity)]
      intro k
      by_cases hk : τ k = 0
      · simp only [Pi.sub_apply, hk, if_true, sub_self, norm_zero]
        positivity
      · simp only [Pi.sub_apply, if_neg hk]
        have hr := round_near (hτ k) hdt
        rw [← hd k] at hr
        have hr' := abs_le.1 hr
        have hdk : dt ≤ τ k := hsm k hk
        have hlip : ‖a ((t - d k) * dt) k - a (t * dt - τ k) k‖ ≤ Λ * (dt / 2) := by
          refine (norm_le_pi_norm (a ((t - d k) * dt) - a (t * dt - τ k)) k).trans ((hl _ ?_ _ ?_).trans ?_)
          · have : 0 ≤ (d k : ℝ) * dt := by positivity
            nlinarith
          · linarith [hτ k]
          · refine mul_le_mul_of_nonneg_left ?_ hΛ
            have : (t - d k : ℝ) * dt - (t * dt - τ k) = τ k - d k * dt := by ring
            rw [this]
            exact hr
        have hprev : ‖delayed d x t k - a ((t - d k) * dt) k‖ ≤ E * dt := by
          unfold delayed
          by_cases hle : d k ≤ t
          · rw [if_pos hle]
            have hcast : ((t - d k : ℕ) : ℝ) = t - d k := Nat.cast_sub hle
            have := ih dt hdt hsm d hd n x y hsol (t - d k) (by omega) (by
              rw [hcast]
              have : 0 ≤ (d k : ℝ) * dt := by positivity
              nlinarith) (by
              rw [hcast]
              push_cast at hlt
              have := hμ k hk
              nlinarith)
            rw [hcast] at this
            exact (norm_le_pi_norm (x (t - d k) - a ((t - d k) * dt)) k).trans this
          · rw [if_neg hle, ha.dark _ (by
              have : (t : ℝ) ≤ d k := by exact_mod_cast (not_le.1 hle).le
              nlinarith)]
            simp only [Pi.zero_apply, sub_zero, norm_zero]
            positivity
        calc ‖delayed d x t k - a (t * dt - τ k) k‖
            = ‖(delayed d x t k - a ((t - d k) * dt) k) + (a ((t - d k) * dt) k - a (t * dt - τ k) k)‖ := by
              rw [sub_add_sub_cancel]
          _ ≤ E * dt + Λ * (dt / 2) := (norm_add_le _ _).trans (add_le_add hprev hlip)
          _ = (E + Λ / 2) * dt := by ring
  obtain ⟨E, hE, hkey⟩ := key (⌊T / (μ / 2)⌋₊ + 1)
  refine ⟨E, hE, fun dt hdt hsm d hd n x y hsol t ht hT => hkey dt hdt hsm (fun k => roundSteps (τ k / dt)) (fun _ => rfl) n x y
    ⟨hsol.incoming, fun t ht => (hsol.outgoing t ht).trans ?_⟩ t ht hT ?_⟩
  · -- ports that scatter nothing may be delayed by any number of steps
    congr 1
    funext i
    refine Finset.sum_congr rfl fun k _ => ?_
    show S i k * delayed d x t k = S i k * delayed (fun k => roundSteps (τ k / dt)) x t k
    rcases hd k with h1 | h1
    · unfold delayed
      rw [h1]
    · rw [h1 i, zero_mul, zero_mul]
  have h1 := Nat.lt_floor_add_one (T / (μ / 2))
  rw [div_lt_iff₀ (by positivity)] at h1
  push_cast
  exact hT.trans_lt h1

end PT
