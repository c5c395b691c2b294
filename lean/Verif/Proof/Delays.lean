import Verif.Proof.SimCore

/-!
# Delays in time steps and buffer sizes
-/

namespace PT

open Matrix Spec

variable {W B : Type}

theorem realTrunc_toNat (x : ℝ) : (realTrunc (x + 1 / 2)).toNat = roundSteps x := by
  unfold realTrunc roundSteps
  split
  · rfl
  · rename_i h
    push Not at h
    have h1 : ⌈x + 1 / 2⌉ ≤ 0 := Int.ceil_le.2 (by exact_mod_cast h.le)
    have h2 : ⌊x + 1 / 2⌋ ≤ 0 := Int.floor_le_iff.2 (by push_cast; linarith)
    rw [Int.toNat_of_nonpos h1, Int.toNat_of_nonpos h2]

theorem roundSteps_mono {x y : ℝ} (h : x ≤ y) : roundSteps x ≤ roundSteps y := by
  unfold roundSteps
  exact Int.toNat_le_toNat (Int.floor_le_floor (by linarith))

theorem roundSteps_zero : roundSteps 0 = 0 := by
  unfold roundSteps
  rw [zero_add, Int.toNat_eq_zero, ← Int.lt_add_one_iff, Int.floor_lt]
  norm_num

theorem steps_toNat (p : Plant W) (env : SimEnv) (dt : ℝ) (hdt : env.dt = some dt) (i : Fin p.n) :
    (p.steps env i).toNat = roundSteps (p.seconds env i / dt) := by
  unfold Plant.steps
  rw [hdt]
  exact realTrunc_toNat _

theorem seconds_time (p : Plant W) (env : SimEnv) (hf : env.freqdomain = false) (i : Fin p.n) :
    p.seconds env i = p.delay i := by
  simp [Plant.seconds, hf]

theorem seconds_freq (p : Plant W) (env : SimEnv) (hf : env.freqdomain = true) (i : Fin p.n) :
    p.seconds env i = 0 := by
  simp [Plant.seconds, hf]

theorem steps_freq (p : Plant W) (env : SimEnv) (hf : env.freqdomain = true) (i : Fin p.n) :
    p.steps env i = 0 := by
  unfold Plant.steps
  cases env.dt with
  | none => rfl
  | some dt =>
    simp only [seconds_freq p env hf, zero_div, zero_add, realTrunc]
    rw [if_pos (by norm_num)]
    norm_num

theorem tIdx_succ (s : ℤ) : (max (s - 1) 0).toNat + 1 = max 1 s.toNat := by omega

theorem mcAt_iff (p : Plant W) (env : SimEnv) (i : Fin p.n) :
    p.mcAt env i = true ↔ p.marked i = true ∨ 0 < (p.steps env i).toNat := by
  unfold Plant.mcAt Plant.marked
  rw [Bool.or_eq_true, decide_eq_true_eq]
  constructor
  · rintro (h | h)
    · exact .inl h
    · exact .inr (by omega)
  · rintro (h | h)
    · exact .inl h
    · exact .inr (by omega)

/-- The delay in time steps of every port (0 in the frequency domain). -/
noncomputable def Plant.stepDelay (p : Plant W) (env : SimEnv) (i : Fin p.n) : ℕ :=
  if p.marked i then max 1 (p.steps env i).toNat else (p.steps env i).toNat

theorem stepDelay_time (p : Plant W) (env : SimEnv) (dt : ℝ) (hdt : env.dt = some dt)
    (hf : env.freqdomain = false) (i : Fin p.n) :
    p.stepDelay env i = portDelay dt (p.marked i) (p.delay i) := by
  unfold Plant.stepDelay portDelay
  rw [steps_toNat p env dt hdt, seconds_time p env hf]

theorem stepDelay_mc (p : Plant W) (env : SimEnv) (i : Fin p.n) (h : p.mcAt env i = true) :
    p.stepDelay env i = (max (p.steps env i - 1) 0).toNat + 1 := by
  rw [tIdx_succ]
  unfold Plant.stepDelay
  split
  · rfl
  · rename_i hm
    rcases (mcAt_iff p env i).1 h with h | h
    · exact absurd h hm
    · omega

theorem stepDelay_ml (p : Plant W) (env : SimEnv) (i : Fin p.n) (h : p.mcAt env i = false) :
    p.stepDelay env i = 0 := by
  have h' := mt (mcAt_iff p env i).2 (by rw [h]; simp)
  push Not at h'
  unfold Plant.stepDelay
  rw [if_neg h'.1]
  omega

theorem stepDelay_eq_zero (p : Plant W) (env : SimEnv) (i : Fin p.n) :
    p.stepDelay env i = 0 ↔ p.mcAt env i = false := by
  constructor
  · intro h
    by_contra hc
    rw [Bool.not_eq_false] at hc
    rw [stepDelay_mc p env i hc] at h
    omega
  · exact stepDelay_ml p env i

theorem le_maxReal {n : ℕ} (f : Fin n → ℝ) (i : Fin n) : f i ≤ maxReal f := by
  unfold maxReal
  have : f i ∈ List.ofFn f := by simp [List.mem_ofFn]
  generalize List.ofFn f = l at this
  induction l with
  | nil => simp at this
  | cons x l ih =>
    rcases List.mem_cons.1 this with h | h
    · rw [h]; exact le_max_left _ _
    · exact (ih h).trans (le_max_right _ _)

theorem maxReal_cases {n : ℕ} (f : Fin n → ℝ) : maxReal f = 0 ∨ ∃ i, maxReal f = f i := by
  unfold maxReal
  have : ∀ x ∈ List.ofFn f, ∃ i, x = f i := by
    intro x hx
    obtain ⟨i, rfl⟩ := (List.mem_ofFn' f x).1 hx
    exact ⟨i, rfl⟩
  generalize List.ofFn f = l at this
  induction l with
  | nil => exact .inl rfl
  | cons x l ih =>
    simp only [List.foldr_cons]
    rcases max_choice x (l.foldr max 0) with h | h
    · rw [h]; exact .inr (this x (by simp))
    · rw [h]; exact ih fun y hy => this y (by simp [hy])

/-- Every buffer slot that is read exists. -/
theorem bufferLen_ok (p : Plant W) (env : SimEnv) (C) (hdt : env.freqdomain = true ∨
      ∃ dt, env.dt = some dt ∧ 0 < dt) :
    ∃ len, bufferLen (reducedOf p env C) env = .ok len ∧ 0 < len ∧
      ∀ k, (reducedOf p env C).tIdx k < len := by
  unfold bufferLen
  by_cases hf : env.freqdomain = true
  · rw [if_pos hf]
    refine ⟨1, rfl, one_pos, fun k => ?_⟩
    simp only [reducedOf]
    rw [steps_freq p env hf]
    simp
  · rw [if_neg hf]
    obtain ⟨dt, hdt, hpos⟩ := hdt.resolve_left hf
    rw [hdt]
    refine ⟨_, rfl, Nat.succ_pos _, fun k => ?_⟩
    rw [realTrunc_toNat]
    have h1 : (reducedOf p env C).seconds k ≤ maxReal (reducedOf p env C).seconds := le_maxReal _ k
    have h2 := roundSteps_mono (div_le_div_of_nonneg_right h1 hpos.le)
    have h3 := steps_toNat p env dt hdt ((p.mcOrder env).get k)
    have h4 : (reducedOf p env C).seconds k = p.seconds env ((p.mcOrder env).get k) := rfl
    have h5 : (reducedOf p env C).tIdx k =
      (max (p.steps env ((p.mcOrder env).get k) - 1) 0).toNat := rfl
    rw [h4, ← h3] at h2
    rw [h5]
    omega

/-- The mask and the buffer have the same number of time slots. -/
theorem bufferLen_mask (p : Plant W) (env : SimEnv) (C) (hdt : env.freqdomain = true ∨
      ∃ dt, env.dt = some dt ∧ 0 < dt) :
    bufferLen (reducedOf p env C) env = .ok (reducedOf p env C).maskLen := by
  have hm : (reducedOf p env C).maskLen = maxSteps (p.steps env) + 1 := rfl
  rw [hm]
  unfold bufferLen
  by_cases hf : env.freqdomain = true
  · rw [if_pos hf]
    have hz : maxSteps (p.steps env) = 0 := by
      unfold maxSteps
      rw [← Nat.le_zero, Finset.sup_le_iff]
      intro i _
      rw [steps_freq p env hf]
      simp
    rw [hz]
  · rw [if_neg hf]
    obtain ⟨dt, hdt, hpos⟩ := hdt.resolve_left hf
    rw [hdt]
    simp only
    congr 2
    rw [realTrunc_toNat]
    unfold maxSteps
    apply le_antisymm
    · rcases maxReal_cases (reducedOf p env C).seconds with h | ⟨k, h⟩
      · rw [h, zero_div, roundSteps_zero]; exact Nat.zero_le _
      · rw [h]
        have h3 := steps_toNat p env dt hdt ((p.mcOrder env).get k)
        have h4 : (reducedOf p env C).seconds k = p.seconds env ((p.mcOrder env).get k) := rfl
        rw [h4, ← h3]
        exact Finset.le_sup (f := fun i => (p.steps env i).toNat) (Finset.mem_univ _)
    · apply Finset.sup_le
      intro i _
      by_cases hi : 0 < (p.steps env i).toNat
      · have hmem := (mem_mcOrder p env i).2 ((mcAt_iff p env i).2 (.inr hi))
        obtain ⟨k, hk⟩ := List.get_of_mem hmem
        have h1 : (reducedOf p env C).seconds k ≤ maxReal (reducedOf p env C).seconds := le_maxReal _ k
        have h2 := roundSteps_mono (div_le_div_of_nonneg_right h1 hpos.le)
        have h4 : (reducedOf p env C).seconds k = p.seconds env i := by
          rw [← hk]; rfl
        rw [h4, ← steps_toNat p env dt hdt] at h2
        exact h2
      · omega

end PT
