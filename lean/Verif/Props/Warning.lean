import Verif.Model.Warning
import Verif.Props.TimeDomain
import Verif.Proof.Demo

/-!
# C112: the warning that the time step is too large
-/

namespace PT
open Spec

variable {W : Type}

theorem memory_of (p : Plant W) (env : SimEnv) (h : ∃ i, (p.src i || p.det i || p.act i) = true) : (p.mcPorts env).length ≠ 0 := by
  obtain ⟨i, hi⟩ := h
  have : i ∈ p.mcPorts env := by
    unfold Plant.mcPorts
    rw [List.mem_filter]
    refine ⟨List.mem_finRange i, ?_⟩
    unfold Plant.mcAt
    rw [hi]
    rfl
  intro h0
  rw [List.length_eq_zero_iff.mp h0] at this
  cases this

theorem steps_lt_one {p : Plant W} {env : SimEnv} {dt : ℝ} (hdt : env.dt = some dt) (h0 : 0 < dt) (hf : env.freqdomain = false) {i : Fin p.n}
    (hi : 0 < p.delay i) : p.steps env i < 1 ↔ p.delay i < dt / 2 := by
  unfold Plant.steps Plant.seconds
  rw [hdt, hf]
  simp only [Bool.false_eq_true, if_false, mul_one]
  have hp : 0 ≤ p.delay i / dt + 1 / 2 := by positivity
  rw [realTrunc, if_pos hp, Int.floor_lt]
  push_cast
  constructor
  · intro h
    have : p.delay i / dt < 1 / 2 := by linarith
    rw [div_lt_iff₀ h0] at this
    linarith
  · intro h
    have : p.delay i / dt < 1 / 2 := by rw [div_lt_iff₀ h0]; linarith
    linarith

/-- C112: in the time domain `initialize` of a terminated network with a source, a detector or an active component warns if and only if
some delay is shorter than half a time step (and not zero). -/
theorem C112_time (p : Plant W) (env : SimEnv) (dt : ℝ) (hdt : env.dt = some dt) (h0 : 0 < dt) (hf : env.freqdomain = false)
    (ht : p.terminated) (hs : ∃ i, (p.src i || p.det i || p.act i) = true) :
    p.warns env ↔ ∃ i, 0 < p.delay i ∧ p.delay i < dt / 2 := by
  have hsec : ∀ i, p.seconds env i = p.delay i := by intro i; simp [Plant.seconds, hf]
  constructor
  · rintro ⟨-, -, i, h1, h2⟩
    rw [hsec] at h1
    exact ⟨i, h1, (steps_lt_one hdt h0 hf h1).mp h2⟩
  · rintro ⟨i, h1, h2⟩
    exact ⟨ht, memory_of p env hs, i, by rw [hsec]; exact h1, (steps_lt_one hdt h0 hf h1).mpr h2⟩

example : (demo (1 / 4)).warns demoTime :=
  (C112_time _ demoTime 1 rfl one_pos rfl (demo_terminated _) ⟨(0 : Fin 4), rfl⟩).mpr
    ⟨(1 : Fin 4), (by norm_num : (0 : ℝ) < 1 / 4), (by norm_num : (1 / 4 : ℝ) < 1 / 2)⟩

/-- C112: in the frequency domain, and for networks that are not terminated, there is no warning. -/
theorem C112_frequency (p : Plant W) (env : SimEnv) (h : env.freqdomain = true ∨ ¬p.terminated) : ¬p.warns env := by
  rintro ⟨ht, -, i, h1, -⟩
  rcases h with h | h
  · simp [Plant.seconds, h] at h1
  · exact h ht

example : ¬(demo (1 / 4)).warns demoFreq := C112_frequency _ _ (.inl rfl)

/-- C112: without a warning every delay takes at least one step, and the light is late or early by at most half a step, which is
at most the delay itself. -/
theorem C112_accurate (p : Plant W) (env : SimEnv) (dt : ℝ) (hdt : env.dt = some dt) (h0 : 0 < dt) (hf : env.freqdomain = false)
    (ht : p.terminated) (hs : ∃ i, (p.src i || p.det i || p.act i) = true) (hw : ¬p.warns env) (i : Fin p.n) (hi : 0 < p.delay i) :
    1 ≤ portDelay dt (p.src i || p.det i || p.act i) (p.delay i) ∧
      |(portDelay dt (p.src i || p.det i || p.act i) (p.delay i) : ℝ) * dt - p.delay i| ≤ dt / 2 ∧ dt / 2 ≤ p.delay i := by
  rw [C112_time p env dt hdt h0 hf ht hs] at hw
  push Not at hw
  have hd := hw i hi
  have hx : 1 / 2 ≤ p.delay i / dt := by rw [le_div_iff₀ h0]; linarith
  obtain ⟨h1, h2⟩ := (C28_rounding (p.delay i / dt) _ (by positivity)).mp rfl
  have hr : 1 ≤ roundSteps (p.delay i / dt) := by
    by_contra hc
    have : roundSteps (p.delay i / dt) = 0 := by omega
    rw [this] at h2
    norm_num at h2
    linarith
  have hp : portDelay dt (p.src i || p.det i || p.act i) (p.delay i) = roundSteps (p.delay i / dt) := by
    unfold portDelay
    split <;> omega
  rw [hp]
  refine ⟨hr, ?_, hd⟩
  have e : p.delay i = p.delay i / dt * dt := by field_simp
  have : |(roundSteps (p.delay i / dt) : ℝ) - p.delay i / dt| ≤ 1 / 2 := by rw [abs_le]; constructor <;> linarith
  calc |(roundSteps (p.delay i / dt) : ℝ) * dt - p.delay i| = |(roundSteps (p.delay i / dt) : ℝ) - p.delay i / dt| * dt := by
        conv_lhs => rw [e]
        rw [← sub_mul, abs_mul, abs_of_pos h0]
        field_simp
    _ ≤ 1 / 2 * dt := by gcongr
    _ = dt / 2 := by ring

theorem demo_quiet : ¬(demo (7 / 3)).warns demoTime := by
  rw [C112_time _ demoTime 1 rfl one_pos rfl (demo_terminated _) ⟨(0 : Fin 4), rfl⟩]
  have h : ∀ i : Fin 4, 0 < (![0, 7 / 3, 7 / 3, 0] : Fin 4 → ℝ) i → ¬(![0, 7 / 3, 7 / 3, 0] : Fin 4 → ℝ) i < 1 / 2 := by
    intro i
    fin_cases i <;> norm_num
  exact fun ⟨i, h0, h1⟩ => h i h0 h1

example : |(portDelay 1 false (7 / 3) : ℝ) * 1 - 7 / 3| ≤ 1 / 2 := by
  have := (C112_accurate (demo (7 / 3)) demoTime 1 rfl one_pos rfl (demo_terminated _) ⟨(0 : Fin 4), rfl⟩ demo_quiet (1 : Fin 4)
    (by norm_num : (0 : ℝ) < 7 / 3)).2.1
  exact this

end PT
