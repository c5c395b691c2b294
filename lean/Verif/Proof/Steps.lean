import Verif.Proof.Tolerance
import Verif.Proof.Delays

/-! Simulations depend on delays in time steps only. -/

namespace PT
open Spec Matrix

variable {W : Type}

theorem init_steps (p : Plant W) (del : Fin p.n → ℝ) (env : SimEnv)
    (h : ∀ i, Plant.steps ({ p with delay := del } : Plant W) env i = p.steps env i) (r : Reduced W) (hr : initNet p env = .ok (some r)) :
    ∃ s : Fin r.m → ℝ, initNet ({ p with delay := del } : Plant W) env = .ok (some { r with seconds := s }) := by
  have h' : Plant.steps ({ p with delay := del } : Plant W) env = p.steps env := funext h
  have hmc : Plant.mcAt ({ p with delay := del } : Plant W) env = p.mcAt env := by
    funext i
    unfold Plant.mcAt
    rw [h']
  have ho : Plant.mcOrder ({ p with delay := del } : Plant W) env = p.mcOrder env := by
    unfold Plant.mcOrder Plant.mcPorts
    rw [hmc]
  have hl : Plant.mlPorts ({ p with delay := del } : Plant W) env = p.mlPorts env := by
    unfold Plant.mlPorts
    rw [hmc]
  have hp : Plant.mcPorts ({ p with delay := del } : Plant W) env = p.mcPorts env := by
    unfold Plant.mcPorts
    rw [hmc]
  obtain ⟨C, hC, e⟩ := (initNet_some hr).2
  have ht : ¬ (¬ p.terminated ∨ (p.mcPorts env).length = 0) := by
    intro hn
    unfold initNet at hr
    rw [if_pos hn] at hr
    cases hr
  subst e
  unfold initNet
  rw [if_neg (by rw [hp]; exact ht)]
  unfold reducedOf
  simp only
  generalize Plant.seconds ({ p with delay := del } : Plant W) env = sec
  revert hC C
  rw [h', hl]
  generalize hq : Plant.mcOrder ({ p with delay := del } : Plant W) env = q at *
  subst ho
  intro C hC _
  rw [hC]
  exact ⟨_, rfl⟩

theorem simulate_seconds {B : Type} (r : Reduced W) (s : Fin r.m → ℝ) (cs : List (Actor W B)) (src : ℕ → Fields r.m W B) :
    ∀ ts i buf, simulate ({ r with seconds := s } : Reduced W) cs src ts i buf = simulate r cs src ts i buf
  | [], _, _ => rfl
  | t :: ts, i, buf => by
    unfold simulate
    exact congrArg₂ List.cons rfl (simulate_seconds r s cs src ts _ _)

theorem forward_seconds {B : Type} (r : Reduced W) (s : Fin r.m → ℝ) (env : SimEnv) (cs : List (Actor W B)) (src : ℕ → ℕ → W → B → ℝ × ℝ)
    (h : bufferLen ({ r with seconds := s } : Reduced W) env = bufferLen r env) :
    forwardReduced ({ r with seconds := s } : Reduced W) env cs src = forwardReduced r env cs src := by
  unfold forwardReduced
  rw [h]
  simp only [simulate_seconds]

theorem buffer_init {p : Plant W} {env : SimEnv} {r : Reduced W} (hdt : env.freqdomain = true ∨ ∃ dt, env.dt = some dt ∧ 0 < dt)
    (hr : initNet p env = .ok (some r)) : bufferLen r env = .ok r.maskLen := by
  obtain ⟨-, C, -, rfl⟩ := initNet_some hr
  exact bufferLen_mask p env C hdt

theorem steps_dark (p : Plant W) (del : Fin p.n → ℝ) (env : SimEnv) (hf : env.freqdomain = true) (i : Fin p.n) :
    Plant.steps ({ p with delay := del } : Plant W) env i = p.steps env i := by
  unfold Plant.steps Plant.seconds
  simp only [hf, if_true, mul_zero]

theorem steps_time (p : Plant W) (del : Fin p.n → ℝ) (env : SimEnv) (hf : env.freqdomain = false) (dt : ℝ) (h0 : 0 < dt) (hdt : env.dt = some dt)
    (i : Fin p.n) (h : SameSteps dt (p.delay i) (del i)) : Plant.steps ({ p with delay := del } : Plant W) env i = p.steps env i := by
  obtain ⟨h1, h2, h3⟩ := h
  unfold Plant.steps Plant.seconds
  rw [hdt]
  simp only [hf, Bool.false_eq_true, if_false, mul_one]
  unfold realTrunc
  rw [if_pos (by positivity), if_pos (by positivity), ← round_eq, ← round_eq]
  exact h3

/-- Results in the frequency domain do not depend on delays. -/
theorem results_delay {q : ℝ} {p p' : Plant W} (h : ResultsWithin q p p') (del : Fin p'.n → ℝ) : ResultsWithin q p { p' with delay := del } := by
  intro env hf ht
  obtain ⟨r, r', hr, hr', hB⟩ := h env hf ht
  obtain ⟨s, hs⟩ := init_steps p' del env (steps_dark p' del env hf) r' hr'
  refine ⟨r, _, hr, hs, fun B cs src => ?_⟩
  rw [forward_seconds r' s env cs src (by rw [buffer_init (.inl hf) hs, buffer_init (.inl hf) hr'])]
  exact hB B cs src

/-- Simulations in time depend on delays in time steps only. -/
theorem runs_delay {q dt : ℝ} (h0 : 0 < dt) {p p' : Plant W} (h : RunsWithin q dt p p') (del : Fin p'.n → ℝ)
    (hs : ∀ i, SameSteps dt (p'.delay i) (del i)) : RunsWithin q dt p { p' with delay := del } := by
  intro env hf hdt
  obtain ⟨r, r', hr, hr', hB⟩ := h env hf hdt
  obtain ⟨s, hs⟩ := init_steps p' del env (fun i => steps_time p' del env hf dt h0 hdt i (hs i)) r' hr'
  refine ⟨r, _, hr, hs, fun B cs src => ?_⟩
  rw [forward_seconds r' s env cs src (by rw [buffer_init (.inr ⟨dt, hdt, h0⟩) hs, buffer_init (.inr ⟨dt, hdt, h0⟩) hr'])]
  exact hB B cs src

end PT
