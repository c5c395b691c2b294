import Verif.Props.Agrawal
import Verif.Props.EnvConstruct
import Verif.Props.Numbers

/-!
# Numbers that other theorems only name: default times (C02), parameters of an `AgrawalSoa` (C113), direction of training steps (C122)
-/

namespace PT
open Spec Matrix Gears

/-- C02. Without any argument about time an environment in the time domain has hundred times, ten femtoseconds apart, whatever else is given. -/
theorem C02_default (o : Overrides) (e : Env) (h : Env.make o = .ok e) (h1 : o.dt = none) (h2 : o.samplerate = none) (h3 : o.num_t = none)
    (h4 : o.t0 = none) (h5 : o.t1 = none) (h6 : o.t = none) (hf : e.freqdomain = false) : IsGrid e.t 0 (1 / 10 ^ 14) 100 := by
  obtain ⟨c, br0, t0l, wl0l, t, wl, f, sr, bl, hc, hchk, hbr, ht, htt, htne, hwl, -, -, -, -, -, he⟩ := init_ok h
  subst he
  have hf' : (defaultArgs.update o).freqdomain = false := hf
  rw [hf'] at htt
  simp only [Bool.false_eq_true, if_false] at htt
  subst htt
  have e1 : timeArr (defaultArgs.update o) = .ok (some defaultT) := by
    rw [timeArr_array]
    · simp [Args.update, defaultArgs, h6, arrOf]
    · right
      simp [Supplied, Args.update, defaultArgs, h1, h2, h3, h4, h5]
  rw [e1] at ht
  simp only [Except.ok.injEq, Option.some.injEq] at ht
  subst ht
  refine ⟨by simp [defaultT], fun i hi => ?_⟩
  simp [defaultT, List.getElem?_map, List.getElem?_range hi, mul_comm]

/-- Not vacuous: an environment of which only the wavelength is given. -/
example : ∃ e, Env.make { wl := some (.given (.scalar (13 / 10 ^ 7))) } = .ok e ∧ e.freqdomain = false ∧ e.t[99]? = some (99 / 10 ^ 14) := by
  have h : (match Env.make { wl := some (.given (.scalar (13 / 10 ^ 7))) } with | .ok e => e.freqdomain == false | .error _ => false) = true := by
    decide +kernel
  split at h
  · rename_i e he
    have hf : e.freqdomain = false := by simpa using h
    refine ⟨e, he, hf, ?_⟩
    rw [(C02_default _ e he rfl rfl rfl rfl rfl rfl hf).2 99 (by norm_num)]
    norm_num
  · cases h

variable {W B : Type} {parts : List (Str × Gear W B)} {cs : List Conn}

/-- C113. The rate equation in the parameters of the constructor: carriers are pumped by the current `I`, spread over the volume `L H W`, and
absorbed below the density `N0`; saturation at the energy of a photon per cross section `W H`, confinement, gain coefficient and lifetime. -/
theorem C113_parameters (h : Shut parts cs) (v : ℝ) (wl : W → ℝ) (env : SimEnv) (src : ℕ → ℕ → W → B → ℝ × ℝ)
    {A O : ℕ → W → B → Str → ℕ → ℂ} (hrun : Running parts cs env v wl (signals parts (firstMentions cs) src) A O)
    (x : Str) (dt c : ℝ) (q : Agrawal) (hx : (x, q.gear dt c) ∈ parts) (w : W) (β : B) (hL : 0 < q.L) (hH : 0 < q.H) (hW : 0 < q.W)
    (hN : 0 < q.N0) (htc : 0 < q.tc) : ∃ g : ℕ → ℝ, g 0 = 0 ∧ ∀ t < env.t.length,
      g (t + 1) = g t + dt / q.tc * (q.gamma * q.a * q.L * (q.I * q.tc / (1.6e-19 * (q.L * q.H * q.W)) - q.N0) - g t -
        Complex.normSq (entering env v dt c q A x w β t) * (q.gamma * q.tc * q.a) / (6.626e-34 * c / q.wl * (q.W * q.H)) * (Real.exp (g t) - 1)) ∧
      O t w β x 2 = ⟨(entering env v dt c q A x w β t).re * Real.exp (g t / 2), (entering env v dt c q A x w β t).im⟩ := by
  obtain ⟨h0, hstep⟩ := agrawal_steps h v wl env src hrun x dt c q hx w β
  refine ⟨fun t => (earlier A 1 t w β x 1).re, h0, fun t ht => ⟨?_, (hstep t ht).2⟩⟩
  have e1 : q.g0 * q.L = q.gamma * q.a * q.L * (q.I * q.tc / (1.6e-19 * (q.L * q.H * q.W)) - q.N0) := by
    unfold Agrawal.g0 Agrawal.threshold Agrawal.volume
    field_simp
  have e2 : ∀ p : ℝ, p / q.psat c = p * (q.gamma * q.tc * q.a) / (6.626e-34 * c / q.wl * (q.W * q.H)) := by
    intro p
    unfold Agrawal.psat
    rw [div_div_eq_mul_div, mul_assoc (6.626e-34 * c / q.wl)]
  simp only [(hstep t ht).1, gainStep, e1, e2]

/-- C113. At the current that keeps the carriers at transparency the amplifier does nothing at all, for any light and any time step. -/
theorem C113_transparent (h : Shut parts cs) (v : ℝ) (wl : W → ℝ) (env : SimEnv) (src : ℕ → ℕ → W → B → ℝ × ℝ)
    {A O : ℕ → W → B → Str → ℕ → ℂ} (hrun : Running parts cs env v wl (signals parts (firstMentions cs) src) A O)
    (x : Str) (dt c : ℝ) (q : Agrawal) (hx : (x, q.gear dt c) ∈ parts) (w : W) (β : B) (hL : 0 < q.L) (hH : 0 < q.H) (hW : 0 < q.W)
    (hN : 0 < q.N0) (htc : 0 < q.tc) (hI : q.I * q.tc = 1.6e-19 * (q.L * q.H * q.W) * q.N0) (t : ℕ) (ht : t < env.t.length) :
    O t w β x 2 = entering env v dt c q A x w β t := by
  obtain ⟨g, h0, hg⟩ := C113_parameters h v wl env src hrun x dt c q hx w β hL hH hW hN htc
  have e1 : q.I * q.tc / (1.6e-19 * (q.L * q.H * q.W)) - q.N0 = 0 := by
    rw [hI]
    field_simp
    ring
  have hz : ∀ n ≤ env.t.length, g n = 0 := by
    intro n
    induction n with
    | zero => exact fun _ => h0
    | succ n ih =>
      intro hn
      rw [(hg n (by omega)).1, e1, ih (by omega)]
      simp
  rw [(hg t ht).2, hz t ht.le]
  apply Complex.ext <;> simp

/-- Not vacuous: the default parameters but for the current, between a source and a detector; what is detected is what was sent, later. -/
example (src : ℕ → ℕ → Unit → Unit → ℝ × ℝ) : ∃ (q : Agrawal) (A O : ℕ → Unit → Unit → Str → ℕ → ℂ),
    Running (soaRow 1 3e8 q) queueConns ⟨some 1, false, [0, 1, 2, 3]⟩ 3e8 (fun _ => 1.55e-6)
      (signals (soaRow 1 3e8 q) (firstMentions queueConns) src) A O ∧
    ∀ t < 4, O t () () "a".toList 2 = entering ⟨some 1, false, [0, 1, 2, 3]⟩ 3e8 1 3e8 q A "a".toList () () t := by
  obtain ⟨q, hq⟩ : ∃ q : Agrawal, q = ⟨500e-6, 2e-6, 0.2e-6, 1e24, 2.7e-20, 0.32 / 3, 300e-12, 0.3, 3.75, 1.55e-6⟩ := ⟨_, rfl⟩
  obtain ⟨g, r, out, A, O, -, -, -, -, hrun, -⟩ := soaRow_run (W := Unit) (B := Unit) 1 3e8 q 3e8 (fun _ => 1.55e-6)
    ⟨some 1, false, [0, 1, 2, 3]⟩ rfl one_pos src
  refine ⟨q, A, O, hrun, fun t ht => C113_transparent (soaRow_shut _ _ _) _ _ _ _ hrun _ _ _ q soaRow_mem.2.1 () () ?_ ?_ ?_ ?_ ?_ ?_ t ht⟩ <;>
    rw [hq] <;> norm_num

/-- C122. Away from infinities a training step moves the value of a bounded parameter against the gradient of its weight. -/
theorem C122_descends (w g lr a b : ℝ) (hlr : 0 < lr) (hab : a < b) : ∃ y y' : ℝ, valueNumber (some (w : EReal)) a b = some y ∧
    valueNumber (descend lr (some (w : EReal)) (some (g : EReal))) a b = some y' ∧ (0 < g → y' < y) ∧ (g < 0 → y < y') := by
  have e : descend lr (some (w : EReal)) (some (g : EReal)) = some ((w + -lr * g : ℝ) : EReal) := by
    unfold descend floatAdd floatMul
    simp [← EReal.coe_mul, ← EReal.coe_add, ← EReal.coe_neg]
  have mono : ∀ u v : ℝ, u < v → boundedValue (u : EReal) a b < boundedValue (v : EReal) a b := by
    intro u v huv
    show (b - a) * (1 / (1 + Real.exp (-u))) + a < (b - a) * (1 / (1 + Real.exp (-v))) + a
    have h1 : Real.exp (-v) < Real.exp (-u) := Real.exp_lt_exp.2 (by linarith)
    have h2 : 1 / (1 + Real.exp (-u)) < 1 / (1 + Real.exp (-v)) := one_div_lt_one_div_of_lt (by positivity) (by linarith)
    have h3 := mul_lt_mul_of_pos_left h2 (sub_pos.2 hab)
    linarith
  refine ⟨_, _, rfl, by rw [e]; rfl, fun hg => mono _ _ ?_, fun hg => mono _ _ ?_⟩
  · nlinarith [mul_pos hlr hg]
  · nlinarith [mul_pos hlr (neg_pos.2 hg)]

/-- Not vacuous: a coupling of one half and the gradient 2. -/
example : ∃ y', valueNumber (descend 0.1 (some ((0 : ℝ) : EReal)) (some ((2 : ℝ) : EReal))) 0 1 = some y' ∧ y' < 1 / 2 := by
  obtain ⟨y, y', h1, h2, h3, -⟩ := C122_descends 0 2 0.1 0 1 (by norm_num) (by norm_num)
  refine ⟨y', h2, lt_of_lt_of_eq (h3 (by norm_num)) ?_⟩
  have h1' : some ((1 - 0) * (1 / (1 + Real.exp (-0))) + 0) = some y := h1
  rw [← Option.some.inj h1']
  norm_num

end PT
