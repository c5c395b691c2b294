import Verif.Proof.SimSolve
import Verif.Proof.Demo

/-!
# C26, C27, C28, C36: simulation solves the circuit equations
-/

namespace PT

open Matrix Spec

variable {W B : Type}

/-- When `initialize` succeeds: every port is connected, there is a source, a detector, an active port or
a port with delay, and the circuit of the ports without delay is not resonant at any wavelength. -/
theorem C26_initialized (p : Plant W) (env : SimEnv) (hT : p.terminated)
    (hm : ∃ i, p.mcAt env i = true)
    (hdet : ∀ w, (1 - pick (cx p.C 0) (p.mlPorts env) (p.mlPorts env) *
      pick (cx (p.rS w) (p.iS w)) (p.mlPorts env) (p.mlPorts env)).det ≠ 0) :
    ∃ r, initNet p env = .ok (some r) := by
  unfold initNet
  obtain ⟨i, hi⟩ := hm
  have hne : (p.mcPorts env).length ≠ 0 := by
    rw [Ne, List.length_eq_zero_iff]
    apply List.ne_nil_of_mem (a := i)
    simp [Plant.mcPorts, hi]
  rw [if_neg (by push Not; exact ⟨hT, hne⟩)]
  cases hr : reducedC p.C p.rS p.iS (p.mcOrder env) (p.mlPorts env) with
  | ok C => exact ⟨_, rfl⟩
  | error e =>
    obtain ⟨-, w, hw⟩ := (C25_failure _ _ _ _ _ _).1 hr
    exact absurd hw (hdet w)

/-- C26: with no active components and no coupling between delayed and undelayed ports, `forward` returns for
every step, wavelength and batch the incoming waves at the detectors of the solution of the circuit equations;
there is one, and all solutions agree at the detectors. -/
theorem C26_time_domain (p : Plant W) (env : SimEnv) (dt : ℝ) (hdt : env.dt = some dt) (hpos : 0 < dt)
    (hf : env.freqdomain = false) (hx : p.Exclusive) (hact : ∀ i, p.act i = false)
    (hd : portsWith p.det ≠ []) (d : Fin p.n → ℕ)
    (hdelay : ∀ i, d i = portDelay dt (p.src i || p.det i) (p.delay i))
    (hmix : ∀ w i j, d i = 0 → d j ≠ 0 →
      cx (p.rS w) (p.iS w) i j = 0 ∧ cx (p.rS w) (p.iS w) j i = 0)
    (r : Reduced W) (hr : initNet p env = .ok (some r))
    (cs : List (Actor W B)) (src : ℕ → ℕ → W → B → ℝ × ℝ) :
    ∃ out, forwardReduced r env cs src = .ok out ∧ out.length = env.t.length ∧
      ∀ w b, (∃ a b', Solves (cx p.C 0) (cx (p.rS w) (p.iS w)) d env.t.length
          (fun t => emitted p.src fun k => ⟨(src t k w b).1, (src t k w b).2⟩) a b') ∧
        ∀ a b', Solves (cx p.C 0) (cx (p.rS w) (p.iS w)) d env.t.length
          (fun t => emitted p.src fun k => ⟨(src t k w b).1, (src t k w b).2⟩) a b' →
          ∀ t (ht : t < out.length),
            out[t] w b = (portsWith p.det).map fun i => ((a t i).re, (a t i).im) := by
  have hd' : p.numDet ≠ 0 := by
    rw [numDet_eq, Ne, List.length_eq_zero_iff]; exact hd
  have hde : d = p.stepDelay env := by
    funext i
    rw [hdelay i, stepDelay_time p env dt hdt hf]
    simp [Plant.marked, hact i]
  subst hde
  exact sim_correct p env hx hact hd' (.inr ⟨dt, hdt, hpos⟩) (fun w i j h1 h2 => hmix w i j h1 h2) r hr cs src

/-- The demo circuit is initialized in both kinds of environment. -/
theorem demo_init (τ : ℝ) (env : SimEnv) : ∃ r, initNet (demo τ) env = .ok (some r) :=
  C26_initialized (demo τ) env (demo_terminated τ) (demo_mc τ env) (demo_solvable τ env)

/-- A circuit with a waveguide delay of 7/4 steps and one without delay meet the hypotheses. -/
example (τ : ℝ) (_ : τ = 7 / 4 ∨ τ = 0) (src : ℕ → ℕ → Unit → Unit → ℝ × ℝ) :
    ∃ r out, initNet (demo τ) demoTime = .ok (some r) ∧
      forwardReduced r demoTime [] src = .ok out ∧ out.length = 3 := by
  obtain ⟨r, hr⟩ := demo_init τ demoTime
  obtain ⟨out, ho, hl, -⟩ := C26_time_domain (demo τ) demoTime 1 rfl one_pos rfl (demo_exclusive τ)
    (fun _ => rfl) (demo_det_ne τ) (demoDelay τ) (demo_delay τ) (demo_mix τ) r hr [] src
  exact ⟨r, out, hr, ho, hl⟩

theorem solves_one_iff {n : ℕ} (C S : Matrix (Fin n) (Fin n) ℂ) (d : Fin n → ℕ)
    (hz : ∀ j, d j ≠ 0 → ∀ i, S i j = 0) (s a b : ℕ → Fin n → ℂ) :
    Solves C S d 1 s a b ↔ SolvesStatic C S (s 0) (a 0) (b 0) := by
  have key : S *ᵥ delayed d a 0 = S *ᵥ a 0 := by
    funext i
    simp only [Matrix.mulVec, dotProduct, delayed]
    apply Finset.sum_congr rfl
    intro j _
    by_cases hj : d j = 0
    · simp [hj]
    · simp [hz j hj i]
  constructor
  · intro h
    exact ⟨h.incoming 0 one_pos, by rw [← key]; exact h.outgoing 0 one_pos⟩
  · intro h
    refine ⟨fun t ht => ?_, fun t ht => ?_⟩ <;> obtain rfl : t = 0 := by omega
    · exact h.incoming
    · rw [key]; exact h.outgoing

/-- C27: in the frequency domain (where the environment has a single time sample, `C11_freqdomain`), if the
terminals do not scatter, `forward` returns the incoming waves at the detectors of the solution of the
steady-state equations `a = C b`, `b = S a + s`; there is one, and all solutions agree at the detectors. -/
theorem C27_freq_domain (p : Plant W) (env : SimEnv) (hf : env.freqdomain = true) (ht1 : env.t.length = 1)
    (hx : p.Exclusive) (hact : ∀ i, p.act i = false) (hd : portsWith p.det ≠ [])
    (hterm : ∀ w i, (p.src i || p.det i) = true → ∀ j,
      cx (p.rS w) (p.iS w) i j = 0 ∧ cx (p.rS w) (p.iS w) j i = 0)
    (r : Reduced W) (hr : initNet p env = .ok (some r))
    (cs : List (Actor W B)) (src : ℕ → ℕ → W → B → ℝ × ℝ) :
    ∃ o, forwardReduced r env cs src = .ok [o] ∧
      ∀ w b, (∃ a b', SolvesStatic (cx p.C 0) (cx (p.rS w) (p.iS w))
          (emitted p.src fun k => ⟨(src 0 k w b).1, (src 0 k w b).2⟩) a b') ∧
        ∀ a b', SolvesStatic (cx p.C 0) (cx (p.rS w) (p.iS w))
          (emitted p.src fun k => ⟨(src 0 k w b).1, (src 0 k w b).2⟩) a b' →
          o w b = (portsWith p.det).map fun i => ((a i).re, (a i).im) := by
  have hd' : p.numDet ≠ 0 := by
    rw [numDet_eq, Ne, List.length_eq_zero_iff]; exact hd
  have hdel : ∀ j, p.stepDelay env j ≠ 0 → (p.src j || p.det j) = true := by
    intro j hj
    unfold Plant.stepDelay at hj
    rw [steps_freq p env hf] at hj
    by_contra hc
    have : p.marked j = false := by
      unfold Plant.marked
      rw [hact j]
      simpa using hc
    rw [this] at hj
    simp at hj
  have hz : ∀ w j, p.stepDelay env j ≠ 0 → ∀ i, p.Sx w i j = 0 := fun w j hj i =>
    (hterm w j (hdel j hj) i).2
  obtain ⟨out, ho, hl, hsol⟩ := sim_correct p env hx hact hd' (.inl hf)
    (fun w i j _ hj => ⟨(hterm w j (hdel j hj) i).2, (hterm w j (hdel j hj) i).1⟩) r hr cs src
  rw [ht1] at hl hsol
  obtain ⟨o, rfl⟩ := List.length_eq_one_iff.1 hl
  refine ⟨o, ho, fun w b => ⟨?_, ?_⟩⟩
  · obtain ⟨⟨a, b', h⟩, -⟩ := hsol w b
    exact ⟨a 0, b' 0, (solves_one_iff _ _ _ (hz w) _ _ _).1 h⟩
  · intro a b' h
    exact (hsol w b).2 (fun _ => a) (fun _ => b') ((solves_one_iff _ _ _ (hz w) _ _ _).2 h) 0 (by simp)

example (src : ℕ → ℕ → Unit → Unit → ℝ × ℝ) :
    ∃ r o, initNet (demo 2) demoFreq = .ok (some r) ∧
      forwardReduced r demoFreq [] src = .ok [o] := by
  obtain ⟨r, hr⟩ := demo_init 2 demoFreq
  obtain ⟨o, ho, -⟩ := C27_freq_domain (demo 2) demoFreq rfl rfl (demo_exclusive 2)
    (fun _ => rfl) (demo_det_ne 2) (demo_S_zero 2) r hr [] src
  exact ⟨r, o, hr, ho⟩

/-- C28: the number of steps between a wave entering node `k` of the reduced network and its being scattered
(`tIdx k + 1`, slot 0 of the buffer being one step old) is the delay of the port rounded to time steps, at
least one. -/
theorem C28_steps (p : Plant W) (env : SimEnv) (dt : ℝ) (hdt : env.dt = some dt)
    (hf : env.freqdomain = false) (r : Reduced W) (hr : initNet p env = .ok (some r)) :
    ∃ ports : List (Fin p.n), ∃ hm : r.m = ports.length,
      (∀ i, i ∈ ports ↔ portDelay dt (p.src i || p.det i || p.act i) (p.delay i) ≠ 0) ∧
      ∀ k : Fin r.m, r.tIdx k + 1 =
        portDelay dt (p.src (ports.get (k.cast hm)) || p.det (ports.get (k.cast hm)) ||
          p.act (ports.get (k.cast hm))) (p.delay (ports.get (k.cast hm))) := by
  obtain ⟨-, C, -, rfl⟩ := initNet_some hr
  refine ⟨p.mcOrder env, rfl, fun i => ?_, fun k => ?_⟩
  · rw [mem_mcOrder]
    have h1 := stepDelay_time p env dt hdt hf i
    have h2 := stepDelay_eq_zero p env i
    unfold Plant.marked at h1
    rw [← h1, Ne, h2]
    simp
  · have h1 := stepDelay_time p env dt hdt hf ((p.mcOrder env).get k)
    unfold Plant.marked at h1
    refine Eq.trans ?_ h1
    exact (stepDelay_mc p env _ ((mem_mcOrder p env _).1 (List.get_mem _ k))).symm

example : ∃ r, initNet (demo 2) demoTime = .ok (some r) ∧ demoTime.dt = some 1 ∧
    demoTime.freqdomain = false ∧ portDelay 1 false 2 = 2 ∧ portDelay 1 true 0 = 1 := by
  obtain ⟨r, hr⟩ := demo_init 2 demoTime
  refine ⟨r, hr, rfl, rfl, ?_, ?_⟩
  · simp [portDelay, roundSteps]; norm_num; rfl
  · simp [portDelay, roundSteps]; norm_num

/-- C28: the simulation buffer has exactly as many slots as the mask, so that no sample is lost that is still
needed, and none is missing. -/
theorem C28_buffer_size (p : Plant W) (env : SimEnv)
    (hdt : env.freqdomain = true ∨ ∃ dt, env.dt = some dt ∧ 0 < dt)
    (r : Reduced W) (hr : initNet p env = .ok (some r)) :
    bufferLen r env = .ok r.maskLen ∧ ∀ k, r.tIdx k < r.maskLen := by
  obtain ⟨-, C, -, rfl⟩ := initNet_some hr
  have h1 := bufferLen_mask p env C hdt
  obtain ⟨len, h2, -, h3⟩ := bufferLen_ok p env C hdt
  rw [h1] at h2
  cases h2
  exact ⟨h1, h3⟩

example : ∃ r, initNet (demo 2) demoTime = .ok (some r) ∧ bufferLen r demoTime = .ok r.maskLen := by
  obtain ⟨r, hr⟩ := demo_init 2 demoTime
  exact ⟨r, hr, (C28_buffer_size _ _ (.inr ⟨1, rfl, one_pos⟩) r hr).1⟩

/-- C28: rounding is to the nearest integer, halves up. -/
theorem C28_rounding (x : ℝ) (n : ℕ) (h0 : 0 ≤ x) :
    roundSteps x = n ↔ (n : ℝ) - 1 / 2 ≤ x ∧ x < n + 1 / 2 := by
  unfold roundSteps
  have hnn : 0 ≤ ⌊x + 1 / 2⌋ := Int.floor_nonneg.2 (by linarith)
  have : ⌊x + 1 / 2⌋.toNat = n ↔ ⌊x + 1 / 2⌋ = (n : ℤ) := by omega
  rw [this, Int.floor_eq_iff]
  push_cast
  constructor <;> rintro ⟨h1, h2⟩ <;> constructor <;> linarith

example : roundSteps (5 / 2) = 3 ∧ roundSteps (7 / 3) = 2 :=
  ⟨(C28_rounding _ 3 (by norm_num)).2 (by norm_num), (C28_rounding _ 2 (by norm_num)).2 (by norm_num)⟩

/-- C36: the nodes of the reduced network are the source ports in port order, then active ports and other ports,
then the detector ports in port order; source channel `k` is added at node `k` and nothing else is added anywhere,
and what is detected are the last nodes - whatever components, delays and active ports lie between. -/
theorem C36_channels (p : Plant W) (env : SimEnv) (hx : p.Exclusive) (hd : portsWith p.det ≠ [])
    (r : Reduced W) (hr : initNet p env = .ok (some r)) :
    ∃ (ports : List (Fin p.n)) (mid : List (Fin p.n)) (hm : r.m = ports.length),
      ports = portsWith p.src ++ mid ++ portsWith p.det ∧ ports.Nodup ∧
      (∀ i ∈ mid, p.src i = false ∧ p.det i = false) ∧
      (∀ (s : ℕ → W → B → ℝ × ℝ) w b (k : Fin r.m),
        (⟨(padSource r.m r.numSrc s).re w k b, (padSource r.m r.numSrc s).im w k b⟩ : ℂ) =
          emitted p.src (fun c => ⟨(s c w b).1, (s c w b).2⟩) (ports.get (k.cast hm))) ∧
      ∀ (x : Fields r.m W B) w b (a : Fin p.n → ℂ),
        (∀ k : Fin r.m, a (ports.get (k.cast hm)) = ⟨x.re w k b, x.im w k b⟩) →
        detectNodes r.numDet x w b = (portsWith p.det).map fun i => ((a i).re, (a i).im) := by
  obtain ⟨-, C, -, rfl⟩ := initNet_some hr
  have hd' : p.numDet ≠ 0 := by
    rw [numDet_eq, Ne, List.length_eq_zero_iff]; exact hd
  obtain ⟨mid, hmid⟩ := mcOrder_eq p env
  have hnd := mcOrder_nodup p env hx
  refine ⟨p.mcOrder env, mid, rfl, hmid, hnd, ?_, ?_, ?_⟩
  · intro i hi
    rw [hmid, List.nodup_append, List.nodup_append] at hnd
    constructor
    · by_contra hc
      rw [Bool.not_eq_false] at hc
      exact hnd.1.2.2 i (by simp [portsWith, hc]) i hi rfl
    · by_contra hc
      rw [Bool.not_eq_false] at hc
      exact hnd.2.2 i (by simp [hi]) i (by simp [portsWith, hc]) rfl
  · intro s w b k
    exact congrFun (padSource_val p env hx s w b) k
  · intro x w b a ha
    exact detectNodes_eq p env hd' x w b a (funext ha)

example : (demo 2).Exclusive ∧ portsWith (demo 2).det ≠ [] ∧
    ∃ r, initNet (demo 2) demoTime = .ok (some r) :=
  ⟨demo_exclusive 2, demo_det_ne 2, demo_init 2 demoTime⟩

end PT
