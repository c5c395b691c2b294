import Mathlib.Analysis.Complex.ExponentialBounds
import Verif.Proof.Euler
import Verif.Props.Gear

/-!
# C113: the state of an `AgrawalSoa` follows its rate equation
-/

namespace PT
open Spec Matrix Gears

variable {W B : Type} {parts : List (Str × Gear W B)} {cs : List Conn}

/-- The light in an `AgrawalSoa` before amplification. -/
noncomputable def Spec.entering (env : SimEnv) (v dt c : ℝ) (q : Agrawal) (A : ℕ → W → B → Str → ℕ → ℂ) (x : Str) (w : W) (β : B) (t : ℕ) : ℂ :=
  earlier A (lag env v (q.gear dt c : Gear W B) 0) t w β x 0

theorem agrawal_steps (h : Shut parts cs) (v : ℝ) (wl : W → ℝ) (env : SimEnv) (src : ℕ → ℕ → W → B → ℝ × ℝ)
    {A O : ℕ → W → B → Str → ℕ → ℂ} (hrun : Running parts cs env v wl (signals parts (firstMentions cs) src) A O)
    (x : Str) (dt c : ℝ) (q : Agrawal) (hx : (x, q.gear dt c) ∈ parts) (w : W) (β : B) :
    (earlier A 1 0 w β x 1).re = 0 ∧ ∀ t < env.t.length,
      (earlier A 1 (t + 1) w β x 1).re = gainStep (q.g0 * q.L) (dt / q.tc) (Complex.normSq (entering env v dt c q A x w β t) / q.psat c)
        (earlier A 1 t w β x 1).re ∧
      O t w β x 2 = ⟨(entering env v dt c q A x w β t).re * Real.exp ((earlier A 1 t w β x 1).re / 2), (entering env v dt c q A x w β t).im⟩ := by
  have hs : ∀ t, (earlier A 1 (t + 1) w β x 1) = A t w β x 1 := fun t => by
    unfold earlier
    rw [if_pos (by omega)]
    rfl
  have step := fun t ht => C99_step h v wl env src hrun x (fun v i => if i = 0 then q.delay v else 0) dt (q.rate c) hx rfl t ht
  have him : ∀ t ≤ env.t.length, (earlier A 1 t w β x 1).im = 0 := by
    intro t
    induction t with
    | zero => intro _; simp [earlier]
    | succ t ih =>
      intro ht
      have e := congrFun (congrFun (congrArg Prod.snd (step t (by omega)).2) w) β
      have e' : (A t w β x 1).im = (earlier A 1 t w β x 1).im + dt * 0 := e
      rw [hs, e', ih (by omega)]
      simp
  refine ⟨by simp [earlier], fun t ht => ⟨?_, ?_⟩⟩
  · have e := congrFun (congrFun (congrArg Prod.fst (step t ht).2) w) β
    have e' : (A t w β x 1).re = (earlier A 1 t w β x 1).re + dt * ((1 / q.tc) * ((q.g0 * q.L - (earlier A 1 t w β x 1).re) -
      (((entering env v dt c q A x w β t).re ^ 2 + (entering env v dt c q A x w β t).im ^ 2) / q.psat c) *
        (Real.exp (earlier A 1 t w β x 1).re - 1))) := e
    rw [hs, e', gainStep, Complex.normSq_apply]
    ring
  · have e1 := congrFun (congrFun (congrArg Prod.fst (step t ht).1) w) β
    have e2 := congrFun (congrFun (congrArg Prod.snd (step t ht).1) w) β
    have e1' : (O t w β x 2).re = (entering env v dt c q A x w β t).re * Real.exp (0.5 * (earlier A 1 t w β x 1).re) := e1
    have e2' : (O t w β x 2).im = (entering env v dt c q A x w β t).im * Real.exp (0.5 * (earlier A 1 t w β x 1).im) := e2
    refine Complex.ext ?_ ?_
    · rw [e1']
      congr 2
      ring
    · rw [e2', him t ht.le]
      simp

/-- C113. In any circuit, for time steps that are small compared to the lifetime of the carriers (and the more so the stronger the light is), the
amplitude is amplified by the exponential of half the integrated gain of the rate equation, with an error of the first order in the time
step that does not grow with time.  (The imaginary part is not amplified, see C47.) -/
theorem C113_follows (h : Shut parts cs) (v : ℝ) (wl : W → ℝ) (env : SimEnv) (src : ℕ → ℕ → W → B → ℝ × ℝ)
    {A O : ℕ → W → B → Str → ℕ → ℂ} (hrun : Running parts cs env v wl (signals parts (firstMentions cs) src) A O)
    (x : Str) (dt c : ℝ) (q : Agrawal) (hx : (x, q.gear dt c) ∈ parts) (w : W) (β : B) (hG : 0 ≤ q.g0 * q.L) (htc : 0 < q.tc) (hdt : 0 < dt)
    {pm K : ℝ} {p H : ℝ → ℝ} (hH : Follows (q.g0 * q.L) q.tc p H) (hp : ∀ t, 0 ≤ t → 0 ≤ p t) (hpm : ∀ t, 0 ≤ t → p t ≤ pm)
    (hK : ∀ s t, 0 ≤ s → 0 ≤ t → |p t - p s| ≤ K * |t - s|) (hs : dt * (1 + pm * Real.exp (q.g0 * q.L)) ≤ q.tc)
    (hu : ∀ t < env.t.length, Complex.normSq (entering env v dt c q A x w β t) / q.psat c = p (t * dt)) (t : ℕ) (ht : t < env.t.length) :
    ∃ g, |g - H (t * dt)| ≤ ((1 + pm * Real.exp (q.g0 * q.L)) * ((q.g0 * q.L + pm * (Real.exp (q.g0 * q.L) - 1)) / q.tc) +
        K * (Real.exp (q.g0 * q.L) - 1)) * dt ∧
      O t w β x 2 = ⟨(entering env v dt c q A x w β t).re * Real.exp (g / 2), (entering env v dt c q A x w β t).im⟩ := by
  obtain ⟨h0, hstep⟩ := agrawal_steps h v wl env src hrun x dt c q hx w β
  refine ⟨_, (gain_error hH htc hG hp hpm hK hdt hs (N := env.t.length) (h := fun n => (earlier A 1 n w β x 1).re) h0 (fun n hn => ?_) t ht.le).2, (hstep t ht).2⟩
  simp only [(hstep n hn).1, hu n hn]

/-- The integrated gain stays between zero and the unsaturated gain. -/
theorem agrawal_mem (h : Shut parts cs) (v : ℝ) (wl : W → ℝ) (env : SimEnv) (src : ℕ → ℕ → W → B → ℝ × ℝ)
    {A O : ℕ → W → B → Str → ℕ → ℂ} (hrun : Running parts cs env v wl (signals parts (firstMentions cs) src) A O)
    (x : Str) (dt c : ℝ) (q : Agrawal) (hx : (x, q.gear dt c) ∈ parts) (w : W) (β : B) (hG : 0 ≤ q.g0 * q.L) (htc : 0 < q.tc) (hdt : 0 < dt)
    (hc : 0 < q.psat c) {pm : ℝ} (hs : dt * (1 + pm * Real.exp (q.g0 * q.L)) ≤ q.tc)
    (hu : ∀ t < env.t.length, Complex.normSq (entering env v dt c q A x w β t) ≤ pm * q.psat c) :
    ∀ n ≤ env.t.length, 0 ≤ (earlier A 1 n w β x 1).re ∧ (earlier A 1 n w β x 1).re ≤ q.g0 * q.L := by
  obtain ⟨h0, hstep⟩ := agrawal_steps h v wl env src hrun x dt c q hx w β
  intro n
  induction n with
  | zero => intro _; rw [h0]; exact ⟨le_rfl, hG⟩
  | succ n ih =>
    intro hn
    obtain ⟨i0, i1⟩ := ih (by omega)
    rw [(hstep n (by omega)).1]
    have hp : 0 ≤ Complex.normSq (entering env v dt c q A x w β n) / q.psat c := div_nonneg (Complex.normSq_nonneg _) hc.le
    refine gainStep_mem (by positivity) hp ?_ i0 i1
    rw [div_mul_eq_mul_div, div_le_one htc]
    refine le_trans ?_ hs
    have : Complex.normSq (entering env v dt c q A x w β n) / q.psat c ≤ pm := (div_le_iff₀ hc).mpr (hu n (by omega))
    gcongr

/-- C113. Under the same condition on the time step the gain is at least one and at most the unsaturated gain. -/
theorem C113_bounds_partial (h : Shut parts cs) (v : ℝ) (wl : W → ℝ) (env : SimEnv) (src : ℕ → ℕ → W → B → ℝ × ℝ)
    {A O : ℕ → W → B → Str → ℕ → ℂ} (hrun : Running parts cs env v wl (signals parts (firstMentions cs) src) A O)
    (x : Str) (dt c : ℝ) (q : Agrawal) (hx : (x, q.gear dt c) ∈ parts) (w : W) (β : B) (hG : 0 ≤ q.g0 * q.L) (htc : 0 < q.tc) (hdt : 0 < dt)
    (hc : 0 < q.psat c) {pm : ℝ} (hs : dt * (1 + pm * Real.exp (q.g0 * q.L)) ≤ q.tc)
    (hu : ∀ t < env.t.length, Complex.normSq (entering env v dt c q A x w β t) ≤ pm * q.psat c) (t : ℕ) (ht : t < env.t.length) :
    (entering env v dt c q A x w β t).re ^ 2 ≤ (O t w β x 2).re ^ 2 ∧
      (O t w β x 2).re ^ 2 ≤ Real.exp (q.g0 * q.L) * (entering env v dt c q A x w β t).re ^ 2 := by
  obtain ⟨h0, hstep⟩ := agrawal_steps h v wl env src hrun x dt c q hx w β
  obtain ⟨k0, k1⟩ := agrawal_mem h v wl env src hrun x dt c q hx w β hG htc hdt hc hs hu t ht.le
  have e : (O t w β x 2).re ^ 2 = (entering env v dt c q A x w β t).re ^ 2 * Real.exp (earlier A 1 t w β x 1).re := by
    rw [(hstep t ht).2]
    show (_ * Real.exp _) ^ 2 = _
    rw [mul_pow, ← Real.exp_nat_mul]
    congr 2
    push_cast
    ring
  have e1 := Real.one_le_exp k0
  have e2 := Real.exp_le_exp.mpr k1
  rw [e]
  constructor
  · exact le_mul_of_one_le_right (sq_nonneg _) e1
  · rw [mul_comm]
    gcongr

/-- C113. If the power of the light is constant from step `t₀` on, then the gain approaches the saturated gain (the solution of the equation
`C47_saturation_partial` is about) exponentially, with the lifetime of the carriers. -/
theorem C113_saturates (h : Shut parts cs) (v : ℝ) (wl : W → ℝ) (env : SimEnv) (src : ℕ → ℕ → W → B → ℝ × ℝ)
    {A O : ℕ → W → B → Str → ℕ → ℂ} (hrun : Running parts cs env v wl (signals parts (firstMentions cs) src) A O)
    (x : Str) (dt c : ℝ) (q : Agrawal) (hx : (x, q.gear dt c) ∈ parts) (w : W) (β : B) (hG : 0 ≤ q.g0 * q.L) (htc : 0 < q.tc) (hdt : 0 < dt)
    (hc : 0 < q.psat c) {pm p : ℝ} (hs : dt * (1 + pm * Real.exp (q.g0 * q.L)) ≤ q.tc)
    (hu : ∀ t < env.t.length, Complex.normSq (entering env v dt c q A x w β t) ≤ pm * q.psat c) (t₀ : ℕ)
    (hu' : ∀ t < env.t.length, t₀ ≤ t → Complex.normSq (entering env v dt c q A x w β t) = p * q.psat c)
    {gs : ℝ} (hgs : q.g0 * q.L - gs = p * (Real.exp gs - 1)) (t : ℕ) (ht : t < env.t.length) (h0t : t₀ ≤ t) :
    ∃ g, |g - gs| ≤ (1 - dt / q.tc) ^ (t - t₀) * (q.g0 * q.L) ∧
      O t w β x 2 = ⟨(entering env v dt c q A x w β t).re * Real.exp (g / 2), (entering env v dt c q A x w β t).im⟩ := by
  obtain ⟨h0, hstep⟩ := agrawal_steps h v wl env src hrun x dt c q hx w β
  have hmem := agrawal_mem h v wl env src hrun x dt c q hx w β hG htc hdt hc hs hu
  have hρ : 0 ≤ dt / q.tc := by positivity
  have hpt := hu' t ht h0t
  have hp : 0 ≤ p := by
    by_contra hn
    have := Complex.normSq_nonneg (entering env v dt c q A x w β t)
    nlinarith
  have hpm : p ≤ pm := by
    have := hu t ht
    rw [hpt] at this
    exact le_of_mul_le_mul_right this hc
  have hs' : dt / q.tc * (1 + p * Real.exp (q.g0 * q.L)) ≤ 1 := by
    rw [div_mul_eq_mul_div, div_le_one htc]
    refine le_trans ?_ hs
    gcongr
  have hρ1 : 0 ≤ 1 - dt / q.tc := by nlinarith [mul_nonneg hρ (mul_nonneg hp (Real.exp_pos (q.g0 * q.L)).le)]
  obtain ⟨g', hg', hg0, hg1, huniq⟩ := C47_saturation_partial (q.g0 * q.L) p hG hp
  obtain rfl := huniq gs hgs
  have hfix : gainStep (q.g0 * q.L) (dt / q.tc) p gs = gs := by unfold gainStep; rw [hgs]; ring
  have key : ∀ k, t₀ + k ≤ env.t.length → |(earlier A 1 (t₀ + k) w β x 1).re - gs| ≤ (1 - dt / q.tc) ^ k * (q.g0 * q.L) := by
    intro k
    induction k with
    | zero =>
      intro hk
      obtain ⟨i0, i1⟩ := hmem _ hk
      rw [pow_zero, one_mul, abs_le]
      constructor <;> linarith
    | succ k ih =>
      intro hk
      obtain ⟨i0, i1⟩ := hmem (t₀ + k) (by omega)
      rw [← add_assoc, (hstep (t₀ + k) (by omega)).1, hu' (t₀ + k) (by omega) (by omega), mul_div_assoc, div_self hc.ne', mul_one]
      have := gainStep_contract hρ hp hs' i1 hg1
      rw [hfix] at this
      refine this.trans ?_
      rw [pow_succ' (1 - dt / q.tc) k, mul_assoc]
      exact mul_le_mul_of_nonneg_left (ih (by omega)) hρ1
  have := key (t - t₀) (by omega)
  rw [Nat.add_sub_cancel' h0t] at this
  exact ⟨_, this, (hstep t ht).2⟩

/-! ## A source, an `AgrawalSoa` and a detector -/

/-- A source, an amplifier and a detector in a row. -/
noncomputable def soaRow (dt c : ℝ) (q : Agrawal) : List (Str × Gear W B) :=
  [("s".toList, Part.source.gear), ("a".toList, q.gear dt c), ("d".toList, Part.detector.gear)]

theorem soaRow_mem {dt c : ℝ} {q : Agrawal} : ("s".toList, Part.source.gear) ∈ (soaRow dt c q : List (Str × Gear W B)) ∧
    ("a".toList, q.gear dt c) ∈ (soaRow dt c q : List (Str × Gear W B)) ∧
    ("d".toList, Part.detector.gear) ∈ (soaRow dt c q : List (Str × Gear W B)) := by
  refine ⟨List.mem_cons_self, List.mem_cons_of_mem _ List.mem_cons_self, List.mem_cons_of_mem _ (List.mem_cons_of_mem _ List.mem_cons_self)⟩

theorem soaRow_cases {dt c : ℝ} {q : Agrawal} {P : Str × Gear W B → Prop} (h1 : P ("s".toList, Part.source.gear))
    (h2 : P ("a".toList, q.gear dt c)) (h3 : P ("d".toList, Part.detector.gear)) : ∀ r ∈ soaRow dt c q, P r := by
  intro r hr
  simp only [soaRow, List.mem_cons, List.not_mem_nil, or_false] at hr
  rcases hr with rfl | rfl | rfl <;> assumption

theorem soaRow_free {dt c : ℝ} {q : Agrawal} : freePorts (Part.source.gear : Gear W B).dev.comp = [0] ∧
    freePorts (q.gear dt c : Gear W B).dev.comp = [0, 2] ∧ freePorts (Part.detector.gear : Gear W B).dev.comp = [0] :=
  ⟨(C98_parts (W := W) (B := B) .source (by simp [Part.n])).2.1, (C98_soas (W := W) (B := B) _ dt (q.rate c)).2.1,
    (C98_parts (W := W) (B := B) .detector (by simp [Part.n])).2.1⟩

theorem soaRow_shut (dt c : ℝ) (q : Agrawal) : Shut (soaRow dt c q : List (Str × Gear W B)) queueConns where
  names := by show ["s".toList, "a".toList, "d".toList].Nodup; decide
  good := soaRow_cases (by dsimp only; exact ⟨by decide, by decide, by decide⟩) (by dsimp only; exact ⟨by decide, by decide, by decide⟩)
    (by dsimp only; exact ⟨by decide, by decide, by decide⟩)
  proper := soaRow_cases (C98_parts .source (by simp [Part.n])).1 (C98_soas _ dt (q.rate c)).1 (C98_parts .detector (by simp [Part.n])).1
  reachable := soaRow_cases (by dsimp only; rw [soaRow_free (dt := dt) (c := c) (q := q).1]; simp) (by dsimp only; rw [soaRow_free.2.1]; simp)
    (by dsimp only; rw [soaRow_free (dt := dt) (c := c) (q := q).2.2]; simp)
  nonempty := by simp [soaRow]
  ports := by
    have : gearPorts (soaRow dt c q : List (Str × Gear W B)) = [("s".toList, 0), ("a".toList, 0), ("a".toList, 1), ("d".toList, 0)] := by
      unfold gearPorts soaRow
      simp only [List.flatMap_cons, List.flatMap_nil, soaRow_free (dt := dt) (c := c) (q := q) (W := W) (B := B)]
      rfl
    rw [this]
    decide
  inner := rfl

theorem soaRow_lag (dt c v : ℝ) (q : Agrawal) (env : SimEnv) :
    ∀ r ∈ (soaRow dt c q : List (Str × Gear W B)), ∀ i < r.2.dev.comp.n, 1 ≤ lag env v r.2 i := by
  refine soaRow_cases ?_ ?_ ?_
  · intro i hi
    have hi : i < 1 := hi
    obtain rfl : i = 0 := by omega
    exact le_max_left _ _
  · exact fun i hi => (soa_lag _ _ env v hi).1
  · intro i hi
    have hi : i < 1 := hi
    obtain rfl : i = 0 := by omega
    exact le_max_left _ _

/-- The row can be simulated; the light in the amplifier is that of the source, later. -/
theorem soaRow_run (dt c : ℝ) (q : Agrawal) (v : ℝ) (wl : W → ℝ) (env : SimEnv) (he : env.dt = some dt) (hdt : 0 < dt)
    (src : ℕ → ℕ → W → B → ℝ × ℝ) :
    ∃ (g : Gear W B) (r : Reduced W) (out : List (W → B → List (ℝ × ℝ))) (A O : ℕ → W → B → Str → ℕ → ℂ),
      mkGear none (soaRow dt c q) (queueConns.map Conn.text) = .ok g ∧
      initNet (g.dev.plant v wl) env = .ok (some r) ∧
      forwardReduced r env (gearActors (soaRow dt c q) (queueConns.map Conn.text)) src = .ok out ∧ out.length = env.t.length ∧
      Running (soaRow dt c q) queueConns env v wl (signals (soaRow dt c q) (firstMentions queueConns) src) A O ∧
      (∀ t (ht : t < out.length) w β, (out[t] w β).map asComplex = [O t w β "a".toList 2]) ∧
      ∀ t < env.t.length, ∀ w β, entering env v dt c q A "a".toList w β t =
        if lag env v (q.gear dt c : Gear W B) 0 ≤ t then asComplex (src (t - lag env v (q.gear dt c : Gear W B) 0) 0 w β) else 0 := by
  have hS := soaRow_shut (W := W) (B := B) dt c q
  have hlag := soaRow_lag (W := W) (B := B) dt c v q env
  obtain ⟨g, hg⟩ := C98_built hS none
  obtain ⟨r, hr⟩ := (C98_initialized hS none g hg v wl env ⟨_, soaRow_mem.1, 0, Nat.zero_lt_one,
    by have := hlag _ soaRow_mem.1 0 Nat.zero_lt_one; omega⟩).1
    fun w A O hc r hr i hi => (hc.held r hr i hi (by have := hlag r hr i hi; omega)).1
  obtain ⟨out, ho, hlen, ⟨A, O, hrun⟩, hall⟩ := C98_run hS ⟨_, soaRow_mem.2.2, 0, Nat.zero_lt_one, rfl⟩ none g hg v wl env (.inr ⟨dt, he, hdt⟩)
    (fun w => soaRow_cases ((C98_parts .source (by simp [Part.n])).2.2 env v _) ((C98_soas _ dt (q.rate c)).2.2.2 env v _)
      ((C98_parts .detector (by simp [Part.n])).2.2 env v _)) r hr src
  have f1 := soaRow_free (W := W) (B := B) (dt := dt) (c := c) (q := q)
  have j1 : PT.Spec.Joined queueConns "a".toList 0 "s".toList 0 := Or.inr (by decide)
  have j2 : PT.Spec.Joined queueConns "d".toList 0 "a".toList 1 := Or.inr (by decide)
  refine ⟨g, r, out, A, O, hg, hr, ho, hlen, hrun, fun t ht w β => ?_, fun t ht w β => ?_⟩
  · have hm : markedIn (fun c => c.det) (firstMentions queueConns) (soaRow dt c q : List (Str × Gear W B)) = [("d".toList, 0)] := rfl
    rw [hall A O hrun t ht w β, hm]
    show [A t w β "d".toList 0] = _
    rw [hrun.joined t (hlen ▸ ht) w β _ _ _ _ j2 _ _ 0 2 soaRow_mem.2.2 soaRow_mem.2.1 (by rw [f1.2.2]; rfl) (by rw [f1.2.1]; rfl)]
  · unfold entering earlier
    split
    · have ht1 : t - lag env v (q.gear dt c : Gear W B) 0 < env.t.length := by omega
      generalize t - lag env v (q.gear dt c : Gear W B) 0 = s at ht1
      have hms : markedIn (fun c => c.src) (firstMentions queueConns) (soaRow dt c q : List (Str × Gear W B)) = [("s".toList, 0)] := rfl
      rw [hrun.joined s ht1 w β _ _ _ _ j1 _ _ 0 0 soaRow_mem.2.1 soaRow_mem.1 (by rw [f1.2.1]; rfl) (by rw [f1.1]; rfl),
        C98_passive hrun soaRow_mem.1 rfl s ht1 w β 0 Nat.zero_lt_one]
      unfold scatters signals
      have h0 : ∑ j ∈ Finset.range (Part.source.gear : Gear W B).dev.comp.n,
          (⟨(Part.source.gear : Gear W B).dev.rS (wl w) 0 j, (Part.source.gear : Gear W B).dev.iS (wl w) 0 j⟩ : ℂ) *
            (if lag env v (Part.source.gear : Gear W B) j ≤ s then A (s - lag env v (Part.source.gear : Gear W B) j) w β "s".toList j else 0) = 0 := by
        refine Finset.sum_eq_zero fun j hj => ?_
        have hj : j < 1 := Finset.mem_range.mp hj
        obtain rfl : j = 0 := by omega
        have : (⟨(Part.source.gear : Gear W B).dev.rS (wl w) 0 0, (Part.source.gear : Gear W B).dev.iS (wl w) 0 0⟩ : ℂ) = 0 := rfl
        rw [this, zero_mul]
      dsimp only
      rw [h0, hms, if_pos List.mem_cons_self, zero_add]
      simp
    · rfl

/-- The statement of C113 without a condition on the time step: an `AgrawalSoa` with positive gain never attenuates. -/
def C113 : Prop :=
  ∀ (parts : List (Str × Gear Unit Unit)) (cs : List Conn) (_ : Shut parts cs) (v : ℝ) (wl : Unit → ℝ) (env : SimEnv)
    (src : ℕ → ℕ → Unit → Unit → ℝ × ℝ) (A O : ℕ → Unit → Unit → Str → ℕ → ℂ)
    (_ : Running parts cs env v wl (signals parts (firstMentions cs) src) A O) (x : Str) (dt c : ℝ) (q : Agrawal)
    (_ : (x, q.gear dt c) ∈ parts) (_ : 0 ≤ q.g0 * q.L) (_ : 0 < q.tc) (_ : 0 < dt) (_ : 0 < q.psat c) (t : ℕ) (_ : t < env.t.length),
    (entering env v dt c q A x () () t).re ^ 2 ≤ (O t () () x 2).re ^ 2

/-- An amplifier with unsaturated gain one and saturation power one. -/
noncomputable def unitSoa : Agrawal := ⟨1, 1, 1, 1, 1, 3.2e-19, 1, 1, 0, 6.626e-34⟩

theorem unitSoa_values : unitSoa.g0 * unitSoa.L = 1 ∧ unitSoa.psat 1 = 1 := by
  constructor
  · unfold Agrawal.g0 Agrawal.threshold Agrawal.volume unitSoa
    norm_num
  · unfold Agrawal.psat unitSoa
    norm_num

theorem unitSoa_lag (env : SimEnv) (dt v : ℝ) : lag env v (unitSoa.gear dt 1 : Gear W B) 0 = 1 := by
  refine (soa_lag _ _ env v (by norm_num)).2 ?_
  simp [Agrawal.delay, unitSoa]

/-- C113 is false if the time step is not small: strong light drives the state below zero in one step, so that the amplifier attenuates. -/
theorem C113_violation : ¬C113 := by
  intro hC
  obtain ⟨g, r, out, A, O, -, -, -, -, hrun, -, hin⟩ := soaRow_run (W := Unit) (B := Unit) 1 1 unitSoa 1 (fun _ => 1) ⟨some 1, false, [0, 1, 2]⟩ rfl
    one_pos fun _ _ _ _ => (2, 0)
  obtain ⟨h0, hstep⟩ := agrawal_steps (soaRow_shut 1 1 unitSoa) 1 _ _ _ hrun _ 1 1 unitSoa soaRow_mem.2.1 () ()
  have key := hC _ _ (soaRow_shut 1 1 unitSoa) _ _ _ _ A O hrun "a".toList 1 1 unitSoa soaRow_mem.2.1 (by rw [unitSoa_values.1]; norm_num)
    (by show (0 : ℝ) < 1; norm_num) one_pos (by rw [unitSoa_values.2]; norm_num) 2 (by decide)
  have i1 := hin 1 (by decide) () ()
  have i2 := hin 2 (by decide) () ()
  rw [unitSoa_lag, if_pos (by omega)] at i1 i2
  have htc : unitSoa.tc = 1 := rfl
  have s1 : (earlier A 1 1 () () "a".toList 1).re = 1 := by
    rw [(hstep 0 (by decide)).1, h0, unitSoa_values.1, htc, gainStep, Real.exp_zero]
    ring
  have s2 : (earlier A 1 2 () () "a".toList 1).re = 1 - 4 * (Real.exp 1 - 1) := by
    rw [(hstep 1 (by decide)).1, s1, unitSoa_values.1, unitSoa_values.2, htc, gainStep, i1]
    simp only [asComplex, Complex.normSq_apply]
    ring
  rw [(hstep 2 (by decide)).2, s2, i2] at key
  simp only [asComplex] at key
  have he : Real.exp ((1 - 4 * (Real.exp 1 - 1)) / 2) < 1 := by
    rw [Real.exp_lt_one_iff]
    have := Real.add_one_le_exp (1 : ℝ)
    linarith
  have hpos := Real.exp_pos ((1 - 4 * (Real.exp 1 - 1)) / 2)
  nlinarith

/-! ## Examples -/

/-- Without light the integrated gain builds up exponentially. -/
theorem unitSoa_dark : Follows (unitSoa.g0 * unitSoa.L) unitSoa.tc (fun _ => 0) fun t => 1 - Real.exp (-t) where
  start := by simp
  equation t _ := by
    have h : HasDerivAt (fun t : ℝ => 1 - Real.exp (-t)) (-(Real.exp (-t) * -1)) t := ((hasDerivAt_neg t).exp).const_sub 1
    have e : gainRate (unitSoa.g0 * unitSoa.L) unitSoa.tc 0 (1 - Real.exp (-t)) = -(Real.exp (-t) * -1) := by
      rw [unitSoa_values.1]
      unfold gainRate unitSoa
      ring
    rw [e]
    exact h.hasDerivWithinAt

/-- The state follows that solution, with a tenth of the lifetime as time step, to within a tenth. -/
example : ∃ A O : ℕ → Unit → Unit → Str → ℕ → ℂ,
    Running (soaRow (1 / 10) 1 unitSoa) queueConns ⟨some (1 / 10), false, [0, 0.1, 0.2, 0.3]⟩ 1 (fun _ => 1)
      (signals (soaRow (1 / 10) 1 unitSoa) (firstMentions queueConns) fun _ _ _ _ => (0, 0)) A O ∧
    ∃ g, |g - (1 - Real.exp (-(3 / 10)))| ≤ 1 / 10 ∧
      O 3 () () "a".toList 2 = ⟨(entering ⟨some (1 / 10), false, [0, 0.1, 0.2, 0.3]⟩ 1 (1 / 10) 1 unitSoa A "a".toList () () 3).re *
        Real.exp (g / 2), (entering ⟨some (1 / 10), false, [0, 0.1, 0.2, 0.3]⟩ 1 (1 / 10) 1 unitSoa A "a".toList () () 3).im⟩ := by
  obtain ⟨g, r, out, A, O, -, -, -, -, hrun, -, hin⟩ := soaRow_run (W := Unit) (B := Unit) (1 / 10) 1 unitSoa 1 (fun _ => 1)
    ⟨some (1 / 10), false, [0, 0.1, 0.2, 0.3]⟩ rfl (by norm_num) fun _ _ _ _ => (0, 0)
  refine ⟨A, O, hrun, ?_⟩
  obtain ⟨g, hg, hO⟩ := C113_follows (soaRow_shut (1 / 10) 1 unitSoa) _ _ _ _ hrun _ (1 / 10) 1 unitSoa soaRow_mem.2.1 () ()
    (by rw [unitSoa_values.1]; norm_num) (by show (0 : ℝ) < 1; norm_num) (by norm_num) (pm := 0) (K := 0) unitSoa_dark (fun _ _ => le_rfl)
    (fun _ _ => le_rfl) (fun _ _ _ _ => by simp) (by rw [zero_mul]; show (1 / 10 : ℝ) * (1 + 0) ≤ 1; norm_num)
    (fun t ht => by rw [hin t ht () ()]; split <;> simp [asComplex]) 3 (by simp)
  refine ⟨g, ?_, hO⟩
  rw [unitSoa_values.1, show unitSoa.tc = 1 from rfl] at hg
  norm_num at hg ⊢
  exact hg

/-- With light of the saturation power the gain is at least one and at most `e`, and approaches the saturated gain. -/
example : ∃ (A O : ℕ → Unit → Unit → Str → ℕ → ℂ) (gs : ℝ), 1 - gs = Real.exp gs - 1 ∧
    (1 ≤ (O 1 () () "a".toList 2).re ^ 2 ∧ (O 1 () () "a".toList 2).re ^ 2 ≤ Real.exp 1) ∧
    ∃ g, |g - gs| ≤ (9 / 10) ^ 2 ∧ O 3 () () "a".toList 2 = Real.exp (g / 2) := by
  obtain ⟨g, r, out, A, O, -, -, -, -, hrun, -, hin⟩ := soaRow_run (W := Unit) (B := Unit) (1 / 10) 1 unitSoa 1 (fun _ => 1)
    ⟨some (1 / 10), false, [0, 0.1, 0.2, 0.3]⟩ rfl (by norm_num) fun _ _ _ _ => (1, 0)
  simp only [unitSoa_lag] at hin
  obtain ⟨gs, hgs, -⟩ := C47_saturation_partial (unitSoa.g0 * unitSoa.L) 1 (by rw [unitSoa_values.1]; norm_num) (by norm_num)
  have hG : (0 : ℝ) ≤ unitSoa.g0 * unitSoa.L := by rw [unitSoa_values.1]; norm_num
  have htc : (0 : ℝ) < unitSoa.tc := by show (0 : ℝ) < 1; norm_num
  have hc : (0 : ℝ) < unitSoa.psat 1 := by rw [unitSoa_values.2]; norm_num
  have hs : (1 / 10 : ℝ) * (1 + 1 * Real.exp (unitSoa.g0 * unitSoa.L)) ≤ unitSoa.tc := by
    rw [unitSoa_values.1]
    show _ ≤ (1 : ℝ)
    have := Real.exp_one_lt_d9
    linarith
  have hu := fun t ht => (show Complex.normSq (entering ⟨some (1 / 10), false, [0, 0.1, 0.2, 0.3]⟩ 1 (1 / 10) 1 unitSoa A "a".toList () () t) ≤
    1 * unitSoa.psat 1 by rw [hin t ht () (), unitSoa_values.2]; split <;> simp [asComplex, Complex.normSq_apply])
  have b := C113_bounds_partial (soaRow_shut (1 / 10) 1 unitSoa) _ _ _ _ hrun _ (1 / 10) 1 unitSoa soaRow_mem.2.1 () () hG htc (by norm_num) hc hs hu
    1 (by simp)
  obtain ⟨g, hg, hO⟩ := C113_saturates (soaRow_shut (1 / 10) 1 unitSoa) _ _ _ _ hrun _ (1 / 10) 1 unitSoa soaRow_mem.2.1 () () hG htc (by norm_num) hc
    hs hu 1 (fun t ht h1 => by rw [hin t ht () (), if_pos h1, unitSoa_values.2]; simp [asComplex, Complex.normSq_apply]) hgs 3 (by simp) (by omega)
  rw [unitSoa_values.1] at hgs b hg
  refine ⟨A, O, gs, by linarith, ?_, g, ?_, ?_⟩
  · rw [hin 1 (by simp) () (), if_pos le_rfl] at b
    simpa [asComplex] using b
  · refine hg.trans (le_of_eq ?_)
    rw [show unitSoa.tc = 1 from rfl]
    norm_num
  · rw [hO, hin 3 (by simp) () (), if_pos (by omega)]
    refine Complex.ext ?_ ?_
    · rw [Complex.ofReal_re]
      simp [asComplex]
    · rw [Complex.ofReal_im]
      simp [asComplex]

end PT
