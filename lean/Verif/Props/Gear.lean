import Verif.Proof.GearSim
import Verif.Props.Soa

/-!
# C98, C99: circuits of named components of any kind, and amplifiers in them
-/

namespace PT
open Spec Matrix Gears

variable {W B : Type} {parts : List (Str × Gear W B)} {cs : List Conn}

theorem geared_of {d : Dev} {name : Option Str} (h : Shut parts cs) (hd : mkDev name (devs parts) (cs.map Conn.text) = .ok d) :
    ∃ l, Geared (firstMentions cs) parts cs l d (gearActors parts (cs.map Conn.text)) := by
  obtain ⟨d', l, hd', hl⟩ := shut_geared h name
  rw [hd] at hd'
  cases hd'
  exact ⟨l, hl⟩

theorem mkGear_ok {name : Option Str} {conns : List Str} {g : Gear W B} (h : mkGear name parts conns = .ok g) :
    mkDev name (devs parts) conns = .ok g.dev := by
  unfold mkGear at h
  unfold devs
  cases hd : mkDev name (parts.map fun p => (p.1, p.2.dev)) conns with
  | error e => rw [hd] at h; cases h
  | ok d =>
    rw [hd] at h
    cases h
    rfl

/-- C98. Closed circuits of any components can be built. -/
theorem C98_built (h : Shut parts cs) (name : Option Str) : ∃ g, mkGear name parts (cs.map Conn.text) = .ok g := by
  obtain ⟨d, l, hd, -⟩ := shut_geared h name
  refine ⟨⟨d, netActor ((List.range d.comp.n).filter fun i => d.comp.src.getD i false).length (gearActors parts (cs.map Conn.text))⟩, ?_⟩
  unfold mkGear
  unfold devs at hd
  rw [hd]
  rfl

/-- C98. What is detected is what the equations of the components say, written down by name: what enters a port left the port
connected to it, and every component scatters what entered it earlier and applies its action. -/
theorem C98_run (h : Shut parts cs) (hdet : ∃ q ∈ parts, ∃ i < q.2.dev.comp.n, q.2.dev.comp.det.getD i false = true)
    (name : Option Str) (g : Gear W B) (hg : mkGear name parts (cs.map Conn.text) = .ok g) (v : ℝ) (wl : W → ℝ) (env : SimEnv)
    (hdt : env.freqdomain = true ∨ ∃ dt, env.dt = some dt ∧ 0 < dt) (hu : ∀ w, ∀ q ∈ parts, Unmixed env v (wl w) q.2) (r : Reduced W)
    (hr : initNet (g.dev.plant v wl) env = .ok (some r)) (src : ℕ → ℕ → W → B → ℝ × ℝ) :
    ∃ out, forwardReduced r env (gearActors parts (cs.map Conn.text)) src = .ok out ∧ out.length = env.t.length ∧
      (∃ A O, Running parts cs env v wl (signals parts (firstMentions cs) src) A O) ∧
      ∀ A O, Running parts cs env v wl (signals parts (firstMentions cs) src) A O → ∀ t (ht : t < out.length) w β,
        (out[t] w β).map asComplex = (markedIn (fun c => c.det) (firstMentions cs) parts).map fun e => A t w β e.1 e.2 := by
  obtain ⟨l, hG⟩ := geared_of h (mkGear_ok hg)
  exact hG.run hdet v wl env hdt hu r hr src

/-- C98. The circuit can be initialized unless light can go round in it without taking time, and otherwise `initialize` raises
RuntimeError. -/
theorem C98_initialized (h : Shut parts cs) (name : Option Str) (g : Gear W B) (hg : mkGear name parts (cs.map Conn.text) = .ok g)
    (v : ℝ) (wl : W → ℝ) (env : SimEnv) (hh : ∃ q ∈ parts, ∃ i < q.2.dev.comp.n, lag env v q.2 i ≠ 0) :
    ((∀ w A O, Caught parts cs env v (wl w) A O → ∀ q ∈ parts, ∀ i < q.2.dev.comp.n, A q.1 i = 0) →
      ∃ r, initNet (g.dev.plant v wl) env = .ok (some r)) ∧
    (∀ w A O, Caught parts cs env v (wl w) A O → (∃ q ∈ parts, ∃ i < q.2.dev.comp.n, A q.1 i ≠ 0) →
      initNet (g.dev.plant v wl) env = .error .runtimeError) := by
  obtain ⟨l, hG⟩ := geared_of h (mkGear_ok hg)
  obtain ⟨q₀, hq₀, i₀, hi₀, hl₀⟩ := hh
  have hmc : (g.dev.plant v wl).mcAt env ⟨gpos l q₀.1 + i₀, hG.lt hq₀ hi₀⟩ = true := by
    by_contra hc
    exact hl₀ (by rw [← hG.delay v wl env hq₀ hi₀]; exact stepDelay_ml _ _ _ (by simpa using hc))
  constructor
  · intro H
    refine C26_initialized _ env (plant_terminated hG.clean hG.term v wl) ⟨_, hmc⟩ fun w => ?_
    refine pick_invertible _ _ _ ((List.nodup_finRange _).filter _) ?_
    intro u y hout hin
    have ht := (hG.caught v wl w env u y).mp ⟨hout, hin⟩
    refine hG.ext fun q hq i hi => ?_
    rw [hG.seq_at 0 hq hi]
    exact H w _ _ ht q hq i hi
  · intro w A O ht hne
    have ht' : Caught parts cs env v (wl w) (fun x i => seq (Gears.laid l g.dev.comp.n A) (gpos l x + i))
        (fun x i => seq (Gears.laid l g.dev.comp.n O) (gpos l x + i)) := by
      refine ⟨fun q hq i hi hne => ?_, fun a i b j hj g k p q hg hk hp hq h0 => ?_, fun q hq i j hne h0 => ?_, fun q hq i hi h0 => ?_⟩
      · rw [hG.seq_laid A hq hi, hG.seq_laid O hq hi]
        exact ht.held q hq i hi hne
      · rw [hG.seq_laid A hg (free_lt hp), hG.seq_laid O hk (free_lt hq)]
        exact ht.joined a i b j hj g k p q hg hk hp hq h0
      · have hb := (built_reciprocal (h.proper q hq).clean.built).2.2 i j hne
        rw [hG.seq_laid A hq hb.1, hG.seq_laid O hq hb.2]
        exact ht.inside q hq i j hne h0
      · rw [hG.seq_laid O hq hi, ht.scattered q hq i hi h0]
        exact Finset.sum_congr rfl fun j hj => by rw [hG.seq_laid A hq (Finset.mem_range.mp hj)]
    obtain ⟨hout, hin⟩ := (hG.caught v wl w env _ _).mpr ht'
    have hsing : (1 - pick (cx (g.dev.plant v wl).C 0) ((g.dev.plant v wl).mlPorts env) ((g.dev.plant v wl).mlPorts env) *
        pick (cx ((g.dev.plant v wl).rS w) ((g.dev.plant v wl).iS w)) ((g.dev.plant v wl).mlPorts env)
          ((g.dev.plant v wl).mlPorts env)).det = 0 :=
      pick_singular _ _ _ ((List.nodup_finRange _).filter _) _ _ hout hin (by
      intro h0
      obtain ⟨q, hq, i, hi, hA⟩ := hne
      apply hA
      rw [← hG.seq_laid A hq hi, h0, hG.seq_at 0 hq hi]
      rfl)
    unfold initNet
    have hmc' : ((g.dev.plant v wl).mcPorts env).length ≠ 0 := by
      rw [Ne, List.length_eq_zero_iff]
      apply List.ne_nil_of_mem (a := (⟨gpos l q₀.1 + i₀, hG.lt hq₀ hi₀⟩ : Fin g.dev.comp.n))
      exact List.mem_filter.mpr ⟨List.mem_finRange _, hmc⟩
    rw [if_neg (by push Not; exact ⟨plant_terminated hG.clean hG.term v wl, hmc'⟩),
      (C25_failure _ _ _ _ _ _).2 ⟨rfl, w, hsing⟩]
    rfl

/-- C98. What leaves a component that is not active is what it scatters and emits. -/
theorem C98_passive {env : SimEnv} {v : ℝ} {wl : W → ℝ} {emit A O : ℕ → W → B → Str → ℕ → ℂ} (h : Running parts cs env v wl emit A O)
    {q : Str × Gear W B} (hq : q ∈ parts) (ha : q.2.actor.active = false) (t : ℕ) (ht : t < env.t.length) (w : W) (β : B) (i : ℕ)
    (hi : i < q.2.dev.comp.n) :
    O t w β q.1 i = scatters env v (wl w) q.2 (fun s => A s w β q.1) t i + emit t w β q.1 i := by
  have e := h.left t ht q hq i hi
  unfold ownAction at e
  rw [if_neg (by rw [ha]; simp), Nat.zero_add] at e
  exact Complex.ext (congrFun (congrFun (congrArg Prod.fst e) w) β) (congrFun (congrFun (congrArg Prod.snd e) w) β)

/-! ## The components of the library keep the rules -/

/-- C98. Basic components keep the rules; all their ports are numbered. -/
theorem C98_parts (p : Part) (hp : 0 < p.n) : Proper (p.gear : Gear W B) ∧ freePorts (p.gear : Gear W B).dev.comp = List.range p.n ∧
    ∀ env v wl, Unmixed env v wl (p.gear : Gear W B) := by
  have hmade := MadeOf.part (P := fun _ => True) p trivial hp
  refine ⟨⟨hmade.clean, (part_n p).symm, fun i _ => part_act p i, fun _ _ _ => rfl⟩, part_free p, ?_⟩
  intro env v wl i hi j hj h0 h1
  exfalso
  have hi : i < p.n := (part_n p) ▸ hi
  have hj : j < p.n := (part_n p) ▸ hj
  by_cases hs : p = .source
  · subst hs
    have : i = j := by simp only [Part.n] at hi hj; omega
    exact h1 (this ▸ h0)
  by_cases hd : p = .detector
  · subst hd
    have : i = j := by simp only [Part.n] at hi hj; omega
    exact h1 (this ▸ h0)
  have hm : ∀ i, (p.comp.src.getD i false || p.comp.det.getD i false || p.comp.act.getD i false) = false := by
    intro i
    have e1 : p.comp.src.getD i false = false := by
      by_contra h
      exact hs (part_src p i (by simpa using h))
    have e2 : p.comp.det.getD i false = false := by
      by_contra h
      exact hd (part_det p i (by simpa using h))
    rw [e1, e2, part_act]
    rfl
  apply h1
  rw [← h0]
  unfold lag
  show (if (p.comp.src.getD j false || p.comp.det.getD j false || p.comp.act.getD j false) = true then _ else _) =
    (if (p.comp.src.getD i false || p.comp.det.getD i false || p.comp.act.getD i false) = true then _ else _)
  rw [hm, hm]
  show (if env.freqdomain then 0 else match env.dt with
    | some dt => roundSteps ((if j < p.n then p.delay v else 0) / dt)
    | none => 0) = (if env.freqdomain then 0 else match env.dt with
    | some dt => roundSteps ((if i < p.n then p.delay v else 0) / dt)
    | none => 0)
  rw [if_pos hi, if_pos hj]

theorem soa_proper (delay : ℝ → ℕ → ℝ) (dt : ℝ) (rate : ℝ → NodeVal W B → NodeVal W B → NodeVal W B) :
    Proper (⟨soaDev delay, soaActor dt rate⟩ : Gear W B) := by
  refine ⟨.soa, rfl, fun i hi => ?_, fun t x z => soa_length dt rate t x z⟩
  have hi : i < 3 := hi
  show (List.replicate 3 true).getD i false = true
  interval_cases i <;> rfl

theorem soa_lag (delay : ℝ → ℕ → ℝ) (actor : Actor W B) (env : SimEnv) (v : ℝ) {i : ℕ} (hi : i < 3) :
    1 ≤ lag env v (⟨soaDev delay, actor⟩ : Gear W B) i ∧
    (delay v i = 0 → lag env v (⟨soaDev delay, actor⟩ : Gear W B) i = 1) := by
  have hm : ((soaDev delay).comp.src.getD i false || (soaDev delay).comp.det.getD i false || (soaDev delay).comp.act.getD i false) = true := by
    show ((List.replicate 3 false).getD i false || (List.replicate 3 false).getD i false || (List.replicate 3 true).getD i false) = true
    interval_cases i <;> rfl
  unfold lag
  dsimp only
  rw [if_pos hm]
  refine ⟨le_max_left _ _, fun h0 => ?_⟩
  have : (soaDev delay).delay v i = 0 := h0
  rw [this]
  cases env.freqdomain with
  | true => rfl
  | false =>
    cases env.dt with
    | none => rfl
    | some dt =>
      simp only [zero_div, roundSteps_zero]
      rfl

/-- C98. Amplifiers with memory keep the rules: their numbered ports are 0 and 2, and port 1, where the state is kept, is connected to
itself. -/
theorem C98_soas (delay : ℝ → ℕ → ℝ) (dt : ℝ) (rate : ℝ → NodeVal W B → NodeVal W B → NodeVal W B) :
    Proper (⟨soaDev delay, soaActor dt rate⟩ : Gear W B) ∧ freePorts (soaDev delay).comp = [0, 2] ∧
    (∀ i j, (soaDev delay).comp.C i j ≠ 0 ↔ i = 1 ∧ j = 1) ∧
    ∀ env v wl, Unmixed env v wl (⟨soaDev delay, soaActor dt rate⟩ : Gear W B) := by
  refine ⟨soa_proper delay dt rate, ?_, ?_, ?_⟩
  · show freePorts soa = [0, 2]
    decide
  · intro i j
    show (if i = 1 ∧ j = 1 then (1 : ℚ) else 0) ≠ 0 ↔ _
    by_cases h : i = 1 ∧ j = 1
    · simp [h]
    · simp [h]
  · intro env v wl i hi j hj h0
    have := (soa_lag delay (soaActor dt rate) env v (i := i) hi).1
    omega

/-! ## C99: amplifiers by name -/

/-- What entered port `i` one step earlier. -/
def Spec.earlier (A : ℕ → W → B → Str → ℕ → ℂ) (k t : ℕ) (w : W) (β : B) (x : Str) (i : ℕ) : ℂ := if k ≤ t then A (t - k) w β x i else 0

/-- The ports of an amplifier in the network. -/
theorem Gears.Geared.soaAt {ord : List Str} {l : List (Str × Gear W B)} {d : Dev} {acts : List (Actor W B)}
    (h : Geared ord parts cs l d acts) (v : ℝ) (wl : W → ℝ) (env : SimEnv) (src : ℕ → ℕ → W → B → ℝ × ℝ)
    {x : Str} {delay : ℝ → ℕ → ℝ} {dt : ℝ} {rate : ℝ → NodeVal W B → NodeVal W B → NodeVal W B}
    (hx : (x, (⟨soaDev delay, soaActor dt rate⟩ : Gear W B)) ∈ parts) (hd : delay v 1 = 0) :
    SoaAt (d.plant v wl).Cx (d.plant v wl).Sx ((d.plant v wl).stepDelay env) acts
      (fun t w β => emitted (d.plant v wl).src (channels src w β t)) dt rate
      ⟨gpos l x + 0, h.lt hx (show 0 < 3 by norm_num)⟩ ⟨gpos l x + 1, h.lt hx (show 1 < 3 by norm_num)⟩
      ⟨gpos l x + 2, h.lt hx (show 2 < 3 by norm_num)⟩ := by
  have hp : ∀ q ∈ l, q.2.actor.numPorts = q.2.dev.comp.n := fun q hq => (h.proper q ((h.mem q).mp hq)).ports
  have hcases : ∀ {P : Fin d.comp.n → Prop}, (∀ i (hi : i < 3), P ⟨gpos l x + i, h.lt hx (show i < 3 from hi)⟩) →
      ∀ i ∈ [(⟨gpos l x + 0, h.lt hx (show 0 < 3 by norm_num)⟩ : Fin d.comp.n), ⟨gpos l x + 1, h.lt hx (show 1 < 3 by norm_num)⟩,
        ⟨gpos l x + 2, h.lt hx (show 2 < 3 by norm_num)⟩], P i := by
    intro P hP i hi
    simp only [List.mem_cons, List.not_mem_nil, or_false] at hi
    rcases hi with rfl | rfl | rfl
    · exact hP 0 (by norm_num)
    · exact hP 1 (by norm_num)
    · exact hP 2 (by norm_num)
  refine ⟨?_, ?_, ?_, ?_, ?_⟩
  · obtain ⟨l₁, l₂, hl⟩ := List.append_of_mem ((h.mem _).mpr hx)
    have ho := offset_gpos h.nodup hp hl
    refine ⟨l₁.map fun q => q.2.actor, l₂.map fun q => q.2.actor, by rw [h.acts, hl]; simp, ?_, ?_, ?_⟩ <;> rw [ho] <;> rfl
  · intro w
    refine hcases fun i hi k => ?_
    have e := h.scatter v wl w (Pi.single k 1) hx (i := i) hi
    have e1 : ((d.plant v wl).Sx w *ᵥ Pi.single k 1) ⟨gpos l x + i, h.lt hx hi⟩ = (d.plant v wl).Sx w ⟨gpos l x + i, h.lt hx hi⟩ k := by
      rw [Matrix.mulVec_single_one]
      rfl
    rw [e1] at e
    rw [e, Finset.sum_eq_single i]
    · show (⟨if i = i ∧ i < 3 then (1 : ℝ) else 0, 0⟩ : ℂ) * _ = _
      rw [if_pos ⟨rfl, hi⟩, h.seq_at _ hx hi, Pi.single_apply]
      have : (⟨(1 : ℝ), 0⟩ : ℂ) = 1 := rfl
      rw [this, one_mul]
      by_cases hk : k = ⟨gpos l x + i, h.lt hx hi⟩
      · rw [if_pos hk.symm, if_pos hk]
      · rw [if_neg (Ne.symm hk), if_neg hk]
    · intro j _ hne
      have : (⟨(soaDev delay).rS (wl w) i j, (soaDev delay).iS (wl w) i j⟩ : ℂ) = 0 := by
        show (⟨if i = j ∧ i < 3 then (1 : ℝ) else 0, 0⟩ : ℂ) = 0
        rw [if_neg fun e => hne e.1.symm]
        rfl
      show (⟨(soaDev delay).rS (wl w) i j, (soaDev delay).iS (wl w) i j⟩ : ℂ) * _ = 0
      rw [this, zero_mul]
    · intro hno
      exact absurd (Finset.mem_range.mpr hi) hno
  · intro k
    have hne : d.comp.C (gpos l x + 1) (gpos l x + 1) ≠ 0 := by
      refine h.inside _ hx 1 1 ?_
      show (if (1 : ℕ) = 1 ∧ (1 : ℕ) = 1 then (1 : ℚ) else 0) ≠ 0
      norm_num
    have e := enter_eq h.clean h.term v wl (Pi.single k 1) ⟨gpos l x + 1, h.lt hx (show 1 < 3 by norm_num)⟩
      ⟨gpos l x + 1, h.lt hx (show 1 < 3 by norm_num)⟩ hne
    rw [Matrix.mulVec_single_one, Pi.single_apply] at e
    refine Eq.trans (show _ = _ from e) ?_
    by_cases hk : k = ⟨gpos l x + 1, h.lt hx (show 1 < 3 by norm_num)⟩
    · rw [if_pos hk.symm, if_pos hk]
    · rw [if_neg (Ne.symm hk), if_neg hk]
  · intro t w β
    refine hcases fun i hi => ?_
    have e := h.emits v wl src t w β hx (i := i) hi
    rw [h.seq_at _ hx hi] at e
    rw [e]
    unfold signals
    rw [if_neg]
    intro hm
    obtain ⟨g, hg, -, hs⟩ := mem_markedIn hm
    obtain rfl := h.unique hg hx
    have : (List.replicate 3 false).getD i false = true := hs
    interval_cases i <;> cases this
  · exact (h.delay v wl env hx (i := 1) (show 1 < 3 by norm_num)).trans ((soa_lag delay (soaActor dt rate) env v (by norm_num)).2 hd)

/-- An amplifier among running waves. -/
theorem soa_running (h : Shut parts cs) (v : ℝ) (wl : W → ℝ) (env : SimEnv) (src : ℕ → ℕ → W → B → ℝ × ℝ)
    {A O : ℕ → W → B → Str → ℕ → ℂ} (hrun : Running parts cs env v wl (signals parts (firstMentions cs) src) A O)
    {x : Str} {delay : ℝ → ℕ → ℝ} {dt : ℝ} {rate : ℝ → NodeVal W B → NodeVal W B → NodeVal W B}
    (hx : (x, (⟨soaDev delay, soaActor dt rate⟩ : Gear W B)) ∈ parts) (hd : delay v 1 = 0) :
    ∃ (n : ℕ) (C : Matrix (Fin n) (Fin n) ℂ) (S : W → Matrix (Fin n) (Fin n) ℂ) (D : Fin n → ℕ) (acts : List (Actor W B))
      (s a b : ℕ → W → B → Fin n → ℂ) (i₀ i₁ i₂ : Fin n), ActiveSolves C S D env.t acts s a b ∧ SoaAt C S D acts s dt rate i₀ i₁ i₂ ∧
      ∀ t w β, b t w β i₀ = O t w β x 0 ∧ b t w β i₂ = O t w β x 2 ∧ b t w β i₁ = O t w β x 1 ∧
        delayed D (fun t => a t w β) t i₀ = earlier A (lag env v (⟨soaDev delay, soaActor dt rate⟩ : Gear W B) 0) t w β x 0 ∧
        delayed D (fun t => a t w β) t i₁ = earlier A 1 t w β x 1 := by
  obtain ⟨d, l, -, hG⟩ := shut_geared h none
  have hs := (hG.solves v wl env (fun t w β => emitted (d.plant v wl).src (channels src w β t))
    (fun t w β => Gears.laid l d.comp.n (A t w β)) fun t w β => Gears.laid l d.comp.n (O t w β)).mpr
    (running_congr hG.proper (fun t _ w β q hq i hi => (hG.emits v wl src t w β hq hi).symm)
      (fun t _ w β q hq i hi => (hG.seq_laid (A t w β) hq hi).symm) (fun t _ w β q hq i hi => (hG.seq_laid (O t w β) hq hi).symm) hrun)
  have hO : ∀ (z : Str → ℕ → ℂ) i (hi : i < 3), Gears.laid l d.comp.n z ⟨gpos l x + i, hG.lt hx (show i < 3 from hi)⟩ = z x i :=
    fun z i hi => (hG.seq_at _ hx (show i < 3 from hi)).symm.trans (hG.seq_laid z hx (show i < 3 from hi))
  have hA : ∀ t w β i (hi : i < 3), delayed ((d.plant v wl).stepDelay env) (fun t => Gears.laid l d.comp.n (A t w β)) t
      ⟨gpos l x + i, hG.lt hx (show i < 3 from hi)⟩ =
        earlier A (lag env v (⟨soaDev delay, soaActor dt rate⟩ : Gear W B) i) t w β x i := by
    intro t w β i hi
    refine (hG.seq_at _ hx (show i < 3 from hi)).symm.trans ((hG.delayed v wl env _ t hx (show i < 3 from hi)).trans ?_)
    unfold earlier
    rw [hG.seq_laid _ hx (show i < 3 from hi)]
  refine ⟨_, _, _, _, _, _, _, _, _, _, _, hs, hG.soaAt v wl env src hx hd, fun t w β => ⟨hO _ 0 (by norm_num), hO _ 2 (by norm_num),
    hO _ 1 (by norm_num), hA t w β 0 (by norm_num), ?_⟩⟩
  have e := hA t w β 1 (by norm_num)
  rw [(soa_lag delay (soaActor dt rate) env v (by norm_num)).2 hd] at e
  exact e

/-- C99. An amplifier with memory, anywhere in a circuit: what left port 2 is what entered port 0, times the exponential of half the state, real
part by real part and imaginary part by imaginary part; and the state that leaves port 1 enters it again in the same step, so the state
grows by the time step times its rate of change. -/
theorem C99_step (h : Shut parts cs) (v : ℝ) (wl : W → ℝ) (env : SimEnv) (src : ℕ → ℕ → W → B → ℝ × ℝ)
    {A O : ℕ → W → B → Str → ℕ → ℂ} (hrun : Running parts cs env v wl (signals parts (firstMentions cs) src) A O)
    (x : Str) (delay : ℝ → ℕ → ℝ) (dt : ℝ) (rate : ℝ → NodeVal W B → NodeVal W B → NodeVal W B)
    (hx : (x, (⟨soaDev delay, soaActor dt rate⟩ : Gear W B)) ∈ parts) (hd : delay v 1 = 0) (t : ℕ) (ht : t < env.t.length) :
    let u := node fun w β => earlier A (lag env v (⟨soaDev delay, soaActor dt rate⟩ : Gear W B) 0) t w β x 0
    let m := node fun w β => earlier A 1 t w β x 1
    node (fun w β => O t w β x 2) =
      (fun w β => u.1 w β * Real.exp (0.5 * m.1 w β), fun w β => u.2 w β * Real.exp (0.5 * m.2 w β)) ∧
    node (fun w β => A t w β x 1) =
      (fun w β => m.1 w β + dt * (rate env.t[t] m u).1 w β, fun w β => m.2 w β + dt * (rate env.t[t] m u).2 w β) := by
  intro u m
  have hin : (fun w β => A t w β x 1) = fun w β => O t w β x 1 := by
    funext w β
    exact hrun.inside t ht w β _ hx 1 1 (show (if (1 : ℕ) = 1 ∧ (1 : ℕ) = 1 then (1 : ℚ) else 0) ≠ 0 by norm_num)
  obtain ⟨n, C, S, D, acts, s, a, b, i₀, i₁, i₂, h1, h2, h3⟩ := soa_running h v wl env src hrun hx hd
  have := soa_step h2 h1 t ht
  simp only [(h3 _ _ _).2.1, (h3 _ _ _).2.2.1, (h3 _ _ _).2.2.2.1, (h3 _ _ _).2.2.2.2] at this
  rw [hin]
  exact ⟨this.2.2, this.2.1⟩

/-- C99 (true part). In any circuit, a `Soa` multiplies the power of what entered its port 0 by the amplification to the power `min t ⌈startup/dt⌉ · dt /
startup`, one step later, and whatever enters its port 1 is lost. Missing: that it sends nothing back. -/
theorem C99_gain_partial (h : Shut parts cs) (v : ℝ) (wl : W → ℝ) (env : SimEnv) (src : ℕ → ℕ → W → B → ℝ × ℝ)
    {A O : ℕ → W → B → Str → ℕ → ℂ} (hrun : Running parts cs env v wl (signals parts (firstMentions cs) src) A O)
    (x : Str) (dt : ℝ) (q : SoaParams) (hx : (x, q.gear dt) ∈ parts) (ha : 0 < q.amplification) (hs : 0 < q.startup) (hdt : 0 < dt)
    (hts : ∀ t (h : t < env.t.length), env.t[t] = t * dt) (t : ℕ) (ht : t < env.t.length) (w : W) (β : B) :
    Complex.normSq (O t w β x 2) = q.amplification ^ ((min t ⌈q.startup / dt⌉₊ : ℕ) * (dt / q.startup)) *
      Complex.normSq (earlier A 1 t w β x 0) := by
  obtain ⟨n, C, S, D, acts, s, a, b, i₀, i₁, i₂, h1, h2, h3⟩ := soa_running h v wl env src hrun (x := x) (delay := fun _ _ => 0) (dt := dt)
    (rate := q.rate) hx rfl
  have := C68_gain_partial q.amplification q.startup ha hdt hs h2 hts h1 t ht w β
  rw [(h3 t w β).2.1, (h3 t w β).2.2.2.1, (soa_lag _ _ env v (by norm_num)).2 rfl] at this
  exact this

/-- C99 is false of the code: amplifiers send everything that enters port 0 back out of port 0. -/
theorem C99_violation (h : Shut parts cs) (v : ℝ) (wl : W → ℝ) (env : SimEnv) (src : ℕ → ℕ → W → B → ℝ × ℝ)
    {A O : ℕ → W → B → Str → ℕ → ℂ} (hrun : Running parts cs env v wl (signals parts (firstMentions cs) src) A O)
    (x : Str) (dt : ℝ) (q : SoaParams) (hx : (x, q.gear dt) ∈ parts) (t : ℕ) (ht : t < env.t.length) (w : W) (β : B) :
    O t w β x 0 = earlier A 1 t w β x 0 := by
  obtain ⟨n, C, S, D, acts, s, a, b, i₀, i₁, i₂, h1, h2, h3⟩ := soa_running h v wl env src hrun (x := x) (delay := fun _ _ => 0) (dt := dt)
    (rate := q.rate) hx rfl
  have := C63_violation h2 h1 t ht w β
  rw [(h3 t w β).1, (h3 t w β).2.2.2.1, (soa_lag _ _ env v (by norm_num)).2 rfl] at this
  exact this

/-! ## A source, an amplifier and a detector -/

/-- A source, an amplifier and a detector in a row. -/
noncomputable def queueParts (dt : ℝ) (q : SoaParams) : List (Str × Gear W B) :=
  [("s".toList, Part.source.gear), ("a".toList, q.gear dt), ("d".toList, Part.detector.gear)]

def queueConns : List Conn := [.inner "s".toList 0 "a".toList 0, .inner "a".toList 1 "d".toList 0]

theorem queue_mem {dt : ℝ} {q : SoaParams} : ("s".toList, Part.source.gear) ∈ (queueParts dt q : List (Str × Gear W B)) ∧
    ("a".toList, q.gear dt) ∈ (queueParts dt q : List (Str × Gear W B)) ∧
    ("d".toList, Part.detector.gear) ∈ (queueParts dt q : List (Str × Gear W B)) := by
  refine ⟨List.mem_cons_self, List.mem_cons_of_mem _ List.mem_cons_self, List.mem_cons_of_mem _ (List.mem_cons_of_mem _ List.mem_cons_self)⟩

theorem queue_cases {dt : ℝ} {q : SoaParams} {P : Str × Gear W B → Prop} (h1 : P ("s".toList, Part.source.gear))
    (h2 : P ("a".toList, q.gear dt)) (h3 : P ("d".toList, Part.detector.gear)) : ∀ r ∈ queueParts dt q, P r := by
  intro r hr
  simp only [queueParts, List.mem_cons, List.not_mem_nil, or_false] at hr
  rcases hr with rfl | rfl | rfl <;> assumption

theorem queue_free {dt : ℝ} {q : SoaParams} : freePorts (Part.source.gear : Gear W B).dev.comp = [0] ∧
    freePorts (q.gear dt : Gear W B).dev.comp = [0, 2] ∧ freePorts (Part.detector.gear : Gear W B).dev.comp = [0] :=
  ⟨(C98_parts (W := W) (B := B) .source (by simp [Part.n])).2.1, (C98_soas (W := W) (B := B) _ dt q.rate).2.1,
    (C98_parts (W := W) (B := B) .detector (by simp [Part.n])).2.1⟩

theorem queue_shut (dt : ℝ) (q : SoaParams) : Shut (queueParts dt q : List (Str × Gear W B)) queueConns where
  names := by show ["s".toList, "a".toList, "d".toList].Nodup; decide
  good := queue_cases (by dsimp only; exact ⟨by decide, by decide, by decide⟩) (by dsimp only; exact ⟨by decide, by decide, by decide⟩)
    (by dsimp only; exact ⟨by decide, by decide, by decide⟩)
  proper := queue_cases (C98_parts .source (by simp [Part.n])).1 (C98_soas _ dt q.rate).1 (C98_parts .detector (by simp [Part.n])).1
  reachable := queue_cases (by dsimp only; rw [queue_free (dt := dt) (q := q).1]; simp) (by dsimp only; rw [queue_free.2.1]; simp)
    (by dsimp only; rw [queue_free (dt := dt) (q := q).2.2]; simp)
  nonempty := by simp [queueParts]
  ports := by
    have : gearPorts (queueParts dt q : List (Str × Gear W B)) = [("s".toList, 0), ("a".toList, 0), ("a".toList, 1), ("d".toList, 0)] := by
      unfold gearPorts queueParts
      simp only [List.flatMap_cons, List.flatMap_nil, queue_free (dt := dt) (q := q) (W := W) (B := B)]
      rfl
    rw [this]
    decide
  inner := rfl

/-- C99 (true part). A source, a `Soa` and a detector: the detected power at step `t` is the power the source sent one step earlier, times the
amplification reached. -/
theorem C99_row_partial (dt : ℝ) (q : SoaParams) (ha : 0 < q.amplification) (hs : 0 < q.startup) (hdt : 0 < dt) (v : ℝ) (wl : W → ℝ)
    (env : SimEnv) (hf : env.freqdomain = false) (he : env.dt = some dt) (hts : ∀ t (h : t < env.t.length), env.t[t] = t * dt) :
    ∃ (g : Gear W B) (r : Reduced W), mkGear none (queueParts dt q) (queueConns.map Conn.text) = .ok g ∧
      initNet (g.dev.plant v wl) env = .ok (some r) ∧ ∀ src : ℕ → ℕ → W → B → ℝ × ℝ,
        ∃ out, forwardReduced r env (gearActors (queueParts dt q) (queueConns.map Conn.text)) src = .ok out ∧ out.length = env.t.length ∧
          ∀ t (ht : t < out.length) w β, ((out[t] w β).map fun z => z.1 ^ 2 + z.2 ^ 2) =
            [if t = 0 then 0 else q.amplification ^ ((min t ⌈q.startup / dt⌉₊ : ℕ) * (dt / q.startup)) *
              ((src (t - 1) 0 w β).1 ^ 2 + (src (t - 1) 0 w β).2 ^ 2)] := by
  have hS := queue_shut (W := W) (B := B) dt q
  have hlag : ∀ r ∈ (queueParts dt q : List (Str × Gear W B)), ∀ i < r.2.dev.comp.n, 1 ≤ lag env v r.2 i := by
    refine queue_cases ?_ ?_ ?_
    · intro i hi
      have hi : i < 1 := hi
      obtain rfl : i = 0 := by omega
      exact le_max_left _ _
    · exact fun i hi => (soa_lag _ _ env v hi).1
    · intro i hi
      have hi : i < 1 := hi
      obtain rfl : i = 0 := by omega
      exact le_max_left _ _
  obtain ⟨g, hg⟩ := C98_built hS none
  obtain ⟨r, hr⟩ := (C98_initialized hS none g hg v wl env ⟨_, queue_mem.1, 0, Nat.zero_lt_one,
    by have := hlag _ queue_mem.1 0 Nat.zero_lt_one; omega⟩).1
    fun w A O hc r hr i hi => (hc.held r hr i hi (by have := hlag r hr i hi; omega)).1
  refine ⟨g, r, hg, hr, fun src => ?_⟩
  obtain ⟨out, ho, hlen, ⟨A, O, hrun⟩, hall⟩ := C98_run hS ⟨_, queue_mem.2.2, 0, Nat.zero_lt_one, rfl⟩ none g hg v wl env (.inr ⟨dt, he, hdt⟩)
    (fun w => queue_cases ((C98_parts .source (by simp [Part.n])).2.2 env v _) ((C98_soas _ dt q.rate).2.2.2 env v _)
      ((C98_parts .detector (by simp [Part.n])).2.2 env v _)) r hr src
  refine ⟨out, ho, hlen, fun t ht w β => ?_⟩
  have ht' : t < env.t.length := hlen ▸ ht
  have hd := hall A O hrun t ht w β
  have hm : markedIn (fun c => c.det) (firstMentions queueConns) (queueParts dt q : List (Str × Gear W B)) = [("d".toList, 0)] := rfl
  have hms : markedIn (fun c => c.src) (firstMentions queueConns) (queueParts dt q : List (Str × Gear W B)) = [("s".toList, 0)] := rfl
  rw [hm] at hd
  have hp : (out[t] w β).map (fun z => z.1 ^ 2 + z.2 ^ 2) = ((out[t] w β).map asComplex).map Complex.normSq := by
    rw [List.map_map]
    refine List.map_congr_left fun z _ => ?_
    simp only [Function.comp, asComplex, Complex.normSq_apply]
    ring
  rw [hp, hd]
  show [Complex.normSq (A t w β "d".toList 0)] = _
  congr 1
  have j1 : PT.Spec.Joined queueConns "a".toList 0 "s".toList 0 := Or.inr (by decide)
  have j2 : PT.Spec.Joined queueConns "d".toList 0 "a".toList 1 := Or.inr (by decide)
  rw [hrun.joined t ht' w β _ _ _ _ j2 _ _ 0 2 queue_mem.2.2 queue_mem.2.1 (by rw [(queue_free (dt := dt) (q := q)).2.2]; rfl) (by rw [queue_free.2.1]; rfl),
    C99_gain_partial hS v wl env src hrun _ dt q queue_mem.2.1 ha hs hdt hts t ht' w β]
  cases t with
  | zero => simp [earlier]
  | succ t =>
    rw [if_neg (Nat.succ_ne_zero t)]
    congr 1
    have ht1 : t < env.t.length := by omega
    have e1 : earlier A 1 (t + 1) w β "a".toList 0 = A t w β "a".toList 0 := by
      unfold earlier
      rw [if_pos (by omega)]
      rfl
    have e3 : O t w β "s".toList 0 = asComplex (src t 0 w β) := by
      rw [C98_passive hrun queue_mem.1 rfl t ht1 w β 0 Nat.zero_lt_one]
      unfold scatters signals
      have h0 : ∑ j ∈ Finset.range (Part.source.gear : Gear W B).dev.comp.n,
          (⟨(Part.source.gear : Gear W B).dev.rS (wl w) 0 j, (Part.source.gear : Gear W B).dev.iS (wl w) 0 j⟩ : ℂ) *
            (if lag env v (Part.source.gear : Gear W B) j ≤ t then A (t - lag env v (Part.source.gear : Gear W B) j) w β "s".toList j else 0) = 0 := by
        refine Finset.sum_eq_zero fun j hj => ?_
        have hj : j < 1 := Finset.mem_range.mp hj
        obtain rfl : j = 0 := by omega
        have : (⟨(Part.source.gear : Gear W B).dev.rS (wl w) 0 0, (Part.source.gear : Gear W B).dev.iS (wl w) 0 0⟩ : ℂ) = 0 := rfl
        rw [this, zero_mul]
      dsimp only
      rw [h0, hms, if_pos List.mem_cons_self, zero_add]
      simp
    rw [e1, hrun.joined t ht1 w β _ _ _ _ j1 _ _ 0 0 queue_mem.2.1 queue_mem.1 (by rw [queue_free.2.1]; rfl)
      (by rw [(queue_free (dt := dt) (q := q)).1]; rfl), e3]
    simp only [asComplex, Complex.normSq_apply, Nat.add_sub_cancel]
    ring

/-- An amplification of 4 reached after two steps: nothing at first, then twice the power, then four times. -/
example (env : SimEnv) (hf : env.freqdomain = false) (he : env.dt = some 1) (ht : env.t = [0, 1, 2, 3]) :
    ∃ (g : Gear Unit Unit) (r : Reduced Unit), mkGear none (queueParts 1 ⟨4, 2, true⟩) (queueConns.map Conn.text) = .ok g ∧
      initNet (g.dev.plant 299792458 fun _ => 1.55e-6) env = .ok (some r) ∧
        ∃ out, forwardReduced r env (gearActors (queueParts 1 ⟨4, 2, true⟩) (queueConns.map Conn.text)) (fun _ _ _ _ => (1, 0)) = .ok out ∧
          out.length = 4 ∧ ∀ t (ht : t < out.length), (out[t] () ()).map (fun z => z.1 ^ 2 + z.2 ^ 2) =
            [if t = 0 then 0 else if t = 1 then 2 else 4] := by
  have hlen : env.t.length = 4 := by rw [ht]; rfl
  obtain ⟨g, r, hg, hr, H⟩ := C99_row_partial (W := Unit) (B := Unit) 1 ⟨4, 2, true⟩ (by norm_num) (by norm_num) (by norm_num) 299792458
    (fun _ => 1.55e-6) env hf he (by
      intro t h
      have h4 : t < 4 := hlen ▸ h
      simp only [ht]
      interval_cases t <;> norm_num)
  obtain ⟨out, ho, hl, H⟩ := H fun _ _ _ _ => (1, 0)
  refine ⟨g, r, hg, hr, out, ho, hl.trans hlen, fun t ht' => ?_⟩
  rw [H t ht' () ()]
  have h2 : (4 : ℝ) ^ (1 / 2 : ℝ) = 2 := by
    rw [show (4 : ℝ) = 2 ^ (2 : ℝ) by norm_num, ← Real.rpow_mul (by norm_num)]; norm_num
  have hc : ⌈(2 : ℝ) / 1⌉₊ = 2 := by norm_num
  rcases t with _ | _ | t
  · simp
  · simp only [hc]
    norm_num [h2]
  · have : min (t + 1 + 1) 2 = 2 := by omega
    simp only [hc, this]
    norm_num

/-- In the same circuit everything the source sent two steps earlier comes back to it. -/
example (env : SimEnv) (src : ℕ → ℕ → Unit → Unit → ℝ × ℝ) {A O : ℕ → Unit → Unit → Str → ℕ → ℂ}
    (hrun : Running (queueParts 1 ⟨4, 2, true⟩) queueConns env 299792458 (fun _ => 1.55e-6) (signals (queueParts 1 ⟨4, 2, true⟩) (firstMentions queueConns) src) A O)
    (t : ℕ) (ht : t + 1 < env.t.length) : A (t + 1) () () "s".toList 0 = O t () () "s".toList 0 := by
  have j1 : PT.Spec.Joined queueConns "s".toList 0 "a".toList 0 := Or.inl (by decide)
  have j2 : PT.Spec.Joined queueConns "a".toList 0 "s".toList 0 := Or.inr (by decide)
  have f1 := queue_free (W := Unit) (B := Unit) (dt := 1) (q := ⟨4, 2, true⟩)
  rw [hrun.joined (t + 1) ht () () _ _ _ _ j1 _ _ 0 0 queue_mem.1 queue_mem.2.1 (by rw [f1.1]; rfl) (by rw [f1.2.1]; rfl),
    C99_violation (queue_shut 1 ⟨4, 2, true⟩) _ _ env src hrun _ 1 ⟨4, 2, true⟩ queue_mem.2.1 (t + 1) ht () (),
    ← hrun.joined t (by omega) () () _ _ _ _ j2 _ _ 0 0 queue_mem.2.1 queue_mem.1 (by rw [f1.2.1]; rfl) (by rw [f1.1]; rfl)]
  unfold earlier
  rw [if_pos (by omega)]
  rfl

end PT
